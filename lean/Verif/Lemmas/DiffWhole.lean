import Verif.Lemmas.DiffChosen
/-! # The pairs of a difference table, exactly -/
namespace Verif.Lemmas.Diff
open Verif.Model Verif.Model.Diff Verif.Spec Verif.Props

theorem isChild_nil {a : Elem} : ¬ IsChild a [] := by rintro ⟨p, i, u, h, _⟩; simp at h

theorem isChild_single {a : Elem} {i : Nat} : IsChild a [i] ↔ a.isContainer = true := by
  constructor
  · rintro ⟨p, j, u, h, hu, hc⟩
    have : p = [] := by simpa using congrArg List.length h
    subst this
    cases hu; exact hc
  · exact fun h => ⟨[], i, a, rfl, rfl, h⟩

theorem isChild_cons {a x : Elem} {i : Nat} {r : Path} (hx : a.kids[i]? = some x) (hr : r ≠ []) : IsChild a (i :: r) ↔ IsChild x r := by
  constructor
  · rintro ⟨p, j, u, h, hu, hc⟩
    cases p with
    | nil => simp at h; exact absurd h.2 hr
    | cons k p =>
      simp only [List.cons_append, List.cons.injEq] at h
      obtain ⟨rfl, h⟩ := h
      rw [at_cons _ hx] at hu
      exact ⟨p, j, u, h, hu, hc⟩
  · rintro ⟨p, j, u, rfl, hu, hc⟩
    exact ⟨i :: p, j, u, rfl, by rw [at_cons _ hx]; exact hu, hc⟩

/-- The pairs of a table, exactly. -/
structure Whole (fmt : Bytes → Bytes) (a : Elem) (pa : Path) (b : Elem) (pb : Path) (t : Table) : Prop where
  opp : ∀ r s, Opp a b pa pb t r s ↔ Opposed (·.stringify fmt) a b r s
  rel : ∀ r s, ¬ (SameKey a b ∧ r = []) →
    (Rel pa pb t r s ↔ Opposed (·.stringify fmt) a b r s ∧ (IsChild a r ∨ ∃ x y, a.at r = some x ∧ b.at s = some y ∧ Matched (·.stringify fmt) x y))

theorem score_rel_iff {s b : Bool} {pa pb r q : Path} : Rel pa pb (score s (.left pa) (.right pb) b) r q ↔ (r = [] ∧ q = []) ∧ b = true := by
  constructor
  · intro h
    refine ⟨score_rel h, ?_⟩
    cases b with
    | true => rfl
    | false => simp [Rel, score, look] at h
  · rintro ⟨⟨rfl, rfl⟩, rfl⟩
    exact .inl (by simp [score, look])

theorem manual_rel_iff {c o : Ptr} {n : Nat} {pa pb r q : Path} : Rel pa pb (manual c o n) r q ↔ (r = [] ∧ q = []) ∧ false = true := by
  simp [Rel, manual, look]

/-- When elements that are not both containers are paired. -/
theorem rel_other {fmt : Bytes → Bytes} {a b : Elem} {pa pb : Path} {t : Table} (hc : ¬ (a.isContainer = true ∧ b.isContainer = true)) (hk : ¬ SameKey a b)
    (ht : buildE fmt a pa b pb = some t) (r s : Path) : Rel pa pb t r s ↔ (r = [] ∧ s = []) ∧ comparable a b = true := by
  match a, b with
  | .entry k v, .entry k' v' =>
    by_cases h : k = k'
    · subst h; exact absurd ⟨k, v, v', rfl, rfl⟩ hk
    · have e : buildE fmt (.entry k v) pa (.entry k' v') pb = some (score false (.left pa) (.right pb) true) := by simp [buildE, entryWith, h]
      rw [e] at ht; cases ht
      exact score_rel_iff
  | .entry k v, .value v' =>
    by_cases hv : v'.isContainer = true
    · have e : buildE fmt (.entry k v) pa (.value v') pb = some (manual (.right pb) (.left pa) (Elem.kids (.value v')).length) := by simp only [buildE, entryWith, if_pos hv]
      rw [e] at ht; cases ht
      exact manual_rel_iff
    · have e : buildE fmt (.entry k v) pa (.value v') pb = some (score false (.left pa) (.right pb) false) := by simp only [buildE, entryWith, if_neg hv]
      rw [e] at ht; cases ht
      exact score_rel_iff
  | .value v, b =>
    by_cases hv : IsContainer v
    · have h1 : (Elem.value v).isContainer = true := (container_iff v).mpr hv
      have h2 : b.isContainer = false := by simpa using fun h => hc ⟨h1, h⟩
      have e : buildE fmt (.value v) pa b pb = some (manual (.left pa) (.right pb) (Elem.kids (.value v)).length) := by
        cases v <;> first | exact hv.elim | simp [buildE, build, h2, Elem.kids]
      rw [e] at ht; cases ht
      rw [manual_rel_iff]
      have : comparable (.value v) b = false := by
        cases b with
        | entry => rfl
        | value v' => cases v <;> first | exact hv.elim | rfl
      rw [this]
    · have e : buildE fmt (.value v) pa b pb = some (primitive fmt v pa b pb) := by
        cases v <;> first | rfl | exact absurd trivial hv
      rw [e] at ht; cases ht
      match b with
      | .entry k' v' => exact score_rel_iff (s := false) (b := false)
      | .value v' =>
        by_cases hv' : v'.isContainer = true
        · have e2 : primitive fmt v pa (.value v') pb = manual (.right pb) (.left pa) (Elem.kids (.value v')).length := by simp only [primitive, if_pos hv']
          rw [e2, manual_rel_iff]
          have : comparable (.value v) (.value v') = false := by cases v <;> cases v' <;> first | rfl | cases hv'
          rw [this]
        · have e2 : primitive fmt v pa (.value v') pb = score (percentSimilar (v.stringify fmt) (v'.stringify fmt)) (.left pa) (.right pb) (decide (typeStr v = typeStr v')) := by
            simp only [primitive, if_neg hv']
          have e3 : decide (typeStr v = typeStr v') = sameKind v v' := by
            cases v <;> cases v' <;> first | rfl | exact absurd trivial hv | exact absurd rfl hv'
          rw [e2, e3, score_rel_iff]
          rfl

theorem whole_other {fmt : Bytes → Bytes} {a b : Elem} {pa pb : Path} {t : Table} (hc : ¬ (a.isContainer = true ∧ b.isContainer = true)) (hk : ¬ SameKey a b)
    (ht : buildE fmt a pa b pb = some t) : Whole fmt a pa b pb t := by
  have hr := rel_other hc hk ht
  have ho : ∀ r s, Opposed (·.stringify fmt) a b r s ↔ r = [] ∧ s = [] := by
    intro r s
    constructor
    · intro h
      cases h with
      | here => exact ⟨rfl, rfl⟩
      | values => exact absurd ⟨_, _, _, rfl, rfl⟩ hk
      | children h1 h2 => exact absurd ⟨h1, h2⟩ hc
    · rintro ⟨rfl, rfl⟩; exact .here
  refine ⟨?_, ?_⟩
  · intro r s
    rw [ho]
    constructor
    · rintro (h | h | ⟨r', s', k, v, v', _, _, h, ha, hb⟩)
      · exact h
      · exact ((hr _ _).mp h).1
      · have : r' = [] ∧ s' = [] := h.elim id (fun h => ((hr _ _).mp h).1)
        obtain ⟨rfl, rfl⟩ := this
        exact absurd ⟨k, v, v', by simpa [Elem.at] using ha, by simpa [Elem.at] using hb⟩ hk
    · exact .inl
  · intro r s _
    rw [hr, ho]
    constructor
    · rintro ⟨⟨rfl, rfl⟩, h⟩
      exact ⟨⟨rfl, rfl⟩, .inr ⟨a, b, rfl, rfl, .inr h⟩⟩
    · rintro ⟨⟨rfl, rfl⟩, h | ⟨x, y, hx, hy, h⟩⟩
      · exact absurd h isChild_nil
      · cases hx; cases hy
        obtain ⟨h1, h2, _⟩ | h := h
        · exact absurd ⟨h1, h2⟩ hc
        · exact ⟨⟨rfl, rfl⟩, h⟩

theorem whole_entries {fmt : Bytes → Bytes} {k : Bytes} {v v' : Json} {pa pb : Path} {t : Table} (g : Good fmt (.value v) (pa ++ [0]) (.value v') (pb ++ [0]) t)
    (h : Whole fmt (.value v) (pa ++ [0]) (.value v') (pb ++ [0]) t) : Whole fmt (.entry k v) pa (.entry k v') pb t := by
  obtain ⟨hr, ho⟩ := opp_entries (k := k) g
  have hat : ∀ w r, (Elem.entry k w).at (0 :: r) = (Elem.value w).at r := fun w r => by simp [Elem.at, Elem.kids]
  have hop : ∀ r s, Opposed (·.stringify fmt) (.entry k v) (.entry k v') r s ↔ (r = [] ∧ s = []) ∨ ∃ r' s', r = 0 :: r' ∧ s = 0 :: s' ∧ Opposed (·.stringify fmt) (.value v) (.value v') r' s' := by
    intro r s
    constructor
    · intro h
      cases h with
      | here => exact .inl ⟨rfl, rfl⟩
      | values h => exact .inr ⟨_, _, rfl, rfl, h⟩
      | children h1 => cases h1
    · rintro (⟨rfl, rfl⟩ | ⟨r', s', rfl, rfl, h⟩)
      · exact .here
      · exact .values h
  have hch : ∀ r, IsChild (.entry k v) (0 :: r) ↔ IsChild (.value v) r := by
    intro r
    by_cases hr : r = []
    · subst hr
      rw [isChild_single]
      constructor
      · intro h; cases h
      · exact fun h => absurd h isChild_nil
    · exact isChild_cons rfl hr
  refine ⟨fun r s => ?_, fun r s hn => ?_⟩
  · rw [ho, hop]
    simp only [h.opp]
  · rw [hr, hop]
    constructor
    · rintro ⟨r', s', rfl, rfl, h'⟩
      obtain ⟨h1, h2⟩ := (h.rel r' s' (by rintro ⟨⟨_, _, _, e, _⟩, _⟩; cases e)).mp h'
      refine ⟨.inr ⟨r', s', rfl, rfl, h1⟩, ?_⟩
      rw [hch, hat, hat]
      exact h2
    · rintro ⟨⟨rfl, _⟩ | ⟨r', s', rfl, rfl, h1⟩, h2⟩
      · exact absurd ⟨⟨k, v, v', rfl, rfl⟩, rfl⟩ hn
      · rw [hch, hat, hat] at h2
        exact ⟨r', s', rfl, rfl, (h.rel r' s' (by rintro ⟨⟨_, _, _, e, _⟩, _⟩; cases e)).mpr ⟨h1, h2⟩⟩

theorem whole_containers {fmt : Bytes → Bytes} {a b : Elem} {pa pb : Path} {t : Table} {sub : Nat → Nat → Table} (c1 : a.isContainer = true) (c2 : b.isContainer = true)
    (ht : buildE fmt a pa b pb = some t) (hcon : containers pa pb a.kids.length b.kids.length sub = some t)
    (hf : Facing (·.stringify fmt) a b (if t.similar then 0 else t.result))
    (hw : NoWrap (cellSize a.kids.length b.kids.length) (fun i j => if (sub i j).similar then 0 else (sub i j).result) a.kids.length b.kids.length)
    (hg : ∀ (i j : Nat) (x y : Elem), a.kids[i]? = some x → b.kids[j]? = some y → Good fmt x (pa ++ [i]) y (pb ++ [j]) (sub i j) ∧ Whole fmt x (pa ++ [i]) y (pb ++ [j]) (sub i j) ∧
      Facing (·.stringify fmt) x y (if (sub i j).similar then 0 else (sub i j).result)) :
    Whole fmt a pa b pb t := by
  have hg' : ∀ i j, i < a.kids.length → j < b.kids.length → ∃ x y, a.kids[i]? = some x ∧ b.kids[j]? = some y :=
    fun i j hi hj => ⟨_, _, List.getElem?_eq_getElem hi, List.getElem?_eq_getElem hj⟩
  have hk : ¬ SameKey a b := by rintro ⟨k, v, v', rfl, _⟩; cases c1
  have hz := cost_zero c1 c2 ht
  have hcomp : comparable a b = false := by
    match a, b, c1, c2 with
    | .value (.arr _), .value (.arr _), _, _ | .value (.arr _), .value (.obj _), _, _ | .value (.obj _), .value (.arr _), _, _ | .value (.obj _), .value (.obj _), _, _ => rfl
  obtain ⟨h1, h2, h3, h4⟩ | ⟨h1, hu1, hu2, s, htr, hd, hok, hO, hE⟩ :=
    look_containers hcon (fun i j hi hj => by obtain ⟨x, y, hx, hy⟩ := hg' i j hi hj; exact (hg i j x y hx hy).1.ok)
  · have hne : ¬ Facing (·.stringify fmt) a b 0 := by
      intro h0
      have := facing_unique h0 hf
      rw [h1] at hz this
      simp only [Bool.false_eq_true, if_false] at hz this
      rw [← this] at hz
      simp at hz
    have hr : ∀ r q, ¬ Rel pa pb t r q := by intro r q h; simp [Rel, h2, look] at h
    have hop : ∀ r s, Opposed (·.stringify fmt) a b r s ↔ r = [] ∧ s = [] := by
      intro r s
      constructor
      · intro h
        cases h with
        | here => exact ⟨rfl, rfl⟩
        | values => cases c1
        | children _ _ h => exact absurd h hne
      · rintro ⟨rfl, rfl⟩; exact .here
    refine ⟨fun r s => ?_, fun r s _ => ?_⟩
    · rw [hop]
      constructor
      · rintro (h | h | ⟨r', s', k, v, v', _, _, h, ha, hb⟩)
        · exact h
        · exact absurd h (hr _ _)
        · obtain ⟨rfl, rfl⟩ | h := h
          · exact absurd ⟨k, v, v', by simpa [Elem.at] using ha, by simpa [Elem.at] using hb⟩ hk
          · exact absurd h (hr _ _)
      · exact .inl
    · rw [hop]
      constructor
      · exact fun h => absurd h (hr _ _)
      · rintro ⟨⟨rfl, rfl⟩, h | ⟨x, y, hx, hy, h⟩⟩
        · exact absurd h isChild_nil
        · cases hx; cases hy
          obtain ⟨_, _, h⟩ | h := h
          · exact absurd h hne
          · rw [hcomp] at h; cases h
  · rw [h1, if_pos rfl] at hf
    have hp := desc_pairs hd
    have good : ∀ i j op, Step.pair i j op ∈ s → ∃ x y, a.kids[i]? = some x ∧ b.kids[j]? = some y :=
      fun i j op hm => hg' i j (hp.1 i j op hm).1 (hp.1 i j op hm).2
    have hr := rel_containers (t := t) hok (fun i j op hm r q h => by
      obtain ⟨x, y, hx, hy⟩ := good i j op hm
      exact (hg i j x y hx hy).1.corr.len h) hE
    obtain ⟨down, up⟩ := opp_containers (b := b) c1 hr
    have hch := trace_chosen (cellSize_cases _ _) hw _ _ (Nat.le_refl _) (Nat.le_refl _) htr
    have opp : ∀ r q, Opp a b pa pb t r q ↔ Opposed (·.stringify fmt) a b r q := by
      intro r q
      constructor
      · intro h
        obtain ⟨rfl, rfl⟩ | ⟨i, j, op, r', q', hm, rfl, rfl, h0⟩ := down r q h
        · exact .here
        · obtain ⟨x, y, hx, hy⟩ := good i j op hm
          exact .children c1 c2 hf (fun i j u w hu hw' => (hg i j u w hu hw').2.2) hch (mem_pairsOf.mpr ⟨op, hm⟩) hx hy (((hg i j x y hx hy).2.1.opp r' q').mp (h0 x y hx hy))
      · intro h
        cases h with
        | here => exact .inl ⟨rfl, rfl⟩
        | values => cases c1
        | @children _ _ x y cost pairs i j p q _ _ _ hcost hch' hm hx hy h =>
          have e : pairs = pairsOf s := chosen_unique (chosen_cost hch' fun i hi j hj => by
            exact facing_unique (hcost i j _ _ (List.getElem?_eq_getElem hi) (List.getElem?_eq_getElem hj)) (hg i j _ _ (List.getElem?_eq_getElem hi) (List.getElem?_eq_getElem hj)).2.2) hch
          subst e
          obtain ⟨op, hm⟩ := mem_pairsOf.mp hm
          exact up i j op x y p q hm hx hy (((hg i j x y hx hy).2.1.opp p q).mpr h)
    refine ⟨opp, fun r q _ => ⟨fun h => ⟨(opp r q).mp (.inr (.inl h)), ?_⟩, ?_⟩⟩
    · obtain ⟨rfl, rfl⟩ | ⟨i, j, op, r', q', hm, rfl, rfl, h'⟩ := (hr r q).mp h
      · exact .inr ⟨a, b, rfl, rfl, .inl ⟨c1, c2, hf⟩⟩
      · by_cases hne : r' = []
        · subst hne
          exact .inl (isChild_single.mpr c1)
        · obtain ⟨x, y, hx, hy⟩ := good i j op hm
          obtain ⟨rfl, _⟩ | h' := h'
          · exact absurd rfl hne
          · obtain h3 | ⟨x', y', e1, e2, e3⟩ := (((hg i j x y hx hy).2.1.rel r' q' (fun h => hne h.2)).mp h').2
            · exact .inl ((isChild_cons hx hne).mpr h3)
            · exact .inr ⟨x', y', by rw [at_cons _ hx]; exact e1, by rw [at_cons _ hy]; exact e2, e3⟩
    · rintro ⟨ho, hor⟩
      obtain ⟨rfl, rfl⟩ | ⟨i, j, op, r', q', hm, rfl, rfl, h⟩ := down r q ((opp r q).mpr ho)
      · exact (hr _ _).mpr (.inl ⟨rfl, rfl⟩)
      · obtain ⟨x, y, hx, hy⟩ := good i j op hm
        have h := h x y hx hy
        obtain ⟨g, gw, _⟩ := hg i j x y hx hy
        refine (hr _ _).mpr (.inr ⟨i, j, op, r', q', hm, rfl, rfl, ?_⟩)
        by_cases hne : r' = []
        · subst hne
          refine .inl ⟨rfl, ?_⟩
          obtain ⟨_, h⟩ | h | ⟨r0, q0, k', u, u', e, _⟩ := h
          · exact h
          · simpa using (g.corr.len h).symm
          · simp at e
        · refine .inr ((gw.rel r' q' (fun h => hne h.2)).mpr ⟨(gw.opp r' q').mp h, ?_⟩)
          obtain h3 | ⟨x', y', e1, e2, e3⟩ := hor
          · exact .inl ((isChild_cons hx hne).mp h3)
          · rw [at_cons _ hx] at e1
            rw [at_cons _ hy] at e2
            exact .inr ⟨x', y', e1, e2, e3⟩

theorem build_whole (fmt : Bytes → Bytes) (a b : Elem) (pa pb : Path) (t : Table) (h : buildE fmt a pa b pb = some t) (sa : ShortTexts (·.stringify fmt) a)
    (sb : ShortTexts (·.stringify fmt) b) (hr : RoomFor (·.stringify fmt) a b) : Whole fmt a pa b pb t := by
  have hf := build_facing fmt a b pa pb t h sa sb hr
  by_cases hc : a.isContainer = true ∧ b.isContainer = true
  · obtain ⟨sub, hs, hcon⟩ := build_containers hc.1 hc.2 h
    have hfk : ∀ (i j : Nat) (x y : Elem), a.kids[i]? = some x → b.kids[j]? = some y → Facing (·.stringify fmt) x y (if (sub i j).similar then 0 else (sub i j).result) :=
      fun i j x y hx hy => build_facing fmt x y _ _ _ (hs i j x y hx hy) (short_kids sa hx) (short_kids sb hy) (room_kids hr hx hy)
    refine whole_containers hc.1 hc.2 h hcon hf ?_ fun i j x y hx hy => ?_
    · exact room_noWrap hr hc.1 hc.2 hfk
    · have := kid_size (List.mem_of_getElem? hx)
      exact ⟨build_good fmt x y _ _ _ (hs i j x y hx hy), build_whole fmt x y _ _ _ (hs i j x y hx hy) (short_kids sa hx) (short_kids sb hy) (room_kids hr hx hy),
        hfk i j x y hx hy⟩
  · by_cases hk : SameKey a b
    · obtain ⟨k, v, v', rfl, rfl⟩ := hk
      have e : buildE fmt (.entry k v) pa (.entry k v') pb = buildE fmt (.value v) (pa ++ [0]) (.value v') (pb ++ [0]) := by simp [buildE, entryWith]
      have : sizeOf (Elem.value v) < sizeOf (Elem.entry k v) := kid_size (by simp [Elem.kids])
      rw [e] at h
      exact whole_entries (build_good fmt _ _ _ _ _ h) (build_whole fmt _ _ _ _ _ h (short_kids (i := 0) sa rfl) (short_kids (i := 0) sb rfl) (room_kids (i := 0) (j := 0) hr rfl rfl))
    · exact whole_other hc hk h
termination_by sizeOf a

end Verif.Lemmas.Diff
