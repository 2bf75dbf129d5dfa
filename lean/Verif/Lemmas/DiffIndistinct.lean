import Verif.Spec.Indistinct
import Verif.Lemmas.DiffCells
import Verif.Props.Diff
/-! # Documents between which a comparison sees no difference -/
namespace Verif.Lemmas.Diff
open Verif.Model Verif.Model.Diff Verif.Spec Verif.Props

/-- `Indistinct` for elements. -/
def IndE (text : Json → Bytes) : Elem → Elem → Prop
  | .value v, .value v' => Indistinct text v v'
  | .entry k v, .entry k' v' => k = k' ∧ Indistinct text v v'
  | _, _ => False

theorem IndE.container {text : Json → Bytes} {a b : Elem} (h : IndE text a b) : a.isContainer = b.isContainer := by
  match a, b, h with
  | .value v, .value v', h =>
    cases h with
    | primitives h1 h2 _ _ => cases v <;> cases v' <;> simp_all [IsContainer, Elem.isContainer]
    | arrays => rfl
    | objects => rfl
  | .entry _ _, .entry _ _, _ => rfl

theorem IndE.entry {text : Json → Bytes} {a b : Elem} (h : IndE text a b) : a.isEntry = b.isEntry := by
  match a, b, h with
  | .value v, .value v', _ => rfl
  | .entry _ _, .entry _ _, _ => rfl

theorem IndE.kids {text : Json → Bytes} {a b : Elem} (h : IndE text a b) : a.kids.length = b.kids.length ∧
    ∀ (i : Nat) (x y : Elem), a.kids[i]? = some x → b.kids[i]? = some y → IndE text x y := by
  match a, b, h with
  | .value v, .value v', h =>
    cases h with
    | primitives h1 h2 _ _ => cases v <;> cases v' <;> simp_all [IsContainer, Elem.kids]
    | arrays h1 h2 =>
      refine ⟨by simpa [Elem.kids] using h1, fun i x y hx hy => ?_⟩
      simp only [Elem.kids, List.getElem?_map, Option.map_eq_some_iff] at hx hy
      obtain ⟨x, hx, rfl⟩ := hx
      obtain ⟨y, hy, rfl⟩ := hy
      exact h2 i x y hx hy
    | objects h1 h2 =>
      refine ⟨by simpa [Elem.kids] using congrArg List.length h1, fun i x y hx hy => ?_⟩
      simp only [Elem.kids, List.getElem?_map, Option.map_eq_some_iff] at hx hy
      obtain ⟨⟨k, x⟩, hx, rfl⟩ := hx
      obtain ⟨⟨k', y⟩, hy, rfl⟩ := hy
      refine ⟨?_, h2 i k k' x y hx hy⟩
      have := congrArg (·[i]?) h1
      simp only [List.getElem?_map, hx, hy] at this
      simpa using this
  | .entry _ _, .entry _ _, h =>
    refine ⟨rfl, fun i x y hx hy => ?_⟩
    cases i with
    | zero => cases hx; cases hy; exact h.2
    | succ i => simp [Elem.kids] at hx

/-- In the table of two indistinct elements everything is equal and paired. -/
structure Same (a : Elem) (pa pb : Path) (t : Table) : Prop where
  similar : t.similar = true
  equ : ∀ r x, a.at r = some x → (a.isEntry = false ∨ r ≠ []) →
    look t.operations (.left (pa ++ r)) = some .equ ∧ look t.operations (.right (pb ++ r)) = some .equ ∧ Rel pa pb t r r
  top : a.isEntry = true → look t.operations (.left pa) = none ∧ look t.operations (.right pb) = none

theorem build_same (fmt : Bytes → Bytes) (a b : Elem) (pa pb : Path) (t : Table) (h : buildE fmt a pa b pb = some t) (hi : IndE (·.stringify fmt) a b)
    (sa : ShortTexts (·.stringify fmt) a) (sb : ShortTexts (·.stringify fmt) b) : Same a pa pb t := by
  have good := build_good fmt a b pa pb t h
  obtain ⟨hlen, hkids⟩ := hi.kids
  by_cases hc : a.isContainer = true
  · have hc2 : b.isContainer = true := by rw [← hi.container]; exact hc
    obtain ⟨sub, hs, hcon⟩ := build_containers hc hc2 h
    have hself : ∀ (i : Nat) (x : Elem), a.kids[i]? = some x → Same x (pa ++ [i]) (pb ++ [i]) (sub i i) := fun i x hx => by
      have := kid_size (List.mem_of_getElem? hx)
      have hl : i < b.kids.length := by rw [← hlen]; exact (List.getElem?_eq_some_iff.mp hx).1
      have hy := List.getElem?_eq_getElem hl
      exact build_same fmt x _ _ _ _ (hs i i x _ hx hy) (hkids i x _ hx hy) (short_kids sa hx) (short_kids sb hy)
    have hcost : ∀ i < a.kids.length, (if (sub i i).similar then 0 else (sub i i).result) = 0 := by
      intro i hi
      simp [(hself i _ (List.getElem?_eq_getElem hi)).similar]
    rw [← hlen] at hcon
    obtain ⟨s, hs1, hs2⟩ := trace_diag (w := cellSize a.kids.length a.kids.length)
      (cost := fun i j => if (sub i j).similar then 0 else (sub i j).result) hcost a.kids.length (Nat.le_refl _)
    have hdist := cell_diag (w := cellSize a.kids.length a.kids.length)
      (cost := fun i j => if (sub i j).similar then 0 else (sub i j).result) hcost a.kids.length (Nat.le_refl _)
    have hne : a.isEntry = false := by match a, hc with | .value _, _ => rfl
    obtain ⟨h1, _, _, _⟩ | ⟨h1, _, _, s', hs', hd, hok, hO, hE⟩ :=
      look_containers hcon (fun i j hi hj => (build_good fmt _ _ _ _ _
        (hs i j _ _ (List.getElem?_eq_getElem hi) (List.getElem?_eq_getElem (hlen ▸ hj)))).ok)
    · exfalso
      simp only [containers] at hcon
      split at hcon
      · cases hcon
      · rename_i hpos
        rw [hdist] at hcon
        rw [if_neg] at hcon
        · rw [hs1] at hcon
          cases hcon
          cases h1
        · simp [relative]
    · rw [hs1] at hs'
      cases hs'
      refine ⟨h1, ?_, fun h' => by rw [hne] at h'; cases h'⟩
      intro r x hx _
      cases r with
      | nil =>
        simp only [List.append_nil]
        exact ⟨(hO _ _).mpr (.inl ⟨.inl rfl, rfl⟩), (hO _ _).mpr (.inl ⟨.inr rfl, rfl⟩), .inl ((hE _ _).mpr (.inl (by simp)))⟩
      | cons i r =>
        obtain ⟨y, hy, hx⟩ : ∃ y, a.kids[i]? = some y ∧ y.at r = some x := by
          simp only [Elem.at, Option.bind_eq_some_iff] at hx
          exact hx
        have hi : i < a.kids.length := (List.getElem?_eq_some_iff.mp hy).1
        have hm := hs2 i hi
        have hself := hself i y hy
        have hl := fun k => local_pair (pa := pa) (pb := pb) (sub := sub) .equ (hok i i .equ hm) k
        have n1 : Ptr.left (pa ++ i :: r) ≠ .left pa := fun h => by simpa using append_left_self.mp h.symm
        have n2 : Ptr.right (pb ++ i :: r) ≠ .right pb := fun h => by simpa using append_right_self.mp h.symm
        have f1 : ∀ (l : Path), pa ++ i :: l = pa ++ [i] ++ l := by simp
        have f2 : ∀ (l : Path), pb ++ i :: l = pb ++ [i] ++ l := by simp
        have key : look (sub i i).operations (.left (pa ++ i :: r)) = some .equ ∧ look (sub i i).operations (.right (pb ++ i :: r)) = some .equ ∧
              Rel (pa ++ [i]) (pb ++ [i]) (sub i i) r r ∨
            (r = [] ∧ look (sub i i).operations (.left (pa ++ [i])) = none ∧ look (sub i i).operations (.right (pb ++ [i])) = none) := by
          by_cases hcase : y.isEntry = false ∨ r ≠ []
          · rw [f1, f2]; exact .inl (hself.equ r x hx hcase)
          · simp only [not_or, Bool.not_eq_false, ne_eq, Decidable.not_not] at hcase
            exact .inr ⟨hcase.2, hself.top hcase.1⟩
        refine ⟨(hO _ _).mpr (.inr ⟨n1, by simp, _, hm, ((hl _).1 _).mpr ?_⟩), (hO _ _).mpr (.inr ⟨by simp, n2, _, hm, ((hl _).1 _).mpr ?_⟩), ?_⟩
        · obtain ⟨k1, _, _⟩ | ⟨rfl, k1, _⟩ := key
          · exact .inl k1
          · exact .inr ⟨k1, .inl rfl, rfl⟩
        · obtain ⟨_, k1, _⟩ | ⟨rfl, _, k1⟩ := key
          · exact .inl k1
          · exact .inr ⟨k1, .inr rfl, rfl⟩
        · by_cases hr : r = []
          · subst hr
            exact .inl ((hE _ _).mpr (.inr (.inr ⟨n1, by simp, _, hm, ((hl _).2 _).mpr (.inl ⟨rfl, rfl⟩)⟩)))
          · obtain ⟨_, _, k1⟩ | ⟨rfl, _, _⟩ := key
            · have n3 : Ptr.left (pa ++ i :: r) ≠ .left (pa ++ [i]) := fun h => hr (left_inj h).2
              obtain k1 | k1 := k1
              · exact .inl ((hE _ _).mpr (.inr (.inr ⟨n1, by simp, _, hm, ((hl _).2 _).mpr (.inr ⟨n3, by simpa using k1⟩)⟩)))
              · exact .inr ((hE _ _).mpr (.inr (.inr ⟨by simp, n2, _, hm, ((hl _).2 _).mpr (.inr ⟨by simp, by simpa using k1⟩)⟩)))
            · exact absurd rfl hr
  · match a, b, hi with
    | .entry k v, .entry k' v', hi =>
      obtain ⟨rfl, hi⟩ := hi
      have e : buildE fmt (.entry k v) pa (.entry k v') pb = buildE fmt (.value v) (pa ++ [0]) (.value v') (pb ++ [0]) := by
        simp [buildE, entryWith]
      rw [e] at h
      have : 0 < sizeOf k := by cases k <;> simp <;> omega
      have hself := build_same fmt (.value v) (.value v') _ _ _ h hi (short_kids (i := 0) sa rfl) (short_kids (i := 0) sb rfl)
      have hg := build_good fmt _ _ _ _ _ h
      refine ⟨hself.similar, ?_, fun _ => ⟨?_, ?_⟩⟩
      · intro r x hx hr
        simp only [Elem.isEntry, Bool.true_eq_false, false_or] at hr
        cases r with
        | nil => exact absurd rfl hr
        | cons i r =>
          cases i with
          | zero =>
            have := hself.equ r x (by simpa [Elem.at, Elem.kids] using hx) (.inl rfl)
            simpa [Rel] using this
          | succ i => simp [Elem.at, Elem.kids] at hx
      · cases hl : look t.operations (.left pa) with
        | none => rfl
        | some v =>
          obtain ⟨r, e⟩ | ⟨r, e⟩ := hg.ok.domO _ _ hl
          · simp at e
          · cases e
      · cases hl : look t.operations (.right pb) with
        | none => rfl
        | some v =>
          obtain ⟨r, e⟩ | ⟨r, e⟩ := hg.ok.domO _ _ hl
          · cases e
          · simp at e
    | .value v, .value v', hi =>
      have hv : v.isContainer = false := by cases v <;> first | rfl | simp [Elem.isContainer] at hc
      cases hi with
      | arrays => cases hv
      | objects => cases hv
      | primitives h1 h2 hk hn =>
        have hv' : v'.isContainer = false := by cases v' <;> first | rfl | simp [IsContainer] at h2
        have ht : typeStr v = typeStr v' := by cases v <;> cases v' <;> first | rfl | simp [sameKind] at hk
        have hp : percentSimilar (v.stringify fmt) (v'.stringify fmt) = true := (percent_near (sa [] v rfl) (sb [] v' rfl)).mpr hn
        have e : buildE fmt (.value v) pa (.value v') pb = some (score true (.left pa) (.right pb) true) := by
          have : buildE fmt (.value v) pa (.value v') pb = some (primitive fmt v pa (.value v') pb) := by
            cases v <;> first | rfl | simp [Json.isContainer] at hv
          rw [this, primitive, hv']
          simp [hp, ht]
        rw [e] at h
        cases h
        refine ⟨rfl, ?_, fun h => by cases h⟩
        intro r x hx _
        cases r with
        | nil => simp [score, look_setKey, Rel, look]
        | cons i r => cases v <;> first | (simp [Json.isContainer] at hv; done) | simp [Elem.at, Elem.kids] at hx
termination_by sizeOf a

end Verif.Lemmas.Diff
