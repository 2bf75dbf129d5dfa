import Verif.Lemmas.DiffGood
/-! # The operators of a difference table agree with its pairs -/
namespace Verif.Lemmas.Diff
open Verif.Model Verif.Model.Diff Verif.Spec

/-- The pairs of a trace are marked equal or modified. -/
theorem trace_ops (w : Nat) (cost : Nat → Nat → Nat) : ∀ (k i j : Nat) (s : List Step), i + j ≤ k → trace w cost i j = some s → ∀ a b op, Step.pair a b op ∈ s → op = .equ ∨ op = .mod := by
  intro k
  induction k with
  | zero =>
    intro i j s hk h a b op hm
    obtain ⟨rfl, rfl⟩ : i = 0 ∧ j = 0 := by omega
    rw [trace] at h
    cases h
    cases hm
  | succ k ih =>
    intro i j s hk h a b op hm
    match i, j with
    | 0, 0 => rw [trace] at h; cases h; cases hm
    | i + 1, 0 =>
      rw [trace] at h
      obtain ⟨s', hs, rfl⟩ := Option.map_eq_some_iff.mp h
      rcases List.mem_cons.mp hm with hm | hm
      · cases hm
      · exact ih i 0 s' (by omega) hs a b op hm
    | 0, j + 1 =>
      rw [trace] at h
      obtain ⟨s', hs, rfl⟩ := Option.map_eq_some_iff.mp h
      rcases List.mem_cons.mp hm with hm | hm
      · cases hm
      · exact ih 0 j s' (by omega) hs a b op hm
    | i + 1, j + 1 =>
      rw [trace] at h
      split at h
      · obtain ⟨s', hs, rfl⟩ := Option.map_eq_some_iff.mp h
        rcases List.mem_cons.mp hm with hm | hm
        · cases hm
        · exact ih i (j + 1) s' (by omega) hs a b op hm
      split at h
      · obtain ⟨s', hs, rfl⟩ := Option.map_eq_some_iff.mp h
        rcases List.mem_cons.mp hm with hm | hm
        · cases hm
        · exact ih (i + 1) j s' (by omega) hs a b op hm
      split at h
      · obtain ⟨s', hs, rfl⟩ := Option.map_eq_some_iff.mp h
        rcases List.mem_cons.mp hm with hm | hm
        · simp only [Step.pair.injEq] at hm
          obtain ⟨_, _, rfl⟩ := hm
          split
          · exact .inl rfl
          · exact .inr rfl
        · exact ih i j s' (by omega) hs a b op hm
      · cases h

/-- An operator of an element that has a counterpart. -/
def Paired (o : Op) : Prop := o = .equ ∨ o = .mod

structure Signs (a : Elem) (pa : Path) (b : Elem) (pb : Path) (t : Table) : Prop where
  left : ∀ {r o}, look t.operations (.left (pa ++ r)) = some o → Paired o → ∃ s, Rel pa pb t r s ∧ look t.operations (.right (pb ++ s)) = some o
  right : ∀ {s o}, look t.operations (.right (pb ++ s)) = some o → Paired o → ∃ r, Rel pa pb t r s ∧ look t.operations (.left (pa ++ r)) = some o
  remL : ∀ {r}, look t.operations (.left (pa ++ r)) = some .rem → ∃ x, a.at r = some x ∧ x.isContainer = true
  remR : ∀ {s}, look t.operations (.right (pb ++ s)) = some .rem → ∃ y, b.at s = some y ∧ y.isContainer = true
  both : look t.operations (.left pa) = none ↔ look t.operations (.right pb) = none

/-- A table that records only the two roots, without a pair. -/
theorem signs_flat {a b : Elem} {pa pb : Path} {t : Table} {o o' : Op} (hl : ∀ k v, look t.operations k = some v ↔ (k = .left pa ∧ v = o) ∨ (k = .right pb ∧ v = o'))
    (h : ¬ Paired o) (h' : ¬ Paired o') (ha : o = .rem → a.isContainer = true) (hb : o' = .rem → b.isContainer = true) : Signs a pa b pb t := by
  refine ⟨?_, ?_, ?_, ?_, ?_⟩
  · intro r o1 h1 hp
    rcases (hl _ _).mp h1 with ⟨_, rfl⟩ | ⟨e, _⟩
    · exact absurd hp h
    · cases e
  · intro r o1 h1 hp
    rcases (hl _ _).mp h1 with ⟨e, _⟩ | ⟨_, rfl⟩
    · cases e
    · exact absurd hp h'
  · intro r h1
    rcases (hl _ _).mp h1 with ⟨e, e'⟩ | ⟨e, _⟩
    · have : r = [] := append_left_self.mp e.symm
      subst this
      exact ⟨a, rfl, ha e'.symm⟩
    · cases e
  · intro r h1
    rcases (hl _ _).mp h1 with ⟨e, _⟩ | ⟨e, e'⟩
    · cases e
    · have : r = [] := append_right_self.mp e.symm
      subst this
      exact ⟨b, rfl, hb e'.symm⟩
  · rw [(hl _ o).mpr (.inl ⟨rfl, rfl⟩), (hl _ o').mpr (.inr ⟨rfl, rfl⟩)]
    simp

/-- A table that records a pair of two roots. -/
theorem signs_pair {a b : Elem} {pa pb : Path} (s : Bool) : Signs a pa b pb (score s (.left pa) (.right pb) true) := by
  have ho : ∀ k v, look (score s (.left pa) (.right pb) true).operations k = some v ↔
      (k = .left pa ∨ k = .right pb) ∧ v = if s then .equ else .mod := by
    intro k v
    simp only [score, if_true, look_setKey, look]
    by_cases h1 : Ptr.left pa = k
    · simp [h1, eq_comm]
    · by_cases h2 : Ptr.right pb = k
      · simp [h2, eq_comm]
      · simp [h1, h2, eq_comm (a := k)]
  have hr : Rel pa pb (score s (.left pa) (.right pb) true) [] [] := .inl (by simp [score, look])
  have hn : (if s then Op.equ else .mod) ≠ .rem := by cases s <;> simp
  refine ⟨?_, ?_, ?_, ?_, ?_⟩
  · intro r o h hp
    rw [ho] at h
    obtain ⟨e | e, rfl⟩ := h
    · have : r = [] := append_left_self.mp e.symm
      subst this
      exact ⟨[], hr, (ho _ _).mpr ⟨.inr (by simp), rfl⟩⟩
    · cases e
  · intro r o h hp
    rw [ho] at h
    obtain ⟨e | e, rfl⟩ := h
    · cases e
    · have : r = [] := append_right_self.mp e.symm
      subst this
      exact ⟨[], hr, (ho _ _).mpr ⟨.inl (by simp), rfl⟩⟩
  · intro r h
    exact absurd ((ho _ _).mp h).2.symm hn
  · intro r h
    exact absurd ((ho _ _).mp h).2.symm hn
  · rw [(ho (.left pa) _).mpr ⟨.inl rfl, rfl⟩, (ho (.right pb) _).mpr ⟨.inr rfl, rfl⟩]

/-- Entries with the same key are compared by their values. -/
theorem signs_entries {fmt : Bytes → Bytes} {k : Bytes} {v v' : Json} {pa pb : Path} {t : Table} (g : Good fmt (.value v) (pa ++ [0]) (.value v') (pb ++ [0]) t)
    (h : Signs (.value v) (pa ++ [0]) (.value v') (pb ++ [0]) t) : Signs (.entry k v) pa (.entry k v') pb t := by
  have hr : ∀ r s, Rel (pa ++ [0]) (pb ++ [0]) t r s → Rel pa pb t (0 :: r) (0 :: s) := by
    intro r s h; simpa [Rel] using h
  have dl : ∀ {r o}, look t.operations (.left (pa ++ r)) = some o → ∃ r', r = 0 :: r' := by
    intro r o h'
    obtain ⟨r', e⟩ | ⟨r', e⟩ := g.ok.domO _ _ h'
    · exact ⟨r', by simpa using Ptr.left.inj e⟩
    · cases e
  have dr : ∀ {r o}, look t.operations (.right (pb ++ r)) = some o → ∃ r', r = 0 :: r' := by
    intro r o h'
    obtain ⟨r', e⟩ | ⟨r', e⟩ := g.ok.domO _ _ h'
    · cases e
    · exact ⟨r', by simpa using Ptr.right.inj e⟩
  refine ⟨?_, ?_, ?_, ?_, ?_⟩
  · intro r o h' hp
    obtain ⟨r, rfl⟩ := dl h'
    obtain ⟨s, h1, h2⟩ := h.left (r := r) (by simpa using h') hp
    exact ⟨0 :: s, hr _ _ h1, by simpa using h2⟩
  · intro r o h' hp
    obtain ⟨r, rfl⟩ := dr h'
    obtain ⟨s, h1, h2⟩ := h.right (s := r) (by simpa using h') hp
    exact ⟨0 :: s, hr _ _ h1, by simpa using h2⟩
  · intro r h'
    obtain ⟨r, rfl⟩ := dl h'
    obtain ⟨x, h1, h2⟩ := h.remL (r := r) (by simpa using h')
    exact ⟨x, by simpa [Elem.at, Elem.kids] using h1, h2⟩
  · intro r h'
    obtain ⟨r, rfl⟩ := dr h'
    obtain ⟨x, h1, h2⟩ := h.remR (s := r) (by simpa using h')
    exact ⟨x, by simpa [Elem.at, Elem.kids] using h1, h2⟩
  · have n1 : look t.operations (.left pa) = none := by
      cases hl : look t.operations (.left pa) with
      | none => rfl
      | some o =>
        obtain ⟨r', e⟩ := dl (r := []) (o := o) (by simpa using hl)
        cases e
    have n2 : look t.operations (.right pb) = none := by
      cases hl : look t.operations (.right pb) with
      | none => rfl
      | some o =>
        obtain ⟨r', e⟩ := dr (r := []) (o := o) (by simpa using hl)
        cases e
    simp [n1, n2]

/-- Two containers. -/
theorem signs_containers {fmt : Bytes → Bytes} {a b : Elem} {pa pb : Path} {t : Table} {sub : Nat → Nat → Table}
    (h : containers pa pb a.kids.length b.kids.length sub = some t)
    (hg : ∀ (i j : Nat) (x y : Elem), a.kids[i]? = some x → b.kids[j]? = some y → Good fmt x (pa ++ [i]) y (pb ++ [j]) (sub i j) ∧ Signs x (pa ++ [i]) y (pb ++ [j]) (sub i j)) :
    Signs a pa b pb t := by
  have hg' : ∀ i j, i < a.kids.length → j < b.kids.length →
      ∃ x y, a.kids[i]? = some x ∧ b.kids[j]? = some y ∧ Good fmt x (pa ++ [i]) y (pb ++ [j]) (sub i j) ∧ Signs x (pa ++ [i]) y (pb ++ [j]) (sub i j) :=
    fun i j hi hj => ⟨_, _, List.getElem?_eq_getElem hi, List.getElem?_eq_getElem hj,
      hg i j _ _ (List.getElem?_eq_getElem hi) (List.getElem?_eq_getElem hj)⟩
  obtain ⟨h1, h2, h3, h4⟩ | ⟨_, hu1, hu2, s, htr, hd, hok, hO, hE⟩ :=
    look_containers h (fun i j hi hj => by obtain ⟨_, _, _, _, g, _⟩ := hg' i j hi hj; exact g.ok)
  · refine signs_flat (o := .add) (o' := .add) (fun k v => ?_) (by simp [Paired]) (by simp [Paired]) (by simp) (by simp)
    rw [h4]
    constructor
    · rintro ⟨e | e, e'⟩
      · exact .inl ⟨e, e'⟩
      · exact .inr ⟨e, e'⟩
    · rintro (⟨e, e'⟩ | ⟨e, e'⟩)
      · exact ⟨.inl e, e'⟩
      · exact ⟨.inr e, e'⟩
  · have hp := desc_pairs hd
    have good : ∀ i j op, Step.pair i j op ∈ s → ∃ x y, a.kids[i]? = some x ∧ b.kids[j]? = some y ∧ Good fmt x (pa ++ [i]) y (pb ++ [j]) (sub i j) ∧ Signs x (pa ++ [i]) y (pb ++ [j]) (sub i j) :=
      fun i j op hm => hg' i j (hp.1 i j op hm).1 (hp.1 i j op hm).2
    have n1 : ∀ i r', Ptr.left (pa ++ i :: r') ≠ .left pa := fun i r' h => by simpa using append_left_self.mp h.symm
    have n2 : ∀ j q', Ptr.right (pb ++ j :: q') ≠ .right pb := fun i r' h => by simpa using append_right_self.mp h.symm
    have rnil : Rel pa pb t [] [] := .inl ((hE _ _).mpr (.inl (by simp)))
    have rpair : ∀ i j op, Step.pair i j op ∈ s → Rel pa pb t [i] [j] := by
      intro i j op hm
      exact .inl ((hE _ _).mpr (.inr (.inr ⟨n1 _ _, by simp, _, hm, ((local_pair op (hok i j op hm) _).2 _).mpr (.inl ⟨rfl, rfl⟩)⟩)))
    have rsub : ∀ i j op r q, Step.pair i j op ∈ s → Rel (pa ++ [i]) (pb ++ [j]) (sub i j) r q → Rel pa pb t (i :: r) (j :: q) := by
      intro i j op r q hm hh
      obtain ⟨_, _, _, _, g, _⟩ := good i j op hm
      have hlen := g.corr.len hh
      by_cases hr' : r = []
      · subst hr'
        have : q = [] := by simpa using hlen.symm
        subst this
        exact rpair i j op hm
      · have n3 : Ptr.left (pa ++ i :: r) ≠ .left (pa ++ [i]) := fun h => hr' (left_inj h).2
        obtain hh | hh := hh
        · refine .inl ((hE _ _).mpr (.inr (.inr ⟨n1 _ _, by simp, _, hm, ((local_pair op (hok i j op hm) _).2 _).mpr (.inr ⟨n3, ?_⟩)⟩)))
          simpa using hh
        · refine .inr ((hE _ _).mpr (.inr (.inr ⟨by simp, n2 _ _, _, hm, ((local_pair op (hok i j op hm) _).2 _).mpr (.inr ⟨by simp, ?_⟩)⟩)))
          simpa using hh
    have hat : ∀ (e : Elem) (i : Nat) (x : Elem) (r : Path), e.kids[i]? = some x → e.at (i :: r) = x.at r := by
      intro e i x r hx; simp [Elem.at, hx]
    refine ⟨?_, ?_, ?_, ?_, ?_⟩
    · intro r o h' hpr
      rw [hO] at h'
      obtain ⟨e | e, rfl⟩ | ⟨_, _, x, hx, hl⟩ := h'
      · have : r = [] := append_left_self.mp e.symm
        subst this
        exact ⟨[], rnil, (hO _ _).mpr (.inl ⟨.inr (by simp), rfl⟩)⟩
      · cases e
      · cases x with
        | dropLeft i => have := ((local_dropLeft i _).1 _).mp hl; rw [this.2] at hpr; simp [Paired] at hpr
        | dropRight i => have := ((local_dropRight i _).1 _).mp hl; rw [this.2] at hpr; simp [Paired] at hpr
        | pair i j op =>
          obtain ⟨x, y, hxk, hyk, g, gs⟩ := good i j op hx
          obtain hl | ⟨hl2, e | e, rfl⟩ := ((local_pair op (hok i j op hx) _).1 _).mp hl
          · obtain ⟨r', e⟩ | ⟨r', e⟩ := g.ok.domO _ _ hl
            · have e' : r = i :: r' := by simpa using Ptr.left.inj e
              subst e'
              rw [e] at hl
              obtain ⟨q, h1, h2⟩ := gs.left hl hpr
              refine ⟨j :: q, rsub i j op r' q hx h1, (hO _ _).mpr (.inr ⟨by simp, n2 _ _, _, hx, ((local_pair op (hok i j op hx) _).1 _).mpr (.inl ?_)⟩)⟩
              simpa using h2
            · cases e
          · have e' : r = [i] := by simpa using Ptr.left.inj e
            subst e'
            refine ⟨[j], rpair i j o hx, (hO _ _).mpr (.inr ⟨by simp, n2 _ _, _, hx, ((local_pair o (hok i j o hx) _).1 _).mpr (.inr ⟨gs.both.mp hl2, .inr rfl, rfl⟩)⟩)⟩
          · cases e
    · intro r o h' hpr
      rw [hO] at h'
      obtain ⟨e | e, rfl⟩ | ⟨_, _, x, hx, hl⟩ := h'
      · cases e
      · have : r = [] := append_right_self.mp e.symm
        subst this
        exact ⟨[], rnil, (hO _ _).mpr (.inl ⟨.inl (by simp), rfl⟩)⟩
      · cases x with
        | dropLeft i => have := ((local_dropLeft i _).1 _).mp hl; rw [this.2] at hpr; simp [Paired] at hpr
        | dropRight i => have := ((local_dropRight i _).1 _).mp hl; rw [this.2] at hpr; simp [Paired] at hpr
        | pair i j op =>
          obtain ⟨x, y, hxk, hyk, g, gs⟩ := good i j op hx
          obtain hl | ⟨hl2, e | e, rfl⟩ := ((local_pair op (hok i j op hx) _).1 _).mp hl
          · obtain ⟨r', e⟩ | ⟨r', e⟩ := g.ok.domO _ _ hl
            · cases e
            · have e' : r = j :: r' := by simpa using Ptr.right.inj e
              subst e'
              rw [e] at hl
              obtain ⟨q, h1, h2⟩ := gs.right hl hpr
              refine ⟨i :: q, rsub i j op q r' hx h1, (hO _ _).mpr (.inr ⟨n1 _ _, by simp, _, hx, ((local_pair op (hok i j op hx) _).1 _).mpr (.inl ?_)⟩)⟩
              simpa using h2
          · cases e
          · have e' : r = [j] := by simpa using Ptr.right.inj e
            subst e'
            refine ⟨[i], rpair i j o hx, (hO _ _).mpr (.inr ⟨n1 _ _, by simp, _, hx, ((local_pair o (hok i j o hx) _).1 _).mpr (.inr ⟨gs.both.mpr hl2, .inl rfl, rfl⟩)⟩)⟩
    · intro r h'
      rw [hO] at h'
      obtain ⟨_, e⟩ | ⟨_, _, x, hx, hl⟩ := h'
      · cases e
      · cases x with
        | dropLeft i => have := ((local_dropLeft i _).1 _).mp hl; cases this.2
        | dropRight i => have := ((local_dropRight i _).1 _).mp hl; cases this.2
        | pair i j op =>
          obtain ⟨x, y, hxk, hyk, g, gs⟩ := good i j op hx
          obtain hl | ⟨_, _, e⟩ := ((local_pair op (hok i j op hx) _).1 _).mp hl
          · obtain ⟨r', e⟩ | ⟨r', e⟩ := g.ok.domO _ _ hl
            · have e' : r = i :: r' := by simpa using Ptr.left.inj e
              subst e'
              rw [e] at hl
              obtain ⟨z, h1, h2⟩ := gs.remL hl
              exact ⟨z, by rw [hat a i x _ hxk, h1], h2⟩
            · cases e
          · rcases trace_ops _ _ _ _ _ _ (Nat.le_refl _) htr _ _ _ hx with e' | e' <;> rw [e'] at e <;> cases e
    · intro r h'
      rw [hO] at h'
      obtain ⟨_, e⟩ | ⟨_, _, x, hx, hl⟩ := h'
      · cases e
      · cases x with
        | dropLeft i => have := ((local_dropLeft i _).1 _).mp hl; cases this.2
        | dropRight i => have := ((local_dropRight i _).1 _).mp hl; cases this.2
        | pair i j op =>
          obtain ⟨x, y, hxk, hyk, g, gs⟩ := good i j op hx
          obtain hl | ⟨_, _, e⟩ := ((local_pair op (hok i j op hx) _).1 _).mp hl
          · obtain ⟨r', e⟩ | ⟨r', e⟩ := g.ok.domO _ _ hl
            · cases e
            · have e' : r = j :: r' := by simpa using Ptr.right.inj e
              subst e'
              rw [e] at hl
              obtain ⟨z, h1, h2⟩ := gs.remR hl
              exact ⟨z, by rw [hat b j y _ hyk, h1], h2⟩
          · rcases trace_ops _ _ _ _ _ _ (Nat.le_refl _) htr _ _ _ hx with e' | e' <;> rw [e'] at e <;> cases e
    · rw [(hO (.left pa) .equ).mpr (.inl ⟨.inl rfl, rfl⟩), (hO (.right pb) .equ).mpr (.inl ⟨.inr rfl, rfl⟩)]

theorem build_signs (fmt : Bytes → Bytes) (a : Elem) (b : Elem) (pa pb : Path) (t : Table) (h : buildE fmt a pa b pb = some t) : Signs a pa b pb t := by
  by_cases hc : a.isContainer = true ∧ b.isContainer = true
  · obtain ⟨sub, hs, hcon⟩ := build_containers hc.1 hc.2 h
    refine signs_containers (fmt := fmt) hcon fun i j x y hx hy => ?_
    have := kid_size (List.mem_of_getElem? hx)
    exact ⟨build_good fmt x y _ _ _ (hs i j x y hx hy), build_signs fmt x y _ _ _ (hs i j x y hx hy)⟩
  · obtain ⟨k, v, v', rfl, rfl, e⟩ | ⟨n, e, hx, _⟩ | ⟨n, e, hx, _⟩ | ⟨s, e, _⟩ | ⟨e, _⟩ | ⟨v, v', rfl, rfl, h1, h2, h3, e⟩ := build_other (fmt := fmt) (pa := pa) (pb := pb) hc
    · have : sizeOf (Elem.value v) < sizeOf (Elem.entry k v) := kid_size (by simp [Elem.kids])
      rw [e] at h
      exact signs_entries (build_good fmt _ _ _ _ _ h) (build_signs fmt _ _ _ _ _ h)
    · rw [e] at h; cases h
      refine signs_flat (o := .rem) (o' := .add) ?_ (by simp [Paired]) (by simp [Paired]) (fun _ => hx) (by simp)
      intro k v
      simp only [manual, look_setKey, look]
      grind
    · rw [e] at h; cases h
      refine signs_flat (o := .add) (o' := .rem) ?_ (by simp [Paired]) (by simp [Paired]) (by simp) (fun _ => hx)
      intro k v
      simp only [manual, look_setKey, look]
      grind
    · rw [e] at h; cases h
      refine signs_flat (o := .add) (o' := .add) ?_ (by simp [Paired]) (by simp [Paired]) (by simp) (by simp)
      intro k v
      simp only [score, Bool.false_eq_true, if_false, look_setKey, look]
      grind
    · rw [e] at h; cases h
      exact signs_pair false
    · rw [e] at h; cases h
      exact signs_pair _
termination_by sizeOf a
end Verif.Lemmas.Diff
