import Verif.Spec.SignsExactly
import Verif.Props.DiffExchange
/-! # The signs of a difference table, exactly -/
namespace Verif.Lemmas.Diff
open Verif.Model Verif.Model.Diff Verif.Spec Verif.Props

/-- The cell on the right costs one more at most. -/
theorem cell_up {w : Nat} {cost : Nat → Nat → Nat} {n m : Nat} (h : NoWrap w cost n m) {i j : Nat} (hi : i ≤ n) (hj : j < m) : cell w cost i (j + 1) ≤ cell w cost i j + 1 := by
  match i with
  | 0 =>
    have h1 := h.right
    rw [cell, cell, Nat.mod_eq_of_lt (by omega), Nat.mod_eq_of_lt (by omega)]
    exact Nat.le_refl _
  | i + 1 =>
    have := (cell_min h (i := i) (j := j) (by omega) hj).1
    omega

/-- The mark of a pair tells whether it costs anything; it costs 1 at most. -/
theorem trace_marks {w : Nat} {cost : Nat → Nat → Nat} {n m : Nat} (h : NoWrap w cost n m) {i j : Nat} {s : List Step} (hi : i ≤ n) (hj : j ≤ m)
    (hs : trace w cost i j = some s) : ∀ k l op, Step.pair k l op ∈ s → (op = if cost k l = 0 then .equ else .mod) ∧ cost k l ≤ 1 := by
  fun_induction trace generalizing s with
  | case1 => cases hs; intro k l op hm; cases hm
  | case2 i ih =>
    simp only [Option.map_eq_some_iff] at hs
    obtain ⟨s', hs', rfl⟩ := hs
    intro k l op hm
    cases hm with
    | tail _ hm => exact ih (by omega) hj hs' k l op hm
  | case3 j ih =>
    simp only [Option.map_eq_some_iff] at hs
    obtain ⟨s', hs', rfl⟩ := hs
    intro k l op hm
    cases hm with
    | tail _ hm => exact ih hi (by omega) hs' k l op hm
  | case4 i j _ ih =>
    simp only [Option.map_eq_some_iff] at hs
    obtain ⟨s', hs', rfl⟩ := hs
    intro k l op hm
    cases hm with
    | tail _ hm => exact ih (by omega) hj hs' k l op hm
  | case5 i j _ _ ih =>
    simp only [Option.map_eq_some_iff] at hs
    obtain ⟨s', hs', rfl⟩ := hs
    intro k l op hm
    cases hm with
    | tail _ hm => exact ih hi (by omega) hs' k l op hm
  | case6 i j g1 g2 hk ih =>
    simp only [Option.map_eq_some_iff] at hs
    obtain ⟨s', hs', rfl⟩ := hs
    intro k l op hm
    have hmn := cell_min h (i := i) (j := j) (by omega) (by omega)
    have h2 := hmn.2.mp hk
    have e : cell w cost (i + 1) (j + 1) = cell w cost i j + cost i j := by omega
    cases hm with
    | head =>
      rw [e] at g1 ⊢
      refine ⟨?_, ?_⟩
      rotate_left
      · have := cell_up h (i := i) (j := j) (by omega) (by omega)
        omega
      by_cases h0 : cost i j = 0
      · rw [if_pos h0, if_pos (by omega)]
      · rw [if_neg h0, if_neg (by omega)]
    | tail _ hm => exact ih (by omega) (by omega) hs' k l op hm
  | case7 => simp at hs

/-- The pairs of two similar containers. -/
theorem rel_containers {pa pb : Path} {t : Table} {sub : Nat → Nat → Table} {s : List Step} (hok : StepsOk pa pb sub s)
    (hlen : ∀ i j op, Step.pair i j op ∈ s → ∀ {r q}, Rel (pa ++ [i]) (pb ++ [j]) (sub i j) r q → r.length = q.length)
    (hE : ∀ k v, look t.equivalences k = some v ↔
        (k = .left pa ∧ v = .right pb) ∨ (k = .right pb ∧ v = .left pa) ∨
        (k ≠ .left pa ∧ k ≠ .right pb ∧ ∃ x ∈ s, look (local' pa pb sub x).2 k = some v)) :
    ∀ r q, Rel pa pb t r q ↔ (r = [] ∧ q = []) ∨
        ∃ i j op r' q', Step.pair i j op ∈ s ∧ r = i :: r' ∧ q = j :: q' ∧ ((r' = [] ∧ q' = []) ∨ Rel (pa ++ [i]) (pb ++ [j]) (sub i j) r' q') := by
  have hEx : ∀ k v, (∃ x ∈ s, look (local' pa pb sub x).2 k = some v) ↔
      ∃ i j op, Step.pair i j op ∈ s ∧ ((k = .left (pa ++ [i]) ∧ v = .right (pb ++ [j])) ∨
        (k ≠ .left (pa ++ [i]) ∧ look (sub i j).equivalences k = some v)) := by
    intro k v
    constructor
    · rintro ⟨x, hx, hl⟩
      cases x with
      | dropLeft i => rw [(local_dropLeft i k).2] at hl; cases hl
      | dropRight i => rw [(local_dropRight i k).2] at hl; cases hl
      | pair i j op => exact ⟨i, j, op, hx, ((local_pair op (hok i j op hx) k).2 v).mp hl⟩
    · rintro ⟨i, j, op, hx, hl⟩
      exact ⟨_, hx, ((local_pair op (hok i j op hx) k).2 v).mpr hl⟩
  intro r q
  have aux : ∀ k v, look t.equivalences k = some v ↔ (k = .left pa ∧ v = .right pb) ∨ (k = .right pb ∧ v = .left pa) ∨
      (k ≠ .left pa ∧ k ≠ .right pb ∧ ∃ i j op, Step.pair i j op ∈ s ∧ ((k = .left (pa ++ [i]) ∧ v = .right (pb ++ [j])) ∨
      (k ≠ .left (pa ++ [i]) ∧ look (sub i j).equivalences k = some v))) := by
    intro k v; rw [hE, hEx]
  constructor
  · rintro (h' | h')
    · rw [aux] at h'
      obtain ⟨e1, e2⟩ | ⟨e1, e2⟩ | ⟨e1, e2, i, j, op, hm, h'⟩ := h'
      · exact .inl ⟨append_left_self.mp e1.symm, append_right_self.mp e2.symm⟩
      · cases e1
      · obtain ⟨e1, e2⟩ | ⟨_, h'⟩ := h'
        · have e1 : r = [i] := by simpa using Ptr.left.inj e1
          have e2 : q = [j] := by simpa using Ptr.right.inj e2
          exact .inr ⟨i, j, op, [], [], hm, e1, e2, .inl ⟨rfl, rfl⟩⟩
        · obtain ⟨r', q', e1, e2⟩ | ⟨r', q', e1, e2⟩ := (hok i j op hm).domE _ _ h'
          · have e1' : r = i :: r' := by simpa using Ptr.left.inj e1
            have e2' : q = j :: q' := by simpa using Ptr.right.inj e2
            exact .inr ⟨i, j, op, r', q', hm, e1', e2', .inr (.inl (by rw [← e1, ← e2]; exact h'))⟩
          · cases e1
    · rw [aux] at h'
      obtain ⟨e1, e2⟩ | ⟨e1, e2⟩ | ⟨e1, e2, i, j, op, hm, h'⟩ := h'
      · cases e1
      · exact .inl ⟨append_left_self.mp e2.symm, append_right_self.mp e1.symm⟩
      · obtain ⟨e1, e2⟩ | ⟨_, h'⟩ := h'
        · cases e1
        · obtain ⟨r', q', e1, e2⟩ | ⟨r', q', e1, e2⟩ := (hok i j op hm).domE _ _ h'
          · cases e1
          · have e1' : q = j :: q' := by simpa using Ptr.right.inj e1
            have e2' : r = i :: r' := by simpa using Ptr.left.inj e2
            exact .inr ⟨i, j, op, r', q', hm, e2', e1', .inr (.inr (by rw [← e1, ← e2]; exact h'))⟩
  · rintro (⟨rfl, rfl⟩ | ⟨i, j, op, r', q', hm, rfl, rfl, h'⟩)
    · exact .inl ((aux _ _).mpr (.inl (by simp)))
    · have n1 : Ptr.left (pa ++ i :: r') ≠ .left pa := fun h => by simpa using append_left_self.mp h.symm
      have n2 : Ptr.right (pb ++ j :: q') ≠ .right pb := fun h => by simpa using append_right_self.mp h.symm
      obtain ⟨rfl, rfl⟩ | hh := h'
      · exact .inl ((aux _ _).mpr (.inr (.inr ⟨n1, by simp, i, j, op, hm, .inl ⟨rfl, rfl⟩⟩)))
      · have hlen := hlen i j op hm hh
        by_cases hr' : r' = []
        · subst hr'
          have : q' = [] := by simpa using hlen.symm
          subst this
          exact .inl ((aux _ _).mpr (.inr (.inr ⟨n1, by simp, i, j, op, hm, .inl ⟨rfl, rfl⟩⟩)))
        · have n3 : Ptr.left (pa ++ i :: r') ≠ .left (pa ++ [i]) := fun h => hr' (left_inj h).2
          obtain hh | hh := hh
          · refine .inl ((aux _ _).mpr (.inr (.inr ⟨n1, by simp, i, j, op, hm, .inr ⟨n3, ?_⟩⟩)))
            simpa using hh
          · refine .inr ((aux _ _).mpr (.inr (.inr ⟨by simp, n2, i, j, op, hm, .inr ⟨by simp, ?_⟩⟩)))
            simpa using hh

/-- Entries with the same key. -/
def SameKey (a b : Elem) : Prop := ∃ k v v', a = .entry k v ∧ b = .entry k v'

abbrev Opp (a b : Elem) (pa pb : Path) (t : Table) : Path → Path → Prop := Opposite (Rel pa pb t) a b

/-- The signs of a table, exactly. -/
structure Exact (fmt : Bytes → Bytes) (a : Elem) (pa : Path) (b : Elem) (pb : Path) (t : Table) : Prop where
  pairs : ∀ r s, Opp a b pa pb t r s → ¬ (r = [] ∧ SameKey a b) → ∃ x y c, a.at r = some x ∧ b.at s = some y ∧ Facing (·.stringify fmt) x y c ∧
    (r = [] ∨ (SameKey a b ∧ r = [0]) ∨ c ≤ 1) ∧
    look t.operations (.left (pa ++ r)) = some (signsFor (decide (c = 0)) x y).1 ∧ look t.operations (.right (pb ++ s)) = some (signsFor (decide (c = 0)) x y).2
  aloneL : ∀ r o, look t.operations (.left (pa ++ r)) = some o → (∃ s, Opp a b pa pb t r s) ∨ o = .add
  aloneR : ∀ s o, look t.operations (.right (pb ++ s)) = some o → (∃ r, Opp a b pa pb t r s) ∨ o = .add

/-- A table that records only the two roots. -/
theorem exact_flat {fmt : Bytes → Bytes} {a b : Elem} {pa pb : Path} {t : Table} {c : Nat} {o : Op × Op} (hk : ¬ SameKey a b) (hf : Facing (·.stringify fmt) a b c)
    (ho : o = signsFor (decide (c = 0)) a b) (hl : ∀ k v, look t.operations k = some v ↔ (k = .left pa ∧ v = o.1) ∨ (k = .right pb ∧ v = o.2))
    (hr : ∀ r s, Rel pa pb t r s → r = [] ∧ s = []) : Exact fmt a pa b pb t := by
  subst ho
  have hop : ∀ r s, Opp a b pa pb t r s → r = [] ∧ s = [] := by
    rintro r s (h | h | ⟨r', s', k, v, v', _, _, h, ha, hb⟩)
    · exact h
    · exact hr _ _ h
    · have : r' = [] ∧ s' = [] := h.elim id (hr _ _)
      obtain ⟨rfl, rfl⟩ := this
      exact absurd ⟨k, v, v', by simpa [Elem.at] using ha, by simpa [Elem.at] using hb⟩ hk
  refine ⟨?_, ?_, ?_⟩
  · intro r s h _
    obtain ⟨rfl, rfl⟩ := hop r s h
    exact ⟨a, b, c, rfl, rfl, hf, .inl rfl, (hl _ _).mpr (.inl (by simp)), (hl _ _).mpr (.inr (by simp))⟩
  · intro r o h
    obtain ⟨e, _⟩ | ⟨e, _⟩ := (hl _ _).mp h
    · have : r = [] := append_left_self.mp e.symm
      subst this
      exact .inl ⟨[], .inl ⟨rfl, rfl⟩⟩
    · cases e
  · intro r o h
    obtain ⟨e, _⟩ | ⟨e, _⟩ := (hl _ _).mp h
    · cases e
    · have : r = [] := append_right_self.mp e.symm
      subst this
      exact .inl ⟨[], .inl ⟨rfl, rfl⟩⟩

theorem manual_look (c o : Ptr) (n : Nat) (h : c ≠ o) (k : Ptr) (v : Op) : look (manual c o n).operations k = some v ↔ (k = c ∧ v = .rem) ∨ (k = o ∧ v = .add) := by
  simp only [manual, look_setKey, look]
  grind

theorem score_look (s : Bool) (pa pb : Path) (b : Bool) (k : Ptr) (v : Op) : look (score s (.left pa) (.right pb) b).operations k = some v ↔
    (k = .left pa ∧ v = if b then if s then .equ else .mod else .add) ∨ (k = .right pb ∧ v = if b then if s then .equ else .mod else .add) := by
  cases b <;> simp only [score, Bool.false_eq_true, if_false, if_true, look_setKey, look] <;> grind

theorem score_rel {s b : Bool} {pa pb r q : Path} (h : Rel pa pb (score s (.left pa) (.right pb) b) r q) : r = [] ∧ q = [] := by
  cases b
  · simp [Rel, score, look] at h
  · simp only [Rel, score, if_true, look] at h
    split at h
    · rename_i e
      have e' := append_left_self.mp e
      subst e'
      simp at h
      exact ⟨rfl, h⟩
    · split at h
      · rename_i e; cases e
      · simp at h

theorem manual_rel {c o : Ptr} {n : Nat} {pa pb r q : Path} (h : Rel pa pb (manual c o n) r q) : r = [] ∧ q = [] := by
  simp [Rel, manual, look] at h

theorem exact_other {fmt : Bytes → Bytes} {a b : Elem} {pa pb : Path} {t : Table} (hc : ¬ (a.isContainer = true ∧ b.isContainer = true)) (hk : ¬ SameKey a b)
    (ht : buildE fmt a pa b pb = some t) (hf : Facing (·.stringify fmt) a b (if t.similar then 0 else t.result)) : Exact fmt a pa b pb t := by
  match a, b with
  | .entry k v, .entry k' v' =>
    by_cases h : k = k'
    · subst h; exact absurd ⟨k, v, v', rfl, rfl⟩ hk
    · have e : buildE fmt (.entry k v) pa (.entry k' v') pb = some (score false (.left pa) (.right pb) true) := by simp [buildE, entryWith, h]
      rw [e] at ht; cases ht
      exact exact_flat hk hf rfl (score_look _ _ _ _) (fun _ _ => score_rel)
  | .entry k v, .value v' =>
    by_cases hv : v'.isContainer = true
    · have e : buildE fmt (.entry k v) pa (.value v') pb = some (manual (.right pb) (.left pa) (Elem.kids (.value v')).length) := by simp only [buildE, entryWith, if_pos hv]
      rw [e] at ht; cases ht
      have hv2 : (Elem.value v').isContainer = true := by cases v' <;> first | rfl | cases hv
      refine exact_flat (o := (.add, .rem)) hk hf (by simp [signsFor, hv2, show (Elem.entry k v).isContainer = false from rfl]) (fun k v => ?_) (fun _ _ => manual_rel)
      rw [manual_look _ _ _ (by simp), or_comm]
    · have e : buildE fmt (.entry k v) pa (.value v') pb = some (score false (.left pa) (.right pb) false) := by simp only [buildE, entryWith, if_neg hv]
      rw [e] at ht; cases ht
      have hv2 : (Elem.value v').isContainer = false := by cases v' <;> first | rfl | exact absurd rfl hv
      exact exact_flat hk hf (o := (.add, .add)) (by simp [signsFor, hv2, comparable, show (Elem.entry k v).isContainer = false from rfl]) (score_look _ _ _ _) (fun _ _ => score_rel)
  | .value v, b =>
    by_cases hv : IsContainer v
    · have h1 : (Elem.value v).isContainer = true := (container_iff v).mpr hv
      have h2 : b.isContainer = false := by simpa using fun h => hc ⟨h1, h⟩
      have e : buildE fmt (.value v) pa b pb = some (manual (.left pa) (.right pb) (Elem.kids (.value v)).length) := by
        cases v <;> first | exact hv.elim | simp [buildE, build, h2, Elem.kids]
      rw [e] at ht; cases ht
      exact exact_flat hk hf (o := (.rem, .add)) (by simp [signsFor, h1, h2]) (manual_look _ _ _ (by simp)) (fun _ _ => manual_rel)
    · have e : buildE fmt (.value v) pa b pb = some (primitive fmt v pa b pb) := by
        cases v <;> first | rfl | exact absurd trivial hv
      have h1 : (Elem.value v).isContainer = false := by cases v <;> first | rfl | exact absurd trivial hv
      rw [e] at ht; cases ht
      match b with
      | .entry k' v' =>
        exact exact_flat (t := score false (.left pa) (.right pb) false) hk hf (o := (.add, .add)) (by simp [signsFor, h1, comparable, show (Elem.entry k' v').isContainer = false from rfl]) (score_look _ _ _ _) (fun _ _ => score_rel)
      | .value v' =>
        by_cases hv' : v'.isContainer = true
        · have h2 : (Elem.value v').isContainer = true := by cases v' <;> first | rfl | cases hv'
          have e2 : primitive fmt v pa (.value v') pb = manual (.right pb) (.left pa) (Elem.kids (.value v')).length := by simp only [primitive, if_pos hv']
          rw [e2] at hf ⊢
          refine exact_flat (o := (.add, .rem)) hk hf (by simp [signsFor, h1, h2]) (fun k v => ?_) (fun _ _ => manual_rel)
          rw [manual_look _ _ _ (by simp), or_comm]
        · have h2 : (Elem.value v').isContainer = false := by cases v' <;> first | rfl | exact absurd rfl hv'
          have e2 : primitive fmt v pa (.value v') pb = score (percentSimilar (v.stringify fmt) (v'.stringify fmt)) (.left pa) (.right pb) (decide (typeStr v = typeStr v')) := by
            simp only [primitive, if_neg hv']
          have e3 : decide (typeStr v = typeStr v') = sameKind v v' := by
            cases v <;> cases v' <;> first | rfl | exact absurd trivial hv | exact absurd rfl hv'
          rw [e2] at hf ⊢
          rw [e3] at hf ⊢
          generalize percentSimilar (v.stringify fmt) (v'.stringify fmt) = p at *
          refine exact_flat hk hf rfl (fun k o => ?_) (fun _ _ => score_rel)
          rw [score_look]
          cases hs : sameKind v v' <;> cases p <;> simp [signsFor, h1, h2, comparable, hs, score]

/-- Entries with the same key: their values. -/
theorem opp_entries {fmt : Bytes → Bytes} {k : Bytes} {v v' : Json} {pa pb : Path} {t : Table} (g : Good fmt (.value v) (pa ++ [0]) (.value v') (pb ++ [0]) t) :
    (∀ r s, Rel pa pb t r s ↔ ∃ r' s', r = 0 :: r' ∧ s = 0 :: s' ∧ Rel (pa ++ [0]) (pb ++ [0]) t r' s') ∧
    ∀ r s, Opp (.entry k v) (.entry k v') pa pb t r s ↔ (r = [] ∧ s = []) ∨ ∃ r' s', r = 0 :: r' ∧ s = 0 :: s' ∧ Opp (.value v) (.value v') (pa ++ [0]) (pb ++ [0]) t r' s' := by
  have hr : ∀ r s, Rel pa pb t (0 :: r) (0 :: s) ↔ Rel (pa ++ [0]) (pb ++ [0]) t r s := by
    intro r s; simp [Rel]
  have hd : ∀ r s, Rel pa pb t r s → ∃ r' s', r = 0 :: r' ∧ s = 0 :: s' ∧ Rel (pa ++ [0]) (pb ++ [0]) t r' s' := by
    intro r s h0
    have : ∃ r' s', r = 0 :: r' ∧ s = 0 :: s' := by
      obtain h' | h' := h0
      · obtain ⟨r', s', h1, h2⟩ | ⟨r', s', h1, h2⟩ := g.ok.domE _ _ h'
        · exact ⟨r', s', by simpa using Ptr.left.inj h1, by simpa using Ptr.right.inj h2⟩
        · cases h1
      · obtain ⟨r', s', h1, h2⟩ | ⟨r', s', h1, h2⟩ := g.ok.domE _ _ h'
        · cases h1
        · exact ⟨r', s', by simpa using Ptr.left.inj h2, by simpa using Ptr.right.inj h1⟩
    obtain ⟨r', s', rfl, rfl⟩ := this
    exact ⟨r', s', rfl, rfl, (hr _ _).mp h0⟩
  have hat : ∀ w r, (Elem.entry k w).at (0 :: r) = (Elem.value w).at r := fun w r => by simp [Elem.at, Elem.kids]
  have down : ∀ r s, Opp (.entry k v) (.entry k v') pa pb t r s → (r = [] ∧ s = []) ∨
      ∃ r' s', r = 0 :: r' ∧ s = 0 :: s' ∧ Opp (.value v) (.value v') (pa ++ [0]) (pb ++ [0]) t r' s' := by
    rintro r s (h | h | ⟨r', s', k', u, u', rfl, rfl, h, ha, hb⟩)
    · exact .inl h
    · obtain ⟨r', s', rfl, rfl, h'⟩ := hd _ _ h
      exact .inr ⟨r', s', rfl, rfl, .inr (.inl h')⟩
    · obtain ⟨rfl, rfl⟩ | h := h
      · exact .inr ⟨[], [], rfl, rfl, .inl ⟨rfl, rfl⟩⟩
      · obtain ⟨r', s', rfl, rfl, h'⟩ := hd _ _ h
        rw [hat] at ha hb
        exact .inr ⟨r' ++ [0], s' ++ [0], rfl, rfl, .inr (.inr ⟨r', s', k', u, u', rfl, rfl, .inr h', ha, hb⟩)⟩
  have up : ∀ r s, Opp (.value v) (.value v') (pa ++ [0]) (pb ++ [0]) t r s → Opp (.entry k v) (.entry k v') pa pb t (0 :: r) (0 :: s) := by
    rintro r s (⟨rfl, rfl⟩ | h | ⟨r', s', k', u, u', rfl, rfl, h, ha, hb⟩)
    · exact .inr (.inr ⟨[], [], k, v, v', rfl, rfl, .inl ⟨rfl, rfl⟩, rfl, rfl⟩)
    · exact .inr (.inl ((hr _ _).mpr h))
    · obtain ⟨rfl, rfl⟩ | h := h
      · simp [Elem.at] at ha
      · exact .inr (.inr ⟨0 :: r', 0 :: s', k', u, u', rfl, rfl, .inr ((hr _ _).mpr h), by rw [hat]; exact ha, by rw [hat]; exact hb⟩)
  refine ⟨fun r s => ⟨hd r s, ?_⟩, fun r s => ⟨down r s, ?_⟩⟩
  · rintro ⟨r', s', rfl, rfl, h⟩
    exact (hr _ _).mpr h
  · rintro (⟨rfl, rfl⟩ | ⟨r', s', rfl, rfl, h⟩)
    · exact .inl ⟨rfl, rfl⟩
    · exact up _ _ h

theorem exact_entries {fmt : Bytes → Bytes} {k : Bytes} {v v' : Json} {pa pb : Path} {t : Table} (g : Good fmt (.value v) (pa ++ [0]) (.value v') (pb ++ [0]) t)
    (h : Exact fmt (.value v) (pa ++ [0]) (.value v') (pb ++ [0]) t) : Exact fmt (.entry k v) pa (.entry k v') pb t := by
  have hat : ∀ w r, (Elem.entry k w).at (0 :: r) = (Elem.value w).at r := fun w r => by simp [Elem.at, Elem.kids]
  have down := fun r s => ((opp_entries (k := k) g).2 r s).mp
  have up : ∀ r s, Opp (.value v) (.value v') (pa ++ [0]) (pb ++ [0]) t r s → Opp (.entry k v) (.entry k v') pa pb t (0 :: r) (0 :: s) :=
    fun r s h => ((opp_entries (k := k) g).2 _ _).mpr (.inr ⟨r, s, rfl, rfl, h⟩)
  refine ⟨?_, ?_, ?_⟩
  · intro r s ho hn
    obtain ⟨rfl, rfl⟩ | ⟨r, s, rfl, rfl, ho'⟩ := down r s ho
    · exact absurd ⟨rfl, k, v, v', rfl, rfl⟩ hn
    · obtain ⟨x, y, c, h1, h2, h3, h6, h4, h5⟩ := h.pairs r s ho' (by rintro ⟨_, _, _, _, e, _⟩; cases e)
      refine ⟨x, y, c, by rw [hat]; exact h1, by rw [hat]; exact h2, h3, ?_, by simpa using h4, by simpa using h5⟩
      obtain rfl | ⟨⟨_, _, _, e, _⟩, _⟩ | h6 := h6
      · exact .inr (.inl ⟨⟨k, v, v', rfl, rfl⟩, rfl⟩)
      · cases e
      · exact .inr (.inr h6)
  · intro r o ho
    obtain ⟨r', e⟩ | ⟨r', e⟩ := g.ok.domO _ _ ho
    · have e' : r = 0 :: r' := by simpa using Ptr.left.inj e
      subst e'
      obtain ⟨s, h1⟩ | h1 := h.aloneL r' o (by simpa using ho)
      · exact .inl ⟨_, up _ _ h1⟩
      · exact .inr h1
    · cases e
  · intro r o ho
    obtain ⟨r', e⟩ | ⟨r', e⟩ := g.ok.domO _ _ ho
    · cases e
    · have e' : r = 0 :: r' := by simpa using Ptr.right.inj e
      subst e'
      obtain ⟨s, h1⟩ | h1 := h.aloneR r' o (by simpa using ho)
      · exact .inl ⟨_, up _ _ h1⟩
      · exact .inr h1

/-- Two similar containers: the children that face each other. -/
theorem opp_containers {a b : Elem} {pa pb : Path} {t : Table} {sub : Nat → Nat → Table} {s : List Step} (c1 : a.isContainer = true)
    (hr : ∀ r q, Rel pa pb t r q ↔ (r = [] ∧ q = []) ∨
        ∃ i j op r' q', Step.pair i j op ∈ s ∧ r = i :: r' ∧ q = j :: q' ∧ ((r' = [] ∧ q' = []) ∨ Rel (pa ++ [i]) (pb ++ [j]) (sub i j) r' q')) :
    (∀ r q, Opp a b pa pb t r q → (r = [] ∧ q = []) ∨
        ∃ i j op r' q', Step.pair i j op ∈ s ∧ r = i :: r' ∧ q = j :: q' ∧ ∀ x y, a.kids[i]? = some x → b.kids[j]? = some y → Opp x y (pa ++ [i]) (pb ++ [j]) (sub i j) r' q') ∧
    ∀ i j op x y r q, Step.pair i j op ∈ s → a.kids[i]? = some x → b.kids[j]? = some y → Opp x y (pa ++ [i]) (pb ++ [j]) (sub i j) r q → Opp a b pa pb t (i :: r) (j :: q) := by
  have down : ∀ r q, Opp a b pa pb t r q → (r = [] ∧ q = []) ∨
      ∃ i j op r' q', Step.pair i j op ∈ s ∧ r = i :: r' ∧ q = j :: q' ∧ ∀ x y, a.kids[i]? = some x → b.kids[j]? = some y → Opp x y (pa ++ [i]) (pb ++ [j]) (sub i j) r' q' := by
    rintro r q (h | h | ⟨r0, q0, k', u, u', rfl, rfl, h, ha, hb⟩)
    · exact .inl h
    · obtain h | ⟨i, j, op, r', q', hm, rfl, rfl, h2⟩ := (hr r q).mp h
      · exact .inl h
      · exact .inr ⟨i, j, op, r', q', hm, rfl, rfl, fun x y hx hy => h2.elim .inl (fun h => .inr (.inl h))⟩
    · have ne : r0 ≠ [] := by
        rintro rfl
        have : a = .entry k' u := by simpa [Elem.at] using ha
        subst this
        cases c1
      obtain h | h := h
      · exact absurd h.1 ne
      · obtain h | ⟨i, j, op, r', q', hm, rfl, rfl, h2⟩ := (hr _ _).mp h
        · exact absurd h.1 ne
        · refine .inr ⟨i, j, op, r' ++ [0], q' ++ [0], hm, rfl, rfl, fun x y hx hy => ?_⟩
          rw [at_cons _ hx] at ha
          rw [at_cons _ hy] at hb
          exact .inr (.inr ⟨r', q', k', u, u', rfl, rfl, h2, ha, hb⟩)
  have up : ∀ i j op x y r q, Step.pair i j op ∈ s → a.kids[i]? = some x → b.kids[j]? = some y → Opp x y (pa ++ [i]) (pb ++ [j]) (sub i j) r q → Opp a b pa pb t (i :: r) (j :: q) := by
    rintro i j op x y r q hm hx hy (h | h | ⟨r', q', k', u, u', rfl, rfl, h, ha, hb⟩)
    · exact .inr (.inl ((hr _ _).mpr (.inr ⟨i, j, op, r, q, hm, rfl, rfl, .inl h⟩)))
    · exact .inr (.inl ((hr _ _).mpr (.inr ⟨i, j, op, r, q, hm, rfl, rfl, .inr h⟩)))
    · exact .inr (.inr ⟨i :: r', j :: q', k', u, u', rfl, rfl, .inr ((hr _ _).mpr (.inr ⟨i, j, op, r', q', hm, rfl, rfl, h⟩)),
        by rw [at_cons _ hx]; exact ha, by rw [at_cons _ hy]; exact hb⟩)
  exact ⟨down, up⟩

/-- The tables of entries with the same key record nothing about the entries. -/
theorem same_key_none {fmt : Bytes → Bytes} {a b : Elem} {pa pb : Path} {t : Table} (hk : SameKey a b) (h : buildE fmt a pa b pb = some t) :
    look t.operations (.left pa) = none ∧ look t.operations (.right pb) = none := by
  obtain ⟨k, v, v', rfl, rfl⟩ := hk
  have e : buildE fmt (.entry k v) pa (.entry k v') pb = buildE fmt (.value v) (pa ++ [0]) (.value v') (pb ++ [0]) := by simp [buildE, entryWith]
  rw [e] at h
  have g := build_good fmt _ _ _ _ _ h
  constructor
  · cases hl : look t.operations (.left pa) with
    | none => rfl
    | some o =>
      obtain ⟨r, e⟩ | ⟨r, e⟩ := g.ok.domO _ _ hl
      · simp at e
      · cases e
  · cases hl : look t.operations (.right pb) with
    | none => rfl
    | some o =>
      obtain ⟨r, e⟩ | ⟨r, e⟩ := g.ok.domO _ _ hl
      · cases e
      · simp at e

theorem cost_zero {fmt : Bytes → Bytes} {a b : Elem} {pa pb : Path} {t : Table} (c1 : a.isContainer = true) (c2 : b.isContainer = true) (h : buildE fmt a pa b pb = some t) :
    decide ((if t.similar then 0 else t.result) = 0) = t.similar := by
  obtain ⟨sub, hs, hcon⟩ := build_containers c1 c2 h
  obtain ⟨r1, s1, _, _⟩ := containers_get hcon
  cases hsim : t.similar with
  | true => rfl
  | false =>
    rw [hsim] at s1
    have h0 : relative t.result a.kids.length b.kids.length = 0 := by
      rw [r1]; simpa using s1.symm
    have : t.result ≠ 0 := by
      intro e
      rw [e] at h0
      simp [relative] at h0
    simp [this]

theorem exact_containers {fmt : Bytes → Bytes} {a b : Elem} {pa pb : Path} {t : Table} {sub : Nat → Nat → Table} (c1 : a.isContainer = true) (c2 : b.isContainer = true)
    (ht : buildE fmt a pa b pb = some t) (hcon : containers pa pb a.kids.length b.kids.length sub = some t)
    (hf : Facing (·.stringify fmt) a b (if t.similar then 0 else t.result))
    (hw : NoWrap (cellSize a.kids.length b.kids.length) (fun i j => if (sub i j).similar then 0 else (sub i j).result) a.kids.length b.kids.length)
    (hg : ∀ (i j : Nat) (x y : Elem), a.kids[i]? = some x → b.kids[j]? = some y → Good fmt x (pa ++ [i]) y (pb ++ [j]) (sub i j) ∧ Exact fmt x (pa ++ [i]) y (pb ++ [j]) (sub i j) ∧
      Facing (·.stringify fmt) x y (if (sub i j).similar then 0 else (sub i j).result) ∧
      (SameKey x y → look (sub i j).operations (.left (pa ++ [i])) = none ∧ look (sub i j).operations (.right (pb ++ [j])) = none)) :
    Exact fmt a pa b pb t := by
  have hg' : ∀ i j, i < a.kids.length → j < b.kids.length → ∃ x y, a.kids[i]? = some x ∧ b.kids[j]? = some y :=
    fun i j hi hj => ⟨_, _, List.getElem?_eq_getElem hi, List.getElem?_eq_getElem hj⟩
  have hk : ¬ SameKey a b := by rintro ⟨k, v, v', rfl, _⟩; cases c1
  have hz := cost_zero c1 c2 ht
  obtain ⟨_, _, g1, g2⟩ := containers_get hcon
  obtain ⟨h1, h2, h3, h4⟩ | ⟨h1, hu1, hu2, s, htr, hd, hok, hO, hE⟩ :=
    look_containers hcon (fun i j hi hj => by obtain ⟨x, y, hx, hy⟩ := hg' i j hi hj; exact (hg i j x y hx hy).1.ok)
  · refine exact_flat (o := (.add, .add)) hk hf (by rw [hz, h1]; simp [signsFor, c1, c2]) (fun k v => ?_) (fun r q h => ?_)
    · rw [h4]
      constructor
      · rintro ⟨e | e, e'⟩
        · exact .inl ⟨e, e'⟩
        · exact .inr ⟨e, e'⟩
      · rintro (⟨e, e'⟩ | ⟨e, e'⟩)
        · exact ⟨.inl e, e'⟩
        · exact ⟨.inr e, e'⟩
    · simp [Rel, h2, look] at h
  · have hp := desc_pairs hd
    have good : ∀ i j op, Step.pair i j op ∈ s → ∃ x y, a.kids[i]? = some x ∧ b.kids[j]? = some y :=
      fun i j op hm => hg' i j (hp.1 i j op hm).1 (hp.1 i j op hm).2
    have hr := rel_containers (t := t) hok (fun i j op hm r q h => by
      obtain ⟨x, y, hx, hy⟩ := good i j op hm
      exact (hg i j x y hx hy).1.corr.len h) hE
    have n1 : ∀ i r', Ptr.left (pa ++ i :: r') ≠ .left pa := fun i r' h => by simpa using append_left_self.mp h.symm
    have n2 : ∀ j q', Ptr.right (pb ++ j :: q') ≠ .right pb := fun i r' h => by simpa using append_right_self.mp h.symm
    obtain ⟨down, up⟩ := opp_containers (b := b) c1 hr
    refine ⟨?_, ?_, ?_⟩
    · intro r q ho hn
      obtain ⟨rfl, rfl⟩ | ⟨i, j, op, r, q, hm, rfl, rfl, ho2⟩ := down r q ho
      · refine ⟨a, b, _, rfl, rfl, hf, .inl rfl, ?_, ?_⟩
        · rw [hz]; simpa [signsFor, c1, c2, h1, Table.get] using g1
        · rw [hz]; simpa [signsFor, c1, c2, h1, Table.get] using g2
      · obtain ⟨x, y, hx, hy⟩ := good i j op hm
        have ho := ho2 x y hx hy
        obtain ⟨g, ge, gf, gk⟩ := hg i j x y hx hy
        have hl := fun k => local_pair (pa := pa) (pb := pb) (sub := sub) op (hok i j op hm) k
        obtain ⟨hop, hle⟩ := trace_marks hw (Nat.le_refl _) (Nat.le_refl _) htr i j op hm
        by_cases hsk : r = [] ∧ SameKey x y
        · obtain ⟨rfl, hsk⟩ := hsk
          have hq : q = [] := by
            obtain ⟨_, h⟩ | h | ⟨r0, q0, k', u, u', e, _⟩ := ho
            · exact h
            · simpa using (g.corr.len h).symm
            · simp at e
          subst hq
          obtain ⟨k1, k2⟩ := gk hsk
          obtain ⟨k, v, v', rfl, rfl⟩ := hsk
          refine ⟨_, _, _, by rw [at_cons _ hx]; rfl, by rw [at_cons _ hy]; rfl, gf, .inr (.inr hle), ?_, ?_⟩
          · refine (hO _ _).mpr (.inr ⟨n1 _ _, by simp, _, hm, ((hl _).1 _).mpr (.inr ⟨k1, .inl rfl, ?_⟩)⟩)
            rw [hop]
            by_cases h0 : (if (sub i j).similar then 0 else (sub i j).result) = 0 <;> simp [signsFor, comparable, Elem.isContainer, h0]
          · refine (hO _ _).mpr (.inr ⟨by simp, n2 _ _, _, hm, ((hl _).1 _).mpr (.inr ⟨k2, .inr rfl, ?_⟩)⟩)
            rw [hop]
            by_cases h0 : (if (sub i j).similar then 0 else (sub i j).result) = 0 <;> simp [signsFor, comparable, Elem.isContainer, h0]
        · obtain ⟨x', y', c, e1, e2, e3, e6, e4, e5⟩ := ge.pairs r q ho hsk
          refine ⟨x', y', c, by rw [at_cons _ hx]; exact e1, by rw [at_cons _ hy]; exact e2, e3, .inr (.inr ?_), ?_, ?_⟩
          · obtain rfl | ⟨⟨k, v, v', rfl, rfl⟩, rfl⟩ | e6 := e6
            · have hq : q = [] := by
                obtain ⟨_, h⟩ | h | ⟨r0, q0, k', u, u', e, _⟩ := ho
                · exact h
                · simpa using (g.corr.len h).symm
                · simp at e
              subst hq
              cases e1; cases e2
              rw [facing_unique e3 gf]; exact hle
            · have hq : q = [0] := by
                obtain ⟨e, _⟩ | h | ⟨r0, q0, k', u, u', e, e', h, _⟩ := ho
                · cases e
                · have hq := g.corr.len h
                  match q, hq with
                  | [j'], _ =>
                    obtain ⟨_, y, _, hy0⟩ := g.ex h
                    cases j' with
                    | zero => rfl
                    | succ j' => simp [Elem.at, Elem.kids] at hy0
                · have : r0 = [] := by simpa using congrArg List.length e
                  subst this
                  have : q0 = [] := by
                    obtain ⟨_, h⟩ | h := h
                    · exact h
                    · simpa using (g.corr.len h).symm
                  subst this
                  exact e'
              subst hq
              have e1' : Elem.value v = x' := by simpa [Elem.at, Elem.kids] using e1
              have e2' : Elem.value v' = y' := by simpa [Elem.at, Elem.kids] using e2
              subst e1'; subst e2'
              rw [facing_unique (.sameKey e3) gf]; exact hle
            · exact e6
          · exact (hO _ _).mpr (.inr ⟨n1 _ _, by simp, _, hm, ((hl _).1 _).mpr (.inl (by simpa using e4))⟩)
          · exact (hO _ _).mpr (.inr ⟨by simp, n2 _ _, _, hm, ((hl _).1 _).mpr (.inl (by simpa using e5))⟩)
    · intro r o h'
      rw [hO] at h'
      obtain ⟨e | e, rfl⟩ | ⟨_, _, x, hx, hl⟩ := h'
      · have : r = [] := append_left_self.mp e.symm
        subst this
        exact .inl ⟨[], .inl ⟨rfl, rfl⟩⟩
      · cases e
      · cases x with
        | dropLeft i => exact .inr (((local_dropLeft i _).1 _).mp hl).2
        | dropRight i => exact .inr (((local_dropRight i _).1 _).mp hl).2
        | pair i j op =>
          obtain ⟨x, y, hxk, hyk⟩ := good i j op hx
          obtain ⟨g, ge, gf, gk⟩ := hg i j x y hxk hyk
          obtain hl | ⟨_, e | e, _⟩ := ((local_pair op (hok i j op hx) _).1 _).mp hl
          · obtain ⟨r', e⟩ | ⟨r', e⟩ := g.ok.domO _ _ hl
            · have e' : r = i :: r' := by simpa using Ptr.left.inj e
              subst e'
              rw [e] at hl
              obtain ⟨q, h⟩ | h := ge.aloneL _ _ hl
              · exact .inl ⟨_, up i j op x y _ _ hx hxk hyk h⟩
              · exact .inr h
            · cases e
          · have e' : r = [i] := by simpa using Ptr.left.inj e
            subst e'
            exact .inl ⟨[j], up i j op x y [] [] hx hxk hyk (.inl ⟨rfl, rfl⟩)⟩
          · cases e
    · intro r o h'
      rw [hO] at h'
      obtain ⟨e | e, rfl⟩ | ⟨_, _, x, hx, hl⟩ := h'
      · cases e
      · have : r = [] := append_right_self.mp e.symm
        subst this
        exact .inl ⟨[], .inl ⟨rfl, rfl⟩⟩
      · cases x with
        | dropLeft i => exact .inr (((local_dropLeft i _).1 _).mp hl).2
        | dropRight i => exact .inr (((local_dropRight i _).1 _).mp hl).2
        | pair i j op =>
          obtain ⟨x, y, hxk, hyk⟩ := good i j op hx
          obtain ⟨g, ge, gf, gk⟩ := hg i j x y hxk hyk
          obtain hl | ⟨_, e | e, _⟩ := ((local_pair op (hok i j op hx) _).1 _).mp hl
          · obtain ⟨r', e⟩ | ⟨r', e⟩ := g.ok.domO _ _ hl
            · cases e
            · have e' : r = j :: r' := by simpa using Ptr.right.inj e
              subst e'
              rw [e] at hl
              obtain ⟨q, h⟩ | h := ge.aloneR _ _ hl
              · exact .inl ⟨_, up i j op x y _ _ hx hxk hyk h⟩
              · exact .inr h
          · cases e
          · have e' : r = [j] := by simpa using Ptr.right.inj e
            subst e'
            exact .inl ⟨[i], up i j op x y [] [] hx hxk hyk (.inl ⟨rfl, rfl⟩)⟩

theorem build_exact (fmt : Bytes → Bytes) (a b : Elem) (pa pb : Path) (t : Table) (h : buildE fmt a pa b pb = some t) (sa : ShortTexts (·.stringify fmt) a)
    (sb : ShortTexts (·.stringify fmt) b) (hr : RoomFor (·.stringify fmt) a b) : Exact fmt a pa b pb t := by
  have hf := build_facing fmt a b pa pb t h sa sb hr
  by_cases hc : a.isContainer = true ∧ b.isContainer = true
  · obtain ⟨sub, hs, hcon⟩ := build_containers hc.1 hc.2 h
    have hfk : ∀ (i j : Nat) (x y : Elem), a.kids[i]? = some x → b.kids[j]? = some y → Facing (·.stringify fmt) x y (if (sub i j).similar then 0 else (sub i j).result) :=
      fun i j x y hx hy => build_facing fmt x y _ _ _ (hs i j x y hx hy) (short_kids sa hx) (short_kids sb hy) (room_kids hr hx hy)
    refine exact_containers hc.1 hc.2 h hcon hf ?_ fun i j x y hx hy => ?_
    · exact room_noWrap hr hc.1 hc.2 hfk
    · have := kid_size (List.mem_of_getElem? hx)
      exact ⟨build_good fmt x y _ _ _ (hs i j x y hx hy), build_exact fmt x y _ _ _ (hs i j x y hx hy) (short_kids sa hx) (short_kids sb hy) (room_kids hr hx hy),
        hfk i j x y hx hy, fun hk => same_key_none hk (hs i j x y hx hy)⟩
  · by_cases hk : SameKey a b
    · obtain ⟨k, v, v', rfl, rfl⟩ := hk
      have e : buildE fmt (.entry k v) pa (.entry k v') pb = buildE fmt (.value v) (pa ++ [0]) (.value v') (pb ++ [0]) := by simp [buildE, entryWith]
      have : sizeOf (Elem.value v) < sizeOf (Elem.entry k v) := kid_size (by simp [Elem.kids])
      rw [e] at h
      exact exact_entries (build_good fmt _ _ _ _ _ h) (build_exact fmt _ _ _ _ _ h (short_kids (i := 0) sa rfl) (short_kids (i := 0) sb rfl) (room_kids (i := 0) (j := 0) hr rfl rfl))
    · exact exact_other hc hk h hf
termination_by sizeOf a

end Verif.Lemmas.Diff
