import Verif.Props.Inserted
import Verif.Spec.Edited
/-! # The alignment when one child has moved -/
namespace Verif.Props
open Verif.Model Verif.Model.Diff Verif.Spec Verif.Lemmas.Diff

theorem align_gap {cost : Nat → Nat → Nat} {n m d : Nat} {l : List (Nat × Nat)} (h : Align cost n m l d) : ∀ i < n, (∀ j, (i, j) ∉ l) → l.length + 1 ≤ n := by
  induction h with
  | done => intro i hi; omega
  | aloneLeft h _ => intro i _ _; have := (align_total h).2; omega
  | aloneRight _ ih => exact ih
  | @facing i j t l _ ih =>
    intro i' hi' hno
    have h1 : i' ≠ i := by rintro rfl; exact hno j (List.mem_cons_self ..)
    have := ih i' (by omega) fun j' hj' => hno j' (List.mem_cons_of_mem _ hj')
    simp only [List.length_cons]; omega

theorem align_gaps {cost : Nat → Nat → Nat} {n m d : Nat} {l : List (Nat × Nat)} (h : Align cost n m l d) :
    ∀ i i', i < i' → i' < n → (∀ j, (i, j) ∉ l) → (∀ j, (i', j) ∉ l) → l.length + 2 ≤ n := by
  induction h with
  | done => intro i i' _ hi; omega
  | @aloneLeft n m t l h ih =>
    intro i i' h1 h2 h3 h4
    have := align_gap h i (by omega) h3
    omega
  | aloneRight _ ih => exact ih
  | @facing i j t l _ ih =>
    intro k k' h1 h2 h3 h4
    have e : k' ≠ i := by rintro rfl; exact h4 j (List.mem_cons_self ..)
    have := ih k k' h1 (by omega) (fun j' hj' => h3 j' (List.mem_cons_of_mem _ hj')) fun j' hj' => h4 j' (List.mem_cons_of_mem _ hj')
    simp only [List.length_cons]; omega

theorem align_skew {cost : Nat → Nat → Nat} {n m d : Nat} {l : List (Nat × Nat)} (h : Align cost n m l d) : ∀ i j, (i, j) ∈ l → l.length ≤ min i j + 1 + min (n - 1 - i) (m - 1 - j) := by
  induction h with
  | done => intro i j h; cases h
  | aloneLeft h ih =>
    intro i j hm
    have := ih i j hm
    have := align_total h
    have := align_range h hm
    omega
  | aloneRight h ih =>
    intro i j hm
    have := ih i j hm
    have := align_total h
    have := align_range h hm
    omega
  | @facing i j t l h ih =>
    intro i' j' hm
    have g := align_total h
    rw [List.mem_cons] at hm
    rcases hm with e | hm
    · cases e; simp only [List.length_cons]; omega
    · have := ih i' j' hm
      have := align_range h hm
      simp only [List.length_cons]; omega

theorem align_diagonal3 {cost : Nat → Nat → Nat} {n m d u : Nat} {l : List (Nat × Nat)} (h : Align cost n m l d) : n = m → l.length = n → (∀ i, u ≤ i → i ≤ u + 2 → 1 ≤ cost i i) → min 3 (n - u) ≤ d := by
  induction h with
  | done => intro _ _ _; omega
  | aloneLeft h _ => intro _ e; have := (align_total h).2; omega
  | aloneRight h _ => intro e1 e2; have := (align_total h).2; omega
  | @facing i j t l h ih =>
    intro e1 e2 h1
    obtain rfl : i = j := by omega
    have := ih rfl (by simpa using e2) h1
    by_cases hi : u ≤ i ∧ i ≤ u + 2
    · have := h1 i hi.1 hi.2; omega
    · omega

theorem align_run {cost : Nat → Nat → Nat} {i j d : Nat} {l : List (Nat × Nat)} (h : Align cost i j l d) : ∀ m, (∀ k < m, cost (i + k) (j + k) = 0) → ∃ l', Align cost (i + m) (j + m) l' d
  | 0, _ => ⟨l, h⟩
  | m + 1, h0 => by
    obtain ⟨l', hl'⟩ := align_run h m fun k hk => h0 k (by omega)
    have := hl'.facing
    rw [h0 m (by omega)] at this
    exact ⟨_, this⟩

theorem beyond_cases (s k : Nat) : (k < s ∧ beyond s k = k) ∨ (s ≤ k ∧ beyond s k = k + 1) := by
  unfold beyond; split <;> omega

/-- One way to align the children: leave the moved one alone. -/
theorem moved_two {cost : Nat → Nat → Nat} {n s t : Nat} (hs : s < n) (ht : t < n) (h0 : ∀ k, k + 1 < n → cost (beyond s k) (beyond t k) = 0) : ∃ l, Align cost n n l 2 := by
  obtain ⟨l1, h1⟩ := align_run (cost := cost) .done (min s t) fun k hk => by
    have := h0 k (by omega)
    rcases beyond_cases s k with g | g <;> rcases beyond_cases t k with g' | g' <;> first | omega | skip
    rw [g.2, g'.2] at this; simpa using this
  simp only [Nat.zero_add] at h1
  rcases Nat.lt_trichotomy s t with hst | hst | hst
  · rw [Nat.min_eq_left (by omega)] at h1
    obtain ⟨l2, h2⟩ := align_run h1.aloneLeft (t - s) fun k hk => by
      have := h0 (s + k) (by omega)
      rcases beyond_cases s (s + k) with g | g <;> rcases beyond_cases t (s + k) with g' | g' <;> first | omega | skip
      rw [g.2, g'.2] at this; rw [← this]; congr 1; omega
    rw [show s + (t - s) = t by omega, show s + 1 + (t - s) = t + 1 by omega] at h2
    obtain ⟨l3, h3⟩ := align_run h2.aloneRight (n - (t + 1)) fun k hk => by
      have := h0 (t + k) (by omega)
      rcases beyond_cases s (t + k) with g | g <;> rcases beyond_cases t (t + k) with g' | g' <;> first | omega | skip
      rw [g.2, g'.2] at this; rw [← this]; congr 1 <;> omega
    rw [show t + 1 + (n - (t + 1)) = n by omega] at h3
    exact ⟨l3, h3⟩
  · subst hst
    rw [Nat.min_eq_left (by omega)] at h1
    obtain ⟨l3, h3⟩ := align_run h1.aloneLeft.aloneRight (n - (s + 1)) fun k hk => by
      have := h0 (s + k) (by omega)
      rcases beyond_cases s (s + k) with g | g <;> first | omega | skip
      rw [g.2] at this; rw [← this]; congr 1 <;> omega
    rw [show s + 1 + (n - (s + 1)) = n by omega] at h3
    exact ⟨l3, h3⟩
  · rw [Nat.min_eq_right (by omega)] at h1
    obtain ⟨l2, h2⟩ := align_run h1.aloneRight (s - t) fun k hk => by
      have := h0 (t + k) (by omega)
      rcases beyond_cases s (t + k) with g | g <;> rcases beyond_cases t (t + k) with g' | g' <;> first | omega | skip
      rw [g.2, g'.2] at this; rw [← this]; congr 1; omega
    rw [show t + (s - t) = s by omega, show t + 1 + (s - t) = s + 1 by omega] at h2
    obtain ⟨l3, h3⟩ := align_run h2.aloneLeft (n - (s + 1)) fun k hk => by
      have := h0 (s + k) (by omega)
      rcases beyond_cases s (s + k) with g | g <;> rcases beyond_cases t (s + k) with g' | g' <;> first | omega | skip
      rw [g.2, g'.2] at this; rw [← this]; congr 1 <;> omega
    rw [show s + 1 + (n - (s + 1)) = n by omega] at h3
    exact ⟨l3, h3⟩

/-- It is the only one, if it moved by two places at least and different children do not resemble each other. -/
theorem align_moved {cost : Nat → Nat → Nat} {n s t : Nat} (hs : s < n) (ht : t < n) (hst : s + 2 ≤ t ∨ t + 2 ≤ s)
    (hne : ∀ i < n, ∀ j < n, (∀ k, k + 1 < n → ¬ (i = beyond s k ∧ j = beyond t k)) → ¬ (i = s ∧ j = t) → cost i j ≠ 0) {l : List (Nat × Nat)} {d : Nat} (hl : Align cost n n l d) (hd : d ≤ 2) (i j : Nat) :
    (i, j) ∈ l ↔ ∃ k, k + 1 < n ∧ i = beyond s k ∧ j = beyond t k := by
  obtain ⟨t1, t2, t3⟩ := align_total hl
  have n1 : l.length ≠ n := by
    intro e
    have hdiag : ∀ i, min s t ≤ i → i ≤ min s t + 2 → 1 ≤ cost i i := by
      intro i h1 h2
      refine Nat.one_le_iff_ne_zero.mpr (hne i (by omega) i (by omega) ?_ (by omega))
      rintro k hk ⟨e1, e2⟩
      rcases beyond_cases s k with g | g <;> rcases beyond_cases t k with g' | g' <;> omega
    have := align_diagonal3 hl rfl e hdiag
    omega
  have n2 : l.length + 1 = n := by omega
  have e2 : (l.map fun e => cost e.1 e.2).sum = 0 := by omega
  have zero : ∀ i j, (i, j) ∈ l → cost i j = 0 := fun i j he => List.sum_eq_zero_iff_forall_eq_nat.mp e2 _ (List.mem_map.mpr ⟨_, he, rfl⟩)
  have only : ∀ i j, (i, j) ∈ l → ∃ k, k + 1 < n ∧ i = beyond s k ∧ j = beyond t k := by
    intro i j hm
    apply Classical.byContradiction
    intro hno
    obtain ⟨r1, r2⟩ := align_range hl hm
    refine hne i r1 j r2 (fun k hk h => hno ⟨k, hk, h⟩) ?_ (zero i j hm)
    rintro ⟨rfl, rfl⟩
    have := align_skew hl i j hm
    omega
  refine ⟨only i j, ?_⟩
  rintro ⟨k, hk, rfl, rfl⟩
  have g1 : ∀ j, (s, j) ∉ l := by
    intro j hm
    obtain ⟨k, _, e, _⟩ := only s j hm
    rcases beyond_cases s k with g | g <;> omega
  have g2 : ∃ j, (beyond s k, j) ∈ l := by
    apply Classical.byContradiction
    intro hno
    have hno' : ∀ j, (beyond s k, j) ∉ l := fun j hj => hno ⟨j, hj⟩
    rcases beyond_cases s k with g | g
    · have := align_gaps hl _ _ (show beyond s k < s by omega) hs hno' g1; omega
    · have := align_gaps hl _ _ (show s < beyond s k by omega) (by omega) g1 hno'; omega
  obtain ⟨j, hj⟩ := g2
  obtain ⟨k', _, e1, e2⟩ := only _ j hj
  have : k' = k := by rcases beyond_cases s k with g | g <;> rcases beyond_cases s k' with g' | g' <;> omega
  subst this
  rw [e2] at hj
  exact hj

end Verif.Props
