import Verif.Lemmas.DiffMoved
/-! # The alignment when two neighbours have changed places -/
namespace Verif.Props
open Verif.Model Verif.Model.Diff Verif.Spec Verif.Lemmas.Diff

theorem align_ordered {cost : Nat → Nat → Nat} {n m d : Nat} {l : List (Nat × Nat)} (h : Align cost n m l d) : ∀ i j i' j', (i, j) ∈ l → (i', j') ∈ l → i < i' → j < j' := by
  induction h with
  | done => intro i j i' j' h; cases h
  | aloneLeft _ ih => exact ih
  | aloneRight _ ih => exact ih
  | @facing n m t l h ih =>
    intro i j i' j' h1 h2 hlt
    rw [List.mem_cons] at h1 h2
    rcases h1 with e | h1 <;> rcases h2 with e' | h2
    · cases e; cases e'; omega
    · cases e; have := align_range h h2; omega
    · cases e'; exact (align_range h h1).2
    · exact ih i j i' j' h1 h2 hlt

/-- What costs nothing when the children number `s` and `s + 1` have changed places. -/
structure Swapped (cost : Nat → Nat → Nat) (n s : Nat) : Prop where
  range : s + 1 < n
  other : ∀ i < n, i ≠ s → i ≠ s + 1 → cost i i = 0
  first : cost s (s + 1) = 0
  only : ∀ i < n, ∀ j < n, cost i j = 0 → (i = j ∧ i ≠ s ∧ i ≠ s + 1) ∨ (i = s ∧ j = s + 1) ∨ (i = s + 1 ∧ j = s)

theorem Swapped.less {cost : Nat → Nat → Nat} {n s m : Nat} (h : Swapped cost n s) (h1 : s + 1 < m) (h2 : m ≤ n) : Swapped cost m s :=
  ⟨h1, fun i hi => h.other i (by omega), h.first, fun i hi j hj => h.only i (by omega) j (by omega)⟩

theorem swapped_short {cost : Nat → Nat → Nat} {n s i j d : Nat} {l : List (Nat × Nat)} (h : Swapped cost n s) (hl : Align cost i j l d) (hd : d ≤ 1) (hij : i + 1 = j) (hi : s + 1 < i) (hj : j ≤ n) : False := by
  obtain ⟨t1, t2, t3⟩ := align_total hl
  have e1 : l.length = i := by omega
  have e2 : (l.map fun e => cost e.1 e.2).sum = 0 := by omega
  have zero : ∀ i j, (i, j) ∈ l → cost i j = 0 := fun i j he => List.sum_eq_zero_iff_forall_eq_nat.mp e2 _ (List.mem_map.mpr ⟨_, he, rfl⟩)
  obtain ⟨p, hp⟩ := align_covers hl e1 s (by omega)
  obtain ⟨q, hq⟩ := align_covers hl e1 (s + 1) hi
  have r1 := align_range hl hp
  have r2 := align_range hl hq
  have := align_ordered hl _ _ _ _ hp hq (by omega)
  have g1 := h.only s (by omega) p (by omega) (zero _ _ hp)
  have g2 := h.only (s + 1) (by omega) q (by omega) (zero _ _ hq)
  omega

theorem swapped_short' {cost : Nat → Nat → Nat} {n s i j d : Nat} {l : List (Nat × Nat)} (h : Swapped cost n s) (hl : Align cost i j l d) (hd : d ≤ 1) (hij : j + 1 = i) (hj : s + 1 < j) (hi : i ≤ n) : False := by
  obtain ⟨t1, t2, t3⟩ := align_total (align_swap hl)
  have hl' := align_swap hl
  have e1 : (l.map fun e => (e.2, e.1)).length = j := by omega
  rw [List.length_map] at e1
  obtain ⟨t1, t2, t3⟩ := align_total hl
  have e2 : (l.map fun e => cost e.1 e.2).sum = 0 := by omega
  have zero : ∀ i j, (i, j) ∈ l → cost i j = 0 := fun i j he => List.sum_eq_zero_iff_forall_eq_nat.mp e2 _ (List.mem_map.mpr ⟨_, he, rfl⟩)
  obtain ⟨p, hp⟩ := align_covers hl' (by rw [List.length_map]; exact e1) s (by omega)
  obtain ⟨q, hq⟩ := align_covers hl' (by rw [List.length_map]; exact e1) (s + 1) hj
  have := align_ordered hl' _ _ _ _ hp hq (by omega)
  rw [mem_swap] at hp hq
  have r1 := align_range hl hp
  have r2 := align_range hl hq
  have g1 := h.only p (by omega) s (by omega) (zero _ _ hp)
  have g2 := h.only q (by omega) (s + 1) (by omega) (zero _ _ hq)
  omega

theorem align_diagonal2 {cost : Nat → Nat → Nat} {n m d u : Nat} {l : List (Nat × Nat)} (h : Align cost n m l d) : n = m → l.length = n → (∀ i, u ≤ i → i ≤ u + 1 → 1 ≤ cost i i) → min 2 (n - u) ≤ d := by
  induction h with
  | done => intro _ _ _; omega
  | aloneLeft h _ => intro _ e; have := (align_total h).2; omega
  | aloneRight h _ => intro e1 e2; have := (align_total h).2; omega
  | @facing i j t l h ih =>
    intro e1 e2 h1
    obtain rfl : i = j := by omega
    have := ih rfl (by simpa using e2) h1
    by_cases hi : u ≤ i ∧ i ≤ u + 1
    · have := h1 i hi.1 hi.2; omega
    · omega

theorem swapped_least {cost : Nat → Nat → Nat} {n s : Nat} (h : Swapped cost n s) : Least cost n n 2 := by
  have hr := h.range
  refine ⟨moved_two (s := s + 1) (t := s) hr (by omega) fun k hk => ?_, fun l d hl => ?_⟩
  · rcases Nat.lt_trichotomy k s with g | g | g
    · have := h.other k (by omega) (by omega) (by omega)
      rcases beyond_cases (s + 1) k with g1 | g1 <;> rcases beyond_cases s k with g2 | g2 <;> first | omega | skip
      rw [g1.2, g2.2]; exact this
    · subst g
      have := h.first
      rcases beyond_cases (k + 1) k with g1 | g1 <;> rcases beyond_cases k k with g2 | g2 <;> first | omega | skip
      rw [g1.2, g2.2]; exact this
    · have := h.other (k + 1) (by omega) (by omega) (by omega)
      rcases beyond_cases (s + 1) k with g1 | g1 <;> rcases beyond_cases s k with g2 | g2 <;> first | omega | skip
      rw [g1.2, g2.2]; exact this
  · obtain ⟨t1, t2, t3⟩ := align_total hl
    by_cases e : l.length = n
    · have := align_diagonal2 (u := s) hl rfl e fun i h1 h2 => Nat.one_le_iff_ne_zero.mpr fun e => by
        have := h.only i (by omega) i (by omega) e
        omega
      omega
    · omega

theorem swapped_chosen {cost : Nat → Nat → Nat} {s : Nat} : ∀ m, Swapped cost (s + 2 + m) s → ∃ l, Chosen cost (s + 2 + m) (s + 2 + m) l ∧ ∀ i j, (i, j) ∈ l ↔ ∃ k, k + 1 < s + 2 + m ∧ i = beyond (s + 1) k ∧ j = beyond s k
  | 0, h => by
    have mono : ∀ i j, i < j → beyond s i < beyond s j := fun i j hij => by rcases beyond_cases s i with g | g <;> rcases beyond_cases s j with g' | g' <;> omega
    obtain ⟨l0, hl0, -⟩ := align_inserts (cost := cost) (f := beyond s) mono (s + 1) (s + 2) (fun i hi => by rcases beyond_cases s i with g | g <;> omega) fun i hi => by
      by_cases e : i = s
      · subst e
        rcases beyond_cases i i with g | g <;> first | omega | skip
        rw [g.2]; exact h.first
      · rcases beyond_cases s i with g | g <;> first | omega | skip
        rw [g.2]; exact h.other i (by omega) e (by omega)
    obtain ⟨l, hl⟩ := chosen_exists cost (s + 1) (s + 2)
    obtain ⟨d, g1, g2⟩ := chosen_align hl
    have hd := g2.2 _ _ hl0
    have hd' := (align_difference g1).1
    obtain rfl : d = 1 := by omega
    refine ⟨l, .aloneLeft g2 (swapped_least h) hl, fun i j => ?_⟩
    rw [align_inserted (f := beyond s) mono (fun i hi j hj hno e => ?_) g1 hd (by omega)]
    · constructor
      · rintro ⟨hi, rfl⟩
        exact ⟨i, by omega, by rcases beyond_cases (s + 1) i with g | g <;> omega, rfl⟩
      · rintro ⟨k, hk, rfl, rfl⟩
        have : beyond (s + 1) k = k := by rcases beyond_cases (s + 1) k with g | g <;> omega
        rw [this]
        exact ⟨by omega, rfl⟩
    · have := h.only i (by omega) j (by omega) e
      rcases this with ⟨rfl, h1, h2⟩ | ⟨rfl, rfl⟩ | ⟨rfl, rfl⟩
      · refine hno i hi ?_
        rcases beyond_cases s i with g | g <;> omega
      · refine hno i hi ?_
        rcases beyond_cases i i with g | g <;> omega
      · omega
  | m + 1, h => by
    obtain ⟨l, hl, hi⟩ := swapped_chosen m (h.less (by omega) (by omega))
    have h2 := swapped_least h
    refine ⟨(s + 2 + m, s + 2 + m) :: l, .facing (fun d (h3 : Least cost (s + 2 + m) (s + 2 + m + 1) d) h4 => ?_) (fun d (h3 : Least cost (s + 2 + m + 1) (s + 2 + m) d) h4 => ?_) hl, fun i j => ?_⟩
    · cases least_unique h4 h2
      obtain ⟨l', hl'⟩ := h3.1
      exact swapped_short h hl' (by omega) rfl (by omega) (by omega)
    · cases least_unique h4 h2
      obtain ⟨l', hl'⟩ := h3.1
      exact swapped_short' h hl' (by omega) rfl (by omega) (by omega)
    · rw [List.mem_cons, hi]
      constructor
      · rintro (e | ⟨k, hk, e1, e2⟩)
        · cases e
          refine ⟨s + 1 + m, by omega, ?_, ?_⟩
          · rcases beyond_cases (s + 1) (s + 1 + m) with g | g <;> omega
          · rcases beyond_cases s (s + 1 + m) with g | g <;> omega
        · exact ⟨k, by omega, e1, e2⟩
      · rintro ⟨k, hk, rfl, rfl⟩
        by_cases e : k = s + 1 + m
        · subst e
          left
          congr 1
          · rcases beyond_cases (s + 1) (s + 1 + m) with g | g <;> omega
          · rcases beyond_cases s (s + 1 + m) with g | g <;> omega
        · exact .inr ⟨k, by omega, rfl, rfl⟩

end Verif.Props
