import Verif.Spec.Comparison
import Verif.Lemmas.DiffExact
/-! # The chosen alignment; which elements are opposite each other -/
namespace Verif.Lemmas.Diff
open Verif.Model Verif.Model.Diff Verif.Spec Verif.Props

theorem least_unique {cost : Nat → Nat → Nat} {n m d d' : Nat} (h : Least cost n m d) (h' : Least cost n m d') : d = d' := by
  obtain ⟨l, hl⟩ := h.1
  obtain ⟨l', hl'⟩ := h'.1
  have := h.2 _ _ hl'
  have := h'.2 _ _ hl
  omega

theorem least_exists (cost : Nat → Nat → Nat) (n m : Nat) : ∃ d, Least cost n m d := by
  have key : ∀ k d, d ≤ k → (∃ l, Align cost n m l d) → ∃ d, Least cost n m d := by
    intro k
    induction k with
    | zero =>
      intro d hd ⟨l, hl⟩
      exact ⟨d, ⟨l, hl⟩, fun _ _ _ => by omega⟩
    | succ k ih =>
      intro d hd ⟨l, hl⟩
      by_cases h : ∃ l' d', Align cost n m l' d' ∧ d' < d
      · obtain ⟨l', d', h1, h2⟩ := h
        exact ih d' (by omega) ⟨l', h1⟩
      · exact ⟨d, ⟨l, hl⟩, fun l' d' h1 => by
          apply Classical.byContradiction
          intro h2
          exact h ⟨l', d', h1, by omega⟩⟩
  exact key _ _ (Nat.le_refl _) ⟨[], align_bound n m⟩

theorem least_cost {f g : Nat → Nat → Nat} {n m d : Nat} (h : Least f n m d) (e : ∀ i < n, ∀ j < m, f i j = g i j) : Least g n m d := by
  obtain ⟨⟨l, hl⟩, h2⟩ := h
  refine ⟨⟨l, align_cost hl e⟩, fun l' d' hl' => h2 l' d' (align_cost hl' fun i hi j hj => (e i hi j hj).symm)⟩

theorem chosen_cost {f g : Nat → Nat → Nat} {n m : Nat} {l : List (Nat × Nat)} (h : Chosen f n m l) : (∀ i < n, ∀ j < m, f i j = g i j) → Chosen g n m l := by
  induction h with
  | done => intro _; exact .done
  | aloneLeft h1 h2 _ ih =>
    intro e
    exact .aloneLeft (least_cost h1 fun i hi j hj => e i (by omega) j hj) (least_cost h2 e) (ih fun i hi j hj => e i (by omega) j hj)
  | aloneRight h0 h1 h2 _ ih =>
    intro e
    refine .aloneRight ?_ (least_cost h1 fun i hi j hj => e i hi j (by omega)) (least_cost h2 e) (ih fun i hi j hj => e i hi j (by omega))
    intro i' d' hi' hl hl'
    exact h0 i' d' hi' (least_cost hl fun i hi j hj => (e i (by omega) j hj).symm) (least_cost hl' fun i hi j hj => (e i hi j hj).symm)
  | facing h0 h1 _ ih =>
    intro e
    refine .facing ?_ ?_ (ih fun i hi j hj => e i (by omega) j (by omega))
    · intro d hl hl'
      exact h0 d (least_cost hl fun i hi j hj => (e i (by omega) j hj).symm) (least_cost hl' fun i hi j hj => (e i hi j hj).symm)
    · intro d hl hl'
      exact h1 d (least_cost hl fun i hi j hj => (e i hi j (by omega)).symm) (least_cost hl' fun i hi j hj => (e i hi j hj).symm)

theorem chosen_unique {cost : Nat → Nat → Nat} {n m : Nat} {l : List (Nat × Nat)} (h : Chosen cost n m l) : ∀ {l'}, Chosen cost n m l' → l = l' := by
  induction h with
  | done => intro l' h'; cases h'; rfl
  | aloneLeft h1 h2 _ ih =>
    intro l' h'
    cases h' with
    | aloneLeft _ _ h => exact ih h
    | aloneRight g0 _ _ _ => exact absurd h2 (g0 _ _ rfl h1)
    | facing g0 _ _ => exact absurd h2 (g0 _ h1)
  | aloneRight h0 h1 h2 _ ih =>
    intro l' h'
    cases h' with
    | aloneLeft g1 g2 _ => exact absurd g2 (h0 _ _ rfl g1)
    | aloneRight _ _ _ h => exact ih h
    | facing _ g1 _ => exact absurd h2 (g1 _ h1)
  | facing h0 h1 _ ih =>
    intro l' h'
    cases h' with
    | aloneLeft g1 g2 _ => exact absurd g2 (h0 _ g1)
    | aloneRight _ g1 g2 _ => exact absurd g2 (h1 _ g1)
    | facing _ _ h => rw [ih h]

/-- A cheapest alignment that leaves a last child alone is cheapest without it. -/
theorem least_drop {cost : Nat → Nat → Nat} {i j t : Nat} {l : List (Nat × Nat)} (h : Align cost i j l t) :
    (∀ D, Least cost (i + 1) j D → D = t + 1 → Least cost i j t) ∧ (∀ D, Least cost i (j + 1) D → D = t + 1 → Least cost i j t) := by
  constructor
  · intro D hD e
    refine ⟨⟨l, h⟩, fun l' d' h' => ?_⟩
    have := hD.2 _ _ h'.aloneLeft
    omega
  · intro D hD e
    refine ⟨⟨l, h⟩, fun l' d' h' => ?_⟩
    have := hD.2 _ _ h'.aloneRight
    omega

/-- The chosen alignment is one of the cheapest. -/
theorem chosen_align {cost : Nat → Nat → Nat} {n m : Nat} {l : List (Nat × Nat)} (h : Chosen cost n m l) : ∃ d, Align cost n m l d ∧ Least cost n m d := by
  induction h with
  | done => exact ⟨0, .done, ⟨[], .done⟩, fun _ _ _ => by omega⟩
  | @aloneLeft i j d l h1 h2 _ ih =>
    obtain ⟨d', h3, h4⟩ := ih
    cases least_unique h1 h4
    exact ⟨_, h3.aloneLeft, h2⟩
  | @aloneRight i j d l h0 h1 h2 _ ih =>
    obtain ⟨d', h3, h4⟩ := ih
    cases least_unique h1 h4
    exact ⟨_, h3.aloneRight, h2⟩
  | @facing i j l h0 h1 _ ih =>
    obtain ⟨d', h3, h4⟩ := ih
    obtain ⟨D, hD⟩ := least_exists cost (i + 1) (j + 1)
    obtain ⟨l', hl⟩ := hD.1
    cases hl with
    | aloneLeft hl => exact absurd hD (h0 _ ((least_drop hl).1 _ hD rfl))
    | aloneRight hl => exact absurd hD (h1 _ ((least_drop hl).2 _ hD rfl))
    | @facing _ _ t l'' hl =>
      have e : t = d' := by
        have g1 := h4.2 _ _ hl
        have g2 := hD.2 _ _ h3.facing
        omega
      subst e
      exact ⟨_, h3.facing, hD⟩

theorem chosen_exists (cost : Nat → Nat → Nat) (n m : Nat) : ∃ l, Chosen cost n m l := by
  have key : ∀ k n m, n + m ≤ k → ∃ l, Chosen cost n m l := by
    intro k
    induction k with
    | zero =>
      intro n m h
      obtain ⟨rfl, rfl⟩ : n = 0 ∧ m = 0 := by omega
      exact ⟨[], .done⟩
    | succ k ih =>
      intro n m h
      by_cases hL : ∃ i d, n = i + 1 ∧ Least cost i m d ∧ Least cost n m (d + 1)
      · obtain ⟨i, d, rfl, h1, h2⟩ := hL
        obtain ⟨l, hl⟩ := ih i m (by omega)
        exact ⟨l, .aloneLeft h1 h2 hl⟩
      · by_cases hR : ∃ j d, m = j + 1 ∧ Least cost n j d ∧ Least cost n m (d + 1)
        · obtain ⟨j, d, rfl, h1, h2⟩ := hR
          obtain ⟨l, hl⟩ := ih n j (by omega)
          exact ⟨l, .aloneRight (fun i' d' e g1 g2 => hL ⟨i', d', e, g1, g2⟩) h1 h2 hl⟩
        · obtain ⟨D, hD⟩ := least_exists cost n m
          obtain ⟨l', hl⟩ := hD.1
          cases hl with
          | done => exact ⟨[], .done⟩
          | aloneLeft hl => exact absurd ⟨_, _, rfl, (least_drop hl).1 _ hD rfl, hD⟩ hL
          | aloneRight hl => exact absurd ⟨_, _, rfl, (least_drop hl).2 _ hD rfl, hD⟩ hR
          | @facing i j t l'' hl =>
            obtain ⟨l, hl⟩ := ih i j (by omega)
            exact ⟨_, .facing (fun d g1 g2 => hL ⟨_, d, rfl, g1, g2⟩) (fun d g1 g2 => hR ⟨_, d, rfl, g1, g2⟩) hl⟩
  exact key _ _ _ (Nat.le_refl _)

/-- A cell holds the least cost. -/
theorem cell_least {w : Nat} (hw : w = 256 ∨ w = 65536 ∨ w = 4294967296) {cost : Nat → Nat → Nat} {n m : Nat} (h : NoWrap w cost n m) {i j : Nat} (hi : i ≤ n) (hj : j ≤ m) :
    Least cost i j (cell w cost i j) := by
  obtain ⟨s, hs⟩ := trace_some hw cost i j (fun e => by have := h.both e; omega)
  exact ⟨⟨_, trace_align h i j hi hj hs⟩, fun l d hl => cell_optimal h hl hi hj⟩

/-- The walk finds the chosen alignment. -/
theorem trace_chosen {w : Nat} (hw : w = 256 ∨ w = 65536 ∨ w = 4294967296) {cost : Nat → Nat → Nat} {n m : Nat} (h : NoWrap w cost n m) (i j : Nat) (hi : i ≤ n) (hj : j ≤ m)
    {s : List Step} (hs : trace w cost i j = some s) : Chosen cost i j (pairsOf s) := by
  fun_induction trace generalizing s with
  | case1 => simp at hs; subst hs; exact .done
  | case2 i ih =>
    simp only [Option.map_eq_some_iff] at hs
    obtain ⟨s', hs', rfl⟩ := hs
    have e : cell w cost (i + 1) 0 = cell w cost i 0 + 1 := by
      rw [cell, Nat.mod_eq_of_lt (by have := h.left; have := h.right; omega)]
      cases i with
      | zero => simp [cell]
      | succ i => rw [cell, Nat.mod_eq_of_lt (by have := h.left; have := h.right; omega)]
    exact .aloneLeft (l := pairsOf s') (cell_least hw h (by omega) hj) (e ▸ cell_least hw h hi hj) (ih (by omega) hj hs')
  | case3 j ih =>
    simp only [Option.map_eq_some_iff] at hs
    obtain ⟨s', hs', rfl⟩ := hs
    have e : cell w cost 0 (j + 1) = cell w cost 0 j + 1 := by
      rw [cell, cell, Nat.mod_eq_of_lt (by have := h.left; have := h.right; omega), Nat.mod_eq_of_lt (by have := h.left; have := h.right; omega)]
    exact .aloneRight (l := pairsOf s') (fun i' d' hi' => by cases hi') (cell_least hw h hi (by omega)) (e ▸ cell_least hw h hi hj) (ih hi (by omega) hs')
  | case4 i j hgt ih =>
    simp only [Option.map_eq_some_iff] at hs
    obtain ⟨s', hs', rfl⟩ := hs
    have := (cell_min h (i := i) (j := j) (by omega) (by omega)).1
    have e : cell w cost (i + 1) (j + 1) = cell w cost i (j + 1) + 1 := by omega
    exact .aloneLeft (l := pairsOf s') (cell_least hw h (by omega) hj) (e ▸ cell_least hw h hi hj) (ih (by omega) hj hs')
  | case5 i j hgt' hgt ih =>
    simp only [Option.map_eq_some_iff] at hs
    obtain ⟨s', hs', rfl⟩ := hs
    have := (cell_min h (i := i) (j := j) (by omega) (by omega)).1
    have e : cell w cost (i + 1) (j + 1) = cell w cost (i + 1) j + 1 := by omega
    refine .aloneRight (l := pairsOf s') ?_ (cell_least hw h hi (by omega)) (e ▸ cell_least hw h hi hj) (ih hi (by omega) hs')
    intro i' d' hi' g1 g2
    cases hi'
    have e1 := least_unique g1 (cell_least hw h (i := i) (j := j + 1) (by omega) hj)
    have e2 := least_unique g2 (cell_least hw h (i := i + 1) (j := j + 1) hi hj)
    omega
  | case6 i j g1 g2 hk ih =>
    simp only [Option.map_eq_some_iff] at hs
    obtain ⟨s', hs', rfl⟩ := hs
    have e0 := cell_least hw h (i := i + 1) (j := j + 1) hi hj
    refine .facing (l := pairsOf s') ?_ ?_ (ih (by omega) (by omega) hs')
    · intro d k1 k2
      have e1 := least_unique k1 (cell_least hw h (i := i) (j := j + 1) (by omega) hj)
      have e2 := least_unique k2 e0
      omega
    · intro d k1 k2
      have e1 := least_unique k1 (cell_least hw h (i := i + 1) (j := j) hi (by omega))
      have e2 := least_unique k2 e0
      omega
  | case7 => simp at hs

end Verif.Lemmas.Diff
