import Verif.Lemmas.Float32
/-! # `1.f - (float) d / m > 0.7f` is `d < 30% of m` -/
namespace Verif.Lemmas
open Verif.Model Verif.Model.F32

theorem seventy_eq : seventy = ⟨11744051, -24⟩ := by decide

theorem lt_seventy_k (r k : Nat) : lt seventy ⟨r, -(k : Int)⟩ = if k ≤ 24 then decide (11744051 < r * 2 ^ (24 - k)) else decide (11744051 * 2 ^ (k - 24) < r) := by
  rw [seventy_eq, lt]
  simp only
  by_cases h : k ≤ 24
  · rw [if_pos (by omega), if_pos h]
    congr 5
    omega
  · rw [if_neg (by omega), if_neg h]
    congr 4
    omega

/-- Mantissa and exponent of a quotient `d / m` with `0 < d ≤ m`. -/
theorem ratio_shape (d m : Nat) (hd : 0 < d) (hdm : d ≤ m) :
    ∃ k r : Nat, 23 ≤ k ∧ m * 2 ^ 23 ≤ d * 2 ^ k ∧ d * 2 ^ k < m * 2 ^ 24 ∧ r = roundEven (d * 2 ^ k) m ∧ ofRatio d m = ⟨r, -(k : Int)⟩ ∧
      2 ^ 23 ≤ r ∧ r ≤ 2 ^ 24 := by
  have hm : 0 < m := by omega
  obtain ⟨k, hk, h1, h2⟩ := exists_binade d m hd (by
    have : m * 1 < m * 2 ^ 23 := Nat.mul_lt_mul_of_pos_left (by decide) hm
    omega)
  refine ⟨k, _, ?_, h1, h2, rfl, ofRatio_eq d m k hd hm hk h1 h2, roundEven_ge _ _ _ hm (by rw [Nat.mul_comm]; exact h1),
    roundEven_le _ _ _ hm (by rw [Nat.mul_comm (2 ^ 24)]; exact Nat.le_of_lt h2)⟩
  refine Classical.byContradiction fun hn => ?_
  have h3 : d * 2 ^ k ≤ d * 2 ^ 22 := Nat.mul_le_mul_left _ (Nat.pow_le_pow_right (by decide) (by omega))
  have h4 : d * 2 ^ 22 ≤ m * 2 ^ 22 := Nat.mul_le_mul_right _ hdm
  omega

theorem roundEven_one (p q : Nat) (hq : 0 < q) (h : p = q * (p / q)) : roundEven p q = p / q := by
  unfold roundEven
  have : p % q = 0 := by have := Nat.div_add_mod p q; omega
  rw [this, if_neg (by omega)]

theorem half_small (y K : Nat) (hy : 0 < y) (hyK : 2 * y ≤ K) : lt seventy (ofRatio y K) = false := by
  obtain ⟨k, r, hk, h1, h2, hr, e, hr1, hr2⟩ := ratio_shape y K hy (by omega)
  have hk2 : 24 ≤ k := by
    refine Classical.byContradiction fun hn => ?_
    have : k = 23 := by omega
    subst this
    omega
  rw [e, lt_seventy_k]
  split
  · rename_i h
    have : k = 24 := by omega
    subst this
    have : r ≤ 2 ^ 23 := by rw [hr]; exact roundEven_le _ _ _ (by omega) (by rw [Nat.mul_comm y]; omega)
    simp
    omega
  · have : 2 ^ 1 ≤ 2 ^ (k - 24) := Nat.pow_le_pow_right (by decide) (by omega)
    generalize 2 ^ (k - 24) = z at *
    simp
    omega

theorem b25 (y K r : Nat) (hK : K = 2 ^ 25) (hy : y = K - r) (hr1 : 2 ^ 23 ≤ r) (hr2 : r ≤ 2 ^ 24) :
    0 < y ∧ 0 < K ∧ K * 2 ^ 23 ≤ y * 2 ^ 24 ∧ y * 2 ^ 24 < K * 2 ^ 24 := by omega

theorem b26 (y K r : Nat) (hK : 2 ^ 26 ≤ K) (hy : y = K - r) (hr1 : 2 ^ 23 ≤ r) (hr2 : r ≤ 2 ^ 24) :
    0 < y ∧ 0 < K ∧ K * 2 ^ 23 ≤ y * 2 ^ 24 ∧ y * 2 ^ 24 < K * 2 ^ 24 ∧ 12582912 * K ≤ y * 2 ^ 24 := by omega

theorem b24 (y K r : Nat) (hr : 2 ^ 23 ≤ r) (hK : K ≤ 2 ^ 47) (hy : y = K - r) : y * 2 ^ 24 ≤ (2 ^ 24 - 1) * K := by omega

theorem percent_iff (d m : Nat) (hdm : d ≤ m) (hm : 0 < m) (hmax : m < 2 ^ 24) :
    lt seventy (oneSub (ofRatio d m)) = decide (10 * d < 3 * m) := by
  by_cases hd : d = 0
  · subst hd
    have : lt seventy (oneSub (ofRatio 0 m)) = true := by
      simp only [ofRatio, if_pos]
      decide
    rw [this]
    simp
    omega
  · obtain ⟨k, r, hk, h1, h2, hr, e, hr1, hr2⟩ := ratio_shape d m (by omega) hdm
    rw [e, oneSub]
    rw [if_neg (by simp; omega)]
    simp only [Int.neg_neg, Int.toNat_natCast]
    rcases (by omega : k = 23 ∨ k = 24 ∨ k = 25 ∨ 26 ≤ k) with rfl | rfl | rfl | h26
    · have : 2 ^ 23 - r = 0 := by omega
      rw [this]
      have : lt seventy (ofRatio 0 (2 ^ 23)) = false := by decide
      rw [this]
      simp
      omega
    · have hf : lt seventy (ofRatio (2 ^ 24 - r) (2 ^ 24)) = false := by
        by_cases h0 : r = 2 ^ 24
        · subst h0; decide
        · exact half_small _ _ (by omega) (by omega)
      rw [hf]
      simp
      omega
    · obtain ⟨y, hy⟩ : ∃ y, y = 2 ^ 25 - r := ⟨_, rfl⟩
      rw [← hy]
      obtain ⟨K, hK⟩ : ∃ K, K = 2 ^ 25 := ⟨_, rfl⟩
      rw [← hK] at hy ⊢
      obtain ⟨b1, b2, b3, b4⟩ := b25 y K r hK hy hr1 hr2
      have hE := ofRatio_eq y K 24 b1 b2 (by decide) b3 b4
      rw [hE, lt_seventy_k, if_pos (by decide)]
      simp only [Nat.sub_self, Nat.pow_zero, Nat.mul_one]
      rw [decide_eq_decide, roundEven_lt_iff_odd _ _ _ (by omega) (by decide)]
      have h5 := roundEven_lt_iff_odd (d * 2 ^ 25) m 10066329 hm (by decide)
      rw [← hr] at h5
      constructor
      · intro h6
        have h7 : ¬ 10066329 < r := by omega
        rw [h5] at h7
        omega
      · intro h6
        have h7 : ¬ 10066329 < r := by rw [h5]; omega
        omega
    · have hK : 2 ^ 26 ≤ 2 ^ k := Nat.pow_le_pow_right (by decide) h26
      have hdK : d * 2 ^ 26 ≤ d * 2 ^ k := Nat.mul_le_mul_left _ hK
      generalize 2 ^ k = K at *
      obtain ⟨y, hy⟩ : ∃ y, y = K - r := ⟨_, rfl⟩
      rw [← hy]
      obtain ⟨b1, b2, b3, b4, b5⟩ := b26 y K r hK hy hr1 hr2
      have hE := ofRatio_eq y K 24 b1 b2 (by decide) b3 b4
      rw [hE, lt_seventy_k, if_pos (by decide)]
      have hge : 12582912 ≤ roundEven (y * 2 ^ 24) K := roundEven_ge _ _ _ b2 b5
      simp only [Nat.sub_self, Nat.pow_zero, Nat.mul_one]
      rw [decide_eq_decide]
      constructor
      · intro _; omega
      · intro _; omega

/-- The quotient is 1 exactly when the distance is 0. -/
theorem percent_one (d m : Nat) (hdm : d ≤ m) (hm : 0 < m) (hmax : m < 2 ^ 24) (hd : 0 < d) : lt (oneSub (ofRatio d m)) one = true := by
  obtain ⟨k, r, hk, h1, h2, hr, e, hr1, hr2⟩ := ratio_shape d m hd hdm
  rw [e, oneSub, if_neg (by simp; omega)]
  simp only [Int.neg_neg, Int.toNat_natCast]
  have hk2 : k ≤ 47 := by
    refine Classical.byContradiction fun hn => ?_
    have h3 : 2 ^ 48 ≤ 2 ^ k := Nat.pow_le_pow_right (by decide) (by omega)
    have h4 : d * 2 ^ 48 ≤ d * 2 ^ k := Nat.mul_le_mul_left _ h3
    omega
  have hrK : r ≤ 2 ^ k := by
    rw [hr]
    refine roundEven_le _ _ _ hm ?_
    rw [Nat.mul_comm (2 ^ k) m]
    exact Nat.mul_le_mul_right _ hdm
  have hgen : ∀ K, K ≤ 2 ^ 47 → r ≤ K → lt (ofRatio (K - r) K) one = true := by
    intro K hKK hrK
    by_cases h0 : K - r = 0
    · rw [h0]; simp only [ofRatio, if_pos]; decide
    · obtain ⟨k', r', hk', h1', h2', hr', e', hr1', hr2'⟩ := ratio_shape (K - r) K (by omega) (by omega)
      rw [e', lt, one]
      simp only
      rw [if_pos (by omega)]
      simp
      have hk24 : 24 ≤ k' := by
        refine Classical.byContradiction fun hn => ?_
        have : k' = 23 := by omega
        subst this
        omega
      rcases Nat.lt_or_ge 24 k' with h | h
      · have : 2 ^ 25 ≤ 2 ^ k' := Nat.pow_le_pow_right (by decide) h
        omega
      · have : k' = 24 := by omega
        subst this
        have : r' ≤ 2 ^ 24 - 1 := by
          rw [hr']
          exact roundEven_le _ _ _ (by omega) (b24 _ K r hr1 hKK rfl)
        omega
  have h47 : 2 ^ k ≤ 2 ^ 47 := Nat.pow_le_pow_right (by decide) hk2
  generalize 2 ^ k = K at *
  exact hgen K h47 hrK

theorem oneSub_le_one (d m : Nat) (hdm : d ≤ m) : lt one (oneSub (ofRatio d m)) = false := by
  by_cases hd : d = 0
  · subst hd
    simp only [ofRatio, if_pos]
    decide
  · obtain ⟨k, r, hk, h1, h2, hr, e, hr1, hr2⟩ := ratio_shape d m (by omega) hdm
    rw [e, oneSub, if_neg (by simp; omega)]
    simp only [Int.neg_neg, Int.toNat_natCast]
    generalize 2 ^ k = K
    by_cases h0 : K - r = 0
    · rw [h0]; simp only [ofRatio, if_pos]; decide
    · obtain ⟨k', r', hk', h1', h2', hr', e', hr1', hr2'⟩ := ratio_shape (K - r) K (by omega) (by omega)
      rw [e', lt, one]
      simp only
      rw [if_neg (by omega)]
      simp
      rw [hr']
      refine roundEven_le _ _ _ (by omega) ?_
      rw [Nat.mul_comm (2 ^ k') K]
      exact Nat.mul_le_mul_right _ (by omega)

end Verif.Lemmas
