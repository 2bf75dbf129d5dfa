import Verif.Model.Float32
/-! # Rounding facts -/
namespace Verif.Lemmas
open Verif.Model Verif.Model.F32

theorem pow_split (a b : Nat) (h : a ≤ b) : 2 ^ b = 2 ^ a * 2 ^ (b - a) := by rw [← Nat.pow_add]; congr 1; omega

theorem scaled_neg (p q k : Nat) (hk : 0 < k) : scaled p q (-(k : Int)) = (p * 2 ^ k, q) := by
  unfold scaled; rw [if_neg (by omega)]; simp

/-- The exponent of a float below 1 is determined by the binade. -/
theorem ofRatio_eq (p q k : Nat) (hp : 0 < p) (hq : 0 < q) (hk : 0 < k) (h1 : q * 2 ^ 23 ≤ p * 2 ^ k) (h2 : p * 2 ^ k < q * 2 ^ 24) :
    ofRatio p q = ⟨roundEven (p * 2 ^ k) q, -(k : Int)⟩ := by
  have hlp := Nat.log2_self_le (n := p) (by omega)
  have hlp' := Nat.lt_log2_self (n := p)
  have hlq := Nat.log2_self_le (n := q) (by omega)
  have hlq' := Nat.lt_log2_self (n := q)
  unfold ofRatio
  rw [if_neg (by omega)]
  generalize ha : Nat.log2 p = a at *
  generalize hb : Nat.log2 q = b at *
  -- 2^(b+23) ≤ q 2^23 ≤ p 2^k < 2^(a+1+k), and 2^(a+k) ≤ p 2^k < q 2^24 < 2^(b+1+24)
  have g1 : b + 23 < a + 1 + k := by
    have : 2 ^ (b + 23) < 2 ^ (a + 1 + k) := by
      rw [Nat.pow_add 2 b, Nat.pow_add 2 (a + 1)]
      calc 2 ^ b * 2 ^ 23 ≤ q * 2 ^ 23 := Nat.mul_le_mul_right _ hlq
        _ ≤ p * 2 ^ k := h1
        _ < 2 ^ (a + 1) * 2 ^ k := Nat.mul_lt_mul_of_pos_right hlp' (Nat.pow_pos (by decide))
    exact (Nat.pow_lt_pow_iff_right (by decide)).mp this
  have g2 : a + k < b + 1 + 24 := by
    have : 2 ^ (a + k) < 2 ^ (b + 1 + 24) := by
      rw [Nat.pow_add 2 a, Nat.pow_add 2 (b + 1)]
      calc 2 ^ a * 2 ^ k ≤ p * 2 ^ k := Nat.mul_le_mul_right _ hlp
        _ < q * 2 ^ 24 := h2
        _ ≤ 2 ^ (b + 1) * 2 ^ 24 := Nat.mul_le_mul_right _ (Nat.le_of_lt hlq')
    exact (Nat.pow_lt_pow_iff_right (by decide)).mp this
  -- the exponent chosen is -k
  have key : (if (scaled p q ((a : Int) - b - 23)).1 < (scaled p q ((a : Int) - b - 23)).2 * 2 ^ 23 then (a : Int) - b - 23 - 1 else (a : Int) - b - 23) = -(k : Int) := by
    rcases (by omega : k + a = b + 23 ∨ k + a = b + 24) with h | h
    · -- exponent -k directly
      have he : (a : Int) - b - 23 = -(k : Int) := by omega
      rw [he]
      rw [scaled_neg p q k hk, if_neg (by simp only; omega)]
    · have he : (a : Int) - b - 23 = -(k : Int) + 1 := by omega
      rw [he]
      rw [if_pos]
      · omega
      · by_cases hk1 : k = 1
        · subst hk1
          have hs : scaled p q (-((1 : Nat) : Int) + 1) = (p, q * 2 ^ 0) := by
            unfold scaled; rw [if_pos (by decide)]; rfl
          rw [hs]; simp only; omega
        · have hs : scaled p q (-(k : Int) + 1) = (p * 2 ^ (k - 1), q) := by
            unfold scaled; rw [if_neg (by omega)]
            congr 3; omega
          rw [hs]; simp only
          have : p * 2 ^ k = p * 2 ^ (k - 1) * 2 := by rw [Nat.mul_assoc, ← Nat.pow_succ]; congr 2; omega
          omega
  simp only [key]
  rw [scaled_neg p q k hk]

theorem exists_binade (p q : Nat) (hp : 0 < p) (hpq : p < q * 2 ^ 23) :
    ∃ k, 0 < k ∧ q * 2 ^ 23 ≤ p * 2 ^ k ∧ p * 2 ^ k < q * 2 ^ 24 := by
  have : ∀ n, p < q * 2 ^ 23 → q * 2 ^ 23 ≤ p * 2 ^ n → ∃ k, 0 < k ∧ q * 2 ^ 23 ≤ p * 2 ^ k ∧ p * 2 ^ k < q * 2 ^ 24 := by
    intro n
    induction n with
    | zero => intro h1 h2; simp only [Nat.pow_zero, Nat.mul_one] at h2; omega
    | succ n ih =>
      intro h1 h2
      by_cases h : q * 2 ^ 23 ≤ p * 2 ^ n
      · exact ih h1 h
      · refine ⟨n + 1, by omega, h2, ?_⟩
        have : p * 2 ^ (n + 1) = p * 2 ^ n * 2 := by rw [Nat.pow_succ, Nat.mul_assoc]
        omega
  refine this (q * 2 ^ 23) hpq ?_
  have h1 : q * 2 ^ 23 < 2 ^ (q * 2 ^ 23) := Nat.lt_two_pow_self
  calc q * 2 ^ 23 ≤ 2 ^ (q * 2 ^ 23) := Nat.le_of_lt h1
    _ = 1 * 2 ^ (q * 2 ^ 23) := (Nat.one_mul _).symm
    _ ≤ p * 2 ^ (q * 2 ^ 23) := Nat.mul_le_mul_right _ hp

theorem roundEven_ge (p q c : Nat) (hq : 0 < q) (h : c * q ≤ p) : c ≤ roundEven p q := by
  unfold roundEven
  have : c ≤ p / q := (Nat.le_div_iff_mul_le hq).mpr h
  split <;> omega

theorem roundEven_le (p q c : Nat) (hq : 0 < q) (h : p ≤ c * q) : roundEven p q ≤ c := by
  unfold roundEven
  have h2 : p / q ≤ c := by
    have := Nat.div_le_div_right (c := q) h
    rwa [Nat.mul_div_cancel _ hq] at this
  have h3 := Nat.div_add_mod p q
  split
  · rename_i hc
    refine Classical.byContradiction fun hn => ?_
    have he : p / q = c := by omega
    rw [he] at h3
    have : q * c = c * q := Nat.mul_comm _ _
    have : p % q = 0 := by omega
    omega
  · exact h2

/-- `roundEven p q` reaches `c + 1` exactly from the middle on (from just above it when `c` is even). -/
theorem roundEven_lt_iff (p q c : Nat) (hq : 0 < q) (hc : c % 2 = 0) : c < roundEven p q ↔ (2 * c + 1) * q < 2 * p := by
  unfold roundEven
  have h3 := Nat.div_add_mod p q
  have h4 := Nat.mod_lt p hq
  generalize p / q = d at *
  generalize p % q = r at *
  have e : (2 * c + 1) * q = 2 * (q * c) + q := by
    rw [Nat.add_mul, Nat.mul_assoc, Nat.mul_comm c q]; omega
  rw [e]
  rcases Nat.lt_trichotomy d c with h | h | h
  · have : q * (d + 1) ≤ q * c := Nat.mul_le_mul_left q h
    rw [Nat.mul_add] at this
    split <;> constructor <;> intro <;> omega
  · subst h
    split
    · rename_i h; rcases h with h | ⟨_, h⟩
      · constructor <;> intro <;> omega
      · omega
    · rename_i h; constructor <;> intro <;> omega
  · have : q * (c + 1) ≤ q * d := Nat.mul_le_mul_left q h
    rw [Nat.mul_add] at this
    split <;> constructor <;> intro <;> omega

theorem roundEven_lt_iff_odd (p q c : Nat) (hq : 0 < q) (hc : c % 2 = 1) : c < roundEven p q ↔ (2 * c + 1) * q ≤ 2 * p := by
  unfold roundEven
  have h3 := Nat.div_add_mod p q
  have h4 := Nat.mod_lt p hq
  generalize p / q = d at *
  generalize p % q = r at *
  have e : (2 * c + 1) * q = 2 * (q * c) + q := by
    rw [Nat.add_mul, Nat.mul_assoc, Nat.mul_comm c q]; omega
  rw [e]
  rcases Nat.lt_trichotomy d c with h | h | h
  · have : q * (d + 1) ≤ q * c := Nat.mul_le_mul_left q h
    rw [Nat.mul_add] at this
    split <;> constructor <;> intro <;> omega
  · subst h
    split
    · rename_i h; rcases h with h | ⟨_, h⟩
      · constructor <;> intro <;> omega
      · constructor <;> intro <;> omega
    · rename_i h; constructor <;> intro <;> omega
  · have : q * (c + 1) ≤ q * d := Nat.mul_le_mul_left q h
    rw [Nat.mul_add] at this
    split <;> constructor <;> intro <;> omega

end Verif.Lemmas
