import Verif.Model.NbLines
import Verif.Model.Draw
import Verif.Lemmas.Float32
/-! # C57: counting the screen lines of a text -/
namespace Verif.Props
open Verif.Model Verif.Model.F32 Verif.Lemmas

theorem f64_ofRatio_eq (p q k : Nat) (hp : 0 < p) (hq : 0 < q) (hk : 0 < k) (h1 : q * 2 ^ 52 ≤ p * 2 ^ k) (h2 : p * 2 ^ k < q * 2 ^ 53) :
    F64.ofRatio p q = ⟨roundEven (p * 2 ^ k) q, -(k : Int)⟩ := by
  have hlp := Nat.log2_self_le (n := p) (by omega)
  have hlp' := Nat.lt_log2_self (n := p)
  have hlq := Nat.log2_self_le (n := q) (by omega)
  have hlq' := Nat.lt_log2_self (n := q)
  unfold F64.ofRatio
  rw [if_neg (by omega)]
  generalize ha : Nat.log2 p = a at *
  generalize hb : Nat.log2 q = b at *
  have g1 : b + 52 < a + 1 + k := by
    have : 2 ^ (b + 52) < 2 ^ (a + 1 + k) := by
      rw [Nat.pow_add 2 b, Nat.pow_add 2 (a + 1)]
      calc 2 ^ b * 2 ^ 52 ≤ q * 2 ^ 52 := Nat.mul_le_mul_right _ hlq
        _ ≤ p * 2 ^ k := h1
        _ < 2 ^ (a + 1) * 2 ^ k := Nat.mul_lt_mul_of_pos_right hlp' (Nat.pow_pos (by decide))
    exact (Nat.pow_lt_pow_iff_right (by decide)).mp this
  have g2 : a + k < b + 1 + 53 := by
    have : 2 ^ (a + k) < 2 ^ (b + 1 + 53) := by
      rw [Nat.pow_add 2 a, Nat.pow_add 2 (b + 1)]
      calc 2 ^ a * 2 ^ k ≤ p * 2 ^ k := Nat.mul_le_mul_right _ hlp
        _ < q * 2 ^ 53 := h2
        _ ≤ 2 ^ (b + 1) * 2 ^ 53 := Nat.mul_le_mul_right _ (Nat.le_of_lt hlq')
    exact (Nat.pow_lt_pow_iff_right (by decide)).mp this
  have key : (if (scaled p q ((a : Int) - b - 52)).1 < (scaled p q ((a : Int) - b - 52)).2 * 2 ^ 52 then (a : Int) - b - 52 - 1 else (a : Int) - b - 52) = -(k : Int) := by
    rcases (by omega : k + a = b + 52 ∨ k + a = b + 53) with h | h
    · have he : (a : Int) - b - 52 = -(k : Int) := by omega
      rw [he]
      rw [scaled_neg p q k hk, if_neg (by simp only; omega)]
    · have he : (a : Int) - b - 52 = -(k : Int) + 1 := by omega
      rw [he]
      rw [if_pos]
      · omega
      · by_cases hk1 : k = 1
        · subst hk1
          have hs : scaled p q (-((1 : Nat) : Int) + 1) = (p, q * 2 ^ 0) := by
            unfold scaled; rw [if_pos (by decide)]; rfl
          rw [hs]; simp only; omega
        · have hs : scaled p q (-(k : Int) + 1) = (p * 2 ^ (k - 1), q) := by
            unfold scaled; rw [if_neg (by omega)]
            congr 3; omega
          rw [hs]; simp only
          have : p * 2 ^ k = p * 2 ^ (k - 1) * 2 := by rw [Nat.mul_assoc, ← Nat.pow_succ]; congr 2; omega
          omega
  simp only [key]
  rw [scaled_neg p q k hk]

theorem f64_binade (p q : Nat) (hp : 0 < p) (hpq : p < q * 2 ^ 52) :
    ∃ k, 0 < k ∧ q * 2 ^ 52 ≤ p * 2 ^ k ∧ p * 2 ^ k < q * 2 ^ 53 := by
  have : ∀ n, p < q * 2 ^ 52 → q * 2 ^ 52 ≤ p * 2 ^ n → ∃ k, 0 < k ∧ q * 2 ^ 52 ≤ p * 2 ^ k ∧ p * 2 ^ k < q * 2 ^ 53 := by
    intro n
    induction n with
    | zero => intro h1 h2; simp only [Nat.pow_zero, Nat.mul_one] at h2; omega
    | succ n ih =>
      intro h1 h2
      by_cases h : q * 2 ^ 52 ≤ p * 2 ^ n
      · exact ih h1 h
      · refine ⟨n + 1, by omega, h2, ?_⟩
        have : p * 2 ^ (n + 1) = p * 2 ^ n * 2 := by rw [Nat.pow_succ, Nat.mul_assoc]
        omega
  refine this (q * 2 ^ 52) hpq ?_
  have h1 : q * 2 ^ 52 < 2 ^ (q * 2 ^ 52) := Nat.lt_two_pow_self
  calc q * 2 ^ 52 ≤ 2 ^ (q * 2 ^ 52) := Nat.le_of_lt h1
    _ = 1 * 2 ^ (q * 2 ^ 52) := (Nat.one_mul _).symm
    _ ≤ p * 2 ^ (q * 2 ^ 52) := Nat.mul_le_mul_right _ hp

/-- Rounding keeps on the right side of the doubles `c / 2^j`, below and above. -/
theorem f64_between (p q j lo hi : Nat) (hp : 0 < p) (hq : 0 < q) (hpq : p < q * 2 ^ 52) (hj : hi ≤ 2 ^ 53) (hlo : lo * q ≤ p * 2 ^ j) (hhi : p * 2 ^ j ≤ hi * q) :
    ∃ m k : Nat, 0 < k ∧ F64.ofRatio p q = ⟨m, -(k : Int)⟩ ∧ lo * 2 ^ k ≤ m * 2 ^ j ∧ m * 2 ^ j ≤ hi * 2 ^ k := by
  obtain ⟨k, hk, h1, h2⟩ := f64_binade p q hp hpq
  refine ⟨_, k, hk, f64_ofRatio_eq p q k hp hq hk h1 h2, ?_, ?_⟩
  · by_cases hkj : j ≤ k
    · have := roundEven_ge (p * 2 ^ k) q (lo * 2 ^ (k - j)) hq (by
        rw [pow_split j k hkj, show lo * 2 ^ (k - j) * q = lo * q * 2 ^ (k - j) by rw [Nat.mul_right_comm], ← Nat.mul_assoc]
        exact Nat.mul_le_mul_right _ hlo)
      generalize roundEven (p * 2 ^ k) q = m at *
      rw [pow_split j k hkj, Nat.mul_comm (2 ^ j), ← Nat.mul_assoc]
      exact Nat.mul_le_mul_right _ this
    · have h3 : 2 ^ 52 ≤ roundEven (p * 2 ^ k) q := roundEven_ge _ _ _ hq (by rw [Nat.mul_comm]; exact h1)
      have h4 : lo ≤ 2 ^ 53 := Nat.le_trans (Nat.le_of_mul_le_mul_right (Nat.le_trans hlo hhi) hq) hj
      calc lo * 2 ^ k ≤ 2 ^ 53 * 2 ^ k := Nat.mul_le_mul_right _ h4
        _ = 2 ^ 52 * 2 ^ (k + 1) := by rw [← Nat.pow_add, ← Nat.pow_add]; congr 1; omega
        _ ≤ 2 ^ 52 * 2 ^ j := Nat.mul_le_mul_left _ (Nat.pow_le_pow_right (by decide) (by omega))
        _ ≤ _ := Nat.mul_le_mul_right _ h3
  · by_cases hkj : j ≤ k
    · have := roundEven_le (p * 2 ^ k) q (hi * 2 ^ (k - j)) hq (by
        rw [pow_split j k hkj, show hi * 2 ^ (k - j) * q = hi * q * 2 ^ (k - j) by rw [Nat.mul_right_comm], ← Nat.mul_assoc]
        exact Nat.mul_le_mul_right _ hhi)
      generalize roundEven (p * 2 ^ k) q = m at *
      rw [pow_split j k hkj, Nat.mul_comm (2 ^ j), ← Nat.mul_assoc]
      exact Nat.mul_le_mul_right _ this
    · have hs := pow_split k j (by omega)
      have h3 : q * (2 ^ 52 * 2 ^ (j - k)) ≤ q * hi := by
        calc q * (2 ^ 52 * 2 ^ (j - k)) = q * 2 ^ 52 * 2 ^ (j - k) := (Nat.mul_assoc ..).symm
          _ ≤ p * 2 ^ k * 2 ^ (j - k) := Nat.mul_le_mul_right _ h1
          _ = p * 2 ^ j := by rw [hs, Nat.mul_assoc]
          _ ≤ hi * q := hhi
          _ = q * hi := Nat.mul_comm ..
      have h4 : 2 ^ 52 * 2 ^ (j - k) ≤ hi := Nat.le_of_mul_le_mul_left h3 hq
      have h5 : j - k ≤ 1 := by
        have : 2 ^ (52 + (j - k)) ≤ 2 ^ 53 := by rw [Nat.pow_add]; exact Nat.le_trans h4 hj
        have := (Nat.pow_le_pow_iff_right (by decide)).mp this
        omega
      have h6 : j = k + 1 := by omega
      subst h6
      have h7 : hi = 2 ^ 53 := by
        simp only [Nat.add_sub_cancel_left] at h4; omega
      subst h7
      have h8 : roundEven (p * 2 ^ k) q ≤ 2 ^ 52 := roundEven_le _ _ _ hq (by rw [Nat.pow_succ, ← Nat.mul_assoc] at hhi; omega)
      rw [Nat.pow_succ]
      generalize roundEven (p * 2 ^ k) q = m at *
      have := Nat.mul_le_mul_right (2 ^ k) h8
      rw [← Nat.mul_assoc]
      omega

/-- A number strictly between two integers. -/
theorem f64_inside (a : F64) (m k j f : Nat) (ha : a = ⟨m, -(k : Int)⟩) (hk : 0 < k) (h1 : (f * 2 ^ j + 1) * 2 ^ k ≤ m * 2 ^ j)
    (h2 : m * 2 ^ j ≤ ((f + 1) * 2 ^ j - 1) * 2 ^ k) : a.fraction = (m, 2 ^ k) ∧ m / 2 ^ k = f ∧ m ≠ f * 2 ^ k := by
  subst ha
  have hK : 0 < 2 ^ k := Nat.pow_pos (by decide)
  have hJ : 0 < 2 ^ j := Nat.pow_pos (by decide)
  have g1 : f * 2 ^ k < m := by
    apply Nat.lt_of_mul_lt_mul_right (a := 2 ^ j)
    rw [Nat.add_mul, Nat.one_mul, Nat.mul_right_comm] at h1
    omega
  have g2 : m < (f + 1) * 2 ^ k := by
    apply Nat.lt_of_mul_lt_mul_right (a := 2 ^ j)
    rw [Nat.mul_right_comm]
    rw [Nat.sub_mul, Nat.one_mul] at h2
    have : 2 ^ k ≤ (f + 1) * 2 ^ j * 2 ^ k := by
      rw [Nat.mul_assoc, Nat.add_mul, Nat.one_mul]
      have := Nat.mul_le_mul_right (2 ^ k) hJ
      omega
    omega
  refine ⟨?_, ?_, by omega⟩
  · unfold F64.fraction; rw [if_neg (by simp only; omega)]; simp
  · rw [Nat.div_eq_iff hK]
    rw [Nat.add_mul] at g2
    omega

/-- **C57, the part that holds.** For every text of less than `2^51` columns, and every width but 0, when the number of lines is an
`unsigned int`: `getNbLines(n, w)` is the least number of lines of `w` columns with room for `n` columns. Missing: width 0, more
lines than an `unsigned int` holds (both undefined behaviour), and longer texts (where a `double` is not precise enough). -/
theorem C57_ceiling_partial (n w : Nat) (hn : n < 2 ^ 51) (hw : 0 < w) (hw2 : w < 2 ^ 32) (hfit : n / w + 1 < 2 ^ 32) :
    ∃ l, cGetNbLines n w = some l ∧ n ≤ l * w ∧ ∀ l', n ≤ l' * w → l ≤ l' := by
  have hdm := Nat.div_add_mod n w
  have hml := Nat.mod_lt n hw
  have hdiv : (F64.ofNat n).divNat w = F64.ofRatio n w := by
    unfold F64.divNat F64.ofNat; rw [if_pos (by omega)]; simp [F64.fraction]
  have hle : ∀ l', n ≤ l' * w → n / w ≤ l' := fun l' h => by
    have := Nat.div_le_div_right (c := w) h
    rwa [Nat.mul_div_cancel _ hw] at this
  by_cases h0 : n = 0
  · subst h0
    refine ⟨0, ?_, by simp, by simp⟩
    unfold cGetNbLines
    rw [if_neg (by omega), hdiv]
    simp [F64.ofRatio, F64.toUnsigned, F64.fraction, F64.eqNat]
  have hpq : n < w * 2 ^ 52 := by have := Nat.mul_le_mul_right (2 ^ 52) hw; omega
  by_cases hr : n % w = 0
  · obtain ⟨m, k, hk, h1, h2, h3⟩ := f64_between n w 0 (n / w) (n / w) (by omega) hw hpq (by omega)
      (by rw [Nat.mul_comm, Nat.pow_zero]; omega) (by rw [Nat.mul_comm (n / w), Nat.pow_zero]; omega)
    have hm : m = n / w * 2 ^ k := by omega
    have hf : (F64.ofRatio n w).fraction = (n / w * 2 ^ k, 2 ^ k) := by
      rw [h1, hm]; unfold F64.fraction; rw [if_neg (by simp only; omega)]; simp
    have hu : (F64.ofRatio n w).toUnsigned = some (n / w) := by
      unfold F64.toUnsigned
      rw [hf]
      simp only [Nat.mul_div_cancel _ (Nat.pow_pos (n := k) (show 0 < 2 by decide))]
      rw [if_pos (by omega)]
    refine ⟨n / w, ?_, by rw [Nat.mul_comm]; omega, hle⟩
    unfold cGetNbLines
    rw [if_neg (by omega), hdiv]
    simp only [hu]
    rw [if_pos (by simp [F64.eqNat, hf])]
  · -- a power of two above the width
    obtain ⟨j, hj1, hj2⟩ : ∃ j, w ≤ 2 ^ j ∧ 2 ^ j ≤ 2 * w := by
      refine ⟨Nat.log2 w + 1, Nat.le_of_lt Nat.lt_log2_self, ?_⟩
      have := Nat.log2_self_le (n := w) (by omega)
      rw [Nat.pow_succ]; omega
    have hbig : (n / w + 2) * 2 ^ j ≤ 2 ^ 53 := by
      have := Nat.mul_le_mul_left (n / w + 2) hj2
      have e : (n / w + 2) * (2 * w) = 2 * (w * (n / w)) + 4 * w := by
        rw [Nat.add_mul, Nat.mul_left_comm, Nat.mul_comm (n / w) w]; omega
      omega
    generalize hf : n / w = f at *
    generalize hrr : n % w = r at *
    have hJ : 0 < 2 ^ j := Nat.pow_pos (by decide)
    have en : n * 2 ^ j = f * 2 ^ j * w + r * 2 ^ j := by
      rw [← hdm, Nat.add_mul, Nat.mul_comm w f, Nat.mul_right_comm]
    have hr1 : 2 ^ j ≤ r * 2 ^ j := Nat.le_mul_of_pos_left _ (by omega)
    have hr2 : r * 2 ^ j + 2 ^ j ≤ w * 2 ^ j := by
      have := Nat.mul_le_mul_right (2 ^ j) hml
      rw [Nat.succ_mul] at this; exact this
    obtain ⟨m, k, hk, h1, h2, h3⟩ := f64_between n w j (f * 2 ^ j + 1) ((f + 1) * 2 ^ j - 1) (by omega) hw hpq
      (by rw [Nat.add_mul] at hbig ⊢; omega)
      (by rw [Nat.add_mul]; omega)
      (by
        rw [Nat.sub_mul, Nat.add_mul, Nat.add_mul, Nat.one_mul, Nat.mul_comm (2 ^ j) w]
        omega)
    obtain ⟨g1, g2, g3⟩ := f64_inside _ m k j f h1 hk h2 h3
    have hK : 0 < 2 ^ k := Nat.pow_pos (by decide)
    have hm1 : m < (f + 1) * 2 ^ k := by
      have := Nat.lt_div_mul_add hK (a := m)
      rw [g2] at this; rw [Nat.add_mul]; omega
    obtain ⟨m', k', hk', i1, i2, i3⟩ := f64_between (m + 2 ^ k) (2 ^ k) j ((f + 1) * 2 ^ j + 1) ((f + 1 + 1) * 2 ^ j - 1) (by omega) hK
      (by
        have : m + 2 ^ k < (f + 2) * 2 ^ k := by
          have : (f + 2) * 2 ^ k = (f + 1) * 2 ^ k + 2 ^ k := by rw [Nat.add_mul, Nat.add_mul]; omega
          omega
        have h4 : (f + 2) * 2 ^ k ≤ 2 ^ 52 * 2 ^ k := Nat.mul_le_mul_right _ (by omega)
        rw [Nat.mul_comm (2 ^ k)]
        omega)
      (by rw [show f + 1 + 1 = f + 2 by omega]; omega)
      (by
        have : ((f + 1) * 2 ^ j + 1) * 2 ^ k = (f * 2 ^ j + 1) * 2 ^ k + 2 ^ k * 2 ^ j := by
          rw [Nat.add_mul f, Nat.one_mul, Nat.add_right_comm, Nat.add_mul _ (2 ^ j), Nat.mul_comm (2 ^ j)]
        rw [this, Nat.add_mul m]; omega)
      (by
        have : ((f + 1 + 1) * 2 ^ j - 1) * 2 ^ k = ((f + 1) * 2 ^ j - 1) * 2 ^ k + 2 ^ k * 2 ^ j := by
          have : (f + 1 + 1) * 2 ^ j - 1 = ((f + 1) * 2 ^ j - 1) + 2 ^ j := by
            have : 2 ^ j ≤ (f + 1) * 2 ^ j := Nat.le_mul_of_pos_left _ (by omega)
            rw [Nat.add_mul (f + 1)]; omega
          rw [this, Nat.add_mul, Nat.mul_comm (2 ^ j)]
        rw [this, Nat.add_mul m]; omega)
    obtain ⟨l1, l2, l3⟩ := f64_inside _ m' k' j (f + 1) i1 hk' i2 i3
    refine ⟨f + 1, ?_, ?_, ?_⟩
    · unfold cGetNbLines
      rw [if_neg (by omega), hdiv]
      have hu : (F64.ofRatio n w).toUnsigned = some f := by
        unfold F64.toUnsigned; rw [g1]; simp only [g2]; rw [if_pos (by omega)]
      simp only [hu]
      rw [if_neg (by simp [F64.eqNat, g1, g3])]
      unfold F64.toUnsigned F64.addOne
      rw [g1]; simp only [l1, l2]; rw [if_pos (by omega)]
    · rw [Nat.add_mul, Nat.mul_comm f w]; omega
    · intro l' hl'
      have := hle l' hl'
      refine Classical.byContradiction fun hc => ?_
      have : l' = f := by omega
      subst this
      rw [Nat.mul_comm] at hl'
      omega

/-- The rounding-free definition used by the model of the drawing is the same. -/
theorem C57_model_partial (n w : Nat) (hn : n < 2 ^ 51) (hw : 0 < w) (hw2 : w < 2 ^ 32) (hfit : n / w + 1 < 2 ^ 32) :
    cGetNbLines n w = some (Tui.getNbLines n w) := by
  obtain ⟨l, h1, h2, h3⟩ := C57_ceiling_partial n w hn hw hw2 hfit
  have hdm := Nat.div_add_mod n w
  have hml := Nat.mod_lt n hw
  have hle : n / w ≤ l := by
    have := Nat.div_le_div_right (c := w) h2
    rwa [Nat.mul_div_cancel _ hw] at this
  rw [h1, Tui.getNbLines]
  congr 1
  split
  · next h => have := h3 (n / w) (by rw [Nat.mul_comm]; omega); omega
  · next h =>
    have h4 := h3 (n / w + 1) (by rw [Nat.add_mul, Nat.mul_comm]; omega)
    refine Classical.byContradiction fun hc => ?_
    have : l = n / w := by omega
    subst this
    rw [Nat.mul_comm] at h2
    omega

example : cGetNbLines 81 80 = some 2 ∧ cGetNbLines 80 80 = some 1 ∧ cGetNbLines 2251799813685247 1048577 = some 2147481601 := by decide +kernel

/-- **C57 is false as stated**: on a screen without columns, or with more lines than an `unsigned int` holds, the result is undefined; for the
longest texts it is one line short. -/
theorem C57_ceiling_false : cGetNbLines 5 0 = none ∧ cGetNbLines (2 ^ 32) 1 = none ∧
    (∃ n w l, n < 2 ^ 64 ∧ w < 2 ^ 32 ∧ cGetNbLines n w = some l ∧ ¬ n ≤ l * w) :=
  ⟨by decide +kernel, by decide +kernel, 2 ^ 54 + 1, 2 ^ 23, 2 ^ 31, by decide, by decide, by decide +kernel, by decide⟩

end Verif.Props
