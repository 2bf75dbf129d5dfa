import Verif.Model.Double
import Verif.Spec.Decimal
import Mathlib.Tactic.Linarith
import Mathlib.Tactic.FieldSimp
import Mathlib.Tactic.Ring
import Mathlib.Tactic.Positivity
import Mathlib.Tactic.NormNum
import Mathlib.Algebra.Order.Floor.Semifield
/-! # Rounding to doubles and to millionths -/
namespace Verif.Lemmas.Double
open Verif.Model Verif.Model.Double Verif.Model.F32

/-- Rounding changes a quotient by at most 1/2. -/
theorem roundEven_near (p q : Nat) (hq : 0 < q) : |(p : ℚ) / q - roundEven p q| ≤ 1 / 2 := by
  have h : (p : ℚ) = q * (p / q : Nat) + (p % q : Nat) := by exact_mod_cast (Nat.div_add_mod p q).symm
  have hm := Nat.mod_lt p hq
  have hq' : (0 : ℚ) < q := by exact_mod_cast hq
  unfold roundEven
  generalize p / q = a at *
  generalize p % q = r at *
  rw [abs_le]
  have e : (p : ℚ) / q = a + r / q := by rw [h]; field_simp
  rw [e]
  split
  · have : (q : ℚ) ≤ 2 * r := by exact_mod_cast (by omega)
    have h1 : (1 : ℚ) / 2 ≤ r / q := by rw [div_le_div_iff₀ (by norm_num) hq']; linarith
    have h2 : (r : ℚ) / q ≤ 1 := by rw [div_le_one hq']; exact_mod_cast hm.le
    push_cast
    constructor <;> linarith
  · have : 2 * (r : ℚ) ≤ q := by exact_mod_cast (by omega)
    have h1 : (r : ℚ) / q ≤ 1 / 2 := by rw [div_le_div_iff₀ hq' (by norm_num)]; linarith
    have h2 : (0 : ℚ) ≤ r / q := by positivity
    constructor <;> linarith

/-- Two different natural numbers are at least 1 apart. -/
theorem apart (a b : Nat) (h : a ≠ b) : (1 : ℚ) ≤ |(a : ℚ) - b| := by
  rcases Nat.lt_or_gt_of_ne h with h | h
  · have : (a : ℚ) + 1 ≤ b := by exact_mod_cast h
    rw [abs_of_nonpos (by linarith)]; linarith
  · have : (b : ℚ) + 1 ≤ a := by exact_mod_cast h
    rw [abs_of_nonneg (by linarith)]; linarith

theorem roundEven_unique (p q b : Nat) (hq : 0 < q) (h : |(p : ℚ) / q - b| < 1 / 2) : roundEven p q = b := by
  by_cases hne : roundEven p q = b
  · exact hne
  · have h1 := apart _ _ hne
    have h2 := roundEven_near p q hq
    have h3 : |(roundEven p q : ℚ) - b| ≤ |(p : ℚ) / q - roundEven p q| + |(p : ℚ) / q - b| := by
      rw [abs_sub_comm ((p : ℚ) / q)]
      exact abs_sub_le _ _ _
    linarith

/-- No natural number is nearer. -/
theorem roundEven_nearest (p q b : Nat) (hq : 0 < q) : |(p : ℚ) / q - roundEven p q| ≤ |(p : ℚ) / q - b| := by
  rcases lt_or_ge (|(p : ℚ) / q - b|) (1 / 2) with h | h
  · rw [roundEven_unique p q b hq h]
  · exact (roundEven_near p q hq).trans h

theorem roundEven_scale (p q k : Nat) (hk : 0 < k) : roundEven (p * k) (q * k) = roundEven p q := by
  unfold roundEven
  rw [Nat.mul_mod_mul_right, Nat.mul_div_mul_right _ _ hk]
  have h1 : (2 * (p % q * k) > q * k) ↔ 2 * (p % q) > q := by
    rw [← Nat.mul_assoc]; exact Nat.mul_lt_mul_right hk
  have h2 : (2 * (p % q * k) = q * k) ↔ 2 * (p % q) = q := by
    rw [← Nat.mul_assoc]; exact Nat.mul_left_inj (by omega)
  simp only [h1, h2]

/-- Rounding depends on the quotient only. -/
theorem roundEven_ratio (p q p' q' : Nat) (hq : 0 < q) (hq' : 0 < q') (h : p * q' = p' * q) : roundEven p q = roundEven p' q' := by
  rw [← roundEven_scale p q q' hq', ← roundEven_scale p' q' q hq, h, Nat.mul_comm q q']

/-- Ties go to the even number. -/
theorem roundEven_ge (p q b : Nat) (hq : 0 < q) (hb : b % 2 = 0) (hb0 : 0 < b) (h : (b : ℚ) - 1 / 2 ≤ (p : ℚ) / q) : b ≤ roundEven p q := by
  have hq' : (0 : ℚ) < q := by exact_mod_cast hq
  rw [le_div_iff₀ hq'] at h
  have h' : (2 * b : ℚ) * q ≤ 2 * p + q := by linarith
  have h'' : 2 * b * q ≤ 2 * p + q := by exact_mod_cast h'
  have hd := Nat.div_add_mod p q
  have hm := Nat.mod_lt p hq
  unfold roundEven
  generalize p / q = a at *
  generalize p % q = r at *
  have h1 : b ≤ a + 1 := by
    by_cases hc : b ≤ a + 1
    · exact hc
    · exfalso
      have : (a + 2) * q ≤ b * q := Nat.mul_le_mul_right _ (by omega)
      have e1 : (a + 2) * q = q * a + 2 * q := by ring
      have e2 : 2 * b * q = 2 * (b * q) := by ring
      omega
  rcases Nat.lt_or_ge a b with hc | hc
  · have hab : b = a + 1 := by omega
    have e2 : 2 * b * q = 2 * (q * a) + 2 * q := by subst hab; ring
    have e3 : q ≤ 2 * r := by omega
    rw [if_pos (by
      rcases Nat.lt_or_ge q (2 * r) with h | h
      · exact .inl h
      · exact .inr ⟨by omega, by omega⟩)]
    omega
  · split <;> omega

/-- The numbers of units that have at most 53 significant bits. -/
def Units (v : Nat) : Prop := ∃ m s, v = m * 2 ^ s ∧ m < 2 ^ 53

/-- The number `n / d` in units of `2^-1074`. -/
def exact (n d : Nat) : ℚ := (n : ℚ) * 2 ^ 1074 / d

theorem lt_top (n d : Nat) (hd : 0 < d) : exact n d < 2 ^ (53 + lastBit n d) := by
  have hd' : (0 : ℚ) < d := by exact_mod_cast hd
  unfold exact lastBit
  have e : (n : ℚ) * 2 ^ 1074 = ((n * 2 ^ 1074 : Nat) : ℚ) := by push_cast; rfl
  rw [e]
  generalize n * 2 ^ 1074 = p
  have h1 := Nat.lt_log2_self (n := p / d)
  have h2 : 2 ^ ((p / d).log2 + 1) ≤ 2 ^ (53 + ((p / d).log2 - 52)) := Nat.pow_le_pow_right (by decide) (by omega)
  have h3 : p / d < 2 ^ (53 + ((p / d).log2 - 52)) := by omega
  rw [div_lt_iff₀ hd']
  rw [Nat.div_lt_iff_lt_mul hd] at h3
  exact_mod_cast h3

theorem ge_bottom (n d : Nat) (hd : 0 < d) (ht : 0 < lastBit n d) : 2 ^ (52 + lastBit n d) ≤ exact n d := by
  have hd' : (0 : ℚ) < d := by exact_mod_cast hd
  unfold exact
  unfold lastBit at *
  have e : (n : ℚ) * 2 ^ 1074 = ((n * 2 ^ 1074 : Nat) : ℚ) := by push_cast; rfl
  rw [e]
  generalize n * 2 ^ 1074 = p at *
  have h0 : p / d ≠ 0 := by intro h; rw [h] at ht; simp at ht
  have h1 := Nat.log2_self_le h0
  have h2 : 52 + ((p / d).log2 - 52) = (p / d).log2 := by omega
  rw [h2, le_div_iff₀ hd']
  rw [Nat.le_div_iff_mul_le hd] at h1
  exact_mod_cast h1

theorem scaled_eq (n d : Nat) (_hd : 0 < d) :
    ((n * 2 ^ 1074 : Nat) : ℚ) / ((d * 2 ^ lastBit n d : Nat) : ℚ) = exact n d / 2 ^ lastBit n d := by
  unfold exact
  generalize lastBit n d = t
  push_cast
  rw [div_div]

theorem rounded_near (n d : Nat) (hd : 0 < d) : |exact n d - rounded n d| ≤ 2 ^ lastBit n d / 2 := by
  have h := roundEven_near (n * 2 ^ 1074) (d * 2 ^ lastBit n d) (by positivity)
  rw [scaled_eq n d hd] at h
  unfold rounded
  generalize roundEven (n * 2 ^ 1074) (d * 2 ^ lastBit n d) = b at *
  generalize exact n d = y at *
  generalize lastBit n d = t at *
  have hp : (0 : ℚ) < 2 ^ t := by positivity
  have e : y - ((b * 2 ^ t : Nat) : ℚ) = (y / 2 ^ t - b) * 2 ^ t := by push_cast; field_simp
  rw [e, abs_mul, abs_of_pos hp]
  calc |y / 2 ^ t - b| * 2 ^ t ≤ 1 / 2 * 2 ^ t := mul_le_mul_of_nonneg_right h hp.le
    _ = 2 ^ t / 2 := by ring

theorem exact_nonneg (n d : Nat) : 0 ≤ exact n d := by unfold exact; positivity

theorem rounded_units (n d : Nat) (hd : 0 < d) : Units (rounded n d) := by
  have h := roundEven_near (n * 2 ^ 1074) (d * 2 ^ lastBit n d) (by positivity)
  rw [scaled_eq n d hd] at h
  have ht := lt_top n d hd
  unfold rounded
  generalize roundEven (n * 2 ^ 1074) (d * 2 ^ lastBit n d) = b at *
  generalize exact n d = y at *
  generalize lastBit n d = t at *
  have hp : (0 : ℚ) < 2 ^ t := by positivity
  have h1 : y / 2 ^ t < 2 ^ 53 := by rw [div_lt_iff₀ hp, ← pow_add]; exact ht
  have h2 : (b : ℚ) < 2 ^ 53 + 1 := by rw [abs_le] at h; linarith
  have h3 : b < 2 ^ 53 + 1 := by exact_mod_cast h2
  rcases Nat.lt_or_ge b (2 ^ 53) with hb | hb
  · exact ⟨b, t, rfl, hb⟩
  · refine ⟨2 ^ 52, t + 1, ?_, by decide⟩
    have : b = 2 ^ 53 := by omega
    rw [this]; ring

/-- A number with 53 significant bits below the range in which the last bit is `2^t` is at least `2^(t-1)` below it. -/
theorem units_below (m s t : Nat) (hm : m < 2 ^ 53) (hs : s < t) : ((m * 2 ^ s : Nat) : ℚ) + 2 ^ (t - 1) ≤ 2 ^ (52 + t) := by
  have h1 : m * 2 ^ s ≤ (2 ^ 53 - 1) * 2 ^ (t - 1) := Nat.mul_le_mul (by omega) (Nat.pow_le_pow_right (by decide) (by omega))
  have h2 : (2 ^ 53 - 1) * 2 ^ (t - 1) + 2 ^ (t - 1) = 2 ^ (52 + t) := by
    have : (2 ^ 53 - 1) * 2 ^ (t - 1) + 2 ^ (t - 1) = 2 ^ 53 * 2 ^ (t - 1) := by
      rw [Nat.sub_mul, Nat.one_mul]
      have : 2 ^ (t - 1) ≤ 2 ^ 53 * 2 ^ (t - 1) := Nat.le_mul_of_pos_left _ (by decide)
      omega
    rw [this, ← Nat.pow_add]
    congr 1; omega
  have : m * 2 ^ s + 2 ^ (t - 1) ≤ 2 ^ (52 + t) := by omega
  exact_mod_cast this

theorem multiple (m s t : Nat) (h : t ≤ s) : m * 2 ^ s = m * 2 ^ (s - t) * 2 ^ t := by
  rw [Nat.mul_assoc, ← Nat.pow_add]; congr 2; omega

theorem near_scale (y : ℚ) (b t : Nat) : |y - ((b * 2 ^ t : Nat) : ℚ)| = |y / 2 ^ t - b| * 2 ^ t := by
  have hp : (0 : ℚ) < 2 ^ t := by positivity
  have e : y - ((b * 2 ^ t : Nat) : ℚ) = (y / 2 ^ t - b) * 2 ^ t := by push_cast; field_simp
  rw [e, abs_mul, abs_of_pos hp]

/-- No number with 53 significant bits is nearer. -/
theorem rounded_nearest (n d w : Nat) (hd : 0 < d) (hw : Units w) : |exact n d - rounded n d| ≤ |exact n d - w| := by
  have key : ∀ b : Nat, |exact n d - rounded n d| ≤ |exact n d - ((b * 2 ^ lastBit n d : Nat) : ℚ)| := by
    intro b
    have h := roundEven_nearest (n * 2 ^ 1074) (d * 2 ^ lastBit n d) b (by positivity)
    rw [scaled_eq n d hd] at h
    unfold rounded
    rw [near_scale, near_scale]
    exact mul_le_mul_of_nonneg_right h (by positivity)
  obtain ⟨m, s, rfl, hm⟩ := hw
  rcases Nat.lt_or_ge s (lastBit n d) with hs | hs
  · have h1 := ge_bottom n d hd (by omega)
    have h2 := units_below m s _ hm hs
    have h3 := key (2 ^ 52)
    have e : ((2 ^ 52 * 2 ^ lastBit n d : Nat) : ℚ) = 2 ^ (52 + lastBit n d) := by rw [← Nat.pow_add, Nat.cast_pow]; norm_cast
    rw [e] at h3
    refine h3.trans ?_
    have h4 : (0 : ℚ) < 2 ^ (lastBit n d - 1) := by positivity
    rw [abs_of_nonneg (by linarith), abs_of_nonneg (by linarith)]
    linarith
  · rw [multiple m s _ hs]
    exact key _

/-- A number with 53 significant bits that is nearer than half the last bit is the one rounded to. -/
theorem rounded_eq (n d w : Nat) (hd : 0 < d) (hw : Units w) (ht : 0 < lastBit n d)
    (h : |exact n d - w| < 2 ^ lastBit n d / 2) : rounded n d = w := by
  obtain ⟨m, s, rfl, hm⟩ := hw
  have e2 : (2 : ℚ) ^ lastBit n d / 2 = 2 ^ (lastBit n d - 1) := by
    obtain ⟨k, hk⟩ : ∃ k, lastBit n d = k + 1 := ⟨lastBit n d - 1, by omega⟩
    rw [hk, pow_succ]; simp
  rcases Nat.lt_or_ge s (lastBit n d) with hs | hs
  · have h1 := ge_bottom n d hd (by omega)
    have h2 := units_below m s _ hm hs
    rw [e2] at h
    have h3 := (abs_lt.mp h).2
    linarith
  · rw [multiple m s _ hs] at h ⊢
    unfold rounded
    rw [near_scale] at h
    have hp : (0 : ℚ) < 2 ^ lastBit n d := by positivity
    rw [roundEven_unique _ _ (m * 2 ^ (s - lastBit n d)) (by positivity)]
    rw [scaled_eq n d hd]
    by_contra hc
    rw [not_lt] at hc
    have := mul_le_mul_of_nonneg_right hc hp.le
    linarith

theorem lastBit_ratio (n d n' d' : Nat) (hd : 0 < d) (hd' : 0 < d') (h : n * d' = n' * d) : lastBit n d = lastBit n' d' := by
  unfold lastBit
  have e : n * 2 ^ 1074 / d = n' * 2 ^ 1074 / d' := by
    rw [← Nat.mul_div_mul_right _ d hd', ← Nat.mul_div_mul_right (n' * 2 ^ 1074) d' hd, Nat.mul_comm d d',
      Nat.mul_right_comm, h, Nat.mul_right_comm]
  rw [e]

/-- Rounding depends on the number only. -/
theorem rounded_ratio (n d n' d' : Nat) (hd : 0 < d) (hd' : 0 < d') (h : n * d' = n' * d) : rounded n d = rounded n' d' := by
  unfold rounded
  rw [lastBit_ratio n d n' d' hd hd' h]
  generalize lastBit n' d' = t
  generalize 2 ^ 1074 = U
  rw [roundEven_ratio (n * U) (d * 2 ^ t) (n' * U) (d' * 2 ^ t) (by positivity) (by positivity) (by
    have : n * U * (d' * 2 ^ t) = n * d' * (U * 2 ^ t) := by ring
    rw [this, h]
    ring)]

theorem exact_inj (n d n' d' : Nat) (hd : 0 < d) (hd' : 0 < d') (h : exact n d = exact n' d') : n * d' = n' * d := by
  unfold exact at h
  have h1 : (0 : ℚ) < d := by exact_mod_cast hd
  have h2 : (0 : ℚ) < d' := by exact_mod_cast hd'
  have hp : (0 : ℚ) < 2 ^ 1074 := by positivity
  generalize (2 : ℚ) ^ 1074 = U at *
  rw [div_eq_div_iff h1.ne' h2.ne'] at h
  have : (n * d' : ℚ) = n' * d := by
    apply mul_right_cancel₀ hp.ne'
    linarith
  exact_mod_cast this

/-- Rounding keeps the order. -/
theorem rounded_mono (n d n' d' : Nat) (hd : 0 < d) (hd' : 0 < d') (h : exact n d ≤ exact n' d') : rounded n d ≤ rounded n' d' := by
  by_contra hc
  have hc' : (rounded n' d' : ℚ) < rounded n d := by exact_mod_cast (by omega)
  have h1 := rounded_nearest n d _ hd (rounded_units n' d' hd')
  have h2 := rounded_nearest n' d' _ hd' (rounded_units n d hd)
  have g1 : (rounded n d : ℚ) + rounded n' d' ≤ 2 * exact n d := by
    by_contra hg
    rw [not_le] at hg
    have : |exact n d - rounded n' d'| < |exact n d - rounded n d| := by
      rw [abs_of_neg (show exact n d - rounded n d < 0 by linarith), abs_lt]
      constructor <;> linarith
    linarith
  have g2 : 2 * exact n' d' ≤ (rounded n d : ℚ) + rounded n' d' := by
    by_contra hg
    rw [not_le] at hg
    have : |exact n' d' - rounded n d| < |exact n' d' - rounded n' d'| := by
      rw [abs_of_pos (show 0 < exact n' d' - rounded n' d' by linarith), abs_lt]
      constructor <;> linarith
    linarith
  have g3 : exact n d = exact n' d' := le_antisymm h (by linarith)
  rw [rounded_ratio n d n' d' hd hd' (exact_inj _ _ _ _ hd hd' g3)] at hc
  exact hc le_rfl

theorem units_pow (k : Nat) : Units (2 ^ k) := ⟨1, k, by simp, by decide⟩

theorem units_large : Units ((2 ^ 53 - 1) * 2 ^ 2045) := ⟨_, _, rfl, by decide⟩

/-- Beyond the largest double. -/
theorem rounded_large (n d : Nat) (hd : 0 < d) : rounded n d < 2 ^ 2098 ↔ exact n d < 2 ^ 2098 - 2 ^ 2044 := by
  have eA : (2 : ℚ) ^ 2098 = 2 ^ 54 * 2 ^ 2044 := by rw [← pow_add]
  have eB : (((2 ^ 53 - 1) * 2 ^ 2045 : Nat) : ℚ) = 2 ^ 2098 - 2 * 2 ^ 2044 := by
    rw [eA, Nat.cast_mul, Nat.cast_pow, pow_succ _ 2044]
    generalize ((2 : Nat) : ℚ) ^ 2044 = A
    push_cast
    ring
  constructor
  · intro h
    by_contra hc
    rw [not_lt] at hc
    rcases lt_or_ge (exact n d) (2 ^ 2098) with hlt | hge
    · have ht : lastBit n d = 2045 := by
        have h1 := lt_top n d hd
        have h3 : (2 : ℚ) ^ 2097 < 2 ^ (53 + lastBit n d) := by
          refine lt_of_lt_of_le ?_ (hc.trans h1.le)
          have : (2 : ℚ) ^ 2097 = 2 ^ 53 * 2 ^ 2044 := by rw [← pow_add]
          rw [this, eA]
          have hp : (0 : ℚ) < 2 ^ 2044 := by positivity
          generalize (2 : ℚ) ^ 2044 = A at *
          linarith only [hp]
        have h4 : 2097 < 53 + lastBit n d := (pow_lt_pow_iff_right₀ (by norm_num)).mp h3
        have h2 := ge_bottom n d hd (by omega)
        have h5 : (2 : ℚ) ^ (52 + lastBit n d) < 2 ^ 2098 := lt_of_le_of_lt h2 hlt
        have h6 : 52 + lastBit n d < 2098 := (pow_lt_pow_iff_right₀ (by norm_num)).mp h5
        omega
      have hge : 2 ^ 53 ≤ roundEven (n * 2 ^ 1074) (d * 2 ^ lastBit n d) := by
        apply roundEven_ge _ _ _ (by positivity) (by decide) (by decide)
        rw [scaled_eq n d hd, ht]
        have hp : (0 : ℚ) < 2 ^ 2045 := by positivity
        rw [le_div_iff₀ hp]
        refine le_trans (le_of_eq ?_) hc
        rw [eA, pow_succ _ 2044]
        generalize (2 : ℚ) ^ 2044 = A
        push_cast
        ring
      have : 2 ^ 2098 ≤ rounded n d := by
        unfold rounded
        rw [ht] at hge ⊢
        calc 2 ^ 2098 = 2 ^ 53 * 2 ^ 2045 := by rw [← Nat.pow_add]
          _ ≤ _ := Nat.mul_le_mul_right _ hge
      omega
    · have h1 : rounded (2 ^ 1024) 1 ≤ rounded n d := by
        apply rounded_mono _ _ _ _ (by decide) hd
        have : exact (2 ^ 1024) 1 = 2 ^ 2098 := by
          unfold exact
          rw [Nat.cast_pow, Nat.cast_one, div_one, Nat.cast_ofNat, ← pow_add]
        rw [this]; exact hge
      have h2 : rounded (2 ^ 1024) 1 = 2 ^ 2098 := by decide +kernel
      omega
  · intro h
    by_contra hc
    have hc' : (2 : ℚ) ^ 2098 ≤ rounded n d := by
      have : 2 ^ 2098 ≤ rounded n d := Nat.le_of_not_lt hc
      exact_mod_cast this
    have h1 := rounded_nearest n d _ hd units_large
    rw [eB] at h1
    have hp : (0 : ℚ) < 2 ^ 2044 := by positivity
    generalize (2 : ℚ) ^ 2044 = A at *
    generalize (2 : ℚ) ^ 2098 = B at *
    generalize (rounded n d : ℚ) = v at *
    generalize exact n d = y at *
    have h2 : |y - (B - 2 * A)| < |y - v| := by
      rw [abs_of_neg (show y - v < 0 by linarith), abs_lt]
      constructor <;> linarith
    linarith

/-- The number of millionths is exact for the double nearest to a whole number of millionths below `2^33`. -/
theorem millionths_exact (n d N : Nat) (hd : 0 < d) (hN : n * 10 ^ 6 = N * d) (hlt : n < 2 ^ 33 * d) : millionths (rounded n d) = N := by
  have hd' : (0 : ℚ) < d := by exact_mod_cast hd
  have ht : lastBit n d ≤ 1054 := by
    by_contra hc
    have h2 := ge_bottom n d hd (by omega)
    have h3 : exact n d < 2 ^ 1107 := by
      unfold exact
      rw [div_lt_iff₀ hd']
      have e : (2 : ℚ) ^ 1107 = 2 ^ 33 * 2 ^ 1074 := by rw [← pow_add]
      rw [e]
      have hU : (0 : ℚ) < 2 ^ 1074 := by positivity
      have h4 : (n : ℚ) < 2 ^ 33 * d := by exact_mod_cast hlt
      have := mul_lt_mul_of_pos_right h4 hU
      generalize (2 : ℚ) ^ 1074 = U at *
      linarith
    have h5 : (2 : ℚ) ^ (52 + lastBit n d) < 2 ^ 1107 := lt_of_le_of_lt h2 h3
    have h6 : 52 + lastBit n d < 1107 := (pow_lt_pow_iff_right₀ (by norm_num)).mp h5
    omega
  have h1 := rounded_near n d hd
  have h2 : (2 : ℚ) ^ lastBit n d ≤ 2 ^ 1054 := pow_le_pow_right₀ (by norm_num) ht
  unfold millionths
  apply roundEven_unique _ _ _ (by positivity)
  have hN' : (n : ℚ) * 10 ^ 6 = N * d := by exact_mod_cast hN
  have e1 : exact n d * 10 ^ 6 = N * 2 ^ 1074 := by
    unfold exact
    generalize (2 : ℚ) ^ 1074 = U at *
    field_simp
    rw [mul_right_comm, hN']
    ring
  have e2 : (2 : ℚ) ^ 1074 = 2 ^ 20 * 2 ^ 1054 := by rw [← pow_add]
  rw [Nat.cast_mul, Nat.cast_pow, Nat.cast_pow, Nat.cast_ofNat, Nat.cast_ofNat]
  have hU : (0 : ℚ) < 2 ^ 1054 := by positivity
  rw [e2] at e1 ⊢
  generalize (2 : ℚ) ^ 1054 = U at *
  generalize (rounded n d : ℚ) = v at *
  generalize exact n d = y at *
  have h3 : |y - v| ≤ U / 2 := h1.trans (by linarith)
  rw [abs_le] at h3
  have e3 : v * 10 ^ 6 / (2 ^ 20 * U) - N = (v - y) * 10 ^ 6 / (2 ^ 20 * U) := by
    have : (N : ℚ) = y * 10 ^ 6 / (2 ^ 20 * U) := by rw [e1]; field_simp
    rw [this]; ring
  rw [e3, abs_lt, lt_div_iff₀ (by positivity), div_lt_iff₀ (by positivity)]
  constructor <;> linarith only [h3.1, h3.2, hU]

/-- What is printed is within half a millionth. -/
theorem millionths_near (v : Nat) : |(v : ℚ) / 2 ^ 1074 - millionths v / 10 ^ 6| ≤ 1 / 2000000 := by
  have h := roundEven_near (v * 10 ^ 6) (2 ^ 1074) (by positivity)
  change |_ - (millionths v : ℚ)| ≤ _ at h
  rw [Nat.cast_mul, Nat.cast_pow, Nat.cast_pow, Nat.cast_ofNat, Nat.cast_ofNat] at h
  have hU : (0 : ℚ) < 2 ^ 1074 := by positivity
  generalize (2 : ℚ) ^ 1074 = U at *
  rw [abs_le] at h ⊢
  have e : (v : ℚ) * 10 ^ 6 / U = v / U * 10 ^ 6 := by ring
  rw [e] at h
  constructor <;> linarith

/-- Large doubles are read back from what is printed exactly. -/
theorem rounded_millionths (v : Nat) (hv : Units v) (h : 2 ^ 33 * 10 ^ 6 ≤ millionths v) : rounded (millionths v) (10 ^ 6) = v := by
  have hn := millionths_near v
  generalize hN : millionths v = N at *
  have hx : exact N (10 ^ 6) = N / 10 ^ 6 * 2 ^ 1074 := by
    unfold exact
    rw [Nat.cast_pow, Nat.cast_ofNat]
    ring
  have hge : (2 : ℚ) ^ 1107 ≤ exact N (10 ^ 6) := by
    rw [hx]
    have e : (2 : ℚ) ^ 1107 = 2 ^ 33 * 2 ^ 1074 := by rw [← pow_add]
    rw [e]
    apply mul_le_mul_of_nonneg_right _ (by positivity)
    rw [le_div_iff₀ (by norm_num)]
    exact_mod_cast h
  have ht : 1055 ≤ lastBit N (10 ^ 6) := by
    have h1 := lt_top N (10 ^ 6) (by decide)
    have h2 : (2 : ℚ) ^ 1107 < 2 ^ (53 + lastBit N (10 ^ 6)) := lt_of_le_of_lt hge h1
    have h3 : 1107 < 53 + lastBit N (10 ^ 6) := (pow_lt_pow_iff_right₀ (by norm_num)).mp h2
    omega
  apply rounded_eq _ _ _ (by decide) hv (by omega)
  have h2 : (2 : ℚ) ^ 1055 ≤ 2 ^ lastBit N (10 ^ 6) := pow_le_pow_right₀ (by norm_num) ht
  rw [hx]
  have e : (2 : ℚ) ^ 1074 = 2 ^ 19 * 2 ^ 1055 := by rw [← pow_add]
  rw [e] at hn ⊢
  have hU : (0 : ℚ) < 2 ^ 1055 := by positivity
  generalize (2 : ℚ) ^ 1055 = U at *
  generalize (2 : ℚ) ^ lastBit N (10 ^ 6) = L at *
  have e2 : (N : ℚ) / 10 ^ 6 * (2 ^ 19 * U) - v = -(v / (2 ^ 19 * U) - N / 10 ^ 6) * (2 ^ 19 * U) := by field_simp; ring
  rw [e2, abs_mul, abs_neg, abs_of_pos (show (0 : ℚ) < 2 ^ 19 * U by positivity)]
  have := mul_le_mul_of_nonneg_right hn (show (0 : ℚ) ≤ 2 ^ 19 * U by positivity)
  linarith only [this, h2, hU]

/-- Printing a double and reading what is printed gives the same millionths. -/
theorem millionths_stable (v : Nat) (hv : Units v) : millionths (rounded (millionths v) (10 ^ 6)) = millionths v := by
  rcases Nat.lt_or_ge (millionths v) (2 ^ 33 * 10 ^ 6) with h | h
  · exact millionths_exact _ _ _ (by decide) rfl h
  · rw [rounded_millionths v hv h]

/-- What is printed for a double is in the range of doubles. -/
theorem stable_bound (v : Nat) (hv : Units v) (hlt : v < 2 ^ 2098) : rounded (millionths v) (10 ^ 6) < 2 ^ 2098 := by
  rcases Nat.lt_or_ge (millionths v) (2 ^ 33 * 10 ^ 6) with h | h
  · have h1 : rounded (millionths v) (10 ^ 6) ≤ rounded (2 ^ 33) 1 := by
      apply rounded_mono _ _ _ _ (by decide) (by decide)
      unfold exact
      have h2 : (millionths v : ℚ) ≤ 2 ^ 33 * 10 ^ 6 := by exact_mod_cast h.le
      rw [Nat.cast_one, div_one, div_le_iff₀ (by norm_num), Nat.cast_pow, Nat.cast_pow, Nat.cast_ofNat, Nat.cast_ofNat]
      have := mul_le_mul_of_nonneg_right h2 (show (0 : ℚ) ≤ 2 ^ 1074 by positivity)
      generalize (2 : ℚ) ^ 1074 = U at *
      linarith only [this]
    have h2 : rounded (2 ^ 33) 1 < 2 ^ 2098 := by decide +kernel
    omega
  · rw [rounded_millionths v hv h]; exact hlt

/-- Rounding to millionths keeps the order. -/
theorem millionths_mono (v w : Nat) (h : v ≤ w) : millionths v ≤ millionths w := by
  by_contra hc
  have h1 := roundEven_near (v * 10 ^ 6) (2 ^ 1074) (by positivity)
  have h2 := roundEven_near (w * 10 ^ 6) (2 ^ 1074) (by positivity)
  change |_ - (millionths v : ℚ)| ≤ _ at h1
  change |_ - (millionths w : ℚ)| ≤ _ at h2
  have hc' : (millionths w : ℚ) + 1 ≤ millionths v := by exact_mod_cast Nat.lt_of_not_le hc
  have h3 : ((v * 10 ^ 6 : Nat) : ℚ) ≤ ((w * 10 ^ 6 : Nat) : ℚ) := by exact_mod_cast Nat.mul_le_mul_right _ h
  have hU : (0 : ℚ) < ((2 ^ 1074 : Nat) : ℚ) := by positivity
  have h4 := div_le_div_of_nonneg_right h3 hU.le
  rw [abs_le] at h1 h2
  have h5 : ((v * 10 ^ 6 : Nat) : ℚ) / ((2 ^ 1074 : Nat) : ℚ) = ((w * 10 ^ 6 : Nat) : ℚ) / ((2 ^ 1074 : Nat) : ℚ) := by linarith
  have h6 : ((v * 10 ^ 6 : Nat) : ℚ) = ((w * 10 ^ 6 : Nat) : ℚ) := by
    rwa [div_left_inj' hU.ne'] at h5
  have h7 : v * 10 ^ 6 = w * 10 ^ 6 := by exact_mod_cast h6
  have h8 : v = w := by omega
  rw [h8] at hc
  exact hc le_rfl

end Verif.Lemmas.Double
