import Verif.Lemmas.Double
import Verif.Props.RoundTrip
import Verif.Props.ReaderGrammar
/-! # C90, C91, C93: fractional numbers -/
namespace Verif.Props
open Verif.Model Verif.Model.Double Verif.Model.Output Verif.Spec Verif.Lemmas Verif.Lemmas.Double

/-! ### Texts -/

theorem decimal_append (a b : Bytes) : decimal (a ++ b) = decimal a * 10 ^ b.length + decimal b := by
  induction a with
  | nil => simp [decimal]
  | cons x xs ih => simp [decimal, ih, pow_add]; ring

theorem takeWhile_digits (ds : Bytes) (hd : AllDigits ds) (rest : Bytes) :
    (ds ++ 46 :: rest).takeWhile isDigit = ds ∧ (ds ++ 46 :: rest).dropWhile isDigit = 46 :: rest := by
  induction ds with
  | nil => exact ⟨by simp [isDigit], by simp [isDigit]⟩
  | cons d ds ih =>
    have h1 : isDigit d = true := (isDigit_iff d).mpr (hd d (by simp))
    obtain ⟨i1, i2⟩ := ih fun x hx => hd x (by simp [hx])
    rw [List.cons_append, List.takeWhile_cons, List.dropWhile_cons, if_pos h1, if_pos h1, i1, i2]
    exact ⟨rfl, rfl⟩

theorem takeWhile_all (ds : Bytes) (hd : AllDigits ds) : ds.takeWhile isDigit = ds := by
  induction ds with
  | nil => rfl
  | cons d ds ih =>
    have h1 : isDigit d = true := (isDigit_iff d).mpr (hd d (by simp))
    rw [List.takeWhile_cons, if_pos h1, ih fun x hx => hd x (by simp [hx])]

theorem unsigned_text (neg : Bool) (ds fs : Bytes) (hd : AllDigits ds) (hf : AllDigits fs) :
    unsigned b!"." neg (ds ++ 46 :: fs) =
      if ds = [] ∧ fs = [] then ⟨false, some 0⟩ else ⟨neg, nearest (decimal (ds ++ fs)) (10 ^ fs.length)⟩ := by
  unfold unsigned
  obtain ⟨h1, h2⟩ := takeWhile_digits ds hd fs
  rw [h1, h2]
  have h3 : fraction b!"." (46 :: fs) = fs := by
    unfold fraction
    simp [takeWhile_all fs hf]
  rw [h3, decValue_eq]

theorem atof_text (neg : Bool) (ds fs : Bytes) (hd : AllDigits ds) (hf : AllDigits fs) :
    atof b!"." (intText neg ds ++ [46] ++ fs) =
      if ds = [] ∧ fs = [] then ⟨false, some 0⟩ else ⟨neg, nearest (decimal (ds ++ fs)) (10 ^ fs.length)⟩ := by
  rw [← unsigned_text neg ds fs hd hf]
  cases neg
  · simp only [intText, Bool.false_eq_true, if_false, List.nil_append, List.append_assoc, List.singleton_append]
    cases ds with
    | nil => rfl
    | cons d ds =>
      have := hd d (by simp)
      rw [List.cons_append, atof, if_neg (by omega)]
  · have e : intText true ds ++ [46] ++ fs = 45 :: (ds ++ 46 :: fs) := by simp [intText]
    rw [e, atof, if_pos rfl]

theorem nearest_zero : nearest 0 1 = some 0 := by decide +kernel

/-- The sign as a factor. -/
abbrev signOf (neg : Bool) : ℚ := if neg then -1 else 1

theorem atof_denotes {s : Bytes} {x : ℚ} (h : Denotes s x) :
    ∃ neg n d, 0 < d ∧ atof b!"." s = ⟨neg, nearest n d⟩ ∧ x = signOf neg * ((n : ℚ) / (d : ℚ)) := by
  obtain ⟨neg, ds, fs, hd, hf, rfl, rfl⟩ := h
  rw [atof_text neg ds fs hd hf]
  by_cases he : ds = [] ∧ fs = []
  · refine ⟨false, 0, 1, by decide, by rw [if_pos he, nearest_zero], ?_⟩
    obtain ⟨rfl, rfl⟩ := he
    simp [fracValue, decimal]
  · refine ⟨neg, decimal (ds ++ fs), 10 ^ fs.length, by positivity, by rw [if_neg he], ?_⟩
    rw [fracValue, decimal_append]
    push_cast
    congr 1
    have hp : (0 : ℚ) < 10 ^ fs.length := by positivity
    field_simp

theorem sixDigits_digits (r : Nat) : AllDigits (sixDigits r) := by
  intro d hd
  simp only [sixDigits, List.map_cons, List.map_nil, List.mem_cons, List.not_mem_nil, or_false] at hd
  omega

theorem sixDigits_decimal (r : Nat) (hr : r < 10 ^ 6) : decimal (sixDigits r) = r := by
  simp only [sixDigits, List.map_cons, List.map_nil, decimal, List.length_cons, List.length_nil]
  norm_num
  omega

theorem natDigits_all (n : Nat) : AllDigits (natDigits n) := (natDigits_digit n).2

theorem toText_some (neg : Bool) (v : Nat) :
    toText b!"." ⟨neg, some v⟩ = intText neg (natDigits (millionths v / 10 ^ 6)) ++ [46] ++ sixDigits (millionths v % 10 ^ 6) := by
  cases neg <;> simp [toText, intText]

theorem text_value (neg : Bool) (N : Nat) : fracValue neg (natDigits (N / 10 ^ 6)) (sixDigits (N % 10 ^ 6)) = signOf neg * ((N : ℚ) / 10 ^ 6) := by
  have hl : ∀ r, (sixDigits r).length = 6 := fun r => rfl
  rw [fracValue, hl, natDigits_decimal, sixDigits_decimal _ (Nat.mod_lt _ (by decide))]
  congr 1
  have : (N : ℚ) = ((N / 10 ^ 6 * 10 ^ 6 + N % 10 ^ 6 : Nat) : ℚ) := by congr 1; omega
  rw [this]
  push_cast
  field_simp
  norm_num

theorem text_denotes (neg : Bool) (v : Nat) : Denotes (toText b!"." ⟨neg, some v⟩) (signOf neg * ((millionths v : ℚ) / 10 ^ 6)) :=
  ⟨neg, _, _, natDigits_all _, sixDigits_digits _, toText_some neg v, (text_value neg _).symm⟩

/-- A text has at most one value. -/
theorem denotes_unique {s : Bytes} {x y : ℚ} (hx : Denotes s x) (hy : Denotes s y) : x = y := by
  obtain ⟨neg, ds, fs, hd, hf, h1, rfl⟩ := hx
  obtain ⟨neg', ds', fs', hd', hf', h2, rfl⟩ := hy
  rw [h1] at h2
  have key : ∀ ds fs ds' fs' : Bytes, AllDigits ds → AllDigits ds' → ds ++ 46 :: fs = ds' ++ 46 :: fs' → ds = ds' ∧ fs = fs' := by
    intro ds fs ds' fs' hd hd' h
    have t1 := takeWhile_digits ds hd fs
    have t2 := takeWhile_digits ds' hd' fs'
    rw [h] at t1
    refine ⟨t1.1.symm.trans t2.1, ?_⟩
    have := t1.2.symm.trans t2.2
    simpa using this
  have nominus : ∀ (ds fs t : Bytes), AllDigits ds → ds ++ 46 :: fs ≠ 45 :: t := by
    intro ds fs t hd h
    cases ds with
    | nil => simp at h
    | cons d ds => simp at h; have := hd d (by simp); omega
  cases neg <;> cases neg' <;>
    simp only [intText, Bool.false_eq_true, if_false, if_true, List.nil_append, List.append_assoc, List.cons_append] at h2
  · obtain ⟨rfl, rfl⟩ := key _ _ _ _ hd hd' h2; rfl
  · exact absurd h2 (nominus _ _ _ hd)
  · exact absurd h2.symm (nominus _ _ _ hd')
  · obtain ⟨rfl, rfl⟩ := key _ _ _ _ hd hd' (List.cons.inj h2).2; rfl

/-- `inf` and `-inf` are no numbers. -/
theorem inf_denotes (neg : Bool) (x : ℚ) : ¬ Denotes (toText b!"." ⟨neg, none⟩) x := by
  rintro ⟨neg', ds, fs, hd, hf, h, -⟩
  have : (46 : Nat) ∈ toText b!"." ⟨neg, none⟩ := by rw [h]; simp
  revert this
  cases neg <;> decide

/-! ### What the library does -/

theorem exact_value (n d : Nat) : exact n d = (n : ℚ) / d * 2 ^ 1074 := by unfold exact; ring

theorem limit_eq : (2 : ℚ) ^ 2098 - 2 ^ 2044 = tooLarge * 2 ^ 1074 := by
  unfold tooLarge
  rw [sub_mul, ← pow_add, ← pow_add]

theorem abs_signed (neg : Bool) (q : ℚ) (hq : 0 ≤ q) : |signOf neg * q| = q := by
  cases neg <;> simp [signOf, abs_of_nonneg hq]

theorem nearest_cases (n d : Nat) (hd : 0 < d) :
    ((n : ℚ) / d < tooLarge ∧ nearest n d = some (rounded n d)) ∨ (tooLarge ≤ (n : ℚ) / d ∧ nearest n d = none) := by
  have h := rounded_large n d hd
  have hU : (0 : ℚ) < 2 ^ 1074 := by positivity
  rw [limit_eq, exact_value, mul_lt_mul_iff_of_pos_right hU] at h
  rcases lt_or_ge ((n : ℚ) / d) tooLarge with hl | hl
  · exact .inl ⟨hl, by rw [nearest, if_pos (h.mpr hl)]⟩
  · refine .inr ⟨hl, ?_⟩
    rw [nearest, if_neg]
    intro hc
    exact absurd (h.mp hc) (not_lt.mpr hl)

/-- The number a double is. -/
def valueOf (neg : Bool) (v : Nat) : ℚ := signOf neg * ((v : ℚ) / 2 ^ 1074)

theorem isDouble_units {x : ℚ} (h : IsDouble x) : ∃ neg w, Units w ∧ x = valueOf neg w := by
  obtain ⟨m, e, hm, h1, h2, rfl⟩ := h
  have e1 : (2 : ℚ) ^ e = 2 ^ (e + 1074).toNat / 2 ^ 1074 := by
    have h3 : (2 : ℚ) ^ (e + 1074).toNat = 2 ^ e * 2 ^ 1074 := by
      rw [← zpow_natCast, Int.toNat_of_nonneg (by omega), zpow_add₀ (by norm_num)]
      rfl
    rw [h3]
    have hU : (0 : ℚ) < 2 ^ 1074 := by positivity
    field_simp
  refine ⟨decide (m < 0), m.natAbs * 2 ^ (e + 1074).toNat, ⟨_, _, rfl, by rw [Int.abs_eq_natAbs] at hm; exact_mod_cast hm⟩, ?_⟩
  rw [valueOf, e1]
  have hm : (m : ℚ) = signOf (decide (m < 0)) * (m.natAbs : ℚ) := by
    have : (m.natAbs : ℚ) = |(m : ℚ)| := by rw [Nat.cast_natAbs, Int.cast_abs]
    rw [this]
    by_cases h : m < 0
    · rw [abs_of_neg (by exact_mod_cast h)]; simp [signOf, h]
    · rw [abs_of_nonneg (by exact_mod_cast not_lt.mp h)]; simp [signOf, h]
  rw [hm, Nat.cast_mul, Nat.cast_pow, Nat.cast_ofNat]
  ring

theorem units_isDouble (neg : Bool) (v : Nat) (hv : Units v) (hlt : v < 2 ^ 2098) : IsDouble (valueOf neg v) := by
  obtain ⟨m, s, rfl, hm⟩ := hv
  have hU : (0 : ℚ) < 2 ^ 1074 := by positivity
  have gen : ∀ (m s : Nat), m < 2 ^ 53 → s ≤ 2045 → IsDouble (valueOf neg (m * 2 ^ s)) := by
    intro m s hm hs
    refine ⟨if neg then -(m : ℤ) else m, (s : ℤ) - 1074, ?_, by omega, by omega, ?_⟩
    · cases neg <;> simp <;> exact_mod_cast hm
    · rw [valueOf, zpow_sub₀ (by norm_num), zpow_natCast, Nat.cast_mul, Nat.cast_pow, Nat.cast_ofNat]
      cases neg <;> simp [signOf] <;> ring_nf
  rcases Nat.lt_or_ge 2045 s with hs | hs
  · -- shift the surplus into the mantissa
    have e : m * 2 ^ s = m * 2 ^ (s - 2045) * 2 ^ 2045 := multiple m s 2045 (by omega)
    rw [e] at hlt ⊢
    apply gen _ _ _ le_rfl
    have e2 : (2 : Nat) ^ 2098 = 2 ^ 53 * 2 ^ 2045 := by rw [← Nat.pow_add]
    rw [e2] at hlt
    exact Nat.lt_of_mul_lt_mul_right hlt
  · exact gen m s hm hs

theorem abs_flip (a b : ℚ) : |-a - b| = |a + b| := by
  rw [show -a - b = -(a + b) by ring, abs_neg]

/-- The model of `atof` is right: a text in the range of doubles is read as a double, and no double is nearer to its value. -/
theorem atof_correct {s : Bytes} {x : ℚ} (h : Denotes s x) (hx : |x| < tooLarge) :
    ∃ neg v, atof b!"." s = ⟨neg, some v⟩ ∧ IsDouble (valueOf neg v) ∧ ∀ y, IsDouble y → |x - valueOf neg v| ≤ |x - y| := by
  obtain ⟨neg, n, d, hd, ha, rfl⟩ := atof_denotes h
  have hq : (0 : ℚ) ≤ (n : ℚ) / d := by positivity
  rw [abs_signed _ _ hq] at hx
  rcases nearest_cases n d hd with ⟨h1, h2⟩ | ⟨h1, h2⟩
  · refine ⟨neg, rounded n d, by rw [ha, h2], ?_, ?_⟩
    · apply units_isDouble _ _ (rounded_units n d hd)
      unfold nearest at h2
      split at h2
      · assumption
      · cases h2
    · intro y hy
      obtain ⟨neg', w, hw, rfl⟩ := isDouble_units hy
      have h3 := rounded_nearest n d w hd hw
      have h4 := rounded_nearest n d 0 hd ⟨0, 0, rfl, by decide⟩
      rw [exact_value] at h3 h4
      have hU : (0 : ℚ) < 2 ^ 1074 := by positivity
      have hw0 : (0 : ℚ) ≤ w := Nat.cast_nonneg w
      unfold valueOf
      generalize (2 : ℚ) ^ 1074 = U at *
      generalize (rounded n d : ℚ) = v at *
      generalize (n : ℚ) / d = q at *
      generalize (w : ℚ) = w at *
      have sc : ∀ a : ℚ, |q - a / U| = |q * U - a| / U := by
        intro a
        have : q - a / U = (q * U - a) / U := by field_simp
        rw [this, abs_div, abs_of_pos hU]
      have key : ∀ b : ℚ, |q * U - v| ≤ |q * U - b| → |q - v / U| ≤ |q - b / U| := by
        intro b hb
        rw [sc, sc]
        exact div_le_div_of_nonneg_right hb hU.le
      have k1 := key w h3
      have k2 := key 0 (by simpa using h4)
      have kn : |q - 0 / U| ≤ |q + w / U| := by
        have : (0 : ℚ) ≤ w / U := by positivity
        rw [zero_div, sub_zero, abs_of_nonneg hq, abs_of_nonneg (by linarith)]
        linarith
      have e1 := abs_flip
      cases neg <;> cases neg' <;> simp only [signOf, Bool.false_eq_true, if_false, if_true, one_mul, neg_mul]
      · exact k1
      · rw [sub_neg_eq_add]; exact k2.trans kn
      · rw [e1, e1, ← sub_eq_add_neg]; exact k2.trans kn
      · rw [e1, e1, ← sub_eq_add_neg, ← sub_eq_add_neg]; exact k1
  · exact absurd hx (not_lt.mpr h1)

/-- The model of `std::to_string(double)` is right: no text with six decimals is nearer. -/
theorem toText_correct (neg : Bool) (v : Nat) :
    ∃ y, Denotes (toText b!"." ⟨neg, some v⟩) y ∧ ∀ k : ℤ, |valueOf neg v - y| ≤ |valueOf neg v - (k : ℚ) / 10 ^ 6| := by
  refine ⟨_, text_denotes neg v, ?_⟩
  have hn := millionths_near v
  have near : ∀ b : ℤ, |(v : ℚ) / 2 ^ 1074 - (millionths v : ℚ) / 10 ^ 6| ≤ |(v : ℚ) / 2 ^ 1074 - (b : ℚ) / 10 ^ 6| := by
    intro b
    by_cases hb : b = (millionths v : ℤ)
    · rw [hb, Int.cast_natCast]
    · have h1 : (1 : ℚ) ≤ |(b : ℚ) - millionths v| := by
        have : (1 : ℤ) ≤ |b - millionths v| := Int.one_le_abs (sub_ne_zero.mpr hb)
        exact_mod_cast this
      have h2 : |(b : ℚ) / 10 ^ 6 - (millionths v : ℚ) / 10 ^ 6| ≤
          |(v : ℚ) / 2 ^ 1074 - (b : ℚ) / 10 ^ 6| + |(v : ℚ) / 2 ^ 1074 - (millionths v : ℚ) / 10 ^ 6| := by
        rw [abs_sub_comm ((v : ℚ) / 2 ^ 1074) ((b : ℚ) / 10 ^ 6)]
        exact abs_sub_le _ _ _
      have h3 : |(b : ℚ) / 10 ^ 6 - (millionths v : ℚ) / 10 ^ 6| = |(b : ℚ) - millionths v| / 10 ^ 6 := by
        rw [← sub_div, abs_div]; norm_num
      rw [h3] at h2
      linarith
  intro k
  unfold valueOf
  generalize (v : ℚ) / 2 ^ 1074 = q at *
  cases neg
  · simpa [signOf] using near k
  · have h := near (-k)
    have e1 := abs_flip
    simp only [signOf, if_true, neg_mul, one_mul]
    rw [e1, e1, ← sub_eq_add_neg]
    refine h.trans (le_of_eq ?_)
    congr 1
    push_cast
    ring

/-! ### C90 -/

theorem fmt_denotes {s : Bytes} {x : ℚ} (h : Denotes s x) (hx : |x| < tooLarge) :
    ∃ (neg : Bool) (n d : Nat), 0 < d ∧ (n : ℚ) / d < tooLarge ∧ x = signOf neg * ((n : ℚ) / d) ∧ Double.fmt b!"." s = toText b!"." ⟨neg, some (rounded n d)⟩ := by
  obtain ⟨neg, n, d, hd, ha, rfl⟩ := atof_denotes h
  rw [abs_signed _ _ (by positivity)] at hx
  rcases nearest_cases n d hd with ⟨h1, h2⟩ | ⟨h1, h2⟩
  · exact ⟨neg, n, d, hd, hx, rfl, by rw [Double.fmt, ha, h2]⟩
  · exact absurd hx (not_lt.mpr h1)

/-- **C90 is false as stated**: `0.0000001` is read, and printed as `0.000000`. -/
theorem C90_value_false (strict ascii sort compressed : Bool) (surr : Nat → Option Bytes) (junk : List Byte) (n : Nat) :
    ∃ s x v st, Denotes s x ∧ Model.read (envOf strict ascii sort surr) (St.init junk n s) = .ret (some v) st ∧
      display (Double.fmt b!".") compressed v = b!"0.000000" ++ endl compressed ∧ ¬ Denotes b!"0.000000" x := by
  refine ⟨b!"0.0000001", 1 / 10 ^ 7, .dbl b!"0.0000001", ?_⟩
  have h1 : Denotes b!"0.0000001" (1 / 10 ^ 7) :=
    ⟨false, b!"0", b!"0000001", by unfold AllDigits; decide, by unfold AllDigits; decide, rfl, by simp [fracValue, decimal]⟩
  have h2 : Double.fmt b!"." b!"0.0000001" = b!"0.000000" := by decide +kernel
  have h3 : Denotes b!"0.000000" 0 :=
    ⟨false, b!"0", b!"000000", by unfold AllDigits; decide, by unfold AllDigits; decide, rfl, by simp [fracValue, decimal]⟩
  refine ⟨_, h1, rfl, ?_, ?_⟩
  · cases compressed <;> simp [display, write, writePrimitive, getIndent, comma, Json.stringify, h2]
  · intro h
    have := denotes_unique h h3
    norm_num at this

/-- **C90, the part that holds exactly.** A number with at most six decimals (not counting zeros at the end) of size below `2^33` (8.5 thousand
millions) is printed as a text with the same value. Missing: other numbers, for which see `C90_accuracy_partial`. -/
theorem C90_value_partial (s : Bytes) (x : ℚ) (h : Denotes s x) (hx : |x| < 2 ^ 33) (k : ℤ) (hk : x * 10 ^ 6 = k) : Denotes (Double.fmt b!"." s) x := by
  have hl : (2 : ℚ) ^ 33 ≤ tooLarge := by
    unfold tooLarge
    have e1 : (2 : ℚ) ^ 1024 = 2 ^ 54 * 2 ^ 970 := by rw [← pow_add]
    have e2 : (2 : ℚ) ^ 970 = 2 ^ 33 * 2 ^ 937 := by rw [← pow_add]
    have e3 : (1 : ℚ) ≤ 2 ^ 937 := one_le_pow₀ (by norm_num)
    rw [e1, e2]
    generalize (2 : ℚ) ^ 937 = A at *
    linarith only [e3]
  obtain ⟨neg, n, d, hd, -, rfl, hf⟩ := fmt_denotes h (lt_of_lt_of_le hx hl)
  have hd' : (0 : ℚ) < d := by exact_mod_cast hd
  rw [abs_signed _ _ (by positivity), div_lt_iff₀ hd'] at hx
  have hx' : n < 2 ^ 33 * d := by exact_mod_cast hx
  have hk2 : ((n : ℚ) / d) * 10 ^ 6 = (k.natAbs : ℚ) := by
    have e : |signOf neg * ((n : ℚ) / d) * 10 ^ 6| = |(k : ℚ)| := by rw [hk]
    rw [abs_mul, abs_signed _ _ (by positivity), abs_of_pos (show (0 : ℚ) < 10 ^ 6 by norm_num)] at e
    rw [e, Nat.cast_natAbs, Int.cast_abs]
  have hN : n * 10 ^ 6 = k.natAbs * d := by
    rw [div_mul_eq_mul_div, div_eq_iff hd'.ne'] at hk2
    exact_mod_cast hk2
  have hm := millionths_exact n d k.natAbs hd hN hx'
  have ht := text_denotes neg (rounded n d)
  rw [← hf, hm, ← hk2] at ht
  have e : (n : ℚ) / d * 10 ^ 6 / 10 ^ 6 = n / d := by field_simp
  rwa [e] at ht

example : ∃ x k, Denotes b!"-1234567890.123400000" x ∧ |x| < 2 ^ 33 ∧ x * 10 ^ 6 = (k : ℤ) := by
  refine ⟨fracValue true b!"1234567890" b!"123400000", -1234567890123400, ⟨true, _, _, by unfold AllDigits; decide, by unfold AllDigits; decide, rfl, rfl⟩, ?_, ?_⟩
  · simp [fracValue, decimal, abs_lt]; norm_num
  · simp [fracValue, decimal]; norm_num

theorem accuracy_near (q v N U L : ℚ) (hU : 2 ^ 80 ≤ U) (h1 : |q * U - v| ≤ L / 2) (h2 : |v / U - N / 10 ^ 6| ≤ 1 / 2000000)
    (h3 : 2 ^ 52 * L ≤ q * U) : |N / 10 ^ 6 - q| ≤ 1 / 2000000 + q / 2 ^ 53 := by
  have hU0 : 0 < U := lt_of_lt_of_le (by norm_num) hU
  have h4 : |q - v / U| ≤ q / 2 ^ 53 := by
    have e2 : q - v / U = (q * U - v) / U := by field_simp
    rw [e2, abs_div, abs_of_pos hU0, div_le_iff₀ hU0]
    refine h1.trans ?_
    have : q / 2 ^ 53 * U = q * U / 2 ^ 53 := by ring
    rw [this, le_div_iff₀ (by norm_num)]
    linarith
  have h5 : |N / 10 ^ 6 - q| ≤ |v / U - N / 10 ^ 6| + |q - v / U| := by
    rw [abs_sub_comm (v / U), abs_sub_comm q]
    exact abs_sub_le _ _ _
  linarith

/-- Tiny numbers are printed as 0. -/
theorem accuracy_tiny (q v U : ℚ) (N : Nat) (hU : 2 ^ 80 ≤ U) (hq : 0 ≤ q) (h1 : |q * U - v| ≤ 2 ^ 0 / 2) (h2 : |v / U - N / 10 ^ 6| ≤ 1 / 2000000)
    (h3 : q * U < 2 ^ (53 + 0)) : |(N : ℚ) / 10 ^ 6 - q| ≤ 1 / 2000000 + q / 2 ^ 53 := by
  have hU0 : 0 < U := lt_of_lt_of_le (by norm_num) hU
  norm_num at h1 h3
  have hs : q < 1 / 2000000 := by
    have h4 : q * 2 ^ 80 ≤ q * U := mul_le_mul_of_nonneg_left hU hq
    linarith
  have h5 : v ≤ 2 ^ 53 + 1 := by
    have := (abs_le.mp h1).1
    linarith
  have h6 : v / U ≤ 1 / 2 ^ 20 := by
    rw [div_le_div_iff₀ hU0 (by norm_num)]
    linarith
  have h6' : v / U ≤ 1 / 2 ^ 21 / 2 := by
    rw [div_div, div_le_div_iff₀ hU0 (by norm_num)]
    linarith
  have h7 := (abs_le.mp h2).1
  have h0 : N = 0 := by
    by_contra hc
    have : (1 : ℚ) ≤ N := by exact_mod_cast Nat.pos_of_ne_zero hc
    linarith
  rw [h0, Nat.cast_zero, zero_div, zero_sub, abs_neg, abs_of_nonneg hq]
  have : 0 ≤ q / 2 ^ 53 := by positivity
  linarith

/-- **C90, how near the printed number is.** A number in the range of doubles (up to 1.8e308) is printed as a number that differs from it by at most half a
millionth plus a relative error of `2^-53`. -/
theorem C90_accuracy_partial (s : Bytes) (x : ℚ) (h : Denotes s x) (hx : |x| < tooLarge) :
    ∃ y, Denotes (Double.fmt b!"." s) y ∧ |y - x| ≤ 1 / 2000000 + |x| / 2 ^ 53 := by
  obtain ⟨neg, n, d, hd, -, rfl, hf⟩ := fmt_denotes h hx
  refine ⟨_, hf ▸ text_denotes neg (rounded n d), ?_⟩
  rw [← mul_sub, abs_mul, abs_signed _ _ (by positivity)]
  have hs : |signOf neg| = 1 := by cases neg <;> simp [signOf]
  rw [hs, one_mul]
  have h1 := rounded_near n d hd
  have h2 := millionths_near (rounded n d)
  have hq : (0 : ℚ) ≤ (n : ℚ) / d := div_nonneg (Nat.cast_nonneg n) (Nat.cast_nonneg d)
  have hU : (2 : ℚ) ^ 80 ≤ 2 ^ 1074 := pow_le_pow_right₀ (by norm_num) (by norm_num)
  rw [exact_value] at h1
  rcases Nat.eq_zero_or_pos (lastBit n d) with ht | ht
  · have h3 := lt_top n d hd
    rw [ht] at h1 h3
    rw [exact_value] at h3
    exact accuracy_tiny ((n : ℚ) / d) (rounded n d) (2 ^ 1074) (millionths (rounded n d)) hU hq h1 h2 h3
  · have h3 := ge_bottom n d hd ht
    rw [exact_value, pow_add] at h3
    exact accuracy_near ((n : ℚ) / d) (rounded n d) (millionths (rounded n d)) (2 ^ 1074) (2 ^ lastBit n d) hU h1 h2 h3

/-- **C90, beyond the range of doubles**: these numbers are not printed as numbers at all. -/
theorem C90_infinite (s : Bytes) (x : ℚ) (h : Denotes s x) (hx : tooLarge ≤ |x|) : Double.fmt b!"." s = b!"inf" ∨ Double.fmt b!"." s = b!"-inf" := by
  obtain ⟨neg, n, d, hd, ha, rfl⟩ := atof_denotes h
  rw [abs_signed _ _ (by positivity)] at hx
  rcases nearest_cases n d hd with ⟨h1, h2⟩ | ⟨h1, h2⟩
  · exact absurd h1 (not_lt.mpr hx)
  · rw [Double.fmt, ha, h2]
    cases neg
    · exact .inl rfl
    · exact .inr rfl

/-! ### C91 -/

/-- What is printed for a double is printed again unchanged. -/
theorem toText_stable (neg : Bool) (v : Nat) (hv : Units v) (hlt : v < 2 ^ 2098) : Double.fmt b!"." (toText b!"." ⟨neg, some v⟩) = toText b!"." ⟨neg, some v⟩ := by
  rw [toText_some, Double.fmt, atof_text _ _ _ (natDigits_all _) (sixDigits_digits _), if_neg (by simp [sixDigits])]
  have hl : ∀ r, (sixDigits r).length = 6 := fun r => rfl
  rw [decimal_append, hl, natDigits_decimal, sixDigits_decimal _ (Nat.mod_lt _ (by decide))]
  have e : millionths v / 10 ^ 6 * 10 ^ 6 + millionths v % 10 ^ 6 = millionths v := by omega
  rw [e]
  have hs := millionths_stable v hv
  have hr : nearest (millionths v) (10 ^ 6) = some (rounded (millionths v) (10 ^ 6)) := by
    rw [nearest, if_pos]
    exact stable_bound v hv hlt
  rw [hr, toText_some, hs]

theorem nearest_units (n d v : Nat) (hd : 0 < d) (h : nearest n d = some v) : Units v ∧ v < 2 ^ 2098 := by
  unfold nearest at h
  split at h
  · rename_i hlt
    injection h with h
    subst h
    exact ⟨rounded_units n d hd, hlt⟩
  · cases h

theorem unsigned_units (neg : Bool) (t : Bytes) (v : Nat) (h : (unsigned b!"." neg t).size = some v) : Units v ∧ v < 2 ^ 2098 := by
  unfold unsigned at h
  split at h
  · injection h with h
    subst h
    exact ⟨⟨0, 0, rfl, by decide⟩, Nat.pow_pos (by decide)⟩
  · dsimp only at h
    exact nearest_units _ _ _ (Nat.pow_pos (n := _) (show 0 < 10 by decide)) h

theorem atof_units (s : Bytes) (v : Nat) (h : (atof b!"." s).size = some v) : Units v ∧ v < 2 ^ 2098 := by
  cases s with
  | nil => exact unsigned_units _ _ _ h
  | cons c cs =>
    rw [atof] at h
    split at h <;> exact unsigned_units _ _ _ h

/-- What is printed for a number is printed again unchanged, if it is a number. -/
theorem fmt_stable (s : Bytes) (h : ∃ y, Denotes (Double.fmt b!"." s) y) : Double.fmt b!"." (Double.fmt b!"." s) = Double.fmt b!"." s := by
  obtain ⟨y, h⟩ := h
  unfold Double.fmt at h
  rw [show Double.fmt b!"." s = toText b!"." (atof b!"." s) from rfl]
  cases ha : atof b!"." s with
  | mk neg size =>
    cases size with
    | none => rw [ha] at h; exact absurd h (inf_denotes neg y)
    | some v =>
      obtain ⟨h1, h2⟩ := atof_units s v (by rw [ha])
      exact toText_stable neg v h1 h2

theorem printable_stable (ascii sort : Bool) (s : Bytes) (h : Printable ascii sort (Double.fmt b!".") (.dbl s)) :
    Double.fmt b!"." (Double.fmt b!"." s) = Double.fmt b!"." s := by
  obtain ⟨neg, ds, fs, h1, h2, h3⟩ := h
  exact fmt_stable s ⟨_, neg, ds, fs, h1.2, h2.2, h3, rfl⟩

/-- Numbers in the range of doubles are printable. -/
theorem printable_dbl (ascii sort : Bool) (s : Bytes) (x : ℚ) (h : Denotes s x) (hx : |x| < tooLarge) :
    Printable ascii sort (Double.fmt b!".") (.dbl s) := by
  obtain ⟨neg, n, d, -, -, -, hf⟩ := fmt_denotes h hx
  refine ⟨neg, _, _, natDigits_digits _, ?_, by rw [hf, toText_some]⟩
  exact ⟨by simp [sixDigits], sixDigits_digits _⟩

theorem reprint_container (fmt : Bytes → Bytes) (v : Json) : (reprint fmt v).isContainer = v.isContainer := by cases v <;> rfl

theorem reprint_string (fmt : Bytes → Bytes) (ascii sort : Bool) (hs : ∀ s, Printable ascii sort fmt (.dbl s) → fmt (fmt s) = fmt s) (v : Json)
    (hv : v.isContainer = false) (hp : Printable ascii sort fmt v) : (reprint fmt v).stringify fmt = v.stringify fmt := by
  cases v with
  | dbl s => exact hs s hp
  | arr _ => simp [Json.isContainer] at hv
  | obj _ => simp [Json.isContainer] at hv
  | _ => rfl

mutual
theorem reprint_write (ascii sort : Bool) (fmt : Bytes → Bytes) (hs : ∀ s, Printable ascii sort fmt (.dbl s) → fmt (fmt s) = fmt s) (c : Bool) :
    ∀ (v : Json) (n : Nat) (p : Bool), Printable ascii sort fmt v → write fmt c n p (reprint fmt v) = write fmt c n p v
  | .arr xs, n, p, hp => by
    rw [reprint, write, write, reprint_items ascii sort fmt hs c xs (n + 1) true hp]
  | .obj es, n, p, hp => by
    rw [reprint, write, write, reprint_entries ascii sort fmt hs c es (n + 1) true hp.2.2]
  | .str _, n, p, hp => rfl
  | .bool _, n, p, hp => rfl
  | .null, n, p, hp => rfl
  | .int _, n, p, hp => rfl
  | .long _, n, p, hp => rfl
  | .dbl s, n, p, hp => by
    rw [reprint, write, write]
    unfold writePrimitive
    simp only [Json.stringify, hs s hp]
theorem reprint_items (ascii sort : Bool) (fmt : Bytes → Bytes) (hs : ∀ s, Printable ascii sort fmt (.dbl s) → fmt (fmt s) = fmt s) (c : Bool) :
    ∀ (xs : List Json) (n : Nat) (p : Bool), PrintableItems ascii sort fmt xs → writeItems fmt c n p (reprintItems fmt xs) = writeItems fmt c n p xs
  | [], _, _, _ => rfl
  | x :: xs, n, p, hp => by
    rw [reprintItems, writeItems, writeItems, reprint_write ascii sort fmt hs c x n _ hp.1, reprint_items ascii sort fmt hs c xs n _ hp.2]
theorem reprint_entries (ascii sort : Bool) (fmt : Bytes → Bytes) (hs : ∀ s, Printable ascii sort fmt (.dbl s) → fmt (fmt s) = fmt s) (c : Bool) :
    ∀ (es : List (Bytes × Json)) (n : Nat) (p : Bool), PrintableEntries ascii sort fmt es →
      writeEntries fmt c n p (reprintEntries fmt es) = writeEntries fmt c n p es
  | [], _, _, _ => rfl
  | (k, v) :: es, n, p, hp => by
    rw [reprintEntries, writeEntries, writeEntries, reprint_entries ascii sort fmt hs c es n _ hp.2.2.2, reprint_container,
      reprint_write ascii sort fmt hs c v n _ hp.2.2.1]
    cases hv : v.isContainer
    · rw [reprint_string fmt ascii sort hs v hv hp.2.2.1]
    · rfl
end

/-- **C91 is false as stated**: for a number out of the range of doubles `inf` is printed, which cannot be read. (The strings of C21 are
another reason.) -/
theorem C91_stable_false (ascii sort compressed : Bool) (surr : Nat → Option Bytes) (junk : List Byte) (n : Nat) :
    ∃ text v st e, Model.read (envOf true ascii sort surr) (St.init junk n text) = .ret (some v) st ∧ st.warns = [] ∧
      Model.read (envOf true ascii sort surr) (St.init junk n (display (Double.fmt b!".") compressed v)) = .throw e := by
  have hz : AllDigits (List.replicate 309 48) := by
    intro d hd
    rw [List.eq_of_mem_replicate hd]
    decide
  have hne : (49 :: List.replicate 309 48 : Bytes) ≠ [] := List.cons_ne_nil _ _
  have h1 := C02_documents_are_read ascii sort surr junk n (.frac false (49 :: List.replicate 309 48) b!"0") [] []
    ⟨⟨hne, fun d hd => by
      rcases List.mem_cons.mp hd with rfl | hd
      · decide
      · exact hz d hd⟩, ⟨by simp, by decide⟩⟩ trivial trivial (by simp [Blank]) (.inl (by simp [Blank]))
  obtain ⟨st, h2, h3, -⟩ := h1
  have hf : Double.fmt b!"." (intText false (49 :: List.replicate 309 48) ++ [46] ++ b!"0") = b!"inf" := by decide +kernel
  have hd : display (Double.fmt b!".") compressed (Doc.value ascii sort (.frac false (49 :: List.replicate 309 48) b!"0")) = b!"inf" ++ endl compressed := by
    rw [Doc.value, display, write]
    unfold writePrimitive
    simp only [Json.stringify]
    rw [hf]
    cases compressed <;> rfl
  have he : ∃ e, Model.read (envOf true ascii sort surr) (St.init junk n (b!"inf" ++ endl compressed)) = .throw e := by
    cases compressed <;> exact ⟨_, rfl⟩
  obtain ⟨e, he⟩ := he
  exact ⟨_, _, st, e, h2, h3, by rw [hd]; exact he⟩

/-- **C91, the part that holds.** If a document is printable, reading what is printed for it gives a document for which the same is printed, byte for byte.
Numbers in the range of doubles are printable (`printable_dbl`). Missing: as for C21. -/
theorem C91_stable_partial (ascii sort compressed : Bool) (surr : Nat → Option Bytes) (junk : List Byte) (n : Nat) (v : Json)
    (hv : Printable ascii sort (Double.fmt b!".") v) :
    ∃ v' st, Model.read (envOf true ascii sort surr) (St.init junk n (display (Double.fmt b!".") compressed v)) = .ret (some v') st ∧ st.warns = [] ∧
      display (Double.fmt b!".") compressed v' = display (Double.fmt b!".") compressed v := by
  obtain ⟨st, h1, h2⟩ := C21_round_trip_partial (Double.fmt b!".") ascii sort compressed surr junk n v hv
  exact ⟨_, st, h1, h2, reprint_write ascii sort _ (printable_stable ascii sort) compressed v 0 false hv⟩

example : Printable false true (Double.fmt b!".") printableExample := by
  refine ⟨by decide, fun _ => by decide, selfReading_raw _ _ (by decide), by simp, ⟨⟨by decide, by decide, by decide⟩, ⟨by decide, by decide, by decide⟩, ?_, ?_, trivial⟩, ?_⟩
  · exact ⟨false, b!"1", b!"500000", by simp [Digits], by simp [Digits], by decide +kernel⟩
  · exact ⟨[.raw 120, .raw 32, .raw 121, .ctl 110], by simp [strWF, StrItem.WF], rfl, rfl⟩
  · exact ⟨selfReading_raw _ _ (by decide), by simp, ⟨by decide, fun _ => by decide, trivial⟩, trivial⟩

/-! ### C93 -/

/-- **C93.** Numbers printed as numbers are printed in the order of their values. -/
theorem C93_order (s s' : Bytes) (x x' y y' : ℚ) (h : Denotes s x) (h' : Denotes s' x') (hy : Denotes (Double.fmt b!"." s) y)
    (hy' : Denotes (Double.fmt b!"." s') y') (hx : x ≤ x') : y ≤ y' := by
  have key : ∀ (s : Bytes) (x y : ℚ), Denotes s x → Denotes (Double.fmt b!"." s) y →
      ∃ (neg : Bool) (n d : Nat), 0 < d ∧ x = signOf neg * ((n : ℚ) / d) ∧ y = signOf neg * ((millionths (rounded n d) : ℚ) / 10 ^ 6) := by
    intro s x y h hy
    obtain ⟨neg, n, d, hd, ha, rfl⟩ := atof_denotes h
    refine ⟨neg, n, d, hd, rfl, ?_⟩
    rw [Double.fmt, ha] at hy
    rcases nearest_cases n d hd with ⟨-, h2⟩ | ⟨-, h2⟩
    · rw [h2] at hy
      exact denotes_unique hy (text_denotes neg _)
    · rw [h2] at hy
      exact absurd hy (inf_denotes neg y)
  have mono : ∀ n d n' d' : Nat, 0 < d → 0 < d' → (n : ℚ) / d ≤ (n' : ℚ) / d' →
      (millionths (rounded n d) : ℚ) / 10 ^ 6 ≤ (millionths (rounded n' d') : ℚ) / 10 ^ 6 := by
    intro n d n' d' hd hd' hle
    have h1 : rounded n d ≤ rounded n' d' := by
      apply rounded_mono n d n' d' hd hd'
      rw [exact_value, exact_value]
      have hU : (0 : ℚ) ≤ 2 ^ 1074 := pow_nonneg (by norm_num) _
      exact mul_le_mul_of_nonneg_right hle hU
    have h2 : (millionths (rounded n d) : ℚ) ≤ millionths (rounded n' d') := by exact_mod_cast millionths_mono _ _ h1
    exact div_le_div_of_nonneg_right h2 (by norm_num)
  obtain ⟨neg, n, d, hd, rfl, rfl⟩ := key s x y h hy
  obtain ⟨neg', n', d', hd', rfl, rfl⟩ := key s' x' y' h' hy'
  have p1 : (0 : ℚ) ≤ (n : ℚ) / d := div_nonneg (Nat.cast_nonneg n) (Nat.cast_nonneg d)
  have p2 : (0 : ℚ) ≤ (n' : ℚ) / d' := div_nonneg (Nat.cast_nonneg n') (Nat.cast_nonneg d')
  have p3 : (0 : ℚ) ≤ (millionths (rounded n d) : ℚ) / 10 ^ 6 := div_nonneg (Nat.cast_nonneg _) (by norm_num)
  have p4 : (0 : ℚ) ≤ (millionths (rounded n' d') : ℚ) / 10 ^ 6 := div_nonneg (Nat.cast_nonneg _) (by norm_num)
  cases neg <;> cases neg' <;> simp only [signOf, Bool.false_eq_true, if_false, if_true, one_mul, neg_mul] at hx ⊢
  · exact mono _ _ _ _ hd hd' hx
  · -- both are 0
    have q1 : (n : ℚ) / d ≤ (0 : Nat) / (1 : Nat) := by rw [Nat.cast_zero, zero_div]; linarith only [hx, p2]
    have q2 := mono n d 0 1 hd (by decide) q1
    have q3 : millionths (rounded 0 1) = 0 := by decide +kernel
    have q4 : (n' : ℚ) / d' ≤ (0 : Nat) / (1 : Nat) := by rw [Nat.cast_zero, zero_div]; linarith only [hx, p1]
    have q5 := mono n' d' 0 1 hd' (by decide) q4
    rw [q3, Nat.cast_zero, zero_div] at q2 q5
    linarith only [q2, q5]
  · linarith only [p3, p4]
  · have := mono _ _ _ _ hd' hd (show (n' : ℚ) / d' ≤ n / d by linarith only [hx])
    linarith only [this]

example : ∃ x x' y y', Denotes b!"-0.0000016" x ∧ Denotes b!"12345678901234.5678901" x' ∧ x ≤ x' ∧ Denotes (Double.fmt b!"." b!"-0.0000016") y ∧
    Denotes (Double.fmt b!"." b!"12345678901234.5678901") y' := by
  have h1 : Double.fmt b!"." b!"-0.0000016" = b!"-0.000002" := by decide +kernel
  have h2 : Double.fmt b!"." b!"12345678901234.5678901" = b!"12345678901234.568359" := by decide +kernel
  rw [h1, h2]
  refine ⟨fracValue true b!"0" b!"0000016", fracValue false b!"12345678901234" b!"5678901", fracValue true b!"0" b!"000002",
    fracValue false b!"12345678901234" b!"568359", ⟨true, _, _, by unfold AllDigits; decide, by unfold AllDigits; decide, rfl, rfl⟩,
    ⟨false, _, _, by unfold AllDigits; decide, by unfold AllDigits; decide, rfl, rfl⟩, ?_, ⟨true, _, _, by unfold AllDigits; decide, by unfold AllDigits; decide, rfl, rfl⟩,
    ⟨false, _, _, by unfold AllDigits; decide, by unfold AllDigits; decide, rfl, rfl⟩⟩
  simp [fracValue, decimal]
  norm_num

end Verif.Props
