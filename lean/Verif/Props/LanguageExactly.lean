import Verif.Props.Language
/-! # C92: exactly which documents are printed in the same way in two languages -/
namespace Verif.Props
open Verif.Model Verif.Model.Main Verif.Model.Output Verif.Spec

mutual
/-- The numbers with a decimal point in the document, as they are written in it. -/
def fractions : Json → List Bytes
  | .arr xs => fractionsItems xs
  | .obj es => fractionsEntries es
  | .dbl t => [t]
  | .str _ => []
  | .bool _ => []
  | .null => []
  | .int _ => []
  | .long _ => []
def fractionsItems : List Json → List Bytes
  | [] => []
  | x :: xs => fractions x ++ fractionsItems xs
def fractionsEntries : List (Bytes × Json) → List Bytes
  | [] => []
  | (_, v) :: es => fractions v ++ fractionsEntries es
end

/-- How often `b` occurs in the texts printed for `ts`. -/
def tally (b : Byte) (f : Bytes → Bytes) (ts : List Bytes) : Nat := (ts.map fun t => (f t).count b).sum

theorem tally_append (b : Byte) (f : Bytes → Bytes) (ts us : List Bytes) : tally b f (ts ++ us) = tally b f ts + tally b f us := by
  simp [tally]

theorem count_stringify (b : Byte) (f g : Bytes → Bytes) (v : Json) (h : v.isContainer = false) :
    (v.stringify f).count b + tally b g (fractions v) = (v.stringify g).count b + tally b f (fractions v) := by
  cases v with
  | dbl t => simp [Json.stringify, fractions, tally]; omega
  | arr xs => cases h
  | obj es => cases h
  | _ => simp [Json.stringify, fractions, tally]

theorem count_primitive (b : Byte) (f g : Bytes → Bytes) (c : Bool) (n : Nat) (p : Bool) (v : Json) (h : v.isContainer = false) :
    (writePrimitive f c n p v).count b + tally b g (fractions v) = (writePrimitive g c n p v).count b + tally b f (fractions v) := by
  have := count_stringify b f g v h
  unfold writePrimitive
  cases v with
  | dbl t => simp only [List.count_append] at this ⊢; omega
  | arr xs => cases h
  | obj es => cases h
  | _ => simp only [List.count_append] at this ⊢; omega

mutual
theorem count_write (b : Byte) (f g : Bytes → Bytes) (c : Bool) : ∀ (v : Json) (n : Nat) (p : Bool),
    (write f c n p v).count b + tally b g (fractions v) = (write g c n p v).count b + tally b f (fractions v)
  | .arr xs, n, p => by
    have := count_items b f g c xs (n + 1) true
    rw [write, write, fractions]
    simp only [List.count_append]
    omega
  | .obj es, n, p => by
    have := count_entries b f g c es (n + 1) true
    rw [write, write, fractions]
    simp only [List.count_append]
    omega
  | .str s, n, p => by rw [write, write]; exact count_primitive b f g c n p _ rfl
  | .bool s, n, p => by rw [write, write]; exact count_primitive b f g c n p _ rfl
  | .null, n, p => by rw [write, write]; exact count_primitive b f g c n p _ rfl
  | .int s, n, p => by rw [write, write]; exact count_primitive b f g c n p _ rfl
  | .long s, n, p => by rw [write, write]; exact count_primitive b f g c n p _ rfl
  | .dbl s, n, p => by rw [write, write]; exact count_primitive b f g c n p _ rfl
theorem count_items (b : Byte) (f g : Bytes → Bytes) (c : Bool) : ∀ (xs : List Json) (n : Nat) (p : Bool),
    (writeItems f c n p xs).count b + tally b g (fractionsItems xs) = (writeItems g c n p xs).count b + tally b f (fractionsItems xs)
  | [], _, _ => rfl
  | x :: xs, n, p => by
    have h1 := count_write b f g c x n (!p)
    have h2 := count_items b f g c xs n false
    rw [writeItems, writeItems, fractionsItems]
    simp only [List.count_append, tally_append]
    omega
theorem count_entries (b : Byte) (f g : Bytes → Bytes) (c : Bool) : ∀ (es : List (Bytes × Json)) (n : Nat) (p : Bool),
    (writeEntries f c n p es).count b + tally b g (fractionsEntries es) = (writeEntries g c n p es).count b + tally b f (fractionsEntries es)
  | [], _, _ => rfl
  | (k, v) :: es, n, p => by
    have h1 := count_write b f g c v n false
    have h2 := count_entries b f g c es n false
    rw [writeEntries, writeEntries, fractionsEntries]
    cases hv : v.isContainer with
    | true =>
      simp only [if_true, List.count_append, tally_append]
      omega
    | false =>
      have h3 := count_stringify b f g v hv
      simp only [Bool.false_eq_true, if_false, List.count_append, tally_append]
      omega
end

mutual
theorem write_agree (f g : Bytes → Bytes) (c : Bool) : ∀ (v : Json) (n : Nat) (p : Bool), (∀ t ∈ fractions v, f t = g t) → write f c n p v = write g c n p v
  | .arr xs, n, p, h => by rw [write, write, items_agree f g c xs (n + 1) true h]
  | .obj es, n, p, h => by rw [write, write, entries_agree f g c es (n + 1) true h]
  | .str _, n, p, h => rfl
  | .bool _, n, p, h => rfl
  | .null, n, p, h => rfl
  | .int _, n, p, h => rfl
  | .long _, n, p, h => rfl
  | .dbl t, n, p, h => by rw [write, write]; unfold writePrimitive; simp only [Json.stringify]; rw [h t (by simp [fractions])]
theorem items_agree (f g : Bytes → Bytes) (c : Bool) : ∀ (xs : List Json) (n : Nat) (p : Bool), (∀ t ∈ fractionsItems xs, f t = g t) →
    writeItems f c n p xs = writeItems g c n p xs
  | [], _, _, _ => rfl
  | x :: xs, n, p, h => by
    rw [writeItems, writeItems, write_agree f g c x n _ fun t ht => h t (by rw [fractionsItems]; simp [ht]),
      items_agree f g c xs n _ fun t ht => h t (by rw [fractionsItems]; simp [ht])]
theorem entries_agree (f g : Bytes → Bytes) (c : Bool) : ∀ (es : List (Bytes × Json)) (n : Nat) (p : Bool), (∀ t ∈ fractionsEntries es, f t = g t) →
    writeEntries f c n p es = writeEntries g c n p es
  | [], _, _, _ => rfl
  | (k, v) :: es, n, p, h => by
    have hv : ∀ t ∈ fractions v, f t = g t := fun t ht => h t (by rw [fractionsEntries]; simp [ht])
    have hs : v.isContainer = false → v.stringify f = v.stringify g := by
      intro hc
      cases v with
      | dbl t => exact hv t (by simp [fractions])
      | arr xs => cases hc
      | obj es => cases hc
      | _ => rfl
    rw [writeEntries, writeEntries, write_agree f g c v n _ hv, entries_agree f g c es n _ fun t ht => h t (by rw [fractionsEntries]; simp [ht])]
    cases hc : v.isContainer with
    | true => simp
    | false => rw [hs hc]
end

theorem natDigits_free (b : Byte) (hb : b < 48 ∨ 57 < b) (n : Nat) : (natDigits n).count b = 0 := by
  rw [List.count_eq_zero]
  intro h
  have := (natDigits_digit n).2 b h
  omega

theorem sixDigits_free (b : Byte) (hb : b < 48 ∨ 57 < b) (n : Nat) : (Double.sixDigits n).count b = 0 := by
  rw [List.count_eq_zero]
  intro h
  obtain ⟨k, -, hk⟩ := List.mem_map.1 h
  have := Nat.mod_lt (n / k) (by decide : 0 < 10)
  have hk : 48 + n / k % 10 = b := hk
  omega

theorem neg_free (b : Byte) (hb : b ≠ 45) (neg : Bool) : (if neg then b!"-" else ([] : Bytes)).count b = 0 := by
  cases neg
  · rfl
  · rw [List.count_eq_zero]; simpa using hb

/-- What is printed for a finite number, and for an infinite one. -/
theorem count_text (p : Bytes) (b : Byte) (h48 : b < 45 ∨ b = 46 ∨ 57 < b) (d : Double.Dbl) :
    (Double.toText p d).count b = (if d.size = none then (b!"inf" : Bytes).count b else p.count b) := by
  obtain ⟨neg, size⟩ := d
  cases size with
  | none => simp only [Double.toText, List.count_append, neg_free b (by omega), if_true]; omega
  | some v =>
    simp only [Double.toText, List.count_append, neg_free b (by omega), natDigits_free b (by omega), sixDigits_free b (by omega)]
    simp

/-- The text is printed as `inf` or `-inf` with the decimal point `p`. -/
def Infinite (p t : Bytes) : Prop := Double.fmt p t = b!"inf" ∨ Double.fmt p t = b!"-inf"

theorem infinite_iff (p t : Bytes) : Infinite p t ↔ (Double.atof p t).size = none := by
  constructor
  · intro h
    apply Classical.byContradiction
    intro hn
    rcases hd : Double.atof p t with ⟨neg, size⟩
    rw [hd] at hn
    cases size with
    | none => exact hn rfl
    | some v =>
      have hl : ∃ s c, s ∈ Double.fmt p t ∧ c = s ∧ 48 ≤ c ∧ c ≤ 57 := by
        have hne := (natDigits_digit (Double.millionths v / 10 ^ 6)).1
        obtain ⟨x, xs, hx⟩ := List.exists_cons_of_ne_nil hne
        have := (natDigits_digit (Double.millionths v / 10 ^ 6)).2 x (by rw [hx]; simp)
        refine ⟨x, x, ?_, rfl, this⟩
        unfold Double.fmt
        rw [hd, Double.toText, hx]
        simp
      obtain ⟨s, c, h1, rfl, h2, h3⟩ := hl
      rcases h with h | h <;> rw [h] at h1 <;> simp at h1 <;> omega
  · intro h
    unfold Infinite Double.fmt
    rcases hd : Double.atof p t with ⟨neg, size⟩
    rw [hd] at h
    cases h
    cases neg
    · exact .inl rfl
    · exact .inr rfl

theorem atof_neg (p q t : Bytes) (hp : (Double.atof p t).size = none) (hq : (Double.atof q t).size = none) : (Double.atof p t).neg = (Double.atof q t).neg := by
  have u : ∀ p neg t, (Double.unsigned p neg t).size = none → (Double.unsigned p neg t).neg = neg := by
    intro p neg t h
    unfold Double.unsigned at h ⊢
    split at h
    · cases h
    · rw [if_neg (by assumption)]
  cases t with
  | nil => exact (u p false [] hp).trans (u q false [] hq).symm
  | cons c cs =>
    unfold Double.atof at hp hq ⊢
    by_cases h : c = 45
    · simp only [h, if_true] at hp hq ⊢
      exact (u _ _ _ hp).trans (u _ _ _ hq).symm
    · simp only [h, if_false] at hp hq ⊢
      exact (u _ _ _ hp).trans (u _ _ _ hq).symm

theorem infinite_same (p q t : Bytes) (hp : Infinite p t) (hq : Infinite q t) : Double.fmt p t = Double.fmt q t := by
  have h1 := (infinite_iff p t).1 hp
  have h2 := (infinite_iff q t).1 hq
  have h3 := atof_neg p q t h1 h2
  unfold Double.fmt
  rcases hd : Double.atof p t with ⟨n, s⟩
  rcases hr : Double.atof q t with ⟨m, r⟩
  rw [hd] at h1 h3
  rw [hr] at h2 h3
  cases h1
  cases h2
  cases h3
  rfl

theorem sum_zero : ∀ (l : List Nat), l.sum = 0 → ∀ x ∈ l, x = 0
  | [], _, _, h => by cases h
  | y :: l, hs, x, hx => by
    simp only [List.sum_cons] at hs
    rcases List.mem_cons.1 hx with rfl | hx
    · omega
    · exact sum_zero l (by omega) x hx

theorem sum_full : ∀ (l : List Nat), (∀ x ∈ l, x ≤ 1) → l.sum = l.length → ∀ x ∈ l, x = 1
  | [], _, _, _, h => by cases h
  | y :: l, hb, hs, x, hx => by
    have hl : l.sum ≤ l.length := by
      have : ∀ l : List Nat, (∀ x ∈ l, x ≤ 1) → l.sum ≤ l.length := by
        intro l
        induction l with
        | nil => intro _; exact Nat.le_refl _
        | cons a l ih =>
          intro h
          have h1 := h a (by simp)
          have h2 := ih fun x hx => h x (by simp [hx])
          simp only [List.sum_cons, List.length_cons]
          omega
      exact this l fun x hx => hb x (by simp [hx])
    have hy := hb y (by simp)
    simp only [List.sum_cons, List.length_cons] at hs
    rcases List.mem_cons.1 hx with rfl | hx
    · omega
    · exact sum_full l (fun x hx => hb x (by simp [hx])) (by omega) x hx

theorem dropWhile_all (ds : Bytes) (hd : AllDigits ds) : ds.dropWhile isDigit = [] := by
  induction ds with
  | nil => rfl
  | cons d ds ih =>
    have h1 : isDigit d = true := (Verif.Lemmas.isDigit_iff d).mpr (hd d (by simp))
    rw [List.dropWhile_cons, if_pos h1, ih fun x hx => hd x (by simp [hx])]

theorem unsigned_other (p f : Bytes) (neg : Bool) (i : Bytes) (hp : 46 ∉ p) (hne : p ≠ []) (hd : AllDigits i) :
    Double.unsigned p neg (i ++ 46 :: f) = Double.unsigned b!"." neg i ∧
      Double.unsigned b!"." neg i = if i = [] then ⟨false, some 0⟩ else ⟨neg, Double.nearest (decValue i) 1⟩ := by
  obtain ⟨h1, h2⟩ := takeWhile_digits i hd f
  have h3 : Double.fraction p (46 :: f) = [] := by
    unfold Double.fraction
    cases p with
    | nil => exact absurd rfl hne
    | cons c cs =>
      have : c ≠ 46 := fun h => hp (by simp [h])
      rw [if_neg]
      simp [List.isPrefixOf, this]
  have h4 : Double.fraction b!"." [] = [] := rfl
  unfold Double.unsigned
  rw [h1, h2, h3, takeWhile_all i hd, dropWhile_all i hd, h4]
  simp

theorem atof_cons (p : Bytes) (i : Bytes) (hi : ∀ c cs, i = c :: cs → c ≠ 45) : Double.atof p i = Double.unsigned p false i := by
  cases i with
  | nil => rfl
  | cons c cs =>
    show (if c = 45 then _ else _) = _
    rw [if_neg (hi c cs rfl)]

theorem atof_other (p f : Bytes) (neg : Bool) (i : Bytes) (hp : 46 ∉ p) (hne : p ≠ []) (hd : AllDigits i) :
    Double.atof p ((if neg then b!"-" else []) ++ i ++ b!"." ++ f) = Double.atof b!"." ((if neg then b!"-" else []) ++ i) := by
  have hu := (unsigned_other p f neg i hp hne hd).1
  have he : i ++ b!"." ++ f = i ++ 46 :: f := by simp
  cases neg with
  | true =>
    show Double.atof p (45 :: (i ++ b!"." ++ f)) = Double.atof b!"." (45 :: i)
    rw [he]
    exact hu
  | false =>
    show Double.atof p (i ++ b!"." ++ f) = Double.atof b!"." i
    rw [he, atof_cons _ (i ++ 46 :: f), atof_cons _ i, hu]
    · intro c cs h
      have := hd c (by rw [h]; simp)
      omega
    · intro c cs h
      cases i with
      | nil => simp at h; omega
      | cons d ds =>
        have := hd d (by simp)
        simp at h
        omega

/-- A whole number is rounded to a whole number. -/
theorem rounded_whole (n : Nat) : ∃ k, Double.rounded n 1 = k * 2 ^ 1074 := by
  unfold Double.rounded
  generalize Double.lastBit n 1 = L
  rcases Nat.lt_or_ge L 1074 with h | h
  · refine ⟨n, ?_⟩
    have e : n * 2 ^ 1074 = n * 2 ^ (1074 - L) * 2 ^ L := by
      rw [Nat.mul_assoc, ← Nat.pow_add]
      congr 2
      omega
    have hq : 0 < 2 ^ L := Nat.pow_pos (by decide)
    rw [Nat.one_mul, Verif.Lemmas.roundEven_one _ _ hq]
    · rw [e, Nat.mul_div_cancel _ hq]
    · rw [e, Nat.mul_div_cancel _ hq, Nat.mul_comm]
  · obtain ⟨d, rfl⟩ := Nat.exists_eq_add_of_le h
    refine ⟨F32.roundEven (n * 2 ^ 1074) (1 * 2 ^ (1074 + d)) * 2 ^ d, ?_⟩
    rw [Nat.mul_assoc, ← Nat.pow_add]
    congr 2
    omega

theorem atof_whole (neg : Bool) (i : Bytes) (hd : AllDigits i) (v : Nat) (h : (Double.atof b!"." ((if neg then b!"-" else []) ++ i)).size = some v) :
    Double.millionths v % 10 ^ 6 = 0 := by
  have hu := (unsigned_other b!"," [] neg i (by decide) (by decide) hd).2
  have ha : Double.atof b!"." ((if neg then b!"-" else []) ++ i) = Double.unsigned b!"." neg i := by
    cases neg with
    | true =>
      rfl
    | false =>
      refine atof_cons _ i fun c cs h => ?_
      have := hd c (by rw [h]; simp)
      omega
  rw [ha, hu] at h
  have hk : ∃ k, v = k * 2 ^ 1074 := by
    split at h
    · refine ⟨0, ?_⟩
      have := Option.some.inj h
      omega
    · obtain ⟨k, hk⟩ := rounded_whole (decValue i)
      unfold Double.nearest at h
      simp only at h
      split at h
      · exact ⟨k, (Option.some.inj h).symm.trans hk⟩
      · cases h
  obtain ⟨k, hk⟩ := hk
  have hq : 0 < 2 ^ 1074 := Nat.pow_pos (by decide)
  unfold Double.millionths
  generalize 2 ^ 1074 = Q at hk hq
  have e : v * 10 ^ 6 = k * 10 ^ 6 * Q := by rw [hk, Nat.mul_assoc, Nat.mul_assoc, Nat.mul_comm Q]
  rw [Verif.Lemmas.roundEven_one _ _ hq]
  · rw [e, Nat.mul_div_cancel _ hq, Nat.mul_mod_left]
  · rw [e, Nat.mul_div_cancel _ hq, Nat.mul_comm]

/-- **C92, exactly.** For every document, and every language whose decimal point has neither `.` nor `i` in it:
(1) the document is printed as in a language with `.` exactly if each of its numbers with a decimal point is printed as `inf` in both: all others are
printed in another way. (2) What is printed for the number `i.f` instead is what is printed for `i` in a language with `.`, with the
other decimal point in place of `.`: the decimals are lost. -/
theorem C92_exactly_partial (p : Bytes) (hp : (c%'.' : Byte) ∉ p) (hi : (c%'i' : Byte) ∉ p) :
    (∀ (compressed : Bool) (v : Json), display (Double.fmt p) compressed v = display (Double.fmt b!".") compressed v ↔
      ∀ t ∈ fractions v, Infinite b!"." t ∧ Infinite p t) ∧
    (p ≠ [] → ∀ (neg : Bool) (i f : Bytes), AllDigits i →
      (Infinite b!"." ((if neg then b!"-" else []) ++ i) ∧
        Double.fmt p ((if neg then b!"-" else []) ++ i ++ b!"." ++ f) = Double.fmt b!"." ((if neg then b!"-" else []) ++ i)) ∨
      ∃ u, Double.fmt b!"." ((if neg then b!"-" else []) ++ i) = u ++ b!"." ++ b!"000000" ∧
        Double.fmt p ((if neg then b!"-" else []) ++ i ++ b!"." ++ f) = u ++ p ++ b!"000000") := by
  constructor
  · intro compressed v
    constructor
    · intro h
      have count : ∀ b, tally b (Double.fmt b!".") (fractions v) = tally b (Double.fmt p) (fractions v) := by
        intro b
        have := count_write b (Double.fmt p) (Double.fmt b!".") compressed v 0 false
        unfold display at h
        rw [h] at this
        omega
      have dots : ∀ t ∈ fractions v, Infinite b!"." t := by
        intro t ht
        rw [infinite_iff]
        have h0 : tally 46 (Double.fmt p) (fractions v) = 0 := by
          have : ∀ ts : List Bytes, tally 46 (Double.fmt p) ts = 0 := by
            intro ts
            induction ts with
            | nil => rfl
            | cons t ts ih =>
              unfold tally at ih ⊢
              rw [List.map_cons, List.sum_cons, ih]
              unfold Double.fmt
              rw [count_text p 46 (by omega)]
              split
              · decide
              · rw [List.count_eq_zero.2 hp]
          exact this _
        have h1 := sum_zero _ ((count 46).trans h0) _ (List.mem_map.2 ⟨t, ht, rfl⟩)
        unfold Double.fmt at h1
        rw [count_text _ 46 (by omega)] at h1
        apply Classical.byContradiction
        intro hn
        rw [if_neg hn] at h1
        cases h1
      intro t ht
      refine ⟨dots t ht, ?_⟩
      rw [infinite_iff]
      have one : ∀ t ∈ fractions v, (Double.fmt b!"." t).count 105 = 1 := by
        intro t ht
        unfold Double.fmt
        rw [count_text _ 105 (by omega), if_pos ((infinite_iff _ _).1 (dots t ht))]
        decide
      have full : tally 105 (Double.fmt b!".") (fractions v) = (fractions v).length := by
        have : ∀ ts : List Bytes, (∀ t ∈ ts, (Double.fmt b!"." t).count 105 = 1) → tally 105 (Double.fmt b!".") ts = ts.length := by
          intro ts
          induction ts with
          | nil => intro _; rfl
          | cons t ts ih =>
            intro h
            have h1 := h t (by simp)
            have h2 := ih fun t ht => h t (by simp [ht])
            unfold tally at h2 ⊢
            rw [List.map_cons, List.sum_cons, h2, h1, List.length_cons]
            omega
        exact this _ one
      have hc : ∀ t, (Double.fmt p t).count 105 = if (Double.atof p t).size = none then 1 else 0 := by
        intro t
        unfold Double.fmt
        rw [count_text p 105 (by omega), List.count_eq_zero.2 hi]
        rfl
      have h1 := sum_full ((fractions v).map fun t => (Double.fmt p t).count 105) (by
        intro x hx
        obtain ⟨t, -, rfl⟩ := List.mem_map.1 hx
        rw [hc]
        split <;> omega) (by
        have := (count 105).symm.trans full
        unfold tally at this
        rw [this, List.length_map]) _ (List.mem_map.2 ⟨t, ht, rfl⟩)
      rw [hc] at h1
      apply Classical.byContradiction
      intro hn
      rw [if_neg hn] at h1
      cases h1
    · intro h
      exact write_agree _ _ compressed v 0 false fun t ht => infinite_same _ _ t (h t ht).2 (h t ht).1
  · intro hne neg i f hd
    have hat := atof_other p f neg i hp hne hd
    unfold Double.fmt
    rw [hat]
    rcases hs : Double.atof b!"." ((if neg then b!"-" else []) ++ i) with ⟨n, size⟩
    cases size with
    | none =>
      left
      refine ⟨(infinite_iff _ _).2 (by rw [hs]), rfl⟩
    | some v =>
      right
      have hv := atof_whole neg i hd v (by rw [hs])
      refine ⟨(if n then b!"-" else []) ++ natDigits (Double.millionths v / 10 ^ 6), ?_, ?_⟩ <;>
        simp only [Double.toText, hv] <;> rfl

/-- `[1.5,{"a":".5","b":2}]` has one such number, which a decimal comma changes; and a document with a number of 310 digits, which it does not change. -/
example : fractions (.arr [.dbl b!"1.5", .obj [(b!"a", .str b!".5"), (b!"b", .int 2)]]) = [b!"1.5"] ∧
    ¬ Infinite b!"." b!"1.5" ∧ Double.fmt b!"," b!"1.5" = b!"1,000000" ∧ Double.fmt b!"." b!"1" = b!"1.000000" := by
  refine ⟨rfl, ?_, by decide +kernel, by decide +kernel⟩
  unfold Infinite
  decide +kernel
example : ∀ t ∈ fractions (.arr [.dbl ((49 :: List.replicate 309 48) ++ b!".5")]), Infinite b!"." t ∧ Infinite b!"," t := by
  intro t ht
  rw [show fractions (.arr [.dbl ((49 :: List.replicate 309 48) ++ b!".5")]) = [(49 :: List.replicate 309 48) ++ b!".5"] from rfl, List.mem_singleton] at ht
  rw [ht]
  constructor <;> exact .inl (by decide +kernel)

end Verif.Props
