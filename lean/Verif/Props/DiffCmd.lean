import Verif.Model.DiffCmd
import Verif.Props.RoundTrip
/-! # C51, C52: the external diff command and its temporary files -/
namespace Verif.Props
open Verif.Model Verif.Model.DiffCmd

/-- The command with each `{}` replaced by all the files. -/
def expand (cmd files : List Bytes) : List Bytes := cmd.flatMap fun a => if a = b!"{}" then files else [a]

theorem nbParams_expand (cmd files : List Bytes) : nbParams cmd files = (expand cmd files).length := by
  have key : ∀ n, cmd.foldl (fun n i => if i = b!"{}" then n + files.length else n + 1) n = n + (expand cmd files).length := by
    induction cmd with
    | nil => intro n; simp [expand]
    | cons a cmd ih =>
      intro n
      rw [List.foldl_cons, ih]
      simp only [expand, List.flatMap_cons, List.length_append]
      split <;> simp <;> omega
  rw [nbParams, key]; omega

theorem store_all : ∀ (cs done : List Cell) (k : Nat), cs.length ≤ k →
    cs.foldl store (some (done ++ List.replicate k .unset, done.length)) =
      some (done ++ cs ++ List.replicate (k - cs.length) .unset, (done ++ cs).length)
  | [], done, k, _ => by simp
  | c :: cs, done, 0, h => by simp at h
  | c :: cs, done, k + 1, h => by
    rw [List.foldl_cons]
    have : store (some (done ++ List.replicate (k + 1) .unset, done.length)) c = some ((done ++ [c]) ++ List.replicate k .unset, (done ++ [c]).length) := by
      simp only [store, List.length_append, List.length_replicate]
      rw [if_pos (by omega)]
      simp [List.replicate_succ]
    rw [this, store_all cs (done ++ [c]) k (by simp at h; omega)]
    simp

theorem store_expand (files : List Bytes) : ∀ (cmd : List Bytes) (st : Option (List Cell × Nat)),
    cmd.foldl (fun st i => if i = b!"{}" then files.foldl (fun st f => store st (dup f)) st else store st (dup i)) st =
      ((expand cmd files).map dup).foldl store st
  | [], st => rfl
  | a :: cmd, st => by
    rw [List.foldl_cons, store_expand files cmd]
    simp only [expand, List.flatMap_cons, List.map_append, List.foldl_append]
    split
    · next h => rw [List.foldl_map (f := dup)]; rw [List.foldl_map (f := dup)]; rw [List.foldl_map (f := dup)]
    · next h => rfl

theorem dup_text (s : Bytes) (h : 0 ∉ s) : dup s = .text s := by
  rw [dup]
  congr 1
  induction s with
  | nil => rfl
  | cons b s ih =>
    simp only [List.mem_cons, not_or] at h
    rw [List.takeWhile_cons, if_pos (by simp; omega), ih h.2]

/-- **C51.** For every command and all files (none of them with a null character): the vector computed first is exactly the command with
each `{}` replaced by all the files, in order, and a null pointer at its end; nothing is written outside it; and every later call, with
whatever files, returns the same vector. -/
theorem C51_arguments (cmd files : List Bytes) (hc : ∀ a ∈ cmd, 0 ∉ a) (hf : ∀ f ∈ files, 0 ∉ f) :
    ∃ d', computeArgv ((cmd.foldl add new)) files = some ((expand cmd files).map .text ++ [.null], d') ∧
      ∀ files', computeArgv d' files' = some ((expand cmd files).map .text ++ [.null], d') := by
  have hadd : ∀ (cmd : List Bytes) (d : DiffCmd), (cmd.foldl add d) = { d with argv := d.argv ++ cmd } := by
    intro cmd
    induction cmd with
    | nil => intro d; simp
    | cons a cmd ih => intro d; rw [List.foldl_cons, ih]; simp [add]
  rw [hadd, show (new.argv ++ cmd) = cmd from rfl]
  have hdup : (expand cmd files).map dup = (expand cmd files).map .text := by
    apply List.map_congr_left
    intro s hs
    apply dup_text
    simp only [expand, List.mem_flatMap] at hs
    obtain ⟨a, ha, hs⟩ := hs
    split at hs
    · exact hf s hs
    · simp only [List.mem_singleton] at hs; rw [hs]; exact hc a ha
  have h1 := store_all ((expand cmd files).map dup) [] (nbParams cmd files + 1) (by rw [nbParams_expand]; simp)
  have h2 : (nbParams cmd files + 1) - ((expand cmd files).map dup).length = 1 := by rw [nbParams_expand]; simp
  rw [h2] at h1
  refine ⟨⟨cmd, some ((expand cmd files).map .text ++ [.null])⟩, ?_, fun _ => rfl⟩
  simp only [computeArgv, new]
  rw [store_expand]
  simp only [List.nil_append, List.length_nil] at h1
  rw [h1, hdup]
  simp [store]

example : (computeArgv ([b!"diff", b!"-u", b!"{}"].foldl add new) [b!"/tmp/a", b!"/tmp/b"]).map (·.1) =
    some [.text b!"diff", .text b!"-u", .text b!"/tmp/a", .text b!"/tmp/b", .null] := by decide

/-- The number a name stands for, before it is cut to 64 bits: the characters are digits in base 32. -/
def weight (s : Bytes) : Int := s.foldl (fun h c => h * 32 + signed c) 0

theorem weight_from (s : Bytes) (h : Int) : s.foldl (fun h c => h * 32 + signed c) h = h * 32 ^ s.length + weight s := by
  unfold weight
  induction s generalizing h with
  | nil => simp
  | cons c s ih =>
    rw [List.foldl_cons, List.foldl_cons, ih, ih (0 * 32 + signed c)]
    simp only [List.length_cons, Int.pow_succ, Int.zero_mul, Int.zero_add, Int.add_mul, Int.mul_assoc, Int.mul_comm (32 ^ s.length)]
    omega

theorem weight_append (p s : Bytes) : weight (p ++ s) = weight p * 32 ^ s.length + weight s := by
  rw [weight, List.foldl_append, weight_from]; rfl

theorem hash_weight (s : Bytes) : (hashString s : Int) = weight s % 2 ^ 64 := by
  have key : ∀ (s : Bytes) (n : Nat) (h : Int), (n : Int) = h % 2 ^ 64 →
      ((s.foldl (fun hash c => (((hash : Int) * 32 + signed c) % 2 ^ 64).toNat) n : Nat) : Int) =
        (s.foldl (fun h c => h * 32 + signed c) h) % 2 ^ 64 := by
    intro s
    induction s with
    | nil => intro n h hn; exact hn
    | cons c s ih =>
      intro n h hn
      rw [List.foldl_cons, List.foldl_cons]
      apply ih
      generalize signed c = x
      omega
  exact key s 0 0 rfl

theorem tempName_hash (a b : Bytes) : tempName a = tempName b ↔ hashString a = hashString b := by
  constructor
  · intro h
    simp only [tempName, List.append_assoc, List.append_cancel_left_eq] at h
    have h := (List.append_left_inj _).mp h
    rw [← natDigits_decimal (hashString a), h, natDigits_decimal]
  · intro h; rw [tempName, tempName, h]

/-- **C52 is false as stated**: all names with the same last 13 characters get the same temporary file, so the external diff compares a file with itself;
also names that differ by 32 in one character and by one in the character before it. -/
theorem C52_temporary_files_false :
    (∀ p q s : Bytes, 13 ≤ s.length → tempName (p ++ s) = tempName (q ++ s)) ∧
    b!"old/settings.json" ≠ b!"new/settings.json" ∧ tempName b!"old/settings.json" = tempName b!"new/settings.json" ∧
    tempName b!"aa" = tempName b!"bA" := by
  have key : ∀ p q s : Bytes, 13 ≤ s.length → tempName (p ++ s) = tempName (q ++ s) := by
    intro p q s hs
    rw [tempName_hash]
    have : (hashString (p ++ s) : Int) = hashString (q ++ s) := by
      rw [hash_weight, hash_weight, weight_append, weight_append]
      obtain ⟨k, hk⟩ : ∃ k, s.length = 13 + k := ⟨s.length - 13, by omega⟩
      have : ∀ x : Int, x * 32 ^ s.length = (x * 32 ^ k * 2) * 2 ^ 64 := by
        intro x
        rw [hk, Int.pow_add, Int.mul_comm (32 ^ 13), ← Int.mul_assoc, show (32 : Int) ^ 13 = 2 * 2 ^ 64 by decide, ← Int.mul_assoc]
      rw [this, this]
      generalize weight p * 32 ^ k * 2 = x
      generalize weight q * 32 ^ k * 2 = y
      omega
    omega
  refine ⟨key, by decide, key b!"old/" b!"new/" b!"settings.json" (by decide), (tempName_hash _ _).mpr (by decide +kernel)⟩

theorem signed_bounds (x : Byte) (h : x < 256) : -128 ≤ signed x ∧ signed x < 128 := by
  unfold signed; split <;> omega

theorem signed_inj (x y : Byte) (hx : x < 256) (hy : y < 256) (h : signed x = signed y) : x = y := by
  unfold signed at h; split at h <;> split at h <;> omega

theorem weight_window (b : Nat) (hb : b ≤ 96) : ∀ s t : Bytes, s.length = t.length → (∀ c ∈ s, b ≤ c ∧ c < b + 32) → (∀ c ∈ t, b ≤ c ∧ c < b + 32) →
    (weight s - weight t < 32 ^ s.length ∧ weight t - weight s < 32 ^ s.length) ∧ (weight s = weight t → s = t) := by
  have sg : ∀ c, b ≤ c ∧ c < b + 32 → signed c = c := by intro c h; unfold signed; rw [if_pos (by omega)]
  intro s
  rw [← List.reverse_reverse s]
  induction s.reverse with
  | nil =>
    intro t ht _ _
    have : t = [] := by simpa using ht.symm
    subst this
    simp
  | cons c rev ih =>
    intro t ht hs h2
    rw [List.reverse_cons] at ht hs ⊢
    rcases List.eq_nil_or_concat t with rfl | ⟨t', d, rfl⟩
    · simp at ht
    rw [List.concat_eq_append] at ht h2 ⊢
    have hc := hs c (by simp)
    have hd := h2 d (by simp)
    obtain ⟨⟨g1, g2⟩, g3⟩ := ih t' (by simpa using ht) (fun x hx => hs x (by simp [List.mem_reverse] at hx ⊢; exact .inl hx)) (fun x hx => h2 x (by simp [hx]))
    rw [weight_append, weight_append]
    have e1 : weight [c] = c := by simp [weight, sg c hc]
    have e2 : weight [d] = d := by simp [weight, sg d hd]
    rw [e1, e2]
    simp only [List.length_append, List.length_cons, List.length_nil, Nat.zero_add, Int.pow_succ, Int.pow_zero, Int.one_mul]
    generalize hP : (32 : Int) ^ rev.reverse.length = P at *
    refine ⟨⟨by omega, by omega⟩, fun h => ?_⟩
    have hcd : c = d := by omega
    subst hcd
    rw [g3 (by omega)]

/-- **C52, the part that holds.** Two inputs get different temporary files if their names differ in exactly one character, one of the last
twelve; or if they have the same length, at most 12, and all their characters are among 32 consecutive ASCII codes (such as the lower case letters).
Missing: all other pairs of names, see `C52_temporary_files_false`. -/
theorem C52_temporary_files_partial :
    (∀ (a s : Bytes) (x y : Byte), x < 256 → y < 256 → x ≠ y → s.length ≤ 11 → tempName (a ++ [x] ++ s) ≠ tempName (a ++ [y] ++ s)) ∧
    (∀ (b : Nat) (s t : Bytes), b ≤ 96 → s.length = t.length → s.length ≤ 12 → (∀ c ∈ s, b ≤ c ∧ c < b + 32) → (∀ c ∈ t, b ≤ c ∧ c < b + 32) → s ≠ t →
      tempName s ≠ tempName t) := by
  constructor
  · intro a s x y hx hy hne hs h
    rw [tempName_hash] at h
    have h : (hashString (a ++ [x] ++ s) : Int) = hashString (a ++ [y] ++ s) := by rw [h]
    rw [hash_weight, hash_weight, weight_append, weight_append, weight_append, weight_append] at h
    have e : ∀ z, weight [z] = signed z := by intro z; simp [weight]
    rw [e, e] at h
    obtain ⟨b1, b2⟩ := signed_bounds x hx
    obtain ⟨b3, b4⟩ := signed_bounds y hy
    have hP : (32 : Int) ^ s.length ≤ 32 ^ 11 ∧ 0 < (32 : Int) ^ s.length := by
      have h1 : 32 ^ s.length ≤ 32 ^ 11 := Nat.pow_le_pow_right (by decide) hs
      have h2 : 0 < 32 ^ s.length := Nat.pow_pos (by decide)
      constructor
      · exact_mod_cast h1
      · exact_mod_cast h2
    apply hne
    apply signed_inj x y hx hy
    simp only [Int.add_mul, List.length_cons, List.length_nil] at h
    generalize (32 : Int) ^ s.length = P at *
    generalize weight a * 32 ^ (0 + 1) * P = A at *
    have h1 : (signed x - signed y) * P ≤ 255 * P := Int.mul_le_mul_of_nonneg_right (by omega) (by omega)
    have h2 : (-255) * P ≤ (signed x - signed y) * P := Int.mul_le_mul_of_nonneg_right (by omega) (by omega)
    have h3 : (signed x - signed y) * P = signed x * P - signed y * P := Int.sub_mul ..
    have h4 : (signed x - signed y) * P = 0 := by
      rw [h3] at h1 h2 ⊢
      generalize signed x * P = X at *
      generalize signed y * P = Y at *
      omega
    rcases Int.mul_eq_zero.mp h4 with h5 | h5 <;> omega
  · intro b s t hb hl h12 h1 h2 hne h
    rw [tempName_hash] at h
    have h : (hashString s : Int) = hashString t := by rw [h]
    rw [hash_weight, hash_weight] at h
    obtain ⟨⟨g1, g2⟩, g3⟩ := weight_window b hb s t hl h1 h2
    apply hne
    apply g3
    have hP : (32 : Int) ^ s.length ≤ 32 ^ 12 := by
      have h1 : 32 ^ s.length ≤ 32 ^ 12 := Nat.pow_le_pow_right (by decide) h12
      exact_mod_cast h1
    generalize (32 : Int) ^ s.length = P at *
    omega

example : tempName b!"a.json" ≠ tempName b!"b.json" := C52_temporary_files_partial.1 [] b!".json" 97 98 (by decide) (by decide) (by decide) (by decide)

/-- The code of a character of a file name: a number of eight bits with a sign. -/
def code (c : Byte) : Int := if c < 128 then c else (c : Int) - 256

/-- A name as a number in base 32: the last character counts once, the one before it 32 times, and so on. -/
def base32 (name : Bytes) : Int := ((List.range name.length).map fun i => code (name.reverse.getD i 0) * 32 ^ i).sum

theorem base32_append (s : Bytes) (c : Byte) : base32 (s ++ [c]) = base32 s * 32 + code c := by
  have key : ∀ l : List Nat, (l.map fun i => code (s.reverse.getD i 0) * 32 ^ (i + 1)).sum = (l.map fun i => code (s.reverse.getD i 0) * 32 ^ i).sum * 32 := by
    intro l
    induction l with
    | nil => rfl
    | cons i l ih =>
      rw [List.map_cons, List.sum_cons, ih, List.map_cons, List.sum_cons, Int.add_mul, Int.pow_succ, Int.mul_assoc]
  simp only [base32, List.length_append, List.length_cons, List.length_nil, List.reverse_append, List.reverse_cons, List.reverse_nil, List.nil_append,
    List.cons_append, Nat.zero_add, List.range_succ_eq_map, List.map_cons, List.map_map, List.sum_cons]
  simp only [Function.comp_def, List.getD_cons_zero, List.getD_cons_succ, Int.pow_zero, Int.mul_one, Nat.succ_eq_add_one]
  rw [key]
  omega

theorem base32_weight (s : Bytes) : base32 s = weight s := by
  rw [← List.reverse_reverse s]
  induction s.reverse with
  | nil => rfl
  | cons c r ih =>
    rw [List.reverse_cons, base32_append, weight_append, ih]
    simp [weight, code, signed]

/-- **C52, exactly.** Two inputs get the same temporary file if and only if their names, as numbers in base 32, differ by a multiple of `2^64`. -/
theorem C52_exactly_partial (a b : Bytes) : tempName a = tempName b ↔ ∃ k : Int, base32 a - base32 b = k * 2 ^ 64 := by
  rw [tempName_hash, base32_weight, base32_weight]
  have h1 := hash_weight a
  have h2 := hash_weight b
  generalize weight a = x at *
  generalize weight b = y at *
  constructor
  · intro h
    exact ⟨x / 2 ^ 64 - y / 2 ^ 64, by omega⟩
  · rintro ⟨k, h⟩
    omega

/-- `wx.json` and `xX.json`: the letter before counts 32 times. -/
example : tempName b!"wx.json" = tempName b!"xX.json" ∧ tempName b!"wx.json" ≠ tempName b!"xx.json" := by
  have e : ∀ k : Int, base32 b!"wx.json" - base32 b!"xx.json" ≠ k * 2 ^ 64 := by
    intro k h
    have : base32 b!"wx.json" - base32 b!"xx.json" = -32 ^ 6 := by decide +kernel
    omega
  exact ⟨(C52_exactly_partial _ _).mpr ⟨0, by decide +kernel⟩, fun h => (by obtain ⟨k, hk⟩ := (C52_exactly_partial _ _).mp h; exact e k hk)⟩

end Verif.Props
