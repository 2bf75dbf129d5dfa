import Verif.Model.StrLen
/-! # C61: measuring a text -/
namespace Verif.Props
open Verif.Model Verif.Model.StrLen

/-- The encoding extends ASCII. -/
def ExtendsAscii (dec : Decoder) : Prop := ∀ b s, 0 < b → b < 128 → dec (b :: s) = some (b, 1)

/-- `s` is a sequence of `n` characters (none of them null). -/
inductive Characters (dec : Decoder) : Bytes → Nat → Prop where
  | nil : Characters dec [] 0
  | cons (s : Bytes) (c k n : Nat) (h : dec s = some (c, k)) (hc : c ≠ 0) (hk : 0 < k) (hs : k ≤ s.length) (h' : Characters dec (s.drop k) n) :
      Characters dec s (n + 1)

theorem Characters.le {dec : Decoder} {s : Bytes} {n : Nat} (h : Characters dec s n) : n ≤ s.length := by
  induction h with
  | nil => exact Nat.le_refl _
  | cons s c k n _ _ hk hs _ ih => simp only [List.length_drop] at ih; omega

theorem Characters.ascii {dec : Decoder} (hd : ExtendsAscii dec) : ∀ s : Bytes, (∀ b ∈ s, 0 < b ∧ b < 128) → Characters dec s s.length
  | [], _ => .nil
  | b :: s, h => .cons _ b 1 _ (hd b s (h b (by simp)).1 (h b (by simp)).2) (by have := (h b (by simp)).1; omega) (by omega) (by simp)
      (Characters.ascii hd s fun c hc => h c (by simp [hc]))

theorem mbstowcs_characters {dec : Decoder} {s : Bytes} {n : Nat} (h : Characters dec s n) : ∀ m, n < m →
    (mbstowcs dec m s).length = n + 1 ∧ wcslen (mbstowcs dec m s) = some n := by
  induction h with
  | nil => intro m hm; cases m with
    | zero => omega
    | succ m => simp [mbstowcs, wcslen]
  | cons s c k n hd hc hk hs _ ih =>
    intro m hm
    cases m with
    | zero => omega
    | succ m =>
      cases s with
      | nil => simp at hs; omega
      | cons b s =>
        obtain ⟨h1, h2⟩ := ih m (by omega)
        simp only [mbstowcs, hd, List.length_cons, h1, true_and]
        cases c with
        | zero => omega
        | succ c => rw [wcslen, h2]; simp; simp

/-- **C61 is false as stated**, for every non-empty text of ASCII characters (without null character), in every encoding that extends ASCII:
the buffer has no room for the final null character. -/
theorem C61_measure_false (dec : Decoder) (hd : ExtendsAscii dec) (text : Bytes) (hne : text ≠ []) (h : ∀ b ∈ text, 0 < b ∧ b < 128) :
    lazystrlen dec 0 text = .overflow 1 := by
  have hw : text.takeWhile (· ≠ 0) = text := by
    clear hne
    induction text with
    | nil => rfl
    | cons b s ih =>
      have := (h b (by simp)).1
      rw [List.takeWhile_cons, if_pos (by simp; omega), ih fun c hc => h c (by simp [hc])]
  have hl : text.length ≠ 0 := by simpa using hne
  obtain ⟨h1, -⟩ := mbstowcs_characters (Characters.ascii hd text h) (text.length * 4) (by omega)
  simp only [lazystrlen, ne_eq, not_true_eq_false, if_false, if_neg hl]
  rw [show (text.takeWhile fun x => decide ¬x = 0) = text from hw, h1, if_pos (by omega)]
  congr 1; omega

/-- **C61, the part that holds.** Measured for the first time: if the text, up to its first null byte, is a sequence of `n` characters, and has
more bytes than that (a character of several bytes, or a null byte), the result is `n` and nothing is written outside the buffer; the
empty text has length 0. Missing: texts in which each byte is a character. -/
theorem C61_measure_partial (dec : Decoder) (text : Bytes) (n : Nat) (hc : Characters dec (text.takeWhile (· ≠ 0)) n) (hn : n < text.length ∨ text = []) :
    lazystrlen dec 0 text = .length n ∧ ∀ m, m ≠ 0 → lazystrlen dec m text = .length m := by
  refine ⟨?_, fun m hm => by simp [lazystrlen, hm]⟩
  rcases hn with hn | rfl
  · obtain ⟨h1, h2⟩ := mbstowcs_characters hc (text.length * 4) (by omega)
    simp only [lazystrlen, ne_eq, not_true_eq_false, if_false, if_neg (show ¬ text.length = 0 by omega)]
    rw [show (text.takeWhile fun x => decide ¬x = 0) = text.takeWhile (· ≠ 0) from rfl, h1, h2, if_neg (by omega)]
  · have := hc.le
    simp at this
    subst this
    rfl

/-- In a bound: what is written never goes more than one wide character beyond the end, whatever the text. -/
theorem C61_overflow_bound_partial (dec : Decoder) (hk : ∀ s c k, dec s = some (c, k) → 0 < k) (cached : Nat) (text : Bytes) (k : Nat)
    (h : lazystrlen dec cached text = .overflow k) : k = 1 := by
  have key : ∀ m s, (mbstowcs dec m s).length ≤ s.length + 1 := by
    intro m
    induction m with
    | zero => intro s; simp [mbstowcs]
    | succ m ih =>
      intro s
      cases s with
      | nil => simp [mbstowcs]
      | cons b s =>
        rw [mbstowcs]
        cases hd : dec (b :: s) with
        | none => simp
        | some ck =>
          have h1 := hk _ _ _ hd
          have h2 := ih ((b :: s).drop ck.2)
          simp only [List.length_drop, List.length_cons] at h2 ⊢
          omega
  unfold lazystrlen at h
  split at h
  · cases h
  · split at h
    · cases h
    · simp only at h
      split at h
      · next hw =>
        have h1 := key (text.length * 4) (text.takeWhile (· ≠ 0))
        have h2 : (text.takeWhile (· ≠ 0)).length ≤ text.length := (List.takeWhile_prefix _).length_le
        cases h
        omega
      · split at h <;> cases h

/-- A decoder for UTF-8 sequences of one and two bytes. -/
def exampleDecoder : Decoder
  | b :: s => if b < 128 then some (b, 1) else match s with
    | b2 :: _ => if 192 ≤ b ∧ b < 224 ∧ 128 ≤ b2 ∧ b2 < 192 then some ((b - 192) * 64 + (b2 - 128), 2) else none
    | [] => none
  | [] => none

example : ExtendsAscii exampleDecoder ∧ lazystrlen exampleDecoder 0 b!"abc" = .overflow 1 ∧ lazystrlen exampleDecoder 0 [97, 195, 169, 98] = .length 3 ∧
    Characters exampleDecoder [97, 195, 169, 98] 3 :=
  ⟨fun b s _ h => by simp [exampleDecoder, h], by decide, by decide,
    .cons _ 97 1 2 (by decide) (by decide) (by decide) (by decide) (.cons _ 233 2 1 (by decide) (by decide) (by decide) (by decide)
      (.cons _ 98 1 0 (by decide) (by decide) (by decide) (by decide) .nil))⟩

end Verif.Props
