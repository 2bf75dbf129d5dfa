import Verif.Spec.Search

/-!
# Specification: what becomes of the line typed at the prompt
-/
namespace Verif.Spec.Unescape
open Verif.Model Verif.Spec

/-- The bytes of the character with the number `n`: its UTF-8 encoding; for halves of surrogate pairs what the library makes of them, if anything. -/
def bytesOf (surr : Nat → Option Bytes) (n : Nat) : Option Bytes := if 0xD800 ≤ n ∧ n ≤ 0xDFFF then surr n else some (utf8 n)

/-- `Reads surr s v r`: the text `s` is characters and escapes, then `r`; what comes before `r` is read as `v`: each escape as its character, the character after it lost. -/
inductive Reads (surr : Nat → Option Bytes) : Bytes → Bytes → Bytes → Prop
  | here (s : Bytes) : Reads surr s [] s
  | raw {c : Byte} {s v r : Bytes} : startsEscape (c :: s) = false → Reads surr s v r → Reads surr (c :: s) (c :: v) r
  | escape {h1 h2 h3 h4 after : Byte} {n : Nat} {bs s v r : Bytes} : hexValue h1 h2 h3 h4 = some n → bytesOf surr n = some bs → Reads surr s v r →
    Reads surr (b!"\\u" ++ [h1, h2, h3, h4] ++ after :: s) (bs ++ v) r

/-- The text is read as `v`. -/
def Whole (surr : Nat → Option Bytes) (s v : Bytes) : Prop := Reads surr s v []

/-- It ends with an escape that is read. -/
def EndsInEscape (surr : Nat → Option Bytes) (s : Bytes) : Prop :=
  ∃ v h1 h2 h3 h4 n bs, Reads surr s v (b!"\\u" ++ [h1, h2, h3, h4]) ∧ hexValue h1 h2 h3 h4 = some n ∧ bytesOf surr n = some bs

/-- The first escape that cannot be read is one the library refuses. -/
def Refuses (surr : Nat → Option Bytes) (s : Bytes) : Prop :=
  ∃ v h1 h2 h3 h4 n rest, Reads surr s v (b!"\\u" ++ [h1, h2, h3, h4] ++ rest) ∧ hexValue h1 h2 h3 h4 = some n ∧ bytesOf surr n = none

/-- The first escape that cannot be read has a character that is no hexadecimal digit; the first such one is `x`. -/
def NoDigit (surr : Nat → Option Bytes) (s : Bytes) (x : Byte) : Prop :=
  ∃ v h1 h2 h3 h4 rest, Reads surr s v (b!"\\u" ++ [h1, h2, h3, h4] ++ rest) ∧ [h1, h2, h3, h4].find? (fun h => hexDigit h = none) = some x

/-- The bytes of a line in the encoding of the locale, up to a zero; they fit, with their terminator, into four bytes for each character of the line. -/
def Encoded (enc : Nat → Option Bytes) (line : List Nat) (bytes : Bytes) : Prop :=
  (∃ parts : List Bytes, (line.takeWhile (· ≠ 0)).map enc = parts.map some ∧ bytes = parts.flatten) ∧ bytes.length < 4 * line.length

end Verif.Spec.Unescape
