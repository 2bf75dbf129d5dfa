import Verif.Spec.Layout
/-!
# Specification: standard JSON (RFC 8259)

What a `Doc` must satisfy, beyond being well formed, to be a JSON text in the sense of the RFC: only the four blanks between tokens, no
leading zeros, no unescaped control characters in strings.
-/
namespace Verif.Spec
open Verif.Model

/-- RFC 8259, section 2: space, tab, line feed, carriage return. -/
def Space (w : Bytes) : Prop := ∀ c ∈ w, c = 32 ∨ c = 9 ∨ c = 10 ∨ c = 13

/-- RFC 8259, section 6: the number does not begin with a zero followed by a digit. -/
def NoLeadingZero (ds : Bytes) : Prop := ∀ d r, ds = 48 :: d :: r → ¬ (48 ≤ d ∧ d ≤ 57)

/-- RFC 8259, section 7: unescaped characters are at least 32. -/
def NoControl (s : Bytes) : Prop := ∀ c ∈ s, 32 ≤ c

mutual
/-- A JSON text in the sense of the RFC. -/
def Doc.Standard : Doc → Prop
  | .str items => NoControl (strText items)
  | .true => True
  | .false => True
  | .null => True
  | .int _ ds => NoLeadingZero ds
  | .frac _ ds _ => NoLeadingZero ds
  | .arr0 w => Space w
  | .arr its => its.Standard
  | .obj0 w => Space w
  | .obj ms => ms.Standard
def Items.Standard : Items → Prop
  | .one w1 d w2 => Space w1 ∧ d.Standard ∧ Space w2
  | .more w1 d w2 its => Space w1 ∧ d.Standard ∧ Space w2 ∧ its.Standard
def Members.Standard : Members → Prop
  | .one w1 k w2 w3 d w4 => Space w1 ∧ NoControl (strText k) ∧ Space w2 ∧ Space w3 ∧ d.Standard ∧ Space w4
  | .more w1 k w2 w3 d w4 ms => Space w1 ∧ NoControl (strText k) ∧ Space w2 ∧ Space w3 ∧ d.Standard ∧ Space w4 ∧ ms.Standard
end

mutual
/-- The document has no control characters in strings and keys, and the C++ library prints its fractional numbers without leading
zeros. -/
def Clean (fmt : Bytes → Bytes) : Json → Prop
  | .arr xs => CleanItems fmt xs
  | .obj es => CleanEntries fmt es
  | .str s => NoControl s
  | .dbl s => NoLeadingZero (fmt s) ∧ ∀ r, fmt s = 45 :: r → NoLeadingZero r
  | .bool _ => True
  | .null => True
  | .int _ => True
  | .long _ => True
def CleanItems (fmt : Bytes → Bytes) : List Json → Prop
  | [] => True
  | x :: xs => Clean fmt x ∧ CleanItems fmt xs
def CleanEntries (fmt : Bytes → Bytes) : List (Bytes × Json) → Prop
  | [] => True
  | (k, v) :: es => NoControl k ∧ Clean fmt v ∧ CleanEntries fmt es
end

end Verif.Spec
