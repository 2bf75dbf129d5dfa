import Verif.Spec.Position
import Verif.Spec.BoundedList
import Verif.Model.LinearHistory
/-!
# Specification: the line breaks that are counted twice

A text is cut at its double quotes: outside strings and inside strings (where a backslash escapes the next byte). A line break outside strings that directly follows the last byte of a number or of a boolean (a
digit, `.`, `-`, `e` or `E`) is counted twice by the program; all others once.
-/
namespace Verif.Spec
open Verif.Model

/-- Where a position is: outside strings (`number`: directly after a byte that can end a number or boolean), inside a string, or after a backslash inside a string. -/
inductive Where where
  | outside (number : Bool)
  | inside
  | escaped
deriving DecidableEq, Repr

/-- A byte that can end a number or a boolean. -/
def endsNumber (c : Byte) : Bool := isDigit c || decide (c = c%'.') || decide (c = c%'-') || decide (c = c%'e') || decide (c = c%'E')

/-- The place after one more byte. -/
def Where.next : Where → Byte → Where
  | .outside _, c => if c = c%'"' then .inside else .outside (endsNumber c)
  | .inside, c => if c = c%'"' then .outside false else if c = c%'\\' then .escaped else .inside
  | .escaped, _ => .inside

/-- The place at the end of a text. -/
def whereAt (t : Bytes) : Where := t.foldl Where.next (.outside false)

/-- Number of line breaks of a text, from the place `m` on, that directly follow a number or boolean outside strings. -/
def breaksAfterNumbers (m : Where) : Bytes → Nat
  | [] => 0
  | c :: t => (if m = .outside true ∧ isBreak c = true then 1 else 0) + breaksAfterNumbers (m.next c) t

/-- Number of line breaks that are counted twice. -/
def countedTwice (t : Bytes) : Nat := breaksAfterNumbers (.outside false) t

/-- No line break among the three bytes after an `n` or `N` outside strings (where a `null` may begin), nor among the four bytes after a `\u` inside a string. -/
def UnbrokenWindows (input : Bytes) : Prop :=
  (∀ t d w b, t ++ [d] ++ w ++ [b] <+: input → (∃ k, whereAt t = .outside k) → (d = c%'n' ∨ d = c%'N') → w.length ≤ 2 → isBreak b = false) ∧
  (∀ t w b, t ++ b!"\\u" ++ w ++ [b] <+: input → whereAt t = .inside → w.length ≤ 3 → isBreak b = false)

/-- The history shows the position at the end of `t`, with the line breaks directly after numbers counted twice. -/
def ShowsAt (h : LHist) (t : Bytes) : Prop :=
  h.currentLine = lineNumber t + countedTwice t ∧ (∃ k, (k = 44 ∨ k = 45) ∧ h.toString = lastN k (lineText t)) ∧
  (2 ≤ lineNumber t → h.totalSize = (lineText t).length % 4294967296)

/-- The history shows the position at the end of `t`, directly after a number or boolean and before a line break, without the last byte of the number. -/
def LacksOne (input : Bytes) (h : LHist) (t : Bytes) : Prop :=
  whereAt t = .outside true ∧ (∃ c, isBreak c = true ∧ t ++ [c] <+: input) ∧
  h.currentLine = lineNumber t + countedTwice t ∧ h.toString = lastN 44 (lineText t).dropLast ∧
  (2 ≤ lineNumber t → h.totalSize = ((lineText t).length - 1) % 4294967296)

/-- A text without the line break at its end, if there is one. -/
def upToBreak (t : Bytes) : Bytes := if endsLine t then t.dropLast else t

/-- Two line breaks are counted twice here: the one after `1` and the one after `true`; the ones after the comma, in the string and at the end of the string are not. -/
example : countedTwice b!"[1\n,\n\"2\n\"\n,true\n]" = 2 ∧ lineNumber b!"[1\n,\n\"2\n\"\n,true\n]" = 6 := by decide

end Verif.Spec
