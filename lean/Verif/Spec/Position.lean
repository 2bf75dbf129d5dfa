import Verif.Model.Basic
/-!
# Specification: line, column and context of a position in a text

`\n` and `\r` each end a line (so `\r\n` ends two). The position directly after a line break still belongs to the line it ends.
-/
namespace Verif.Spec
open Verif.Model

/-- A byte that ends a line. -/
def isBreak (c : Byte) : Bool := decide (c = c%'\n') || decide (c = c%'\r')

/-- The text ends with a line break. -/
def endsLine (t : Bytes) : Bool := match t.getLast? with | some c => isBreak c | none => false

/-- Line number of the last byte of `t`: one, plus the line breaks before that byte. -/
def lineNumber (t : Bytes) : Nat := 1 + t.dropLast.countP isBreak

/-- The bytes of the line the last byte of `t` is on, up to the end of `t`, without the line break. -/
def lineText (t : Bytes) : Bytes :=
  ((if endsLine t then t.dropLast else t).reverse.takeWhile (fun c => !isBreak c)).reverse

example : lineNumber b!"{\n\"a\":\n" = 2 ∧ lineText b!"{\n\"a\":\n" = b!"\"a\":" ∧ lineText b!"{\n\"a\":\nx" = b!"x" := by decide

/-- A text the reader may have recorded when it stops: a prefix of the input, or the input and what stands for its end. -/
def ReadUpTo (input t : Bytes) : Prop :=
  t <+: input ∨ t = input ++ [255] ∨ ∃ k, k ≤ 3 ∧ t = input ++ List.replicate k 0

end Verif.Spec
