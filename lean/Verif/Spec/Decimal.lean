import Verif.Spec.Grammar
import Mathlib.Algebra.Order.Field.Rat
import Mathlib.Algebra.Order.Field.Basic
import Mathlib.Algebra.Order.AbsoluteValue.Basic
/-!
# Specification: fractional numbers and their values

Texts and the rational numbers they stand for, and the IEEE 754 double precision numbers. Nothing here refers to the program.
-/
namespace Verif.Spec
open Verif.Model

/-- A string of decimal digits, maybe empty. -/
def AllDigits (ds : Bytes) : Prop := ∀ d ∈ ds, 48 ≤ d ∧ d ≤ 57

/-- Value of the number with the digits `ds` before the decimal point, `fs` after it. -/
def fracValue (neg : Bool) (ds fs : Bytes) : ℚ := (if neg then -1 else 1) * (decimal ds + decimal fs / 10 ^ fs.length)

/-- The text `s` is a number with a decimal point, and its value is `x`. (The reader accepts numbers that have no digits before or
after the point.) -/
def Denotes (s : Bytes) (x : ℚ) : Prop :=
  ∃ neg ds fs, AllDigits ds ∧ AllDigits fs ∧ s = intText neg ds ++ [46] ++ fs ∧ x = fracValue neg ds fs

/-- The finite IEEE 754 double precision numbers. -/
def IsDouble (x : ℚ) : Prop := ∃ (m : ℤ) (e : ℤ), |m| < 2 ^ 53 ∧ -1074 ≤ e ∧ e ≤ 971 ∧ x = m * 2 ^ e

/-- Numbers of at least this size are out of the range of doubles: they are rounded to infinity. -/
def tooLarge : ℚ := 2 ^ 1024 - 2 ^ 970

end Verif.Spec
