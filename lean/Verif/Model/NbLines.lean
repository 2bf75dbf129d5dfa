import Verif.Model.Float32
/-!
# Model of `CurseOutput::getNbLines` (`src/curseOutput.cpp:171-177`), with its arithmetic on `double`

IEEE 754 binary64, non-negative numbers only, no overflow, no subnormal numbers, rounding to nearest, ties to even.
-/
namespace Verif.Model

/-- The number `mant * 2^expo`. -/
structure F64 where
  mant : Nat
  expo : Int
deriving Repr, DecidableEq

namespace F64

/-- The double nearest to `p / q`: the exponent is such that the mantissa has 53 bits. -/
def ofRatio (p q : Nat) : F64 :=
  if p = 0 then ⟨0, 0⟩
  else
    let e : Int := (Nat.log2 p : Int) - Nat.log2 q - 52
    let e := if (F32.scaled p q e).1 < (F32.scaled p q e).2 * 2 ^ 52 then e - 1 else e
    ⟨F32.roundEven (F32.scaled p q e).1 (F32.scaled p q e).2, e⟩

/-- Conversion from `size_t`: exact below `2^53`. -/
def ofNat (n : Nat) : F64 := if n < 2 ^ 53 then ⟨n, 0⟩ else ofRatio n 1

/-- The number as a fraction. -/
def fraction (a : F64) : Nat × Nat := if a.expo ≥ 0 then (a.mant * 2 ^ a.expo.toNat, 1) else (a.mant, 2 ^ (-a.expo).toNat)

/-- Conversion to `unsigned int`: the integral part, undefined when it is too large. -/
def toUnsigned (a : F64) : Option Nat :=
  if a.fraction.1 / a.fraction.2 < 2 ^ 32 then some (a.fraction.1 / a.fraction.2) else none

/-- `a / w` for an `unsigned int` other than 0 (exactly a double). -/
def divNat (a : F64) (w : Nat) : F64 := ofRatio a.fraction.1 (a.fraction.2 * w)

/-- `a + 1` -/
def addOne (a : F64) : F64 := ofRatio (a.fraction.1 + a.fraction.2) a.fraction.2

/-- `a == t` for an `unsigned int`. -/
def eqNat (a : F64) (t : Nat) : Bool := decide (a.fraction.1 = t * a.fraction.2)

end F64

/-- `src/curseOutput.cpp:171-177` — `getNbLines`; `none` is undefined behaviour (conversion of a number that does not fit; a width of 0
gives infinity or not-a-number). -/
def cGetNbLines (n width : Nat) : Option Nat :=
  if width = 0 then none
  else
    let nLine := (F64.ofNat n).divNat width
    match nLine.toUnsigned with
    | none => none
    | some t => if nLine.eqNat t then nLine.toUnsigned else nLine.addOne.toUnsigned

end Verif.Model
