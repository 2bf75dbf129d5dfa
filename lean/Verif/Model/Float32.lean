/-!
# IEEE 754 binary32 arithmetic, as far as the program uses it

Non-negative numbers only, no overflow, no subnormal numbers (quotients of lengths of strings stay far from both ends).
Rounding is to nearest, ties to even.
-/
namespace Verif.Model

/-- The number `mant * 2^expo` (not necessarily normalised). -/
structure F32 where
  mant : Nat
  expo : Int
deriving Repr, DecidableEq

namespace F32

/-- `p / q` rounded to an integer, ties to even. -/
def roundEven (p q : Nat) : Nat :=
  if 2 * (p % q) > q ∨ (2 * (p % q) = q ∧ p / q % 2 = 1) then p / q + 1 else p / q

/-- `p / (q * 2^e)` as a fraction. -/
def scaled (p q : Nat) (e : Int) : Nat × Nat :=
  if e ≥ 0 then (p, q * 2 ^ e.toNat) else (p * 2 ^ (-e).toNat, q)

/-- The float nearest to `p / q`: the exponent is such that the mantissa has 24 bits. -/
def ofRatio (p q : Nat) : F32 :=
  if p = 0 then ⟨0, 0⟩
  else
    let e : Int := (Nat.log2 p : Int) - Nat.log2 q - 23
    let e := if (scaled p q e).1 < (scaled p q e).2 * 2 ^ 23 then e - 1 else e
    ⟨roundEven (scaled p q e).1 (scaled p q e).2, e⟩

/-- Conversion from `size_t`: exact below `2^24`. -/
def ofNat (n : Nat) : F32 := if n < 2 ^ 24 then ⟨n, 0⟩ else ofRatio n 1

/-- Division. -/
def div (a b : F32) : F32 :=
  if a.expo ≥ b.expo then ofRatio (a.mant * 2 ^ (a.expo - b.expo).toNat) b.mant
  else ofRatio a.mant (b.mant * 2 ^ (b.expo - a.expo).toNat)

/-- `1.f - a`, for `a ≤ 1`. -/
def oneSub (a : F32) : F32 :=
  if a.expo ≥ 0 then ofRatio (1 - a.mant * 2 ^ a.expo.toNat) 1
  else ofRatio (2 ^ (-a.expo).toNat - a.mant) (2 ^ (-a.expo).toNat)

/-- `a < b` -/
def lt (a b : F32) : Bool :=
  if a.expo ≤ b.expo then decide (a.mant < b.mant * 2 ^ (b.expo - a.expo).toNat)
  else decide (a.mant * 2 ^ (a.expo - b.expo).toNat < b.mant)

/-- `1.f` -/
def one : F32 := ⟨1, 0⟩

/-- `0.7f`, the float nearest to 7/10. -/
def seventy : F32 := ofRatio 7 10

end F32
end Verif.Model
