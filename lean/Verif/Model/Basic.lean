/-!
# Bytes and literals

A C++ `char` is represented by its unsigned value, a natural number in `0..255` (`Byte`).
`c%'x'` is the numeral of the character `x`, `b!"text"` the list of the numerals of `text`: both are expanded
while parsing, so the model only contains plain numerals.
-/
namespace Verif.Model

/-- A C++ `char` by its unsigned value (values above 255 do not occur in program runs). -/
macro "Byte" : term => `(Nat)

/-- A C++ `std::string` / byte sequence. -/
macro "Bytes" : term => `(List Nat)

open Lean in
macro:max "c%" c:char : term => return Syntax.mkNumLit (toString c.getChar.toNat)

open Lean in
macro:max "b!" s:str : term => do
  let xs := s.getString.toList.map (fun c => Syntax.mkNumLit (toString c.toNat))
  `(([$(xs.toArray),*] : List Nat))

/-- `std::tolower` in the "C" locale (and for the non-ASCII bytes of a UTF-8 locale): only `A`..`Z` change. -/
def toLower (c : Byte) : Byte := if c%'A' ≤ c ∧ c ≤ c%'Z' then c + 32 else c

/-- `c >= '0' && c <= '9'` -/
def isDigit (c : Byte) : Bool := decide (c%'0' ≤ c) && decide (c ≤ c%'9')

end Verif.Model
