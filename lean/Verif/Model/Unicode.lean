import Verif.Model.Basic
/-!
# Model of `src/unicode.cpp`, `include/unicode.hpp` and `StreamConsumer::appendUnicode`
-/
namespace Verif.Model

/-- `src/unicode.cpp:5-14` — `hexbyte(const char c)`; `none` is the `std::invalid_argument` thrown. -/
def hexByte (c : Byte) : Option Nat :=
  if c%'0' ≤ c ∧ c ≤ c%'9' then some (c - c%'0')
  else if c%'A' ≤ c ∧ c ≤ c%'F' then some (c - c%'A' + 10)
  else if c%'a' ≤ c ∧ c ≤ c%'f' then some (c - c%'a' + 10)
  else none

/-- `include/unicode.hpp:5-12` — `hexbyte<unsigned short>(str, len)`; `Sum.inl c` is the exception about the
character `c`. The `unsigned short` accumulator wraps at `2^16`. -/
def hexWord : (acc : Nat) → List Byte → Byte ⊕ Nat
  | acc, [] => .inr acc
  | acc, c :: cs =>
    match hexByte c with
    | none => .inl c
    | some v => hexWord ((acc * 16 + v) % 65536) cs

/-- `0xD800..0xDFFF` -/
def isSurrogate (n : Nat) : Bool := decide (0xD800 ≤ n) && decide (n ≤ 0xDFFF)

/-- `src/streamConsumer.cpp:372-373` — `wstring_convert<codecvt_utf8<char32_t>>::to_bytes` of one code unit, which
is the UTF-8 encoding of a code point below `0x10000`. For a surrogate the result depends on the version of
the C++ library (three bytes, or `std::range_error`): that case is the parameter `surr`
(`none`: exception). -/
def toBytes (surr : Nat → Option Bytes) (n : Nat) : Option Bytes :=
  if n < 0x80 then some [n]
  else if n < 0x800 then some [0xC0 + n / 64, 0x80 + n % 64]
  else if isSurrogate n then surr n
  else some [0xE0 + n / 4096, 0x80 + n / 64 % 64, 0x80 + n % 64]

end Verif.Model
