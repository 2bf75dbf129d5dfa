import Verif.Model.Float32
import Verif.Model.Reader
import Verif.Model.SimpleOutput
/-!
# Fractional numbers: `atof` and `std::to_string(double)`

`double` is IEEE 754 binary64, rounding to nearest, ties to even (what glibc's `atof` and `printf("%f")` do, exactly, for texts and
numbers of any length). The finite doubles are the numbers `m * 2^e` with `m < 2^53` and `-1074 ≤ e ≤ 971`, so each one is a
multiple of `2^-1074`: it is represented by that multiple, a natural number, and its sign. There is no NaN: `atof` does not
make one of the texts that occur here.

Both functions use the decimal point of the language settings (`setlocale(LC_ALL, "")`, `src/main.cpp:232-233`), the
parameter `point` (a non-empty byte string, `.` or `,` in nearly all languages).
-/
namespace Verif.Model.Double
open Verif.Model

/-- A double: its sign, and its size in units of `2^-1074` (`none` is infinity). -/
structure Dbl where
  neg : Bool
  size : Option Nat
deriving Repr, DecidableEq

/-- Exponent of the last bit kept of the number `n / d`, counted from `2^-1074`: 53 bits are kept, fewer of subnormal numbers. -/
def lastBit (n d : Nat) : Nat := Nat.log2 (n * 2 ^ 1074 / d) - 52

/-- `n / d` rounded to 53 bits, in units of `2^-1074`, as if there were no largest double. -/
def rounded (n d : Nat) : Nat := F32.roundEven (n * 2 ^ 1074) (d * 2 ^ lastBit n d) * 2 ^ lastBit n d

/-- The double nearest to `n / d`; from `2^1024` on it is infinity. -/
def nearest (n d : Nat) : Option Nat := if rounded n d < 2 ^ 2098 then some (rounded n d) else none

/-- The digits after the decimal point, if the text continues with one. -/
def fraction (point rest : Bytes) : Bytes :=
  if point.isPrefixOf rest then (rest.drop point.length).takeWhile isDigit else []

/-- `atof` after the sign: digits, and the decimal point with digits; 0 if there are no digits at all. What follows is ignored. -/
def unsigned (point : Bytes) (neg : Bool) (t : Bytes) : Dbl :=
  if t.takeWhile isDigit = [] ∧ fraction point (t.dropWhile isDigit) = [] then ⟨false, some 0⟩
  else ⟨neg, nearest (decValue (t.takeWhile isDigit ++ fraction point (t.dropWhile isDigit)))
    (10 ^ (fraction point (t.dropWhile isDigit)).length)⟩

/-- `atof` (`src/streamConsumer.cpp:289`), on the texts `consumeNumber` collects: no blanks, no `+`, no exponent. -/
def atof (point : Bytes) : Bytes → Dbl
  | [] => unsigned point false []
  | c :: cs => if c = c%'-' then unsigned point true cs else unsigned point false (c :: cs)

/-- Six decimal digits. -/
def sixDigits (r : Nat) : Bytes := [100000, 10000, 1000, 100, 10, 1].map fun k => c%'0' + r / k % 10

/-- The number in millionths, rounded. -/
def millionths (v : Nat) : Nat := F32.roundEven (v * 10 ^ 6) (2 ^ 1074)

/-- `std::to_string(double)` (`src/jsonPrimitive.cpp:31-34`): `printf("%f")`. -/
def toText (point : Bytes) : Dbl → Bytes
  | ⟨neg, none⟩ => (if neg then b!"-" else []) ++ b!"inf"
  | ⟨neg, some v⟩ => (if neg then b!"-" else []) ++ natDigits (millionths v / 10 ^ 6) ++ point ++ sixDigits (millionths v % 10 ^ 6)

/-- `src/streamConsumer.cpp:289`, `src/jsonPrimitive.cpp:31-34` — what is printed for the number written `text`. -/
def fmt (point : Bytes) (text : Bytes) : Bytes := toText point (atof point text)

/-- `src/main.cpp:232-233` — the decimal point in use: the one of the language settings, unless `--ascii` is given. -/
def pointInUse (language : Bytes) (ignoreUnicode : Bool) : Bytes := if ignoreUnicode then b!"." else language

end Verif.Model.Double
