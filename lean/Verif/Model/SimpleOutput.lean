import Verif.Model.Json
/-!
# Model of `stringify()` and of `src/simpleOutput.cpp` (the redirected output)

`std::to_string(double)` of the number parsed by `atof` is not modelled: it is the parameter `fmt`, a function of the source
text of the number. `writeContainer` keeps the `c_str()` of a temporary string (`src/simpleOutput.cpp:46`), which is
undefined behaviour; the model takes the bytes the string had. `std::ostream` errors are not modelled.
-/
namespace Verif.Model

/-- Decimal digits of a natural number, as `std::to_string` prints them. -/
def natDigits (n : Nat) : Bytes := if n < 10 then [c%'0' + n] else natDigits (n / 10) ++ [c%'0' + n % 10]
termination_by n

/-- `src/jsonPrimitive.cpp:34-42` — `std::to_string(int)`, `std::to_string(long long)`. -/
def intToString (i : Int) : Bytes := if i < 0 then c%'-' :: natDigits i.natAbs else natDigits i.natAbs

namespace Json

/-- `src/jsonPrimitive.cpp:24-47`, `src/jsonArray.cpp:32-35`, `src/jsonObject.cpp:86-89` — `stringify()` of a value. -/
def stringify (fmt : Bytes → Bytes) : Json → Bytes
  | .str s => s
  | .bool b => if b then b!"true" else b!"false"
  | .null => b!"null"
  | .int i => intToString i
  | .long i => intToString i
  | .dbl src => fmt src
  | .arr _ => b!"[ ]"
  | .obj _ => b!"{ }"

/-- `dynamic_cast<const JSonContainer *>` -/
def isContainer : Json → Bool
  | .arr _ => true
  | .obj _ => true
  | _ => false

end Json

namespace Output

/-- `src/simpleOutput.cpp:77-82` — `getIndent()`; `indent` is an `unsigned short`, `INDENT_LEVEL` is 4
(`include/config.h:17-19`). -/
def getIndent (compressed : Bool) (indent : Nat) : Bytes :=
  if compressed then [] else List.replicate (indent % 65536 * 4) (c%' ')

/-- `if (!params.compressed()) out << std::endl` (`src/simpleOutput.cpp:19`, `:26`, `:39`, `:50`, `:63`). -/
def endl (compressed : Bool) : Bytes := if compressed then [] else [c%'\n']

/-- `prependComma ? "," : ""` (`src/simpleOutput.cpp:15`, `:33`, `:49`). -/
def comma (prepend : Bool) : Bytes := if prepend then [c%','] else []

/-- `src/simpleOutput.cpp:31-41` — `writePrimitive`. -/
def writePrimitive (fmt : Bytes → Bytes) (compressed : Bool) (indent : Nat) (prependComma : Bool) (v : Json) : Bytes :=
  getIndent compressed indent ++ comma prependComma ++
    (match v with
      | .str s => [c%'"'] ++ Json.stringify fmt (.str s) ++ [c%'"']
      | v => Json.stringify fmt v) ++ endl compressed

mutual

/-- `src/simpleOutput.cpp:67-75` — `write` (of a value; entries are written by `writeEntries`), with `writeContainer`
(`:43-65`) inlined: `brackets` is `stringify()` of the container. -/
def write (fmt : Bytes → Bytes) (compressed : Bool) (indent : Nat) (prependComma : Bool) : Json → Bytes
  | .arr items =>
    getIndent compressed indent ++ comma prependComma ++ [c%'['] ++ endl compressed ++
      writeItems fmt compressed (indent + 1) true items ++ getIndent compressed indent ++ [c%']'] ++ endl compressed
  | .obj entries =>
    getIndent compressed indent ++ comma prependComma ++ [c%'{'] ++ endl compressed ++
      writeEntries fmt compressed (indent + 1) true entries ++ getIndent compressed indent ++ [c%'}'] ++ endl compressed
  | .str s => writePrimitive fmt compressed indent prependComma (.str s)
  | .bool b => writePrimitive fmt compressed indent prependComma (.bool b)
  | .null => writePrimitive fmt compressed indent prependComma .null
  | .int i => writePrimitive fmt compressed indent prependComma (.int i)
  | .long i => writePrimitive fmt compressed indent prependComma (.long i)
  | .dbl s => writePrimitive fmt compressed indent prependComma (.dbl s)

/-- `src/simpleOutput.cpp:54-59` — the loop of `writeContainer` over the items of an array. -/
def writeItems (fmt : Bytes → Bytes) (compressed : Bool) (indent : Nat) (first : Bool) : List Json → Bytes
  | [] => []
  | x :: xs => write fmt compressed indent (!first) x ++ writeItems fmt compressed indent false xs

/-- `src/simpleOutput.cpp:54-59` — the loop of `writeContainer` over the entries of an object, with `writeObjectEntry`
(`:13-29`) inlined. -/
def writeEntries (fmt : Bytes → Bytes) (compressed : Bool) (indent : Nat) (first : Bool) : List (Bytes × Json) → Bytes
  | [] => []
  | (k, v) :: es =>
    getIndent compressed indent ++ comma (!first) ++ [c%'"'] ++ k ++ [c%'"', c%':'] ++
      (if v.isContainer then endl compressed ++ write fmt compressed indent false v
       else Json.stringify fmt v ++ endl compressed) ++
      writeEntries fmt compressed indent false es

end

/-- `src/simpleOutput.cpp:84-88` — `SimpleOutput::display`. -/
def display (fmt : Bytes → Bytes) (compressed : Bool) (root : Json) : Bytes := write fmt compressed 0 false root

end Output

end Verif.Model
