import Verif.Model.Reader
/-!
# Model of `src/jsonException.cpp` and of `displayException` (`src/main.cpp`)
-/
namespace Verif.Model

/-- `src/jsonException.cpp:18-45`, `src/jsonObject.cpp:91-98` — the text of an exception (`what()`). `none` is undefined
behaviour: `"expected " +expected` adds a character code to a pointer into a literal of ten bytes, and
`"unexpected escaped char " +c` reads the member `c` before it is initialised. Simplified: both happen when the exception is made; here the program runs
into them when the exception is displayed (for an exception that is thrown nothing is done in between; for a warning the input is read on, as it
is by a program that survives the constructor). -/
def message : ExnKind → Option Bytes
  | .notJson => some b!"expected json entry, got token"
  | .unexpected expected => if expected ≤ 9 then some ((b!"expected ").drop expected) else none
  | .format => some b!"invalid value"
  | .hexValue c => some (b!"invalid hex value '" ++ [(c + c%'\'') % 256])
  | .escaped _ => none
  | .doubleKey key => some (b!"Unexpected double key " ++ key ++ b!" for object")
  | .notAKey => some b!"expected string key for object"

/-- What displaying an exception does. The program name, the file name and the type name of the first line are
left out. -/
inductive Display where
  /-- line, column, message, context and the length of the underline -/
  | shown (line col : Nat) (what context : Bytes) (tildes : Nat)
  /-- `std::length_error` from `std::string(buffer.size() - 1, '~')`: nobody catches it -/
  | lengthError
  | ub
deriving Repr, DecidableEq

/-- `src/main.cpp:21-27` — `displayException`. -/
def displayException (e : Exn) : Display :=
  match message e.kind with
  | none => .ub
  | some what =>
    let buffer := e.hist.toString
    if buffer.length = 0 then .lengthError
    else .shown e.hist.currentLine e.hist.totalSize what buffer (buffer.length - 1)

end Verif.Model
