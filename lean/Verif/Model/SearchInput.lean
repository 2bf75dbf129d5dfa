import Verif.Model.SearchPattern
/-!
# Model of the search prompt (`CurseOutput::inputSearch`)

The keys pressed are a list of the codes `wgetch` returns. The display of the line being typed is not modelled.
-/
namespace Verif.Model.Search
open Verif.Model

/-- `src/curseOutput.cpp:213-230` — the loop: the line typed and whether it was aborted; `none` if the keys end first. -/
def typeLine : (buffer : List Nat) → (keys : List Nat) → Option (List Nat × Bool)
  | _, [] => none
  | buffer, c :: keys =>
    if c = c%'\n' ∨ c = c%'\r' then some (buffer, false)
    else if c = 8 ∨ c = 127 then typeLine buffer.dropLast keys
    else if c = 27 then some (buffer, true)
    else typeLine (buffer ++ [c]) keys

/-- `wcstombs(bytes, buffer.c_str(), room)` — the zero-terminated text that is then in `bytes`. `none`: the text is not
terminated, or a character cannot be encoded (then the array is left without terminator). `enc` is the encoding of the locale. -/
def wcstombs (enc : Nat → Option Bytes) : (room : Nat) → List Nat → Option Bytes
  | 0, _ => none
  | _ + 1, [] => some []
  | room + 1, c :: cs =>
    if c = 0 then some []
    else match enc c with
      | none => none
      | some bs => if bs.length > room + 1 then none else (wcstombs enc (room + 1 - bs.length) cs).map (bs ++ ·)

/-- What the prompt ends with. -/
inductive Input where
  /-- aborted: no search (null pointer) -/
  | cancelled
  | pattern (p : Pattern)
  /-- an exception nobody catches -/
  | uncaught
  /-- reads uninitialised memory, or behind the end of a buffer -/
  | undefined
deriving Repr, DecidableEq

/-- `src/curseOutput.cpp:234-244` — from the line typed to the pattern. `sizeof(wchar_t)` is 4. The exceptions are those of
`extractUnicode` and `std::regex_error`; no caller catches them. -/
def lineToPattern (rx : Rx) (junk : Int) (surr : Nat → Option Bytes) (enc : Nat → Option Bytes) (ascii : Bool) (buffer : List Nat) (abort : Bool) : Input :=
  match wcstombs enc (buffer.length * 4) buffer with
  | none => .undefined
  | some bytes =>
    match (if ascii then Extract.ok bytes else extractUnicode surr bytes) with
    | .overrun => .undefined
    | .throws _ => .uncaught
    | .ok str =>
      if abort then .cancelled
      else match parse rx junk str with
        | none => .uncaught
        | some p => .pattern p

/-- `src/curseOutput.cpp:204-245` — `inputSearch`; `none` while the prompt waits for more keys. -/
def inputSearch (rx : Rx) (junk : Int) (surr : Nat → Option Bytes) (enc : Nat → Option Bytes) (ascii : Bool) (keys : List Nat) : Option Input :=
  (typeLine [] keys).map fun r => lineToPattern rx junk surr enc ascii r.1 r.2

end Verif.Model.Search
