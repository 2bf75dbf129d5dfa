import Verif.Model.Basic
/-!
# Model of `JSonElement::lazystrlen` (`src/jsonElement.cpp:24-34`)

The multibyte encoding of the locale is a parameter: `dec s` is the first character of `s` and the number of its bytes, `none` if `s` does
not begin with a character.
-/
namespace Verif.Model.StrLen
open Verif.Model

/-- The first character of a text that is not empty, and the number of its bytes. -/
abbrev Decoder := Bytes → Option (Nat × Nat)

/-- `mbstowcs(wbuf, s, n)` of the C library: the wide characters it writes. It stops after a null character (which it writes), before an
invalid sequence, and after `n` characters. `s` is the string without its final null byte. -/
def mbstowcs (dec : Decoder) : Nat → Bytes → List Nat
  | 0, _ => []
  | _ + 1, [] => [0]
  | n + 1, b :: s =>
    match dec (b :: s) with
    | none => []
    | some (c, k) => c :: mbstowcs dec n ((b :: s).drop k)

/-- What a call comes to: a length, a write of some wide characters after the end of the buffer, or a read of uninitialised memory. -/
inductive Result where
  | length (n : Nat)
  | overflow (beyond : Nat)
  | uninitialised
deriving Repr, DecidableEq

/-- `wcslen` of what has been written: `none` if there is no null character. -/
def wcslen : List Nat → Option Nat
  | [] => none
  | 0 :: _ => some 0
  | _ :: cs => (wcslen cs).map (· + 1)

/-- `src/jsonElement.cpp:24-34` — `lazystrlen` (`cached` is `_strlen`, `text` is `stringify()`). `c_str()` ends at the first null byte;
`sizeof(wchar_t)` is 4. -/
def lazystrlen (dec : Decoder) (cached : Nat) (text : Bytes) : Result :=
  if cached ≠ 0 then .length cached
  else if text.length = 0 then .length cached
  else
    let written := mbstowcs dec (text.length * 4) (text.takeWhile (· ≠ 0))
    if written.length > text.length then .overflow (written.length - text.length)
    else match wcslen written with
      | some n => .length n
      | none => .uninitialised

end Verif.Model.StrLen
