import Verif.Model.SimpleOutput
/-! # Model of `src/diffCmd.cpp` and of the temporary files of the external diff (`src/main.cpp:67-81`) -/
namespace Verif.Model.DiffCmd
open Verif.Model

/-- An element of a `char *` vector: not yet written, the null pointer, or a string. -/
inductive Cell where
  | unset
  | null
  | text (s : Bytes)
deriving Repr, DecidableEq

/-- A `DiffCmd` (`include/diffCmd.hh:36-38`): the command, and the vector allocated by the first call of `computeArgv`, if any. -/
structure DiffCmd where
  argv : List Bytes
  allocated : Option (List Cell)
deriving Repr, DecidableEq

/-- `src/diffCmd.cpp:4-5` — the constructor. -/
def new : DiffCmd := ⟨[], none⟩

/-- `src/diffCmd.cpp:22-23` — `add`. -/
def add (d : DiffCmd) (s : Bytes) : DiffCmd := { d with argv := d.argv ++ [s] }

/-- `strdup(s.c_str())`: the bytes before the first null byte. -/
def dup (s : Bytes) : Cell := .text (s.takeWhile (· ≠ 0))

/-- `src/diffCmd.cpp:38-44` — the first loop of `computeArgv`. -/
def nbParams (argv files : List Bytes) : Nat :=
  argv.foldl (fun n i => if i = b!"{}" then n + files.length else n + 1) 0

/-- `allocatedArgv[currentParam++] = c`; `none` is a write after the end. -/
def store (st : Option (List Cell × Nat)) (c : Cell) : Option (List Cell × Nat) :=
  match st with
  | none => none
  | some (mem, i) => if i < mem.length then some (mem.set i c, i + 1) else none

/-- `src/diffCmd.cpp:31-55` — `computeArgv`: the vector returned and the object afterwards; `none` is a write outside the allocation. -/
def computeArgv (d : DiffCmd) (files : List Bytes) : Option (List Cell × DiffCmd) :=
  match d.allocated with
  | some a => some (a, d)
  | none =>
    let st := d.argv.foldl
      (fun st i => if i = b!"{}" then files.foldl (fun st f => store st (dup f)) st else store st (dup i))
      (some (List.replicate (nbParams d.argv files + 1) .unset, 0))
    match store st .null with
    | none => none
    | some (mem, _) => some (mem, { d with allocated := some mem })

/-- A `char` of the string as a number (the type is signed). -/
def signed (c : Byte) : Int := if c < 128 then c else (c : Int) - 256

/-- `src/diffCmd.cpp:57-65` — `hashString`, in `unsigned long long`. -/
def hashString (s : Bytes) : Nat := s.foldl (fun hash c => (((hash : Int) * 32 + signed c) % 2 ^ 64).toNat) 0

/-- `src/main.cpp:67-81` — `getOutputFile`: the name of the temporary file. `i` stays 0: when that file cannot be opened the loop does not
end. -/
def tempName (input : Bytes) : Bytes := b!"/tmp/jsondifftmp" ++ natDigits (hashString input) ++ b!".0.tmp"

end Verif.Model.DiffCmd
