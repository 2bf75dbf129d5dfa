import Verif.Model.FifoMap
import Verif.Model.DiffCmd
/-!
# Model of `src/params.cpp` (the command line)

The arguments are byte strings without null byte (they come from `argv`). `canOpen f` tells whether `std::ifstream(f)` opens. The texts
printed by `usage()` and `version()` are modelled in `Texts.lean`. The streams are identified with what they read from.
-/
namespace Verif.Model.Params
open Verif.Model

/-- Where an input stream reads from: a file, the text of the command line (`argsText` below), or standard input. -/
inductive Source where
  | file (name : Bytes)
  | text
  | stdin
deriving Repr, DecidableEq

/-- `include/params.hh:96-113` — the members of `Params`, and the contents of the `std::stringstream` given by `--`. -/
structure Settings where
  strict : Bool
  diffMode : Bool
  ignoreUnicode : Bool
  colorMode : Bool
  sorted : Bool
  compressMode : Bool
  diffCmd : Option (List Bytes)
  inputs : List (Bytes × Source)
  argsText : Bytes
deriving Repr, DecidableEq

/-- The local variables of `read()`: `input` (is it not null?), `written`, `inDiff`. -/
structure Local where
  set : Settings
  input : Bool
  written : Bool
  inDiff : Bool
deriving Repr, DecidableEq

/-- Why `read()` throws `std::runtime_error`. -/
inductive Error where
  | doubleDiffCmd
  | color (mode : Bytes)
  | argument (arg : Bytes)
  | cannotOpen (file : Bytes)
  | identical (file : Bytes)
deriving Repr, DecidableEq

/-- Why `read()` returns false. -/
inductive Stop where
  | usage
  | version
  | tooMany
  | notEnough
deriving Repr, DecidableEq

/-- How `read()` ends. -/
inductive Outcome (α : Type) where
  | go (a : α)
  | stop (s : Stop)
  | throw (e : Error)
deriving Repr, DecidableEq

/-- `src/params.cpp:16`, `:38-41` — the constructor and the beginning of `read()`. -/
def initial : Local := ⟨⟨true, false, false, true, true, false, none, [], []⟩, false, false, false⟩

/-- `src/params.cpp:45-122` — the body of the loop of `read()`, for one argument. `tmp.find(x) == 0` is "begins with". -/
def readArg (canOpen : Bytes → Bool) (l : Local) (tmp : Bytes) : Outcome Local :=
  if !l.input && !l.inDiff then
    if tmp = b!"--" then .go { l with input := true, set := { l.set with inputs := FifoMap.assign l.set.inputs b!"ARGS" .text } }
    else if tmp = b!"-W" then .go { l with set := { l.set with strict := false } }
    else if tmp = b!"--ascii" then .go { l with set := { l.set with ignoreUnicode := true } }
    else if tmp = b!"--color" then .go { l with set := { l.set with colorMode := true } }
    else if tmp = b!"--diff" then .go { l with set := { l.set with diffMode := true } }
    else if tmp = b!"--compress" then .go { l with set := { l.set with compressMode := true } }
    else if tmp = b!"--help" ∨ tmp = b!"-h" then .stop .usage
    else if tmp = b!"--version" ∨ tmp = b!"-v" then .stop .version
    else if tmp = b!"--keep-order" then .go { l with set := { l.set with sorted := false } }
    else if tmp = b!"--diff-cmd" then
      if l.set.diffCmd.isSome then .throw .doubleDiffCmd
      else .go { l with inDiff := true, set := { l.set with diffCmd := some [] } }
    else if b!"--color=".isPrefixOf tmp then
      let mode := tmp.drop 8
      if mode = b!"always" then .go { l with set := { l.set with colorMode := true } }
      else if mode = b!"never" then .go { l with set := { l.set with colorMode := false } }
      else .throw (.color mode)
    else if b!"-".isPrefixOf tmp then .throw (.argument tmp)
    else if !canOpen tmp then .throw (.cannotOpen tmp)
    else if FifoMap.contains l.set.inputs tmp then .throw (.identical tmp)
    else .go { l with set := { l.set with inputs := FifoMap.assign l.set.inputs tmp (.file tmp) } }
  else if l.inDiff then
    if tmp = b!";" then .go { l with inDiff := false }
    else .go { l with set := { l.set with diffCmd := l.set.diffCmd.map (· ++ [tmp]) } }
  else
    .go { l with written := true, set := { l.set with argsText := l.set.argsText ++ (if l.written then b!" " else []) ++ tmp } }

/-- `src/params.cpp:43-123` — the loop. -/
def readArgs (canOpen : Bytes → Bool) : Local → List Bytes → Outcome Local
  | l, [] => .go l
  | l, a :: as =>
    match readArg canOpen l a with
    | .go l => readArgs canOpen l as
    | o => o

/-- `src/params.cpp:34-140` — `read()`, on the arguments after the program name. -/
def read (canOpen : Bytes → Bool) (args : List Bytes) : Outcome Settings :=
  match readArgs canOpen initial args with
  | .stop s => .stop s
  | .throw e => .throw e
  | .go l =>
    if l.set.diffMode then
      if l.set.inputs.length > 3 then .stop .tooMany
      else if l.set.inputs.length < 2 then .stop .notEnough
      else .go l.set
    else .go l.set

/-- `src/params.cpp:142-149` — `getInputs()`. -/
def getInputs (s : Settings) : List (Bytes × Source) := if s.inputs ≠ [] then s.inputs else [(b!"STDIN", .stdin)]

end Verif.Model.Params
