import Verif.Model.Params
import Verif.Model.Exceptions
import Verif.Model.Diff
import Verif.Model.Double
/-!
# Model of `src/main.cpp`

The interactive views are not run here: they are recorded, and end when the user quits (`Model/Tui.lean` models the view of one
document). What is written after a crash is not modelled (nor whether buffered output is lost). An exception whose text is undefined behaviour
(`Model/Exceptions.lean`) counts when it is displayed. The texts of the reports on standard error are represented by their parts.
-/
namespace Verif.Model.Main
open Verif.Model Verif.Model.Params

/-- What becomes of `fork()` and of the child process. -/
inductive Child where
  /-- `fork()` fails -/
  | noFork
  /-- `execvp` fails: the child goes on as a second copy of the program; its `status` is uninitialised memory, and `exited` is what
  `WIFEXITED` makes of it. -/
  | noExec (exited : Bool)
  /-- the command ends by `exit(code)` or by returning from `main` -/
  | exits (code : Nat)
  /-- the command is ended by a signal -/
  | killed (signal : Nat)
deriving Repr, DecidableEq

/-- The world the program runs in. -/
structure World where
  /-- contents of the files that can be opened -/
  files : Bytes → Option Bytes
  stdin : Bytes
  /-- `isatty(fileno(stdout))` -/
  tty : Bool
  /-- library: `wstring_convert` on lone surrogates -/
  surr : Nat → Option Bytes
  /-- the decimal point of the language settings (`LANG`, `LC_ALL`, `LC_NUMERIC`) -/
  point : Bytes
  /-- uninitialised memory of the error history, for each input -/
  junk : Bytes → List Byte × Nat
  /-- can a temporary file be created? -/
  canCreate : Bytes → Bool
  /-- what becomes of the external command -/
  child : List DiffCmd.Cell → Child

/-- `src/main.cpp:232-233`, `src/streamConsumer.cpp:289`, `src/jsonPrimitive.cpp:31-34` — how fractional numbers are printed. -/
def World.fmt (w : World) (s : Settings) : Bytes → Bytes := Double.fmt (Double.pointInUse w.point s.ignoreUnicode)

/-- Reports on standard error (without the two of `--diff` about the number of files, `src/params.cpp:126-136`). -/
inductive Report where
  /-- `src/main.cpp:224`: an error of the command line -/
  | usage (e : Params.Error)
  /-- `src/main.cpp:50`: nothing to read in this input -/
  | eof (name : Bytes)
  /-- `src/main.cpp:55-56` -/
  | error (name : Bytes) (line col : Nat) (what context : Bytes) (tildes : Nat)
  /-- `src/main.cpp:106-107`, `:165-166`, `:185-186`, `:208-209` -/
  | warning (name : Bytes) (line col : Nat) (what context : Bytes) (tildes : Nat)
  /-- `src/main.cpp:55-56`, the first line only: `std::string(buffer.size() - 1, '~')` throws (`:26`) -/
  | cutError (name : Bytes) (line col : Nat) (what : Bytes)
  /-- `src/main.cpp:106-107`, `:165-166`, `:185-186`, `:208-209`, the first line only -/
  | cutWarning (name : Bytes) (line col : Nat) (what : Bytes)
deriving Repr, DecidableEq

/-- What the program does that can be seen from outside. -/
structure Effects where
  /-- standard output, without the texts of `usage()` and `version()` -/
  out : Bytes := []
  err : List Report := []
  /-- the interactive views opened: the inputs shown side by side -/
  views : List (List (Bytes × Json)) := []
  /-- files written: name and contents -/
  written : List (Bytes × Bytes) := []
  /-- the external command started -/
  ran : Option (List DiffCmd.Cell) := none
  /-- files removed -/
  removed : List Bytes := []
deriving Repr

/-- How the program goes on or ends. -/
inductive Ending where
  /-- the function returns -/
  | returned
  /-- `exit(n)` or the end of `main` -/
  | exit (n : Nat)
  /-- an exception nobody catches -/
  | uncaught
  /-- undefined behaviour -/
  | ub
  /-- it never ends -/
  | hangs
deriving Repr, DecidableEq

/-- What the streams of `getInputs()` deliver. -/
def contents (w : World) (s : Settings) : Source → Bytes
  | .file f => (w.files f).getD []
  | .text => s.argsText
  | .stdin => w.stdin

/-- `src/main.cpp:29-38` — `readFile`, without `throw EofException()`. -/
def readFile (w : World) (s : Settings) (input : Bytes × Source) : Out (Option Json) :=
  read ⟨some ⟨s.strict, s.ignoreUnicode, s.sorted⟩, w.surr⟩ (St.init (w.junk input.1).1 (w.junk input.1).2 (contents w s input.2))

/-- Result of `readOneFile`: a document and its warnings, the null pointer, or a crash. -/
inductive Got where
  | doc (v : Json) (warns : List (Bytes × Exn))
  | none
  | crash (e : Ending)
deriving Repr

/-- `src/main.cpp:40-65` — `readOneFile`. The caller appends the warnings to its own. -/
def readOneFile (w : World) (s : Settings) (input : Bytes × Source) (f : Effects) : Effects × Got :=
  match readFile w s input with
  | .ret (some v) st => (f, .doc v (st.warns.map (input.1, ·)))
  | .ret none _ => ({ f with err := f.err ++ [.eof input.1] }, .none)
  | .throw e =>
    match displayException e with
    | .shown line col what context tildes => ({ f with err := f.err ++ [.error input.1 line col what context tildes] }, .none)
    | .lengthError => ({ f with err := f.err ++ [.cutError input.1 e.hist.currentLine e.hist.totalSize ((message e.kind).getD [])] }, .crash .uncaught)
    | .ub => (f, .crash .ub)
  | .uncaught _ => (f, .crash .uncaught)
  | .ub _ => (f, .crash .ub)
  | .fuel => (f, .crash .hangs)

/-- `src/main.cpp:104-108`, `:163-167`, `:183-187`, `:206-210` — the warnings are displayed. -/
def showWarnings : List (Bytes × Exn) → Effects → Effects × Ending
  | [], f => (f, .returned)
  | (name, e) :: warns, f =>
    match displayException e with
    | .shown line col what context tildes => showWarnings warns { f with err := f.err ++ [.warning name line col what context tildes] }
    | .lengthError => ({ f with err := f.err ++ [.cutWarning name e.hist.currentLine e.hist.totalSize ((message e.kind).getD [])] }, .uncaught)
    | .ub => (f, .ub)

/-- `src/main.cpp:170-188` — `runStdout`: the loop over the inputs, then the warnings. -/
def runStdout (w : World) (s : Settings) : List (Bytes × Source) → List (Bytes × Exn) → Effects → Effects × Ending
  | [], warns, f => showWarnings warns f
  | i :: is, warns, f =>
    match readOneFile w s i f with
    | (f, .doc v new) => runStdout w s is (warns ++ new) { f with out := f.out ++ Output.display (w.fmt s) s.compressMode v }
    | (f, .none) => showWarnings warns f
    | (f, .crash e) => (f, e)

/-- `src/main.cpp:190-211` — `run`: each input is shown until the user quits. -/
def run (w : World) (s : Settings) : List (Bytes × Source) → List (Bytes × Exn) → Effects → Effects × Ending
  | [], warns, f => showWarnings warns f
  | i :: is, warns, f =>
    match readOneFile w s i f with
    | (f, .doc v new) => run w s is (warns ++ new) { f with views := f.views ++ [[(i.1, v)]] }
    | (f, .none) => showWarnings warns f
    | (f, .crash e) => (f, e)

/-- `src/curseSplitOutput.cpp:43-73` (`run`), `:75-87` (`computeDiff`): the view of several inputs. With three inputs an exception is thrown,
which nobody catches. -/
def splitView (w : World) (s : Settings) (docs : List (Bytes × Json)) (f : Effects) : Effects × Ending :=
  match docs with
  | [_, _, _] => (f, .uncaught)
  | [a, b] =>
    match Diff.diff (w.fmt s) a.2 b.2 with
    | none => (f, .ub)
    | some _ => ({ f with views := f.views ++ [docs] }, .returned)
  | _ => (f, .ub)

/-- `src/main.cpp:132-168` — `runDiff`; `docs` are the documents already read. -/
def runDiff (w : World) (s : Settings) : List (Bytes × Source) → List (Bytes × Json) → List (Bytes × Exn) → Effects → Effects × Ending
  | [], docs, warns, f =>
    match splitView w s docs f with
    | (f, .returned) => showWarnings warns f
    | (f, e) => (f, e)
  | i :: is, docs, warns, f =>
    match readOneFile w s i f with
    | (f, .doc v new) => runDiff w s is (docs ++ [(i.1, v)]) (warns ++ new) f
    | (f, .none) => (f, .returned)
    | (f, .crash e) => (f, e)

/-- `src/main.cpp:118-121` — the loop that waits for the command. `waitpid` gives the status once; called again it fails and leaves `status`
alone. Interruptions by signals of the waiting program itself are not modelled. The second copy of the program after a failing
`execvp` is not followed; the first one waits for it. -/
def wait : Child → Ending
  | .noFork => .returned
  | .noExec true => .returned
  | .noExec false => .hangs
  | .exits _ => .returned
  | .killed _ => .hangs

/-- `src/main.cpp:110-122` — from the warnings to the end of the command. -/
def runCommand (w : World) (cmd : List Bytes) (files : List Bytes) (f : Effects) : Effects × Ending :=
  match DiffCmd.computeArgv (cmd.foldl DiffCmd.add DiffCmd.new) files with
  | none => (f, .ub)
  | some (argv, _) =>
    match w.child argv with
    | .noFork => (f, .returned)
    | c => ({ f with ran := some argv }, wait c)

/-- `src/main.cpp:86-123` — `doRunExternalDiff`; `files` are the temporary files already written. -/
def doRunExternalDiff (w : World) (s : Settings) (cmd : List Bytes) :
    List (Bytes × Source) → List Bytes → List (Bytes × Exn) → Effects → Effects × Ending × List Bytes
  | [], files, warns, f =>
    match showWarnings warns f with
    | (f, .returned) => match runCommand w cmd files f with | (f, e) => (f, e, files)
    | (f, e) => (f, e, files)
  | i :: is, files, warns, f =>
    match readOneFile w s i f with
    | (f, .doc v new) =>
      let name := DiffCmd.tempName i.1
      if w.canCreate name then
        doRunExternalDiff w s cmd is (files ++ [name]) (warns ++ new)
          { f with written := f.written ++ [(name, Output.display (w.fmt s) s.compressMode v)] }
      else (f, .hangs, files)
    | (f, .none) => (f, .returned, files)
    | (f, .crash e) => (f, e, files)

/-- `src/main.cpp:125-130` — `runExternalDiff`. -/
def runExternalDiff (w : World) (s : Settings) (cmd : List Bytes) (f : Effects) : Effects × Ending :=
  match doRunExternalDiff w s cmd (getInputs s) [] [] f with
  | (f, .returned, files) => ({ f with removed := f.removed ++ files }, .returned)
  | (f, e, _) => (f, e)

/-- `src/main.cpp:230-245` — the choice of what to do. -/
def choose (w : World) (s : Settings) (f : Effects) : Effects × Ending :=
  match s.diffCmd with
  | some cmd => runExternalDiff w s cmd f
  | none =>
    if s.diffMode then runDiff w s (getInputs s) [] [] f
    else if !s.compressMode && w.tty then run w s (getInputs s) [] f
    else runStdout w s (getInputs s) [] f

/-- `src/main.cpp:213-248` — `main`. -/
def main (w : World) (args : List Bytes) : Effects × Ending :=
  match Params.read (fun f => (w.files f).isSome) args with
  | .throw e => ({ err := [.usage e] }, .exit 1)
  | .stop _ => ({}, .exit 0)
  | .go s =>
    match choose w s {} with
    | (f, .returned) => (f, .exit 0)
    | (f, e) => (f, e)

end Verif.Model.Main
