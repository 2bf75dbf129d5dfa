import Verif.Model.Main
import Verif.Model.Loop
/-!
# Model of the program as a process: the terminal, the signals and what is done, in order

`src/main.cpp` again, together with `CurseOutput::init` (`src/curseOutput.cpp:287-337`), the two `shutdown` functions
(`src/curseSimpleOutput.cpp:526-536`, `src/curseSplitOutput.cpp:848-860`), the constructors and destructors of the views and the signal handler
(`src/curseOutput.cpp:24-37`, `:56-101`). What the program does is recorded in order. The interactive views are run by a parameter
`session`; `Model/Browse.lean` puts the main loop for it.

Simplified: `SIGINT`/`SIGTERM` arrive while an input is read (those that arrive while a view waits for keys are events of the session; at other
times none arrive); an interrupted `read()` is restarted, as `signal()` asks for. `newterm` succeeds. What `~CurseOutput` does after `endwin`
(`resize_term` without a screen) has no effect.
-/
namespace Verif.Model.Program
open Verif.Model Verif.Model.Params Verif.Model.Main

/-- What the program does that can be seen from outside. -/
inductive Happening where
  /-- `newterm`, `cbreak`, `noecho`, `curs_set(false)`: the terminal is taken (`src/curseOutput.cpp:289-305`) -/
  | enter
  /-- `endwin`: the terminal is given back -/
  | leave
  /-- a view of these documents begins -/
  | view (docs : List (Bytes × Json))
  /-- written on standard error -/
  | report (r : Report)
  /-- written on standard output -/
  | output (b : Bytes)
  /-- `usage()` -/
  | usage
  /-- `version()` -/
  | version
  /-- a file is written, removed; the external command is started -/
  | wrote (name contents : Bytes)
  | removed (name : Bytes)
  | ran (argv : List DiffCmd.Cell)
deriving Repr

/-- How a view ends: the user leaves it, the program crashes in it, or it is still waiting for keys. -/
inductive ViewEnd where
  | left
  | crash
  | waits
deriving Repr, DecidableEq

/-- How the program goes on or ends. -/
inductive Fin where
  | main (e : Main.Ending)
  /-- ended by `SIGINT` or `SIGTERM` -/
  | killed
  /-- crashed in a view -/
  | viewCrash
  /-- a view waits for keys -/
  | waits
deriving Repr, DecidableEq

/-- What the program meets. -/
structure Surround where
  world : World
  /-- `isatty(fileno(stdin))` -/
  stdinTty : Bool
  /-- does `fopen("/dev/tty", "r+")` succeed? -/
  devTty : Bool
  /-- does `SIGINT` or `SIGTERM` arrive while the input of this number is read? -/
  signal : Nat → Bool
  /-- what becomes of the view of these documents when `breakLoop` is as given when the keys are first waited for; the first argument are the documents of the views before -/
  session : List (List (Bytes × Json)) → Bool → List (Bytes × Json) → ViewEnd

/-- The process: what it has done; are the signal handlers installed; `runningInst != nullptr`; `breakLoop`. -/
structure Proc where
  tape : List Happening
  handled : Bool
  running : Bool
  breakLoop : Bool
deriving Repr

/-- The documents of the views so far. -/
def shown : List Happening → List (List (Bytes × Json))
  | [] => []
  | .view docs :: t => docs :: shown t
  | _ :: t => shown t

/-- The process does something. -/
def Proc.does (p : Proc) (h : List Happening) : Proc := { p with tape := p.tape ++ h }

/-- `src/curseOutput.cpp:24-27`, `:287-337`; `src/curseSimpleOutput.cpp:17-20`, `src/curseSplitOutput.cpp:27-31` — a view is made. `none`: `setbuf` of the
null pointer (`:291-292`). -/
def openView (e : Surround) (p : Proc) : Option Proc :=
  if (e.stdinTty && e.world.tty) || e.devTty then some { p.does [.enter] with handled := true, running := true } else none

/-- `src/curseOutput.cpp:29-37`, `src/curseSimpleOutput.cpp:22-25`, `:526-536`, `src/curseSplitOutput.cpp:33-41`, `:848-860` — a view is deleted. The handlers stay installed. -/
def closeView (p : Proc) : Proc := { p.does [.leave] with running := false }

/-- `src/curseOutput.cpp:56-101` (`onsig`, `_resizeFnc`), `:333-334` — a signal that arrives while the input of this number is read. `none`: there is no handler, it ends the
program. -/
def reading (e : Surround) (i : Nat) (p : Proc) : Option Proc :=
  if e.signal i then
    if p.handled then some (if p.running then { p with breakLoop := true } else p) else none
  else some p

/-- `src/curseOutput.cpp:39-49` — `loop`: `breakLoop` is reset, then keys are waited for. -/
def runView (e : Surround) (docs : List (Bytes × Json)) (p : Proc) : Proc × ViewEnd :=
  let q := { p.does [.view docs] with breakLoop := false }
  (q, e.session (shown p.tape) q.breakLoop docs)

/-- `src/main.cpp:40-65` — what `readOneFile` reports, and what it returns. -/
def readOne (e : Surround) (s : Settings) (input : Bytes × Source) : List Happening × Got :=
  let r := Main.readOneFile e.world s input {}
  (r.1.err.map .report, r.2)

/-- `src/main.cpp:104-108`, `:163-167`, `:183-187`, `:206-210` — the warnings are displayed. -/
def warn (warns : List (Bytes × Exn)) (p : Proc) : Proc × Fin :=
  let r := Main.showWarnings warns {}
  (p.does (r.1.err.map .report), .main r.2)

/-- `src/main.cpp:196-210` — the loop of `run`: the view is already made (`:193`), and deleted after it (`:204-205`). -/
def browse (e : Surround) (s : Settings) : Nat → List (Bytes × Source) → List (Bytes × Exn) → Proc → Proc × Fin
  | _, [], warns, p => warn warns (closeView p)
  | i, x :: xs, warns, p =>
    match reading e i p with
    | none => (p, .killed)
    | some p =>
      match readOne e s x with
      | (h, .none) => warn warns (closeView (p.does h))
      | (h, .crash r) => (p.does h, .main r)
      | (h, .doc v new) =>
        match runView e [(x.1, v)] (p.does h) with
        | (p, .left) => browse e s (i + 1) xs (warns ++ new) p
        | (p, .crash) => (p, .viewCrash)
        | (p, .waits) => (p, .waits)

/-- `src/main.cpp:190-211` — `run`. -/
def run (e : Surround) (s : Settings) (p : Proc) : Proc × Fin :=
  match openView e p with
  | none => (p, .main .ub)
  | some p => browse e s 0 (getInputs s) [] p

/-- `src/main.cpp:156-167` — the end of `runDiff`: the view, then the warnings. `src/curseSplitOutput.cpp:43-87`: three inputs end in an exception that nobody catches, with the
terminal taken; so does the comparison of some documents (`Model/Diff.lean`). -/
def compareView (e : Surround) (s : Settings) (docs : List (Bytes × Json)) (warns : List (Bytes × Exn)) (p : Proc) : Proc × Fin :=
  match openView e p with
  | none => (p, .main .ub)
  | some p =>
    match docs with
    | [_, _, _] => (p, .main .uncaught)
    | [a, b] =>
      match Diff.diff (e.world.fmt s) a.2 b.2 with
      | none => (p, .main .ub)
      | some _ =>
        match runView e docs p with
        | (p, .left) => warn warns (closeView p)
        | (p, .crash) => (p, .viewCrash)
        | (p, .waits) => (p, .waits)
    | _ => (p, .main .ub)

/-- `src/main.cpp:132-168` — `runDiff`. -/
def runDiff (e : Surround) (s : Settings) : Nat → List (Bytes × Source) → List (Bytes × Json) → List (Bytes × Exn) → Proc → Proc × Fin
  | _, [], docs, warns, p => compareView e s docs warns p
  | i, x :: xs, docs, warns, p =>
    match reading e i p with
    | none => (p, .killed)
    | some p =>
      match readOne e s x with
      | (h, .none) => (p.does h, .main .returned)
      | (h, .crash r) => (p.does h, .main r)
      | (h, .doc v new) => runDiff e s (i + 1) xs (docs ++ [(x.1, v)]) (warns ++ new) (p.does h)

/-- `src/main.cpp:170-188` — `runStdout`. -/
def runStdout (e : Surround) (s : Settings) : Nat → List (Bytes × Source) → List (Bytes × Exn) → Proc → Proc × Fin
  | _, [], warns, p => warn warns p
  | i, x :: xs, warns, p =>
    match reading e i p with
    | none => (p, .killed)
    | some p =>
      match readOne e s x with
      | (h, .none) => warn warns (p.does h)
      | (h, .crash r) => (p.does h, .main r)
      | (h, .doc v new) => runStdout e s (i + 1) xs (warns ++ new) ((p.does h).does [.output (Output.display (e.world.fmt s) s.compressMode v)])

/-- `src/main.cpp:110-122` — the external command is run and waited for. -/
def runCommand (e : Surround) (cmd files : List Bytes) (p : Proc) : Proc × Fin :=
  match DiffCmd.computeArgv (cmd.foldl DiffCmd.add DiffCmd.new) files with
  | none => (p, .main .ub)
  | some (argv, _) =>
    match e.world.child argv with
    | .noFork => (p, .main .returned)
    | c => (p.does [.ran argv], .main (wait c))

/-- `src/main.cpp:86-123` — `doRunExternalDiff`. -/
def prepare (e : Surround) (s : Settings) (cmd : List Bytes) : Nat → List (Bytes × Source) → List Bytes → List (Bytes × Exn) → Proc → (Proc × Fin) × List Bytes
  | _, [], files, warns, p =>
    match warn warns p with
    | (p, .main .returned) => (runCommand e cmd files p, files)
    | r => (r, files)
  | i, x :: xs, files, warns, p =>
    match reading e i p with
    | none => ((p, .killed), files)
    | some p =>
      match readOne e s x with
      | (h, .none) => ((p.does h, .main .returned), files)
      | (h, .crash r) => ((p.does h, .main r), files)
      | (h, .doc v new) =>
        let name := DiffCmd.tempName x.1
        if e.world.canCreate name then
          prepare e s cmd (i + 1) xs (files ++ [name]) (warns ++ new) ((p.does h).does [.wrote name (Output.display (e.world.fmt s) s.compressMode v)])
        else ((p.does h, .main .hangs), files)

/-- `src/main.cpp:125-130` — `runExternalDiff`. -/
def runExternalDiff (e : Surround) (s : Settings) (cmd : List Bytes) (p : Proc) : Proc × Fin :=
  match prepare e s cmd 0 (getInputs s) [] [] p with
  | ((p, .main .returned), files) => (p.does (files.map .removed), .main .returned)
  | (r, _) => r

/-- `src/main.cpp:230-245` — the choice of what to do. -/
def choose (e : Surround) (s : Settings) (p : Proc) : Proc × Fin :=
  match s.diffCmd with
  | some cmd => runExternalDiff e s cmd p
  | none =>
    if s.diffMode then runDiff e s 0 (getInputs s) [] [] p
    else if !s.compressMode && e.world.tty then run e s p
    else runStdout e s 0 (getInputs s) [] p

/-- `src/main.cpp:213-248` — `main`; `src/params.cpp:60-69`, `:124-138` — what `read()` prints before it returns false (its two error messages about the number of files are left out). -/
def program (e : Surround) (args : List Bytes) : Proc × Fin :=
  let p : Proc := ⟨[], false, false, false⟩
  match Params.read (fun f => (e.world.files f).isSome) args with
  | .throw x => (p.does [.report (.usage x), .usage], .main (.exit 1))
  | .stop .version => (p.does [.version], .main (.exit 0))
  | .stop _ => (p.does [.usage], .main (.exit 0))
  | .go s =>
    match choose e s p with
    | (p, .main .returned) => (p, .main (.exit 0))
    | r => r

end Verif.Model.Program
