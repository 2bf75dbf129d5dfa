import Verif.Model.SearchInput
import Verif.Model.Tui
import Verif.Model.Split
/-!
# Model of the reading of keys, of the main loop and of the signal handlers

`src/inputSequence.cpp`, `src/curseOutput.cpp:39-115` and the prompt (`:204-245`). Between two events the program waits in `wgetch`. Signals arrive
while it waits (those that arrive while the screen is drawn are not modelled); `signal()` restarts the interrupted read, so that a signal does
not make `wgetch` return. `SIGCONT` either does nothing or sends `SIGWINCH` (`:72-79`): it is not an event of its own.
-/
namespace Verif.Model.Loop
open Verif.Model Verif.Model.Search

/-- What happens while the program waits: `wgetch` returns a code, or `-1` after its timeout; `SIGINT` or `SIGTERM` arrives; the terminal
gets a new size (`SIGWINCH`). -/
inductive Event where
  | code (c : Nat)
  | timeout
  | stop
  | resize (cols rows : Nat)
deriving Repr, DecidableEq

/-- `toupper`, in the C locale and on ASCII; other codes are returned as they are. -/
def toupper (c : Nat) : Nat := if c%'a' ≤ c ∧ c ≤ c%'z' then c - 32 else c

/-- `keyname` of ncurses: the names of the ASCII codes and of the keys used by the program; the other names are a parameter (`none`: the null
pointer). -/
def keyname (other : Nat → Option Bytes) (c : Nat) : Option Bytes :=
  if c < 32 then some [c%'^', c + 64]
  else if c < 127 then some [c]
  else if c = 127 then some b!"^?"
  else if c = 258 then some b!"KEY_DOWN"
  else if c = 259 then some b!"KEY_UP"
  else if c = 260 then some b!"KEY_LEFT"
  else if c = 261 then some b!"KEY_RIGHT"
  else if c = 338 then some b!"KEY_NPAGE"
  else if c = 339 then some b!"KEY_PPAGE"
  else other c

/-- What a view answers to an input. -/
inductive Ans (σ : Type) where
  | next (s : σ)
  | quit
  | crash
deriving Repr, DecidableEq

/-- A view: the virtual functions of `CurseOutput`, each with the drawing that follows it. `none`: the drawing was not done within
its bound. -/
structure View (σ : Type) where
  key : Bytes → Option Pattern → σ → Option (Ans σ)
  resize : Nat → Nat → σ → Option (Ans σ)

/-- The surroundings: the names of the other keys, and the parameters of the prompt. -/
structure Env where
  other : Nat → Option Bytes
  rx : Rx
  junk : Int
  surr : Nat → Option Bytes
  enc : Nat → Option Bytes
  ascii : Bool

/-- The program while it waits: the view, the keys of a sequence not yet complete (`InputSequence::seq`), `breakLoop`, and the line typed if the prompt is
open. -/
structure Wait (σ : Type) where
  view : σ
  seq : Bytes
  stopped : Bool
  prompt : Option (List Nat)
deriving Repr, DecidableEq

inductive Result (σ : Type) where
  | waits (m : Wait σ)
  | ended
  | crash
  /-- the drawing was not done within its bound -/
  | unknown
deriving Repr, DecidableEq

/-- `src/curseOutput.cpp:39-49`, `:106-115`: after the answer of the view, `breakLoop` is looked at. -/
def answer {σ : Type} (a : Option (Ans σ)) (stopped : Bool) : Result σ :=
  match a with
  | none => .unknown
  | some .crash => .crash
  | some .quit => .ended
  | some (.next s) => if stopped then .ended else .waits ⟨s, [], false, none⟩

/-- `src/curseOutput.cpp:117-156`: a complete sequence. For `/` the prompt opens before anything else is done
(`src/curseSimpleOutput.cpp:472`, `src/curseSplitOutput.cpp:201`). -/
def press {σ : Type} (V : View σ) (name : Bytes) (m : Wait σ) : Result σ :=
  if name = b!"/" then .waits { m with seq := [], prompt := some [] } else answer (V.key name none m.view) m.stopped

/-- `src/curseOutput.cpp:234-244`: the prompt is left. -/
def leave {σ : Type} (env : Env) (V : View σ) (line : List Nat) (abort : Bool) (m : Wait σ) : Result σ :=
  match lineToPattern env.rx env.junk env.surr env.enc env.ascii line abort with
  | .cancelled => answer (V.key b!"/" none m.view) m.stopped
  | .pattern p => answer (V.key b!"/" (some p) m.view) m.stopped
  | .uncaught => .crash
  | .undefined => .crash

/-- `src/inputSequence.cpp:13-33` — `read`: one code. -/
def readCode {σ : Type} (env : Env) (V : View σ) (c : Nat) (m : Wait σ) : Result σ :=
  match keyname env.other (toupper c) with
  | none => .crash
  | some name =>
    let seq := (if m.seq.isEmpty then [] else m.seq ++ b!"-") ++ name
    if name.head? = some c%'^' then .waits { m with seq := seq } else press V seq m

/-- `src/curseOutput.cpp:213-230`: one code in the prompt. -/
def promptCode {σ : Type} (env : Env) (V : View σ) (line : List Nat) (c : Nat) (m : Wait σ) : Result σ :=
  if c = c%'\n' ∨ c = c%'\r' then leave env V line false m
  else if c = 8 ∨ c = 127 then .waits { m with prompt := some line.dropLast }
  else if c = 27 then leave env V line true m
  else .waits { m with prompt := some (line ++ [c]) }

/-- One event. `src/inputSequence.cpp:22-23`: after a timeout the reading goes on, whatever `breakLoop` is; the prompt has no timeout
(`src/curseOutput.cpp:212`). `src/curseOutput.cpp:56-95`: the signals. -/
def step {σ : Type} (env : Env) (V : View σ) (e : Event) (m : Wait σ) : Result σ :=
  match e with
  | .timeout => .waits m
  | .stop => .waits { m with stopped := true }
  | .resize cols rows =>
    match V.resize cols rows m.view with
    | none => .unknown
    | some .crash => .crash
    | some .quit => .ended
    | some (.next s) => .waits { m with view := s }
  | .code c =>
    match m.prompt with
    | none => readCode env V c m
    | some line => promptCode env V line c m

/-- A run: the events one after the other; what comes after the end is not seen. -/
def run {σ : Type} (env : Env) (V : View σ) : List Event → Wait σ → Result σ
  | [], m => .waits m
  | e :: es, m =>
    match step env V e m with
    | .waits m => run env V es m
    | r => r

/-- `src/curseOutput.cpp:43` — `breakLoop = false`, and the first drawing: the state `s` is the one after it. -/
def begin {σ : Type} (s : σ) : Wait σ := ⟨s, [], false, none⟩

/-- The view of one document. -/
def single (env : Tui.Env) (n : Nat) : View Tui.St :=
  let conv := fun (a : Option Tui.Answer) => a.map fun a => match a with
    | .quit => Ans.quit
    | .crash => .crash
    | .redraw s => .next s
    | .nextInput s => .next s
  ⟨fun name pat s => conv (Tui.step env n (.key name pat) s), fun w h s => conv (Tui.step env n (.resize w h) s)⟩

/-- The view of two documents. -/
def double (env : Split.Env) (n k : Nat) : View Split.St :=
  let conv := fun (a : Option Split.Answer) => a.map fun a => match a with
    | .quit => Ans.quit
    | .crash => .crash
    | .redraw s => .next s
    | .nextInput s => .next s
  ⟨fun name pat s => conv (Split.step env n k (.key name pat) s), fun c r s => conv (Split.step env n k (.resize c r) s)⟩

end Verif.Model.Loop
