import Verif.Model.Loop
import Verif.Model.Paint
import Verif.Model.SplitPaint
/-!
# Model of the prompt of the search on the terminal

The main loop of `Model/Loop.lean`, with the views that write to the terminal (`Model/Paint.lean`, `Model/SplitPaint.lean`) and with what the prompt itself writes
(`src/curseOutput.cpp:204-230`, `:273-285`, `src/curseSplitOutput.cpp:566-578`).
-/
namespace Verif.Model.Prompt
open Verif.Model Verif.Model.Search Verif.Model.Loop Verif.Model.Term

/-- The view of one document with its terminal, and the message on the last line, if there is one. -/
abbrev One := Tui.St × Terminal × Option Bytes

/-- The view of two documents with the terminal, and the message on the last line, if there is one. -/
abbrev Two := Split.St × SplitPaint.Display × Option Bytes

/-- The view of one document (`Loop.single`), with the terminal. -/
def singleOn (look : Paint.Look) (env : Tui.Env) (n : Nat) : View One :=
  let conv := fun (a : Option (Tui.Answer × Terminal × Option Bytes)) => a.map fun a => match a with
    | (.quit, _, _) => Ans.quit
    | (.crash, _, _) => .crash
    | (.redraw s, t, m) => .next (s, t, m)
    | (.nextInput s, t, m) => .next (s, t, m)
  ⟨fun name pat v => conv (Paint.stepOn look env n (.key name pat) v.1 v.2.1 v.2.2), fun w h v => conv (Paint.stepOn look env n (.resize w h) v.1 v.2.1 v.2.2)⟩

/-- The view of two documents (`Loop.double`), with the terminal. -/
def doubleOn (look : SplitPaint.Looks) (env : Split.Env) (n k : Nat) : View Two :=
  let conv := fun (a : Option (Split.Answer × SplitPaint.Display × Option Bytes)) => a.map fun a => match a with
    | (.quit, _, _) => Ans.quit
    | (.crash, _, _) => .crash
    | (.redraw s, t, m) => .next (s, t, m)
    | (.nextInput s, t, m) => .next (s, t, m)
  ⟨fun name pat v => conv (SplitPaint.stepOn look env n k (.key name pat) v.1 v.2.1 v.2.2),
    fun w h v => conv (SplitPaint.stepOn look env n k (.resize w h) v.1 v.2.1 v.2.2)⟩

/-- `src/curseOutput.cpp:273-285` — `writeBottomLine(L'/' + line, SPECIAL_SEARCH)`, on a terminal or in a window. `wide` is what `%S` of the C library makes of a text; the width of the
field for the blank and the place of the cursor are computed from the length of the text itself. The width of the field is the difference as an `int`, as in
`Paint.bottomLine`. -/
def promptCmds (colours : Bool) (wide : List Nat → Bytes) (width height : Nat) (line : List Nat) : List Cmd :=
  let size := line.length + 1
  [.mvput (height - 1) 0 (wide (c%'/' :: line) ++ List.replicate (max 1 (if size ≤ width then width - size else size - width)) 32)
      ⟨false, if colours then some Paint.specialSearch else none⟩,
    .move (height - 1) size]

/-- `src/curseOutput.cpp:273-285`: the prompt is written on the last line of the terminal, whose size is asked for (`getScreenSizeUnsafe`). -/
def promptOne (look : Paint.Look) (wide : List Nat → Bytes) (line : List Nat) (v : One) : One :=
  (v.1, runCmds (promptCmds look.colours wide v.2.1.width v.2.1.height line) v.2.1, v.2.2)

/-- `src/curseSplitOutput.cpp:566-578`: the prompt is written in the window of the last line, which is put on the terminal. The window had a text over its whole width, or nothing, which is
all written over; it is taken to have been empty. -/
def promptTwo (look : SplitPaint.Looks) (wide : List Nat → Bytes) (line : List Nat) (v : Two) : Two :=
  (v.1, SplitPaint.refresh (runCmds (promptCmds look.colours wide v.2.1.cols 1 line) (SplitPaint.blankWin v.2.1.cols 1)) (v.2.1.rows - 1) 0 v.2.1, v.2.2)

/-- `src/curseOutput.cpp:213-230`: the line is written when the prompt opens, and after every code that leaves it open. No other event writes it: after a change of size the document is
drawn by the signal handler while `wgetch` goes on. -/
def shown {σ : Type} (write : List Nat → σ → σ) (e : Event) (r : Result σ) : Result σ :=
  match e, r with
  | .code _, .waits m =>
    match m.prompt with
    | some line => .waits { m with view := write line m.view }
    | none => .waits m
  | _, r => r

/-- One event. -/
def step {σ : Type} (env : Loop.Env) (V : View σ) (write : List Nat → σ → σ) (e : Event) (m : Wait σ) : Result σ := shown write e (Loop.step env V e m)

/-- A run: the events one after the other. -/
def run {σ : Type} (env : Loop.Env) (V : View σ) (write : List Nat → σ → σ) : List Event → Wait σ → Result σ
  | [], m => .waits m
  | e :: es, m =>
    match step env V write e m with
    | .waits m => run env V write es m
    | r => r

end Verif.Model.Prompt
