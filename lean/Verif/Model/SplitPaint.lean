import Verif.Model.Split
/-!
# Model of what the diff view does to the terminal (`src/curseSplitOutput.cpp`)

Each document has a frame (`outerWin`) and a window inside of it (`innerWin`); there is a window for the last line. They are windows of `ncurses`: what is written in one of them
is seen only when the window is put on the terminal (`wrefresh`), where it covers what was there. The same simplifications as in `Model/Term.lean`.
-/
namespace Verif.Model.SplitPaint
open Verif.Model Verif.Model.Search Verif.Model.Diff Verif.Model.Split Verif.Model.Term
open Verif.Model.Paint (Look)

/-- What the looks depend on: `params.colorEnabled()`, and the names of the inputs. -/
structure Looks where
  colours : Bool
  first : Bytes
  second : Bytes

/-- The looks of one of the windows. -/
def Looks.of (l : Looks) (side : Bool) : Look := ⟨l.colours, if side then l.second else l.first⟩

/-- The constants of `src/outputFlag.cpp:21-26`. -/
def specialInputName : Nat := 53
def diffAdd : Nat := 60
def diffMod : Nat := 61
def diffRem : Nat := 62

/-- `src/curseSplitOutput.cpp:741-772` — `displayDiffOp`. -/
def markCmds (row : Nat) : Op → List Cmd
  | .add => [.mvput row 0 b!"++" ⟨true, some diffAdd⟩]
  | .mod => [.mvput row 0 b!"!!" ⟨true, some diffMod⟩]
  | .rem => [.mvput row 0 b!"--" ⟨true, some diffRem⟩]
  | .equ => []

/-- `src/curseSplitOutput.cpp:720-734` (`write` of a character), `:782-783`, `:787-805` (`write` of a string): the calls of `ncurses`. -/
def callCmds (look : Look) : Call → List Cmd
  | .mark row op => markCmds row op
  | .text true row col parts sel srch => parts.map fun p => .mvput row col p.1 (Paint.attrOf look sel srch p.2)
  | .text false row col parts sel srch => .move row col :: parts.map fun p => .put p.1 (Paint.attrOf look sel srch p.2)

/-- `src/curseSplitOutput.cpp:826-840` — `writeTopLine`; `width` is that of the window. -/
def titleCmd (look : Look) (active : Bool) (width : Nat) : Cmd :=
  let str := look.name.take width
  .mvput 0 0 (if str.length = width then Tui.cstr str else Tui.cstr str ++ List.replicate (width - str.length) 32)
    ⟨false, if look.colours then some (if active then Paint.specialActiveInputName else specialInputName) else none⟩

/-- A window with nothing in it. -/
def blankWin (width height : Nat) : Terminal := ⟨width, height, fun _ => nothing, 0⟩

/-- `src/curseSplitOutput.cpp:440-442`, and the calls of the drawing: the window of a document. Its size is that of `newwin` (`:63`) and `wresize` (`:417`). -/
def painted (look : Look) (active : Bool) (width height : Nat) (w : Win) : Terminal :=
  runCmds (.clear :: titleCmd look active (less width 2) :: w.calls.flatMap (callCmds look)) (blankWin (less width 2) height)

/-- The terminal: what is in a line and column. -/
structure Display where
  cols : Nat
  rows : Nat
  at_ : Nat → Nat → Glyph

/-- `wrefresh`: a window is put on the terminal, with its first place in line `top` and column `left`. The whole of it is copied: `wclear` and `box` mark all places as
changed. -/
def refresh (w : Terminal) (top left : Nat) (d : Display) : Display :=
  { d with at_ := fun y x => if top ≤ y ∧ y < top + w.height ∧ left ≤ x ∧ x < left + w.width then w.at_ ((y - top) * w.width + (x - left)) else d.at_ y x }

/-- The frame of a window. Its characters are not told apart. -/
def frameGlyph : Glyph := ⟨256, ⟨false, none⟩⟩

/-- `box(outerWin, 0, 0)`: the frame; nothing else is ever written in this window. Its size is that of `newwin` (`src/curseSplitOutput.cpp:62`) and `wresize` (`:416`). -/
def framed (width height : Nat) : Terminal :=
  ⟨width, height + 2, fun k => if k / width = 0 ∨ k / width = height + 1 ∨ k % width = 0 ∨ k % width = width - 1 then frameGlyph else nothing, 0⟩

/-- The column of the terminal where the window of a document begins (`src/curseSplitOutput.cpp:63`, `:419`). -/
def leftOf (width : Nat) (side : Bool) : Nat := if side then width - 1 + 1 else 1

/-- `src/curseSplitOutput.cpp:431-445`: the frames are put on the terminal, at columns 0 and `screenSize.first - 1` (`:62`, `:418`). They cover the windows. -/
def framesOn (s : St) (d : Display) : Display := refresh (framed s.width s.height) 0 (s.width - 1) (refresh (framed s.width s.height) 0 0 d)

/-- `src/curseSplitOutput.cpp:514-515`: the windows are put on the terminal. -/
def windowsOn (look : Looks) (s : St) (w0 w1 : Win) (d : Display) : Display :=
  refresh (painted (look.of true) (decide (s.selected = 1)) s.width s.height w1) 1 (leftOf s.width true)
    (refresh (painted (look.of false) (decide (s.selected = 0)) s.width s.height w0) 1 (leftOf s.width false) d)

/-- `src/curseSplitOutput.cpp:426-517` — `redraw()`, with the terminal: when it returns `false` the windows are not put on it. -/
def redrawOn (look : Looks) (env : Env) (n : Nat) (s : St) (d : Display) : Option (Drawn × Display) :=
  match redraw env n s with
  | none => none
  | some (.done w0 w1) => some (.done w0 w1, windowsOn look s w0 w1 (framesOn s d))
  | some r => some (r, framesOn s d)

/-- `src/curseOutput.cpp:46` — `while (!redraw());`, with the terminal. -/
def settleOn (look : Looks) (env : Env) (n : Nat) : Nat → St → Display → Option (Option (St × Display))
  | 0, _, _ => none
  | k + 1, s, d =>
    match redrawOn look env n s d with
    | none => none
    | some (.crash, _) => some none
    | some (.retry w0 w1, d) => settleOn look env n k { s with first := w0, second := w1 } d
    | some (.done w0 w1, d) => some (some ({ s with first := w0, second := w1 }, d))

/-- `src/curseSplitOutput.cpp:552-564` — `writeBottomLine`: the window of the last line, one line as wide as the terminal. -/
def bottomWin (look : Looks) (cols : Nat) (msg : Bytes) : Terminal := runCmds (Paint.bottomLine (look.of false) cols 1 msg Paint.specialError) (blankWin cols 1)

/-- `CurseOutput::redraw(message)` (`src/curseOutput.cpp:158-164`), with the terminal: the windows are drawn once, then the message is put on the last line. -/
def messageOn (look : Looks) (env : Env) (n : Nat) (s : St) (d : Display) (msg : Bytes) : Option (Answer × Display × Option Bytes) :=
  match redrawOn look env n s d with
  | none => none
  | some (.crash, d) => some (.crash, d, none)
  | some (.retry w0 w1, d) => some (.nextInput { s with first := w0, second := w1 }, refresh (bottomWin look d.cols msg) (d.rows - 1) 0 d, some msg)
  | some (.done w0 w1, d) => some (.nextInput { s with first := w0, second := w1 }, refresh (bottomWin look d.cols msg) (d.rows - 1) 0 d, some msg)

/-- `src/curseSplitOutput.cpp:214-221` — `nextResult`, with `jumpToNextSearch()` (`:346-360`), as in `Model/Split.lean`, with the terminal. -/
def nextResultOn (look : Looks) (env : Env) (n : Nat) (s : St) (d : Display) : Option (Answer × Display × Option Bytes) :=
  match s.active.results with
  | [] => messageOn look env n s d Paint.notFound
  | q :: _ =>
    let side := decide (s.selected ≠ 0)
    match (jumpValue s.active.results s.active.last s.active.sel side [] false (env.root side)).2 with
    | some e =>
      let s := setSelection env (some e) s
      some (.redraw { s with collapsed := unfold e s.collapsed }, d, none)
    | none =>
      let s := setSelection env (some q) s
      messageOn look env n { s with collapsed := unfold q s.collapsed } d Paint.wrapped

/-- `src/curseSplitOutput.cpp:199-212` — `initSearch`, with the terminal. What the prompt writes on the last line is in `Model/Prompt.lean`: it is covered by the frames, or by a
message, up to the last one or two columns (C105). -/
def initSearchOn (look : Looks) (env : Env) (n : Nat) (pat : Option Pattern) (s : St) (d : Display) : Option (Answer × Display × Option Bytes) :=
  match pat with
  | none => some (.redraw s, d, none)
  | some pat =>
    let s := { s with first := { s.first with results := [] }, second := { s.second with results := [] } }
    if pat.pattern.isEmpty then some (.redraw s, d, none)
    else nextResultOn look env n (s.set s.selected { s.active with results := search env pat }) d

/-- `src/curseOutput.cpp:117-156` — `evalKey`, with the terminal and the message on its last line, if there is one: keys other than `/` and `N` do not write. -/
def evalKeyOn (look : Looks) (env : Env) (n : Nat) (name : Bytes) (pat : Option Pattern) (s : St) (d : Display) (m : Option Bytes) : Option (Answer × Display × Option Bytes) :=
  if name = b!"/" then initSearchOn look env n pat s d
  else if name = b!"N" then nextResultOn look env n s d
  else (evalKey env n name pat s).map fun a => (a, d, m)

/-- One input and the drawing that follows, as in `Model/Split.lean`, with the terminal. After a change of its size the terminal is taken to be empty; the windows have their
new sizes and places (`src/curseSplitOutput.cpp:406-424` — `onResizeHandler`). -/
def stepOn (look : Looks) (env : Env) (n k : Nat) (i : Split.Input) (s : St) (d : Display) (m : Option Bytes) : Option (Answer × Display × Option Bytes) :=
  let after := fun (s : St) (d : Display) => (settleOn look env n k s d).map fun r => match r with
    | none => (Answer.crash, d, none)
    | some (s, d) => (.nextInput s, d, none)
  match i with
  | .resize cols rows => after { s with width := cols / 2, height := less rows 2 } ⟨cols, rows, fun _ _ => nothing⟩
  | .key name pat =>
    match evalKeyOn look env n name pat s d m with
    | none => none
    | some (.redraw s, d, _) => after s d
    | some a => some a

end Verif.Model.SplitPaint
