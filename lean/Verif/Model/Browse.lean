import Verif.Model.Program
/-!
# Model of the views of one document after the other

`CurseSimpleOutput` is made once (`src/main.cpp:193`) and shows each input in turn (`src/curseSimpleOutput.cpp:27-33`); the document shown before has been deleted
(`src/main.cpp:202`). `run()` sets the selection and the scroll position, but not `collapsed` and `search_result`: these still hold the addresses of elements that
are gone. An element of the new document may have one of these addresses again: which one is a parameter (`addr`).
-/
namespace Verif.Model.Browse
open Verif.Model Verif.Model.Main Verif.Model.Program

/-- The address of an element of the document with this number. -/
abbrev Address := Nat × Path

/-- What a view leaves behind: `collapsed`, `search_result`, `screenSize`. -/
structure Leftover where
  collapsed : List Address
  results : List Address
  width : Nat
  height : Nat
deriving Repr, DecidableEq

/-- What the views depend on: the prompt and the names of keys, the texts, the bound of the drawings, the size of the terminal at first, the events in the view of each number, and
the element of the document of a number that has an old address, if any. -/
structure Keyboard where
  lenv : Loop.Env
  rx : Search.Rx
  fmt : Bytes → Bytes
  len : Bytes → Nat
  bound : Nat
  width : Nat
  height : Nat
  events : Nat → List Loop.Event
  addr : Nat → Address → Option Path

/-- The surroundings of the view of a document. -/
def Keyboard.env (k : Keyboard) (v : Json) : Tui.Env := ⟨v, k.rx, k.fmt, k.len⟩

/-- `src/curseSimpleOutput.cpp:27-33` — `run`: the state before the first drawing. -/
def enter (k : Keyboard) (j : Nat) (l : Leftover) : Tui.St :=
  { Tui.start l.width l.height with collapsed := l.collapsed.filterMap (k.addr j), results := l.results.filterMap (k.addr j) }

/-- The first of the old search results is an element that is gone. -/
def lost (k : Keyboard) (j : Nat) (l : Leftover) : Bool :=
  match l.results with
  | [] => false
  | r :: _ => (k.addr j r).isNone

/-- `src/curseSimpleOutput.cpp:178-185`, `:487-500` — `N` finds nothing after the selection, and goes to the first of the results (`:494`). -/
def toFirst (v : Json) (s : Tui.St) : Bool :=
  match s.sel with
  | none => true
  | some p => (Nav.jumpValue s.results p [] false v).2.isNone

/-- An answer of the view, with the mark `old`. -/
def mark (old : Bool) : Loop.Ans Tui.St → Loop.Ans (Tui.St × Bool)
  | .next t => .next (t, old)
  | .quit => .quit
  | .crash => .crash

/-- The view of the document of this number. `old`: `search_result` is still that of the documents before. Going to an element that is gone is undefined behaviour
(`src/curseSimpleOutput.cpp:494-495`). -/
def view (k : Keyboard) (j : Nat) (l : Leftover) (v : Json) : Loop.View (Tui.St × Bool) where
  key name pat s :=
    if s.2 && lost k j l && decide (name = b!"N") && toFirst v s.1 then some .crash
    else ((Loop.single (k.env v) k.bound).key name pat s.1).map (mark (s.2 && !(decide (name = b!"/") && pat.isSome)))
  resize c r s := ((Loop.single (k.env v) k.bound).resize c r s.1).map (mark s.2)

/-- The state of the view when it is left: `src/curseOutput.cpp:110-114` — what the last key does is done also if `breakLoop` is set. -/
def lastState {σ : Type} (env : Loop.Env) (V : Loop.View σ) : List Loop.Event → Loop.Wait σ → σ
  | [], m => m.view
  | e :: es, m =>
    match Loop.step env V e m with
    | .waits m' => lastState env V es m'
    | _ =>
      match Loop.step env V e { m with stopped := false } with
      | .waits m' => m'.view
      | _ => m.view

/-- What the view of this number leaves behind. -/
def leaves (k : Keyboard) (j : Nat) (l : Leftover) (s : Tui.St × Bool) : Leftover where
  collapsed := l.collapsed.filter (fun a => (k.addr j a).isNone) ++ s.1.collapsed.map (j, ·)
  results := if s.2 then l.results.map fun a => match k.addr j a with | some p => (j, p) | none => a else s.1.results.map (j, ·)
  width := s.1.width
  height := s.1.height

/-- How the main loop ends. -/
def viewEnd {σ : Type} : Loop.Result σ → ViewEnd
  | .waits _ => .waits
  | .ended => .left
  | .crash => .crash
  | .unknown => .waits

/-- `src/curseOutput.cpp:39-49` — the view of the document of this number, from the first drawing on: what becomes of it, and what it leaves behind. -/
def oneView (k : Keyboard) (j : Nat) (l : Leftover) (v : Json) : ViewEnd × Leftover :=
  match Tui.settle (k.env v) k.bound (enter k j l) with
  | some (.done s) =>
    (viewEnd (Loop.run k.lenv (view k j l v) (k.events j) (Loop.begin (s, true))),
      leaves k j l (lastState k.lenv (view k j l v) (k.events j) (Loop.begin (s, true))))
  | some .crash => (.crash, l)
  | _ => (.waits, l)

/-- What the views of these documents leave behind, one after the other. -/
def leftover (k : Keyboard) : Nat → List Json → Leftover → Leftover
  | _, [], l => l
  | j, v :: vs, l => leftover k (j + 1) vs (oneView k j l v).2

/-- The sessions of the program on this terminal. The view of two documents is the only one of its program. -/
def session (k : Keyboard) (before : List (List (Bytes × Json))) (stopped : Bool) (docs : List (Bytes × Json)) : ViewEnd :=
  match docs with
  | [(_, v)] => if stopped then .left else (oneView k before.length (leftover k 0 (before.flatMap (·.map (·.2))) ⟨[], [], k.width, k.height⟩) v).1
  | [(_, a), (_, b)] =>
    match Diff.diff k.fmt a b with
    | none => .crash
    | some t =>
      let env : Split.Env := ⟨a, b, t, t.equivalences, k.rx, k.fmt, k.len⟩
      match Split.settle env k.bound k.bound (Split.start env k.width k.height) with
      | some (some s) => if stopped then .left else viewEnd (Loop.run k.lenv (Loop.double env k.bound k.bound) (k.events 0) (Loop.begin s))
      | some none => .crash
      | none => .waits
  | _ => .crash

end Verif.Model.Browse
