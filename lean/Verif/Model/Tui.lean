import Verif.Model.Draw
/-!
# Model of the interactive mode (`src/curseSimpleOutput.cpp`, `src/curseOutput.cpp`)

Pointers to elements are positions, the null pointer is `none`. A crash is an access through the null pointer. What the terminal does
(`ncurses`), the reading of keys (`src/inputSequence.cpp`) and signals that arrive while the screen is drawn are not modelled.
-/
namespace Verif.Model.Tui
open Verif.Model Verif.Model.Search Verif.Model.Nav

/-- The fields of `CurseSimpleOutput` that change (`include/curseSimpleOutput.hh`, `include/curseOutput.hh`), and the screen. -/
structure St where
  sel : Option Path
  scroll : Nat
  collapsed : List Path
  results : List Path
  up : Option Path
  down : Option Path
  isLast : Bool
  width : Nat
  height : Nat
  screen : List Cell
deriving Repr, DecidableEq

/-- What `redraw()` comes to: `false` (draw again), `true`, or a crash. -/
inductive Drawn where
  | crash
  | retry (s : St)
  | done (s : St)
deriving Repr, DecidableEq

/-- `dynamic_cast<const JSonContainer*>(selection)`, not empty, not in `collapsed` (`src/curseSimpleOutput.cpp:63-64`). -/
def isOpen (env : Env) (collapsed : List Path) (p : Path) : Bool :=
  match (Elem.value env.root).at p with
  | some e => e.isContainer && !e.kids.isEmpty && !collapsed.contains p
  | none => false

/-- `src/curseSimpleOutput.cpp:35-76` — `redraw()`. `SelectionOutOfRange` is never thrown here. -/
def redraw (env : Env) (s : St) : Drawn :=
  let view : View := ⟨s.width, s.height, s.collapsed, s.results⟩
  match drawValue env view s.sel [] false 0 ⟨1, s.scroll, none, none, false, []⟩ env.root with
  | (d, result) =>
    let s := { s with scroll := d.scroll, up := d.up, down := d.down, isLast := false, screen := d.screen }
    if !result && !d.found then .retry { s with scroll := s.scroll + 1 }
    else
      let s := { s with isLast := !result && s.down.isNone }
      let s := { s with up := if s.up.isNone then s.sel else s.up }
      match s.down, s.sel with
      | some _, _ => .done s
      | none, none => .crash
      | none, some p => .done { s with down := some (if isOpen env s.collapsed p then p ++ [0] else (findNext env.root p).getD p) }

/-- `src/curseOutput.cpp:46` — `while (!redraw());`, at most `n` times: `none` if that was not enough. -/
def settle (env : Env) : Nat → St → Option Drawn
  | 0, _ => none
  | n + 1, s =>
    match redraw env s with
    | .retry s => settle env n s
    | r => some r

/-- `inputResult` (`include/curseOutput.hh:25-31`), or a crash. -/
inductive Answer where
  | redraw (s : St)
  | nextInput (s : St)
  | quit
  | crash
deriving Repr, DecidableEq

/-- `src/curseSimpleOutput.cpp:78-82` — `selectUp`. -/
def selectUp (s : St) : Answer := .redraw { s with sel := s.up }

/-- `src/curseSimpleOutput.cpp:84-93` — `selectDown`. -/
def selectDown (s : St) : Answer :=
  if s.isLast then .redraw { s with scroll := s.scroll + 2 }
  else if s.sel ≠ s.down then .redraw { s with sel := s.down }
  else .nextInput s

/-- The parent of an element (`JSonElement::getParent`, `src/jsonElement.cpp:55-63`); `none` for the root. -/
def parent (p : Path) : Option Path := if p.isEmpty then none else some p.dropLast

/-- The parent of an element is an object entry (`x->getParent() && dynamic_cast<const JSonObjectEntry*>(x->getParent())`). -/
def inEntry (env : Env) (p : Path) : Bool :=
  match parent p with
  | none => false
  | some q => match (Elem.value env.root).at q with
    | some e => e.isEntry
    | none => false

/-- The parent of an element is a container (`src/curseSimpleOutput.cpp:103`). -/
def inContainer (env : Env) (p : Path) : Bool :=
  match parent p with
  | none => false
  | some q => match (Elem.value env.root).at q with
    | some e => e.isContainer
    | none => false

/-- `src/curseSimpleOutput.cpp:95-115` — `selectPUp`. -/
def selectPUp (env : Env) (s : St) : Answer :=
  match s.sel with
  | none => .crash
  | some p =>
    match findPrev env.root p with
    | some q => .redraw { s with sel := some q }
    | none =>
      if inContainer env p then .redraw { s with sel := some (if inEntry env p.dropLast then p.dropLast.dropLast else p.dropLast) }
      else .nextInput s

/-- `src/curseSimpleOutput.cpp:117-127` — `selectPDown`. -/
def selectPDown (env : Env) (s : St) : Answer :=
  match s.sel with
  | none => .crash
  | some p =>
    match findNext env.root p with
    | some q => .redraw { s with sel := some q }
    | none => .nextInput s

/-- The value of a selected entry, otherwise the selection (`src/curseSimpleOutput.cpp:133-134`, `:150-151`). -/
def valuePath (env : Env) (p : Path) : Path :=
  match (Elem.value env.root).at p with
  | some (.entry _ _) => p ++ [0]
  | _ => p

/-- `src/curseSimpleOutput.cpp:129-144` — `expandSelection`. -/
def expandSelection (env : Env) (s : St) : Answer :=
  match s.sel with
  | none => .nextInput s
  | some p =>
    let q := valuePath env p
    match (Elem.value env.root).at q with
    | none => .crash
    | some e =>
      if !e.isContainer then .nextInput s
      else if s.collapsed.contains q then .redraw { s with collapsed := s.collapsed.filter (· ≠ q) }
      else if e.kids.isEmpty then .nextInput s
      else .redraw { s with sel := s.down }

/-- `src/curseSimpleOutput.cpp:146-163` — `collapseSelection`. A root that is no container is inserted as well. -/
def collapseSelection (env : Env) (s : St) : Answer :=
  match s.sel with
  | none => .crash
  | some p =>
    let q := valuePath env p
    match (Elem.value env.root).at q with
    | none => .crash
    | some e =>
      if (parent q).isSome && (!e.isContainer || s.collapsed.contains q || e.kids.isEmpty) then
        .redraw { s with sel := some (if inEntry env p.dropLast then p.dropLast.dropLast else p.dropLast) }
      else .redraw { s with collapsed := if s.collapsed.contains q then s.collapsed else s.collapsed ++ [q] }

/-- `CurseOutput::redraw(message)` (`src/curseOutput.cpp:158-164`): the screen is drawn once, its result is ignored by the callers below. -/
def redrawMessage (env : Env) (s : St) : Answer :=
  match redraw env s with
  | .crash => .crash
  | .retry s => .nextInput s
  | .done s => .nextInput s

/-- `src/curseSimpleOutput.cpp:178-185` — `nextResult`, with `jumpToNextSearch` (`:487-500`). -/
def nextResult (env : Env) (s : St) : Answer :=
  match s.results with
  | [] => redrawMessage env s
  | q :: _ =>
    match s.sel with
    | none =>
      -- no element is the null pointer: nothing is found after it
      redrawMessage env { s with sel := some q, collapsed := unfold s.collapsed q }
    | some p =>
      match jump env.root s.results p s.collapsed with
      | none => .crash
      | some (q, c, true) => .redraw { s with sel := some q, collapsed := c }
      | some (q, c, false) => redrawMessage env { s with sel := some q, collapsed := c }

/-- `src/curseSimpleOutput.cpp:165-176` — `initSearch`; `pat` is the result of `inputSearch` (`Model/SearchInput.lean`). -/
def initSearch (env : Env) (pat : Option Pattern) (s : St) : Answer :=
  match pat with
  | none => .redraw s
  | some pat =>
    if pat.pattern.isEmpty then .redraw { s with results := [] }
    else nextResult env { s with results := (Nav.search env.rx env.fmt pat env.root).1 }

/-- What happens to the program: a key (with the pattern typed, if it is the key that asks for one), or a new size of the
terminal (`SIGWINCH`). -/
inductive Input where
  | key (name : Bytes) (pat : Option Pattern)
  | resize (width height : Nat)
deriving Repr, DecidableEq

/-- `src/curseOutput.cpp:117-156` — `evalKey`. `changeWindow` does nothing here (`src/curseSimpleOutput.cpp:187-191`). -/
def evalKey (env : Env) (name : Bytes) (pat : Option Pattern) (s : St) : Answer :=
  if name = b!"Q" then .quit
  else if name = b!"K" ∨ name = b!"KEY_UP" then selectUp s
  else if name = b!"J" ∨ name = b!"KEY_DOWN" then selectDown s
  else if name = b!"KEY_PPAGE" then selectPUp env s
  else if name = b!"KEY_NPAGE" then selectPDown env s
  else if name = b!"L" ∨ name = b!"KEY_RIGHT" then expandSelection env s
  else if name = b!"H" ∨ name = b!"KEY_LEFT" then collapseSelection env s
  else if name = b!"/" then initSearch env pat s
  else if name = b!"N" then nextResult env s
  else .nextInput s

/-- `src/curseOutput.cpp:39-49` (`loop`), `:56-69` (`onsig`), `:106-115` (`readInput`): one input, and the drawing that follows. `n`
bounds the number of drawings: `none` if that was not enough; the answer `redraw` is not given. -/
def step (env : Env) (n : Nat) (i : Input) (s : St) : Option Answer :=
  let after := fun (r : Option Drawn) => match r with
    | none => none
    | some .crash => some .crash
    | some (.done s) => some (.nextInput s)
    | some (.retry _) => none
  match i with
  | .resize w h => after (settle env n { s with width := w, height := h })
  | .key name pat =>
    match evalKey env name pat s with
    | .redraw s => after (settle env n s)
    | a => some a

/-- `src/curseSimpleOutput.cpp:27-33` — `run`: the state before the first drawing. The pointers are not initialised, they are set
by the drawing. -/
def start (width height : Nat) : St := ⟨some [], 0, [], [], none, none, false, width, height, []⟩

end Verif.Model.Tui
