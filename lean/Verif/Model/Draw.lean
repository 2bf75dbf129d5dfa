import Verif.Model.Navigate
/-!
# Model of the drawing of a document on the screen (`src/curseSimpleOutput.cpp`)

The screen is the list of texts written to it with their place and their marks; colours are not modelled, and an entry with its
value on the same line (three calls to `printw`) is one text. Numbers of lines are natural numbers: the `unsigned int`s of the
code are assumed not to overflow. `len` is `lazystrlen` (`src/jsonElement.cpp:24-34`, see `Model/StrLen.lean`), `fmt` is
`std::to_string(double)` (`Model/SimpleOutput.lean`).
-/
namespace Verif.Model.Tui
open Verif.Model Verif.Model.Search

/-- A text on the screen (`mvprintw` or `move` and `printw`). -/
structure Cell where
  row : Nat
  col : Nat
  text : Bytes
  selected : Bool
  searched : Bool
deriving Repr, DecidableEq

/-- What does not change while the program runs: the document, and the functions of the C library. -/
structure Env where
  root : Json
  rx : Rx
  fmt : Bytes → Bytes
  len : Bytes → Nat

/-- What the drawing reads: `screenSize`, `collapsed`, `search_result` (`include/curseOutput.hh`, `include/curseSimpleOutput.hh`). -/
structure View where
  width : Nat
  height : Nat
  collapsed : List Path
  results : List Path

/-- What the drawing changes: `cursor.second`, `scrollTop`, `select_up`, `select_down`, `selectFound`, and the screen. -/
structure Draw where
  y : Nat
  scroll : Nat
  up : Option Path
  down : Option Path
  found : Bool
  screen : List Cell
deriving Repr, DecidableEq

/-- `src/curseOutput.cpp:171-177` — `getNbLines`, as the ceiling of the quotient (see `Model/NbLines.lean` for the computation with `double`).
Width 0 divides by zero in the code; here it gives 1. -/
def getNbLines (n width : Nat) : Nat := if n % width = 0 then n / width else n / width + 1

/-- `src/curseOutput.cpp:179-182` — `hasReachedBottom`. `height - 1` is unsigned: for height 0 it is greater than any number of lines. -/
def hasReachedBottom (pos scroll height : Nat) : Bool :=
  decide (scroll ≤ pos) && decide (height ≠ 0) && decide (height - 1 < pos - scroll)

/-- What `printw("%s", str.c_str())` writes of a string: the bytes before the first null byte. -/
def cstr (s : Bytes) : Bytes := s.takeWhile (· ≠ 0)

/-- `src/curseSimpleOutput.cpp:503-524` — `checkSelection`. `inEntry`: the parent of the element is an object entry. The
assignment `item = parent` has no effect: it is made only when the assignment to `select_down` is not. -/
def checkSelection (sel : Option Path) (p : Path) (inEntry : Bool) (d : Draw) : Draw :=
  if !d.found then
    if sel = some p then
      { d with scroll := if d.y ≤ d.scroll then (if d.y = 0 then 0 else d.y - 1) else d.scroll, found := true }
    else if !inEntry then { d with up := some p } else d
  else if d.down = none then
    if !inEntry then { d with down := some p } else d
  else d

/-- `src/curseSimpleOutput.cpp:376-383` (a string), `:353-374` (a character) — `write(x, y, …)`, with the addition of its result to
`cursor.second` by the callers: nothing is written above the screen, and one line is counted there. -/
def write (view : View) (sel : Option Path) (p : Path) (x : Nat) (text : Bytes) (lines : Nat) (d : Draw) : Draw :=
  if d.y ≤ d.scroll then { d with y := d.y + 1 }
  else
    { d with
      y := d.y + lines
      screen := d.screen ++ [⟨d.y - d.scroll, x, text, decide (sel = some p), view.results.contains p⟩] }

/-- `src/curseSimpleOutput.cpp:330-346` — `writeKey` with a text after the key. The new state, and whether to go on. -/
def writeKeyAfter (env : Env) (view : View) (sel : Option Path) (p : Path) (x : Nat) (key after : Bytes) (afterlen : Nat) (d : Draw) : Draw × Bool :=
  if d.y ≤ d.scroll then ({ d with y := d.y + 1 }, true)
  else
    let d := write view sel p x (cstr key ++ b!": " ++ cstr after) (getNbLines (x + env.len key + 2 + afterlen) view.width) d
    (d, !hasReachedBottom d.y d.scroll view.height)

/-- `src/curseSimpleOutput.cpp:314-328` — `writeKey` without a text after it (`extraLen` is 0). The width less 2 is unsigned. -/
def writeKey (env : Env) (view : View) (sel : Option Path) (p : Path) (x : Nat) (key : Bytes) (d : Draw) : Draw × Bool :=
  if d.y ≤ d.scroll then ({ d with y := d.y + 1 }, true)
  else
    let d := write view sel p x (cstr key ++ b!": ") (getNbLines (env.len key + x) ((view.width + 4294967294) % 4294967296)) d
    (d, !hasReachedBottom d.y d.scroll view.height)

/-- `src/curseSimpleOutput.cpp:212-217`: the brackets of a container. -/
def openBracket (isObject : Bool) : Bytes := if isObject then b!"{" else b!"["
def closeBracket (isObject : Bool) : Bytes := if isObject then b!"}" else b!"]"
/-- `src/curseSimpleOutput.cpp:221-222`, `:255-260`: what is shown of a collapsed container. -/
def collapsedText (isObject : Bool) : Bytes := if isObject then b!"{ ... }" else b!"[ ... ]"
/-- `src/curseSimpleOutput.cpp:274-279`: what is shown of an empty container in an entry. -/
def emptyText (isObject : Bool) : Bytes := if isObject then b!"{ }" else b!"[ ]"

/-- `src/curseSimpleOutput.cpp:201-206` — `redraw(cursor, item)` for an element that is no container. -/
def drawPrimitive (env : Env) (view : View) (sel : Option Path) (p : Path) (x : Nat) (v : Json) (d : Draw) : Draw × Bool :=
  let text := v.stringify env.fmt
  let d := write view sel p x (cstr text) (getNbLines (env.len text + x) view.width) d
  (d, !hasReachedBottom d.y d.scroll view.height)

/-- `dynamic_cast<JSonObject *>(v) != nullptr` (`src/curseSimpleOutput.cpp:255`, `:274`). -/
def isObj : Json → Bool
  | .obj _ => true
  | _ => false

/-- `size() == 0` for a container (`src/curseSimpleOutput.cpp:272`). -/
def isEmptyJ : Json → Bool
  | .obj l => l.isEmpty
  | .arr l => l.isEmpty
  | _ => true

mutual

/-- `src/curseSimpleOutput.cpp:193-208` — `redraw(cursor, item)` for a value, with `writeContainer` (`:210-235`) inlined: the new state,
and whether the bottom of the screen has not been reached. `x` is `cursor.first`, `INDENT_LEVEL` is 4. -/
def drawValue (env : Env) (view : View) (sel : Option Path) (p : Path) (inEntry : Bool) (x : Nat) (d : Draw) : Json → Draw × Bool
  | .arr xs =>
    let d := checkSelection sel p inEntry d
    if view.collapsed.contains p then
      let d := write view sel p x (collapsedText false) (getNbLines (7 + x) view.width) d
      (d, !hasReachedBottom d.y d.scroll view.height)
    else
      let d := write view sel p x (openBracket false) (getNbLines (x + 1) view.width) d
      if hasReachedBottom d.y d.scroll view.height then (d, false)
      else
        match drawItems env view sel p 0 (x + 4) d xs with
        | (d, false) => (d, false)
        | (d, true) =>
          let d := write view sel p x (closeBracket false) (getNbLines (x + 1) view.width) d
          (d, !hasReachedBottom d.y d.scroll view.height)
  | .obj es =>
    let d := checkSelection sel p inEntry d
    if view.collapsed.contains p then
      let d := write view sel p x (collapsedText true) (getNbLines (7 + x) view.width) d
      (d, !hasReachedBottom d.y d.scroll view.height)
    else
      let d := write view sel p x (openBracket true) (getNbLines (x + 1) view.width) d
      if hasReachedBottom d.y d.scroll view.height then (d, false)
      else
        match drawEntries env view sel p 0 (x + 4) d es with
        | (d, false) => (d, false)
        | (d, true) =>
          let d := write view sel p x (closeBracket true) (getNbLines (x + 1) view.width) d
          (d, !hasReachedBottom d.y d.scroll view.height)
  | .str s => drawPrimitive env view sel p x (.str s) (checkSelection sel p inEntry d)
  | .bool b => drawPrimitive env view sel p x (.bool b) (checkSelection sel p inEntry d)
  | .null => drawPrimitive env view sel p x .null (checkSelection sel p inEntry d)
  | .int i => drawPrimitive env view sel p x (.int i) (checkSelection sel p inEntry d)
  | .long i => drawPrimitive env view sel p x (.long i) (checkSelection sel p inEntry d)
  | .dbl s => drawPrimitive env view sel p x (.dbl s) (checkSelection sel p inEntry d)

/-- `src/curseSimpleOutput.cpp:237-312` — `writeContent` of an array, from item `i` on; `x` includes the indentation (`:242`). -/
def drawItems (env : Env) (view : View) (sel : Option Path) (p : Path) (i : Nat) (x : Nat) (d : Draw) : List Json → Draw × Bool
  | [] => (d, true)
  | v :: vs =>
    match drawValue env view sel (p ++ [i]) false x d v with
    | (d, false) => (d, false)
    | (d, true) => drawItems env view sel p (i + 1) x d vs

/-- `src/curseSimpleOutput.cpp:237-312` — `writeContent` of an object, from entry `i` on. The selection is the value while the value
of a selected entry is drawn (`:288-299`). -/
def drawEntries (env : Env) (view : View) (sel : Option Path) (p : Path) (i : Nat) (x : Nat) (d : Draw) : List (Bytes × Json) → Draw × Bool
  | [] => (d, true)
  | (key, v) :: es =>
    let ent := p ++ [i]
    let val := ent ++ [0]
    let d := checkSelection sel ent false d
    let r :=
      if v.isContainer && view.collapsed.contains val then writeKeyAfter env view sel ent x key (collapsedText (isObj v)) 7 d
      else if !v.isContainer then writeKeyAfter env view sel ent x key (v.stringify env.fmt) (env.len (v.stringify env.fmt)) d
      else if isEmptyJ v then writeKeyAfter env view sel ent x key (emptyText (isObj v)) 3 d
      else
        match writeKey env view sel ent x key d with
        | (d, false) => (d, false)
        | (d, true) => drawValue env view (if sel = some ent then some val else sel) val true (x + 2) d v
    match r with
    | (d, false) => (d, false)
    | (d, true) =>
      if v.isContainer && !view.collapsed.contains val && !isEmptyJ v then drawEntries env view sel p (i + 1) x d es
      else if hasReachedBottom d.y d.scroll view.height then (d, false)
      else drawEntries env view sel p (i + 1) x d es

end

end Verif.Model.Tui
