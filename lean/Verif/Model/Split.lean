import Verif.Model.Draw
import Verif.Model.Diff
import Verif.Model.Paint
/-!
# Model of the view of two documents side by side (`src/curseSplitOutput.cpp`)

Window 0 (`false`) shows the first document, window 1 (`true`) the second one; three inputs end in an exception
(`src/curseSplitOutput.cpp:84-85`, see `Model/Main.lean`). A pointer to an element is its document and its position (`Diff.Ptr`), the null pointer is
`none`. As in `Model/Draw.lean` the screen is the list of texts written in a window, line counts are natural numbers. The calls to `ncurses` are recorded (`calls`); what they do
to the terminal is in `Model/SplitPaint.lean`. `redraw(w, pair &)` (`:635-647`) reads a pair it has just removed from the stack; the memory is still there, and the value
is taken to be unchanged.
-/
namespace Verif.Model.Split
open Verif.Model Verif.Model.Search Verif.Model.Diff
open Verif.Model.Tui (getNbLines hasReachedBottom cstr openBracket closeBracket collapsedText emptyText isObj isEmptyJ)

/-- A text in a window. `who` and `closing` are not on the screen: the element the text was written for, and whether it is its closing bracket. -/
structure Cell where
  row : Nat
  col : Nat
  text : Bytes
  selected : Bool
  searched : Bool
  who : Ptr
  closing : Bool
deriving Repr, DecidableEq

/-- `++`, `!!` or `--` in the first two columns of a row (`src/curseSplitOutput.cpp:741-772` — `displayDiffOp`). -/
structure Mark where
  row : Nat
  op : Op
deriving Repr, DecidableEq

/-- The calls to `ncurses` that write in a window: `displayDiffOp`, and `write` of a character (`char`) or of a string, with its parts and their types. -/
inductive Call where
  | mark (row : Nat) (op : Op)
  | text (char : Bool) (row col : Nat) (parts : List (Bytes × Nat)) (selected searched : Bool)
deriving Repr, DecidableEq

/-- The text that is made of its parts. -/
def joined (parts : List (Bytes × Nat)) : Bytes := parts.foldl (fun t p => t ++ p.1) []

/-- What does not change while the program runs: the documents, their comparison (`order`: see `Diff.scan`), and functions of the C library. -/
structure Env where
  left : Json
  right : Json
  table : Table
  order : List (Ptr × Ptr)
  rx : Rx
  fmt : Bytes → Bytes
  len : Bytes → Nat

/-- The root of the document of a window (`t_subWindow::root`, `include/curseSplitOutput.hh:14`). -/
def Env.root (env : Env) (side : Bool) : Json := if side then env.right else env.left

/-- The pointer to the element at a position of the document of a window. -/
def ptr (side : Bool) (p : Path) : Ptr := if side then .right p else .left p

/-- The element behind a pointer. -/
def Env.elem (env : Env) : Ptr → Option Elem
  | .left p => (Elem.value env.left).at p
  | .right p => (Elem.value env.right).at p

/-- `src/jsonElement.cpp:55-63` — `getParent`. -/
def parent : Ptr → Option Ptr
  | .left p => if p.isEmpty then none else some (.left p.dropLast)
  | .right p => if p.isEmpty then none else some (.right p.dropLast)

/-- `dynamic_cast<const JSonContainer*>(e)`. -/
def Env.isContainer (env : Env) (e : Ptr) : Bool :=
  match env.elem e with
  | some x => x.isContainer
  | none => false

/-- `dynamic_cast<const JSonObjectEntry*>(e)`. -/
def Env.isEntry (env : Env) (e : Ptr) : Bool :=
  match env.elem e with
  | some x => x.isEntry
  | none => false

/-- `dynamic_cast<const JSonObject*>(e)`. -/
def Env.isObject (env : Env) (e : Ptr) : Bool :=
  match env.elem e with
  | some (.value v) => isObj v
  | _ => false

/-- The number of elements directly below. -/
def Env.size (env : Env) (e : Ptr) : Nat :=
  match env.elem e with
  | some x => x.kids.length
  | none => 0

/-- The child of an element with the given number. -/
def child (e : Ptr) (i : Nat) : Ptr :=
  match e with
  | .left p => .left (p ++ [i])
  | .right p => .right (p ++ [i])

/-- `**((const JSonObjectEntry*)e)` for an entry, otherwise the element (`src/curseSplitOutput.cpp:156-157`, `:177-178`). -/
def Env.value (env : Env) (e : Ptr) : Ptr := if env.isEntry e then child e 0 else e

/-- `findNext` (`src/jsonElement.cpp:85-104`) in the document of the element. -/
def Env.findNext (env : Env) : Ptr → Option Ptr
  | .left p => (Nav.findNext env.left p).map .left
  | .right p => (Nav.findNext env.right p).map .right

/-- `findPrev` (`src/jsonElement.cpp:66-83`) in the document of the element. -/
def Env.findPrev (env : Env) : Ptr → Option Ptr
  | .left p => (Nav.findPrev env.left p).map .left
  | .right p => (Nav.findPrev env.right p).map .right

/-- `getEquivalence` (`src/levenshtein.cpp:134-144`, `:187-192`). -/
def Env.equiv (env : Env) (e : Ptr) : Option Ptr := scan env.order e

/-- `src/curseSplitOutput.cpp:877-882` — the operator shown for an element: `add` if the table has none. -/
def Env.op (env : Env) (e : Ptr) : Op := (env.table.get e).getD .add

/-- `src/curseSplitOutput.cpp:884-897` — the type in `getFlag`; for an entry it is the type of its value. -/
def Env.type (env : Env) (e : Ptr) : Nat :=
  match env.elem e with
  | some (.value v) => Paint.typeOf v
  | some (.entry _ v) => Paint.typeOf v
  | none => 0

/-- `t_subWindow` (`include/curseSplitOutput.hh:11-24`): what changes of it, and what is written in the window. A pair of `parentsIterators` is
stored with its number plus one, the top of the stack first. -/
structure Win where
  sel : Option Ptr
  last : Option Ptr
  up : Option Ptr
  down : Option Ptr
  results : List Ptr
  scroll : Nat
  x : Nat
  y : Nat
  stack : List (Nat × Path)
  found : Bool
  isLast : Bool
  screen : List Cell
  marks : List Mark
  calls : List Call
deriving Repr, DecidableEq

/-- What drawing a window reads besides it: `screenSize`, `collapsed`, the results of the active window. -/
structure View where
  width : Nat
  height : Nat
  collapsed : List Ptr
  results : List Ptr

/-- `screenSize.first - k`, unsigned. -/
def less (width k : Nat) : Nat := (width + (4294967296 - k)) % 4294967296

/-- `src/curseSplitOutput.cpp:250-276` — `checkSelection`. It is called for the root and for the elements of containers only: the parent is never
an object entry, and the assignment `item = parent` is never made. -/
def checkSelection (e : Ptr) (w : Win) : Win :=
  if !w.found then
    if w.last = some e then
      { w with scroll := if w.y ≤ w.scroll then (if w.y = 0 then 0 else w.y - 1) else w.scroll, found := true }
    else { w with up := some e }
  else if w.down = none then { w with down := some e }
  else w

/-- `src/curseSplitOutput.cpp:867-873` — `getFlag`: whether an element is shown as selected. -/
def isSelected (env : Env) (w : Win) (e : Ptr) : Bool :=
  decide (w.sel = some e) ||
    (match parent e with
      | some q => env.isEntry q && decide (w.sel = some q)
      | none => false)

/-- `src/curseSplitOutput.cpp:741-772` — `displayDiffOp`: nothing for `equ`. -/
def displayDiffOp (row : Nat) (op : Op) (marks : List Mark) : List Mark :=
  if op = .equ then marks else marks ++ [⟨row, op⟩]

/-- The call of `displayDiffOp`. -/
def callMark (row : Nat) (op : Op) : List Call := if op = .equ then [] else [.mark row op]

/-- `src/curseSplitOutput.cpp:714-739` — `write` of a character, and the addition of its result to `cursor.second`. -/
def writeChar (env : Env) (view : View) (e : Ptr) (closing : Bool) (text : Bytes) (w : Win) : Win :=
  if w.y ≤ w.scroll then { w with y := w.y + 1 }
  else
    { w with
      y := w.y + getNbLines (w.x + 1) (less view.width 2)
      screen := w.screen ++ [⟨w.y - w.scroll, w.x, text, isSelected env w e, view.results.contains e, e, closing⟩]
      marks := displayDiffOp (w.y - w.scroll) (env.op e) w.marks
      calls := w.calls ++ .text true (w.y - w.scroll) w.x [(text, env.type e)] (isSelected env w e) (view.results.contains e) :: callMark (w.y - w.scroll) (env.op e) }

/-- `src/curseSplitOutput.cpp:774-785` — `write` of a string, and the addition of its result (or of `lines` by the caller) to
`cursor.second`. The mark is put in row `y`, not `y - scrollTop`. What is written directly after it (`write(str, flags)`, `:787-805`) is among the parts. -/
def writeString (env : Env) (view : View) (e : Ptr) (parts : List (Bytes × Nat)) (lines : Nat) (w : Win) : Win :=
  if w.y ≤ w.scroll then { w with y := w.y + 1 }
  else
    { w with
      y := w.y + lines
      screen := w.screen ++ [⟨w.y - w.scroll, w.x, joined parts, isSelected env w e, view.results.contains e, e, false⟩]
      marks := displayDiffOp w.y (env.op e) w.marks
      calls := w.calls ++ callMark w.y (env.op e) ++ [.text false (w.y - w.scroll) w.x parts (isSelected env w e) (view.results.contains e)] }

/-- The cursor of a window has reached the bottom (`src/curseOutput.cpp:179-182`). -/
def atBottom (view : View) (w : Win) : Bool := hasReachedBottom w.y w.scroll view.height

/-- `src/curseSplitOutput.cpp:519-550` — `writeContainer(item, false)`: the closing bracket. -/
def closeContainer (env : Env) (view : View) (side : Bool) (p : Path) (isObject : Bool) (w : Win) : Win × Bool :=
  let w := { w with x := w.x - 4 }
  let w := writeChar env view (ptr side p) true (closeBracket isObject) w
  (w, !atBottom view w)

/-- `src/curseSplitOutput.cpp:519-550` — `writeContainer(item, true)`. -/
def openContainer (env : Env) (view : View) (side : Bool) (p : Path) (isObject : Bool) (w : Win) : Win × Bool :=
  if view.collapsed.contains (ptr side p) then
    let w := writeString env view (ptr side p) [(collapsedText isObject, env.type (ptr side p))] (getNbLines (7 + w.x) (less view.width 2)) w
    (w, !atBottom view w)
  else
    let w := writeChar env view (ptr side p) false (openBracket isObject) w
    if atBottom view w then (w, false)
    else ({ w with stack := (0, p) :: w.stack, x := w.x + 4 }, true)

/-- `src/curseSplitOutput.cpp:596-617` — `writeKey` with a text after the key. -/
def writeKeyAfter (env : Env) (view : View) (e : Ptr) (key after : Bytes) (afterlen : Nat) (w : Win) : Win × Bool :=
  if w.y ≤ w.scroll then ({ w with y := w.y + 1 }, true)
  else
    let w := writeString env view e [(cstr key, Paint.typeObjKey), (b!": ", Paint.typeObj), (cstr after, env.type e)] (getNbLines (w.x + env.len key + 2 + afterlen) (less view.width 2)) w
    (w, !atBottom view w)

/-- `src/curseSplitOutput.cpp:580-594` — `writeKey` without a text after it; `extraLen` is 0. -/
def writeKey (env : Env) (view : View) (e : Ptr) (key : Bytes) (w : Win) : Win × Bool :=
  if w.y ≤ w.scroll then ({ w with y := w.y + 1 }, true)
  else
    let w := writeString env view e [(cstr key, Paint.typeObjKey), (b!": ", Paint.typeObj)] (getNbLines (env.len key + w.x) (less view.width 4)) w
    (w, !atBottom view w)

/-- `src/curseSplitOutput.cpp:684-685`, `:692`, `:704-705`, `:711`: `if (!…) return false`, then the bottom is looked for. -/
def andBottom (view : View) (r : Win × Bool) : Win × Bool :=
  match r with
  | (w, false) => (w, false)
  | (w, true) => (w, !atBottom view w)

/-- `src/curseSplitOutput.cpp:670-712` — `writeObjectEntry`: the result of `writeContainer` is not looked at. -/
def writeObjectEntry (env : Env) (view : View) (side : Bool) (p : Path) (key : Bytes) (v : Json) (w : Win) : Win × Bool :=
  let ent := ptr side p
  if v.isContainer && view.collapsed.contains (ptr side (p ++ [0])) then andBottom view (writeKeyAfter env view ent key (collapsedText (isObj v)) 7 w)
  else if !v.isContainer then andBottom view (writeKeyAfter env view ent key (v.stringify env.fmt) (env.len (v.stringify env.fmt)) w)
  else if isEmptyJ v then andBottom view (writeKeyAfter env view ent key (emptyText (isObj v)) 3 w)
  else
    match writeKey env view ent key w with
    | (w, false) => (w, false)
    | (w, true) => andBottom view ((openContainer env view side (p ++ [0]) (isObj v) w).1, true)

/-- `src/curseSplitOutput.cpp:649-668` — `redraw(w, item)`. -/
def redrawItem (env : Env) (view : View) (side : Bool) (p : Path) (w : Win) : Win × Bool :=
  let w := checkSelection (ptr side p) w
  match (Elem.value (env.root side)).at p with
  | none => (w, false) -- no such element: never called
  | some (.entry k v) => writeObjectEntry env view side p k v w
  | some (.value v) =>
    if v.isContainer then openContainer env view side p (isObj v) w
    else
      let text := v.stringify env.fmt
      let w := writeString env view (ptr side p) [(cstr text, env.type (ptr side p))] (getNbLines (env.len text + w.x) (less view.width 2)) w
      (w, !atBottom view w)

/-- `src/curseSplitOutput.cpp:635-647` — `redraw(w, pair)`: the next element of the container on top of the stack, or its closing bracket. -/
def redrawNext (env : Env) (view : View) (side : Bool) (i : Nat) (p : Path) (rest : List (Nat × Path)) (w : Win) : Win × Bool :=
  if i = env.size (ptr side p) then
    closeContainer env view side p (env.isObject (ptr side p)) { w with stack := rest }
  else redrawItem env view side (p ++ [i]) { w with stack := (i + 1, p) :: rest }

/-- What drawing one element comes to: a crash, drawing everything again (`Optional::empty`), or the window drawn, and whether it is complete. -/
inductive One where
  | crash
  | retry (w : Win)
  | ok (w : Win) (complete : Bool)
deriving Repr, DecidableEq

/-- `src/curseSplitOutput.cpp:390-392`: the first child of the selected container, if it is open and not empty. -/
def firstChild (env : Env) (view : View) (w : Win) : Option Ptr :=
  match w.sel with
  | none => none
  | some e => if env.isContainer e && decide (env.size e ≠ 0) && !view.collapsed.contains e then some (child e 0) else none

/-- `src/curseSplitOutput.cpp:385-401` — the window is complete: `select_down` and `select_up` get their defaults. -/
def complete (env : Env) (view : View) (result : Bool) (w : Win) : One :=
  let w := { w with isLast := w.isLast || (!result && w.down.isNone), up := if w.up.isNone then w.last else w.up }
  match w.down with
  | some _ => .ok w true
  | none =>
    match firstChild env view w with
    | some c => .ok { w with down := some c } true
    | none =>
      match w.last with
      | none => .crash
      | some l => .ok { w with down := some ((env.findNext l).getD l) } true

/-- `src/curseSplitOutput.cpp:362-404` — `redrawOneItemToWorkingWin`. `SelectionOutOfRange` is never thrown. -/
def redrawOne (env : Env) (view : View) (side : Bool) (w : Win) : One :=
  match (match w.stack with
    | [] => redrawItem env view side [] w
    | (i, p) :: rest => redrawNext env view side i p rest w) with
  | (w, result) =>
    if !result && !w.found then .retry { w with scroll := w.scroll + 1 }
    else if !result || w.stack.isEmpty then complete env view result w
    else .ok w false

/-- `src/curseSplitOutput.cpp:619-633` — `isAdded` of what is drawn next: the root, the next element of the container on top of the stack, or that
container itself (its closing bracket). -/
def isAdded (env : Env) (side : Bool) (w : Win) : Bool :=
  match w.stack with
  | [] => (env.equiv (ptr side [])).isNone
  | (i, p) :: _ => if env.size (ptr side p) ≤ i then (env.equiv (ptr side p)).isNone else (env.equiv (ptr side (p ++ [i]))).isNone

/-- `src/curseSplitOutput.cpp:461-472` — the elements without counterpart are drawn, at most `n` of them: `none` if that was not enough. -/
def redrawAdded (env : Env) (view : View) (side : Bool) : Nat → Win → Option One
  | 0, _ => none
  | n + 1, w =>
    match redrawOne env view side w with
    | .ok w false => if isAdded env side w then redrawAdded env view side n w else some (.ok w false)
    | r => some r

/-- `src/curseSplitOutput.cpp:474-480` — a gap of `n` lines in the other window. The marks are put in rows counted from the beginning of the
document. -/
def gap : Nat → Win → Win
  | 0, w => w
  | n + 1, w => gap n { w with y := w.y + 1, marks := displayDiffOp w.y .rem w.marks, calls := w.calls ++ callMark w.y .rem }

/-- The fields of `CurseSplitOutput` and `CurseOutput` that change (`include/curseSplitOutput.hh:95-111`, `include/curseOutput.hh`). -/
structure St where
  first : Win
  second : Win
  selected : Nat
  collapsed : List Ptr
  width : Nat
  height : Nat
deriving Repr, DecidableEq

/-- `subWindows.at(i)`. For two windows; it throws for a greater number, see `C44_active_window`. -/
def St.at (s : St) (i : Nat) : Win := if i = 0 then s.first else s.second

/-- Assignment to `subWindows.at(i)`. -/
def St.set (s : St) (i : Nat) (w : Win) : St := if i = 0 then { s with first := w } else { s with second := w }

/-- The active window. -/
def St.active (s : St) : Win := s.at s.selected

/-- What the drawing of the windows reads. -/
def St.view (s : St) : View := ⟨s.width, s.height, s.collapsed, s.active.results⟩

/-- What `redraw()` comes to: a crash, `false` (draw again) or `true`. -/
inductive Drawn where
  | crash
  | retry (first second : Win)
  | done (first second : Win)
deriving Repr, DecidableEq

/-- `src/curseSplitOutput.cpp:431-445`: the windows before drawing. -/
def Win.reset (w : Win) : Win :=
  { w with x := 2, y := 1, up := none, down := none, found := false, isLast := false, stack := [], screen := [], marks := [], calls := [] }

/-- `src/curseSplitOutput.cpp:446-513` — the loop of `redraw()`. `busy0`, `busy1` are the bits of `writingDone`. At most `n` turns (and `n` elements drawn
by an inner loop): `none` if that was not enough. -/
def redrawLoop (env : Env) (view : View) : Nat → Bool → Bool → Win → Win → Option Drawn
  | 0, _, _, _, _ => none
  | n + 1, busy0, busy1, w0, w1 =>
    if !busy0 && !busy1 then some (.done w0 w1)
    else if busy0 && isAdded env false w0 then
      match redrawAdded env view false n w0 with
      | none => none
      | some .crash => some .crash
      | some (.retry w) => some (.retry w w1)
      | some (.ok w complete) => redrawLoop env view n (!complete) busy1 w (gap (w.y - w0.y) w1)
    else if busy1 && isAdded env true w1 then
      match redrawAdded env view true n w1 with
      | none => none
      | some .crash => some .crash
      | some (.retry w) => some (.retry w0 w)
      | some (.ok w complete) => redrawLoop env view n busy0 (!complete) (gap (w.y - w1.y) w0) w
    else
      match (if busy0 then redrawOne env view false w0 else .ok w0 true) with
      | .crash => some .crash
      | .retry w => some (.retry w w1)
      | .ok w0' complete0 =>
        match (if busy1 then redrawOne env view true w1 else .ok w1 true) with
        | .crash => some .crash
        | .retry w => some (.retry w0' w)
        | .ok w1' complete1 =>
          let maxLines := max (if busy0 then w0'.y - w0.y else 0) (if busy1 then w1'.y - w1.y else 0)
          redrawLoop env view n (!complete0) (!complete1) { w0' with y := w0.y + maxLines } { w1' with y := w1.y + maxLines }

/-- `src/curseSplitOutput.cpp:426-517` — `redraw()`. -/
def redraw (env : Env) (n : Nat) (s : St) : Option Drawn :=
  redrawLoop env s.view n true true s.first.reset s.second.reset

/-- `src/curseOutput.cpp:46` — `while (!redraw());`, at most `k` times, each with the bound `n`: `none` if that was not enough, or
`some none` for a crash. -/
def settle (env : Env) (n : Nat) : Nat → St → Option (Option St)
  | 0, _ => none
  | k + 1, s =>
    match redraw env n s with
    | none => none
    | some .crash => some none
    | some (.retry w0 w1) => settle env n k { s with first := w0, second := w1 }
    | some (.done w0 w1) => some (some { s with first := w0, second := w1 })

/-- `inputResult` (`include/curseOutput.hh:25-31`), or a crash. `redrawAll` is treated as `redraw` (`src/curseOutput.cpp:39-49`). -/
inductive Answer where
  | redraw (s : St)
  | nextInput (s : St)
  | quit
  | crash
deriving Repr, DecidableEq

/-- `src/curseSplitOutput.cpp:108-113`: the window that is not active gets the counterpart of the selection. -/
def follow (env : Env) (e : Option Ptr) (w : Win) : Win :=
  match e.bind env.equiv with
  | none => { w with sel := none }
  | some q => { w with sel := some q, last := some q }

/-- `src/curseSplitOutput.cpp:100-116` — `setSelection`. No pair of the table contains the null pointer. -/
def setSelection (env : Env) (e : Option Ptr) (s : St) : St :=
  if s.selected = 0 then { s with first := { s.first with sel := e, last := e }, second := follow env e s.second }
  else { s with first := follow env e s.first, second := { s.second with sel := e, last := e } }

/-- `src/curseSplitOutput.cpp:88-92` — `selectUp`. -/
def selectUp (env : Env) (s : St) : Answer := .redraw (setSelection env s.active.up s)

/-- `src/curseSplitOutput.cpp:94-98` — `selectDown`. -/
def selectDown (env : Env) (s : St) : Answer := .redraw (setSelection env s.active.down s)

/-- `src/curseSplitOutput.cpp:127-133`, `:183-187`: the element that is selected instead of its child: its entry if it is the value of one. -/
def entryOr (env : Env) (e : Ptr) : Ptr :=
  match parent e with
  | some q => if env.isEntry q then q else e
  | none => e

/-- `src/curseSplitOutput.cpp:118-138` — `selectPUp`. -/
def selectPUp (env : Env) (s : St) : Answer :=
  match s.active.sel with
  | none => .crash
  | some e =>
    match env.findPrev e with
    | some q => .redraw (setSelection env (some q) s)
    | none =>
      match parent e with
      | some q => if env.isContainer q then .redraw (setSelection env (some (entryOr env q)) s) else .nextInput s
      | none => .nextInput s

/-- `src/curseSplitOutput.cpp:140-150` — `selectPDown`. -/
def selectPDown (env : Env) (s : St) : Answer :=
  match s.active.sel with
  | none => .crash
  | some e =>
    match env.findNext e with
    | some q => .redraw (setSelection env (some q) s)
    | none => .nextInput s

/-- `src/curseSplitOutput.cpp:152-171` — `expandSelection`. -/
def expandSelection (env : Env) (s : St) : Answer :=
  match s.active.sel with
  | none => .nextInput s
  | some e =>
    let v := env.value e
    if !env.isContainer v then .nextInput s
    else if s.collapsed.contains v then
      .redraw { s with collapsed := (s.collapsed.filter (· ≠ v)).filter (fun q => decide (some q ≠ env.equiv v)) }
    else if env.size v = 0 then .nextInput s
    else selectDown env s

/-- `src/curseSplitOutput.cpp:191-194`: `collapsed.insert`. -/
def insert (e : Ptr) (l : List Ptr) : List Ptr := if l.contains e then l else l ++ [e]

/-- `src/curseSplitOutput.cpp:173-197` — `collapseSelection`. -/
def collapseSelection (env : Env) (s : St) : Answer :=
  match s.active.sel with
  | none => .crash
  | some e =>
    let v := env.value e
    if (parent v).isSome && (!env.isContainer v || s.collapsed.contains v || decide (env.size v = 0)) then
      match parent e with
      | none => .crash -- not reached: `v` has a parent
      | some q => .redraw (setSelection env (some (entryOr env q)) s)
    else
      .redraw { s with collapsed := match env.equiv v with
        | some q => insert q (insert v s.collapsed)
        | none => insert v s.collapsed }

mutual
/-- `src/curseSplitOutput.cpp:278-309` — `jumpToNextSearch(current, selectFound)` for a value at `p` of the document of the active window (`side`): the new
`selectFound` and the element jumped to, if any. -/
def jumpValue (results : List Ptr) (last sel : Option Ptr) (side : Bool) (p : Path) (found : Bool) : Json → Bool × Option Ptr
  | .arr xs => jumpItems results last sel side p 0 (found || decide (last = some (ptr side p))) xs
  | .obj es => jumpEntries results last sel side p 0 (found || decide (last = some (ptr side p))) es
  | _ =>
    let found := found || decide (last = some (ptr side p))
    (found, if results.contains (ptr side p) && decide (sel ≠ some (ptr side p)) && found then some (ptr side p) else none)
/-- `src/curseSplitOutput.cpp:285-291` — the loop over the items of an array. -/
def jumpItems (results : List Ptr) (last sel : Option Ptr) (side : Bool) (p : Path) (i : Nat) (found : Bool) : List Json → Bool × Option Ptr
  | [] => (found, none)
  | x :: xs =>
    match jumpValue results last sel side (p ++ [i]) found x with
    | (f, some q) => (f, some q)
    | (f, none) => jumpItems results last sel side p (i + 1) f xs
/-- `src/curseSplitOutput.cpp:285-307` — the loop over the entries of an object, with the call for each entry inlined. -/
def jumpEntries (results : List Ptr) (last sel : Option Ptr) (side : Bool) (p : Path) (i : Nat) (found : Bool) :
    List (Bytes × Json) → Bool × Option Ptr
  | [] => (found, none)
  | (_, v) :: es =>
    let ent := ptr side (p ++ [i])
    let found := found || decide (last = some ent)
    if results.contains ent && decide (sel ≠ some ent) && found then (found, some ent)
    else
      match jumpValue results last sel side (p ++ [i] ++ [0]) found v with
      | (f, some q) => (f, some q)
      | (f, none) => jumpEntries results last sel side p (i + 1) f es
end

/-- `src/curseOutput.cpp:195-202` — `unfold`: the ancestors of an element are no longer collapsed. -/
def unfold (e : Ptr) (collapsed : List Ptr) : List Ptr :=
  collapsed.filter fun q =>
    match q, e with
    | .left q, .left p => !(q.isPrefixOf p && decide (q ≠ p))
    | .right q, .right p => !(q.isPrefixOf p && decide (q ≠ p))
    | _, _ => true

/-- `CurseOutput::redraw(message)` (`src/curseOutput.cpp:158-164`): the screen is drawn once, its result is ignored by the callers below. -/
def redrawMessage (env : Env) (n : Nat) (s : St) : Option Answer :=
  match redraw env n s with
  | none => none
  | some .crash => some .crash
  | some (.retry w0 w1) => some (.nextInput { s with first := w0, second := w1 })
  | some (.done w0 w1) => some (.nextInput { s with first := w0, second := w1 })

/-- `src/curseSplitOutput.cpp:214-221` — `nextResult`, with `jumpToNextSearch()` (`:346-360`). -/
def nextResult (env : Env) (n : Nat) (s : St) : Option Answer :=
  match s.active.results with
  | [] => redrawMessage env n s
  | q :: _ =>
    let side := decide (s.selected ≠ 0)
    match (jumpValue s.active.results s.active.last s.active.sel side [] false (env.root side)).2 with
    | some e =>
      let s := setSelection env (some e) s
      some (.redraw { s with collapsed := unfold e s.collapsed })
    | none =>
      let s := setSelection env (some q) s
      redrawMessage env n { s with collapsed := unfold q s.collapsed }

/-- `src/curseSplitOutput.cpp:311-344` — `search`: what it appends to the results of the active window. The search of one document
(`:320-344`) is the same text as `src/curseSimpleOutput.cpp:458-485`. -/
def search (env : Env) (pat : Pattern) : List Ptr :=
  (Nav.searchValue env.rx env.fmt pat [] false env.left).map .left ++ (Nav.searchValue env.rx env.fmt pat [] false env.right).map .right

/-- `src/curseSplitOutput.cpp:199-212` — `initSearch`; `pat` is the result of `inputSearch` (`Model/SearchInput.lean`). -/
def initSearch (env : Env) (n : Nat) (pat : Option Pattern) (s : St) : Option Answer :=
  match pat with
  | none => some (.redraw s)
  | some pat =>
    let s := { s with first := { s.first with results := [] }, second := { s.second with results := [] } }
    if pat.pattern.isEmpty then some (.redraw s)
    else nextResult env n (s.set s.selected { s.active with results := search env pat })

/-- `src/curseSplitOutput.cpp:223-248` — `changeWindow`. `selectedWin` is an `unsigned short`, the sum and the remainder are `int`s; there are two inputs. -/
def changeWindow (env : Env) (d : Int) (c : Bool) (s : St) : Answer :=
  if ((s.selected : Int) + d < 0 ∨ (s.selected : Int) + d ≥ 2) ∧ c = false then .nextInput s
  else
    let s := { s with selected := ((((s.selected : Int) + d).tmod 2) % 65536).toNat }
    if s.active.sel.isSome then .redraw s
    else .redraw (setSelection env s.active.last s)

/-- What happens to the program: a key (with the pattern typed, if it is the key that asks for one), or a new size of the
terminal (`SIGWINCH`). -/
inductive Input where
  | key (name : Bytes) (pat : Option Pattern)
  | resize (cols rows : Nat)
deriving Repr, DecidableEq

/-- `src/curseOutput.cpp:117-156` — `evalKey`. -/
def evalKey (env : Env) (n : Nat) (name : Bytes) (pat : Option Pattern) (s : St) : Option Answer :=
  if name = b!"Q" then some .quit
  else if name = b!"K" ∨ name = b!"KEY_UP" then some (selectUp env s)
  else if name = b!"J" ∨ name = b!"KEY_DOWN" then some (selectDown env s)
  else if name = b!"KEY_PPAGE" then some (selectPUp env s)
  else if name = b!"KEY_NPAGE" then some (selectPDown env s)
  else if name = b!"L" ∨ name = b!"KEY_RIGHT" then some (expandSelection env s)
  else if name = b!"H" ∨ name = b!"KEY_LEFT" then some (collapseSelection env s)
  else if name = b!"/" then initSearch env n pat s
  else if name = b!"N" then nextResult env n s
  else if name = b!"^W-W" then some (changeWindow env 1 true s)
  else if name = b!"^W-KEY_RIGHT" ∨ name = b!"^W-L" then some (changeWindow env 1 false s)
  else if name = b!"^W-KEY_LEFT" ∨ name = b!"^W-H" then some (changeWindow env (-1) false s)
  else some (.nextInput s)

/-- `src/curseOutput.cpp:39-49` (`loop`), `:56-69` (`onsig`), `:106-115` (`readInput`), `src/curseSplitOutput.cpp:842-846` (`getScreenSize`): one input, and the drawing
that follows. `n` and `k` bound the drawing (`settle`): `none` if that was not enough; the answer `redraw` is not given. -/
def step (env : Env) (n k : Nat) (i : Input) (s : St) : Option Answer :=
  let after := fun (s : St) => (settle env n k s).map fun r => match r with
    | none => Answer.crash
    | some s => .nextInput s
  match i with
  | .resize cols rows => after { s with width := cols / 2, height := less rows 2 }
  | .key name pat =>
    match evalKey env n name pat s with
    | none => none
    | some (.redraw s) => after s
    | some a => some a

/-- `src/curseSplitOutput.cpp:43-72` — `run`: the state before the first drawing. The pointers `select_up`, `select_down` are set by the drawing. -/
def start (env : Env) (cols rows : Nat) : St :=
  let w := fun (side : Bool) => Win.mk none (some (ptr side [])) none none [] 0 0 0 [] false false [] [] []
  setSelection env (some (ptr false [])) ⟨w false, w true, 0, [], cols / 2, less rows 2⟩

end Verif.Model.Split
