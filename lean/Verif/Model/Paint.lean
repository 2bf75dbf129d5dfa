import Verif.Model.Tui
import Verif.Model.Term
/-!
# Model of the calls to the terminal when a document is drawn (`src/curseSimpleOutput.cpp`, `src/curseOutput.cpp`)

The same functions as in `Model/Draw.lean`, with the calls they make to the terminal: places, texts and looks. What `Draw` keeps of the state is computed by
the definitions there.
-/
namespace Verif.Model.Paint
open Verif.Model Verif.Model.Search Verif.Model.Tui Verif.Model.Term

/-- What the looks depend on: `params.colorEnabled()`, and the name of the input (`inputName`). -/
structure Look where
  colours : Bool
  name : Bytes

/-- The constants of `src/outputFlag.cpp:9-22`. -/
def typeString : Nat := 1
def typeNumber : Nat := 2
def typeBool : Nat := 3
def typeObj : Nat := 4
def typeObjKey : Nat := 5
def typeArr : Nat := 6
def typeNull : Nat := 7
def specialSearch : Nat := 51
def specialError : Nat := 52
def specialActiveInputName : Nat := 54

/-- `src/curseOutput.cpp:325-329`: the types that have a colour; none with `--color=never` (`:308`). -/
def hasColour (look : Look) (type : Nat) : Bool :=
  look.colours && [typeNumber, typeBool, typeString, typeObjKey, typeNull].contains type

/-- `src/curseSimpleOutput.cpp:439`, `:443-455` — the type in `getFlag`; for an entry it is the type of its value. -/
def typeOf : Json → Nat
  | .str _ => typeString
  | .bool _ => typeBool
  | .null => typeNull
  | .int _ => typeNumber
  | .long _ => typeNumber
  | .dbl _ => typeNumber
  | .obj _ => typeObj
  | .arr _ => typeArr

/-- `src/curseSimpleOutput.cpp:353-373`, `:385-401` — the attributes that are on while `write` writes. -/
def attrOf (look : Look) (selected searched : Bool) (type : Nat) : Attr :=
  ⟨selected, if searched then some specialSearch else if hasColour look type then some type else none⟩

/-- The colours of `ncurses` that are used. -/
inductive Colour where
  | black | red | green | blue | magenta | cyan | white
deriving Repr, DecidableEq

/-- `src/curseOutput.cpp:308-323`: the colour pairs, foreground and background. With `--color=never` no pair is set up; a pair that is not set up is taken to show
as the default colours. -/
def palette (look : Look) (pair : Nat) : Option (Colour × Colour) :=
  if !look.colours then none
  else match pair with
    | 1 => some (.cyan, .black)
    | 2 => some (.green, .black)
    | 3 => some (.red, .black)
    | 5 => some (.cyan, .black)
    | 7 => some (.red, .black)
    | 51 => some (.white, .blue)
    | 52 => some (.white, .red)
    | 53 => some (.black, .white)
    | 54 => some (.black, .green)
    | 60 => some (.green, .black)
    | 61 => some (.cyan, .black)
    | 62 => some (.magenta, .black)
    | _ => none

/-- The state of the drawing, and the calls made to the terminal. -/
structure Pen where
  d : Draw
  out : List Cmd

/-- `getFlag(item)` (`src/curseSimpleOutput.cpp:431-457`) with the type `type`. -/
def flagOf (look : Look) (view : View) (sel : Option Path) (p : Path) (type : Nat) : Attr :=
  attrOf look (decide (sel = some p)) (view.results.contains p) type

/-- `checkSelection`. -/
def penCheck (sel : Option Path) (p : Path) (inEntry : Bool) (e : Pen) : Pen := { e with d := checkSelection sel p inEntry e.d }

/-- `src/curseSimpleOutput.cpp:353-374` — `write` of a character: one call of `mvprintw`. -/
def penChar (look : Look) (view : View) (sel : Option Path) (p : Path) (type x : Nat) (text : Bytes) (lines : Nat) (e : Pen) : Pen :=
  { d := write view sel p x text lines e.d
    out := if e.d.y ≤ e.d.scroll then e.out else e.out ++ [.mvput (e.d.y - e.d.scroll) x text (flagOf look view sel p type)] }

/-- `src/curseSimpleOutput.cpp:376-401` — `write` of a string: `move` and `printw`. -/
def penText (look : Look) (view : View) (sel : Option Path) (p : Path) (type x : Nat) (text : Bytes) (lines : Nat) (e : Pen) : Pen :=
  { d := write view sel p x text lines e.d
    out := if e.d.y ≤ e.d.scroll then e.out else e.out ++ [.move (e.d.y - e.d.scroll) x, .put text (flagOf look view sel p type)] }

/-- `src/curseSimpleOutput.cpp:330-346` — `writeKey` with a text after the key. `type` is the type of the entry. -/
def penKeyAfter (look : Look) (env : Env) (view : View) (sel : Option Path) (p : Path) (type x : Nat) (key after : Bytes) (afterlen : Nat) (e : Pen) : Pen × Bool :=
  let r := writeKeyAfter env view sel p x key after afterlen e.d
  ({ d := r.1
     out := if e.d.y ≤ e.d.scroll then e.out
       else e.out ++ [.move (e.d.y - e.d.scroll) x, .put (cstr key) (flagOf look view sel p typeObjKey), .put b!": " (flagOf look view sel p typeObj),
         .put (cstr after) (flagOf look view sel p type)] }, r.2)

/-- `src/curseSimpleOutput.cpp:314-328` — `writeKey` without a text after it. -/
def penKey (look : Look) (env : Env) (view : View) (sel : Option Path) (p : Path) (x : Nat) (key : Bytes) (e : Pen) : Pen × Bool :=
  let r := writeKey env view sel p x key e.d
  ({ d := r.1
     out := if e.d.y ≤ e.d.scroll then e.out
       else e.out ++ [.move (e.d.y - e.d.scroll) x, .put (cstr key) (flagOf look view sel p typeObjKey), .put b!": " (flagOf look view sel p typeObj)] }, r.2)

/-- `src/curseSimpleOutput.cpp:201-206` — `redraw(cursor, item)` for an element that is no container. -/
def penPrimitive (look : Look) (env : Env) (view : View) (sel : Option Path) (p : Path) (x : Nat) (v : Json) (e : Pen) : Pen × Bool :=
  let text := v.stringify env.fmt
  let e := penText look view sel p (typeOf v) x (cstr text) (getNbLines (env.len text + x) view.width) e
  (e, !hasReachedBottom e.d.y e.d.scroll view.height)

mutual

/-- `src/curseSimpleOutput.cpp:193-235` — `redraw(cursor, item)` for a value, `writeContainer`. -/
def paintValue (look : Look) (env : Env) (view : View) (sel : Option Path) (p : Path) (inEntry : Bool) (x : Nat) (e : Pen) : Json → Pen × Bool
  | .arr xs =>
    let e := penCheck sel p inEntry e
    if view.collapsed.contains p then
      let e := penText look view sel p typeArr x (collapsedText false) (getNbLines (7 + x) view.width) e
      (e, !hasReachedBottom e.d.y e.d.scroll view.height)
    else
      let e := penChar look view sel p typeArr x (openBracket false) (getNbLines (x + 1) view.width) e
      if hasReachedBottom e.d.y e.d.scroll view.height then (e, false)
      else
        match paintItems look env view sel p 0 (x + 4) e xs with
        | (e, false) => (e, false)
        | (e, true) =>
          let e := penChar look view sel p typeArr x (closeBracket false) (getNbLines (x + 1) view.width) e
          (e, !hasReachedBottom e.d.y e.d.scroll view.height)
  | .obj es =>
    let e := penCheck sel p inEntry e
    if view.collapsed.contains p then
      let e := penText look view sel p typeObj x (collapsedText true) (getNbLines (7 + x) view.width) e
      (e, !hasReachedBottom e.d.y e.d.scroll view.height)
    else
      let e := penChar look view sel p typeObj x (openBracket true) (getNbLines (x + 1) view.width) e
      if hasReachedBottom e.d.y e.d.scroll view.height then (e, false)
      else
        match paintEntries look env view sel p 0 (x + 4) e es with
        | (e, false) => (e, false)
        | (e, true) =>
          let e := penChar look view sel p typeObj x (closeBracket true) (getNbLines (x + 1) view.width) e
          (e, !hasReachedBottom e.d.y e.d.scroll view.height)
  | .str s => penPrimitive look env view sel p x (.str s) (penCheck sel p inEntry e)
  | .bool b => penPrimitive look env view sel p x (.bool b) (penCheck sel p inEntry e)
  | .null => penPrimitive look env view sel p x .null (penCheck sel p inEntry e)
  | .int i => penPrimitive look env view sel p x (.int i) (penCheck sel p inEntry e)
  | .long i => penPrimitive look env view sel p x (.long i) (penCheck sel p inEntry e)
  | .dbl s => penPrimitive look env view sel p x (.dbl s) (penCheck sel p inEntry e)

/-- `src/curseSimpleOutput.cpp:237-312` — `writeContent` of an array, from item `i` on. -/
def paintItems (look : Look) (env : Env) (view : View) (sel : Option Path) (p : Path) (i : Nat) (x : Nat) (e : Pen) : List Json → Pen × Bool
  | [] => (e, true)
  | v :: vs =>
    match paintValue look env view sel (p ++ [i]) false x e v with
    | (e, false) => (e, false)
    | (e, true) => paintItems look env view sel p (i + 1) x e vs

/-- `src/curseSimpleOutput.cpp:237-312` — `writeContent` of an object, from entry `i` on. -/
def paintEntries (look : Look) (env : Env) (view : View) (sel : Option Path) (p : Path) (i : Nat) (x : Nat) (e : Pen) : List (Bytes × Json) → Pen × Bool
  | [] => (e, true)
  | (key, v) :: es =>
    let ent := p ++ [i]
    let val := ent ++ [0]
    let e := penCheck sel ent false e
    let r :=
      if v.isContainer && view.collapsed.contains val then penKeyAfter look env view sel ent (typeOf v) x key (collapsedText (isObj v)) 7 e
      else if !v.isContainer then penKeyAfter look env view sel ent (typeOf v) x key (v.stringify env.fmt) (env.len (v.stringify env.fmt)) e
      else if isEmptyJ v then penKeyAfter look env view sel ent (typeOf v) x key (emptyText (isObj v)) 3 e
      else
        match penKey look env view sel ent x key e with
        | (e, false) => (e, false)
        | (e, true) => paintValue look env view (if sel = some ent then some val else sel) val true (x + 2) e v
    match r with
    | (e, false) => (e, false)
    | (e, true) =>
      if v.isContainer && !view.collapsed.contains val && !isEmptyJ v then paintEntries look env view sel p (i + 1) x e es
      else if hasReachedBottom e.d.y e.d.scroll view.height then (e, false)
      else paintEntries look env view sel p (i + 1) x e es

end

/-- `src/curseOutput.cpp:247-257` — `writeTopLine`. The field for the blank is at least one place wide. -/
def topLine (look : Look) (width : Nat) : Cmd :=
  let str := look.name.take width
  .mvput 0 0 (cstr str ++ List.replicate (max 1 (width - str.length)) 32) ⟨false, if look.colours then some specialActiveInputName else none⟩

/-- `src/curseSimpleOutput.cpp:35-76` — the calls of `redraw()`: `clear()`, the first line, the document. -/
def redrawCmds (look : Look) (env : Env) (s : St) : List Cmd :=
  (paintValue look env ⟨s.width, s.height, s.collapsed, s.results⟩ s.sel [] false 0
    ⟨⟨1, s.scroll, none, none, false, []⟩, [.clear, topLine look s.width]⟩ env.root).1.out

/-- `src/curseOutput.cpp:46` — `while (!redraw());`, at most `n` times, with what it does to the terminal. -/
def settleOn (look : Look) (env : Env) : Nat → St → Terminal → Option (Drawn × Terminal)
  | 0, _, _ => none
  | n + 1, s, t =>
    let t := runCmds (redrawCmds look env s) t
    match redraw env s with
    | .retry s => settleOn look env n s t
    | r => some (r, t)

/-- `src/curseOutput.cpp:259-271` — `writeBottomLine`. The width of the field for the blank is the difference as an `int`: if it is negative, the blank is on the left of a
field of that width. -/
def bottomLine (look : Look) (width height : Nat) (msg : Bytes) (colour : Nat) : List Cmd :=
  [.mvput (height - 1) 0 (cstr msg ++ List.replicate (max 1 (if msg.length ≤ width then width - msg.length else msg.length - width)) 32)
      ⟨false, if look.colours then some colour else none⟩,
    .move (height - 1) msg.length]

/-- `src/curseOutput.cpp:158-164` — the calls of `redraw(errorMsg)`. -/
def messageCmds (look : Look) (env : Env) (s : St) (msg : Bytes) : List Cmd :=
  redrawCmds look env s ++ bottomLine look s.width s.height msg specialError

/-- What is written on the last line (`src/curseSimpleOutput.cpp:181`, `:496`). -/
def notFound : Bytes := b!"Pattern not found"
def wrapped : Bytes := b!"Search hit BOTTOM, continuing at TOP"

/-- `src/curseOutput.cpp:158-164` — `redraw(errorMsg)`, with what it does to the terminal; the message is told apart for the theorems. -/
def messageOn (look : Look) (env : Env) (s : St) (t : Terminal) (msg : Bytes) : Answer × Terminal × Option Bytes :=
  (redrawMessage env s, runCmds (messageCmds look env s msg) t, some msg)

/-- `src/curseSimpleOutput.cpp:178-185` — `nextResult`, as in `Model/Tui.lean`, with the terminal. -/
def nextResultOn (look : Look) (env : Env) (s : St) (t : Terminal) : Answer × Terminal × Option Bytes :=
  match s.results with
  | [] => messageOn look env s t notFound
  | q :: _ =>
    match s.sel with
    | none => messageOn look env { s with sel := some q, collapsed := Nav.unfold s.collapsed q } t wrapped
    | some p =>
      match Nav.jump env.root s.results p s.collapsed with
      | none => (.crash, t, none)
      | some (q, c, true) => (.redraw { s with sel := some q, collapsed := c }, t, none)
      | some (q, c, false) => messageOn look env { s with sel := some q, collapsed := c } t wrapped

/-- `src/curseSimpleOutput.cpp:165-176` — `initSearch`, with the terminal. What the prompt writes on the last line is in `Model/Prompt.lean`: in each case the screen
is cleared afterwards (C104). -/
def initSearchOn (look : Look) (env : Env) (pat : Option Pattern) (s : St) (t : Terminal) : Answer × Terminal × Option Bytes :=
  match pat with
  | none => (.redraw s, t, none)
  | some pat =>
    if pat.pattern.isEmpty then (.redraw { s with results := [] }, t, none)
    else nextResultOn look env { s with results := (Nav.search env.rx env.fmt pat env.root).1 } t

/-- `src/curseOutput.cpp:117-156` — `evalKey`, with the terminal and the message on its last line, if there is one: keys other than `/` and `N` do not write. -/
def evalKeyOn (look : Look) (env : Env) (name : Bytes) (pat : Option Pattern) (s : St) (t : Terminal) (m : Option Bytes) : Answer × Terminal × Option Bytes :=
  if name = b!"/" then initSearchOn look env pat s t
  else if name = b!"N" then nextResultOn look env s t
  else (evalKey env name pat s, t, m)

/-- `loop`, `onsig` and `readInput` as in `Model/Tui.lean`, with the terminal. On a resize the terminal has the new size (`resize_term`) and is cleared
(`src/curseOutput.cpp:51-54`, `:64-68`). -/
def stepOn (look : Look) (env : Env) (n : Nat) (i : Input) (s : St) (t : Terminal) (m : Option Bytes) : Option (Answer × Terminal × Option Bytes) :=
  let after := fun (r : Option (Drawn × Terminal)) => match r with
    | none => none
    | some (.crash, t) => some (Answer.crash, t, none)
    | some (.done s, t) => some (Answer.nextInput s, t, none)
    | some (.retry _, _) => none
  match i with
  | .resize w h => after (settleOn look env n { s with width := w, height := h } (Cmd.clear.run { t with width := w, height := h }))
  | .key name pat =>
    match evalKeyOn look env name pat s t m with
    | (.redraw s, t, _) => after (settleOn look env n s t)
    | a => some a

end Verif.Model.Paint
