import Verif.Model.Draw
/-!
# Model of the terminal (`ncurses`, as far as the display uses it)

A terminal is a grid of places, each with a character and its looks, and a cursor; the places are numbered line by line from 0 on. This is a model of the library,
not of code in `/repo`. Simplification: each byte of a text takes one place. That is so for printable ASCII characters (32 to 126), and the
theorems are about documents of such characters. Lines do not scroll: `scrollok` is not called.
-/
namespace Verif.Model.Term
open Verif.Model

/-- How a character looks: `A_REVERSE | A_BOLD` is on, and the number of the colour pair, if one is on. -/
structure Attr where
  reverse : Bool
  colour : Option Nat
deriving Repr, DecidableEq

/-- What is on a place. -/
structure Glyph where
  ch : Byte
  attr : Attr
deriving Repr, DecidableEq

/-- A place with nothing on it. -/
def nothing : Glyph := ⟨32, ⟨false, none⟩⟩

structure Terminal where
  width : Nat
  height : Nat
  at_ : Nat → Glyph
  cursor : Nat

/-- The calls that write to the terminal. The switching on and off of attributes around a call is part of it. -/
inductive Cmd where
  /-- `clear()` -/
  | clear
  /-- `move(y, x)` -/
  | move (y x : Nat)
  /-- `printw("%s", text)` -/
  | put (text : Bytes) (attr : Attr)
  /-- `mvprintw(y, x, …)` -/
  | mvput (y x : Nat) (text : Bytes) (attr : Attr)
deriving Repr, DecidableEq

/-- Characters one after the other from the cursor on. At the last place of the grid the character is written, the cursor stays there and the rest is not
written (`ERR`). -/
def puts (a : Attr) : Bytes → Terminal → Terminal
  | [], t => t
  | c :: cs, t =>
    let at' := fun k => if k = t.cursor then ⟨c, a⟩ else t.at_ k
    if t.cursor + 1 < t.width * t.height then puts a cs { t with at_ := at', cursor := t.cursor + 1 } else { t with at_ := at' }

/-- `move` fails, and leaves the cursor where it is, outside of the grid. -/
def inside (t : Terminal) (y x : Nat) : Bool := decide (y < t.height) && decide (x < t.width)

/-- What a call does. `mvprintw` writes nothing when it cannot move. -/
def Cmd.run : Cmd → Terminal → Terminal
  | .clear, t => { t with at_ := fun _ => nothing, cursor := 0 }
  | .move y x, t => if inside t y x then { t with cursor := y * t.width + x } else t
  | .put text a, t => puts a text t
  | .mvput y x text a, t => if inside t y x then puts a text { t with cursor := y * t.width + x } else t

def runCmds (cs : List Cmd) (t : Terminal) : Terminal := cs.foldl (fun t c => c.run t) t

end Verif.Model.Term
