import Verif.Spec.Document
/-!
# Specification: the outline of a document

The outline is the list of the lines of the interactive display: one for each array item or object entry that is no (open) container; for an
open container one with each bracket, and the lines of what is in it, four columns further right, in between. An entry
with an open container has a line for its key, and the container two columns further right. A collapsed container is a single
line. Texts are shown up to the first null byte.
-/
namespace Verif.Spec
open Verif.Model

/-- A line of the outline: the element it shows, the displayed item it belongs to, the column where it begins, the text, the
column where it ends (`len` tells how many columns a text takes), and whether it is the key of an entry, standing alone. -/
structure Row where
  elem : Path
  item : Path
  col : Nat
  text : Bytes
  size : Nat
  key : Bool
deriving Repr, DecidableEq

/-- What is shown of a text. -/
def shown (s : Bytes) : Bytes := s.takeWhile (· ≠ 0)

mutual
/-- The lines of the value `v` at position `p`, beginning in column `x`. -/
def rows (hidden : Path → Bool) (fmt : Bytes → Bytes) (len : Bytes → Nat) (p item : Path) (x : Nat) : Json → List Row
  | .arr xs =>
    if hidden p then [⟨p, item, x, b!"[ ... ]", x + 7, false⟩]
    else [⟨p, item, x, b!"[", x + 1, false⟩] ++ rowsItems hidden fmt len p 0 (x + 4) xs ++ [⟨p, item, x, b!"]", x + 1, false⟩]
  | .obj es =>
    if hidden p then [⟨p, item, x, b!"{ ... }", x + 7, false⟩]
    else [⟨p, item, x, b!"{", x + 1, false⟩] ++ rowsEntries hidden fmt len p 0 (x + 4) es ++ [⟨p, item, x, b!"}", x + 1, false⟩]
  | v => [⟨p, item, x, shown (v.stringify fmt), x + len (v.stringify fmt), false⟩]
/-- The lines of the items of an array, from number `i` on. -/
def rowsItems (hidden : Path → Bool) (fmt : Bytes → Bytes) (len : Bytes → Nat) (p : Path) (i x : Nat) : List Json → List Row
  | [] => []
  | v :: vs => rows hidden fmt len (p ++ [i]) (p ++ [i]) x v ++ rowsItems hidden fmt len p (i + 1) x vs
/-- The lines of the entries of an object, from number `i` on. -/
def rowsEntries (hidden : Path → Bool) (fmt : Bytes → Bytes) (len : Bytes → Nat) (p : Path) (i x : Nat) : List (Bytes × Json) → List Row
  | [] => []
  | (k, v) :: es =>
    let ent := p ++ [i]
    let line := fun text n => [Row.mk ent ent x (shown k ++ b!": " ++ text) (x + len k + 2 + n) false]
    let head := [Row.mk ent ent x (shown k ++ b!": ") (x + len k + 2) true]
    (match v with
      | .arr xs =>
        if hidden (ent ++ [0]) then line b!"[ ... ]" 7
        else if xs = [] then line b!"[ ]" 3
        else head ++ rows hidden fmt len (ent ++ [0]) ent (x + 2) (.arr xs)
      | .obj es =>
        if hidden (ent ++ [0]) then line b!"{ ... }" 7
        else if es = [] then line b!"{ }" 3
        else head ++ rows hidden fmt len (ent ++ [0]) ent (x + 2) (.obj es)
      | v => line (shown (v.stringify fmt)) (len (v.stringify fmt))) ++ rowsEntries hidden fmt len p (i + 1) x es
end

/-- The outline of a document. -/
def screenOutline (hidden : Path → Bool) (fmt : Bytes → Bytes) (len : Bytes → Nat) (root : Json) : List Row := rows hidden fmt len [] [] 0 root

/-- How many lines of a screen the text of a row needs, if it goes on in the first column of the next line. -/
def Row.needs (width : Nat) (r : Row) : Nat := (r.size + (width - 1)) / width

/-- How many lines of a screen a row is given: as many as it needs; but for a key that stands alone, the two columns of the colon and the
blank are left out of both the text and the screen. -/
def Row.lines (width : Nat) (r : Row) : Nat := if r.key then (r.size - 2 + (width - 3)) / (width - 2) else r.needs width

/-- The rows that are on a screen whose lines are numbered from 1 up to `height - 1`, each with the line where it begins, from line `y` on, one below the other:
the last one is the one that reaches the bottom. -/
def onScreen (width height : Nat) : Nat → List Row → List (Nat × Row)
  | _, [] => []
  | y, r :: rs => (y, r) :: if y + r.lines width < height then onScreen width height (y + r.lines width) rs else []

end Verif.Spec
