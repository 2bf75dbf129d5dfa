import Verif.Model.Split
import Verif.Spec.Outline
/-!
# Specification: the outline of a document in a window of the diff view

As in the view of a single document (`Spec/Outline.lean`), with two differences: the document begins in column 2, and the container of an entry is in the column of
its key. A window is two columns narrower than half the terminal.
-/
namespace Verif.Spec.SplitView
open Verif.Model Verif.Model.Diff Verif.Model.Split Verif.Spec

/-- A line of the outline: the element it shows, whether it is its closing bracket, the column where it begins, the text, and how many lines of the window it is
given. -/
structure Line where
  elem : Path
  closing : Bool
  col : Nat
  text : Bytes
  lines : Nat
deriving Repr, DecidableEq

/-- The lines a text takes that ends in column `size`, in a window of `width` columns. -/
def taken (size width : Nat) : Nat := size / width + (if size % width = 0 then 0 else 1)

/-- What the outline depends on: which containers are collapsed, the texts of numbers, the columns a text takes, the width of the window (`keyWidth` for
a key on a line of its own). -/
structure Layout where
  hidden : Path → Bool
  fmt : Bytes → Bytes
  len : Bytes → Nat
  width : Nat
  keyWidth : Nat

mutual
/-- The lines of the value `v` at position `p`, in column `x`. -/
def lines (o : Layout) (p : Path) (x : Nat) : Json → List Line
  | .arr xs =>
    if o.hidden p then [⟨p, false, x, b!"[ ... ]", taken (x + 7) o.width⟩]
    else [⟨p, false, x, b!"[", taken (x + 1) o.width⟩] ++ linesItems o p 0 (x + 4) xs ++ [⟨p, true, x, b!"]", taken (x + 1) o.width⟩]
  | .obj es =>
    if o.hidden p then [⟨p, false, x, b!"{ ... }", taken (x + 7) o.width⟩]
    else [⟨p, false, x, b!"{", taken (x + 1) o.width⟩] ++ linesEntries o p 0 (x + 4) es ++ [⟨p, true, x, b!"}", taken (x + 1) o.width⟩]
  | v => [⟨p, false, x, shown (v.stringify o.fmt), taken (x + o.len (v.stringify o.fmt)) o.width⟩]
/-- The lines of the items of an array, from number `i` on. -/
def linesItems (o : Layout) (p : Path) (i x : Nat) : List Json → List Line
  | [] => []
  | v :: vs => lines o (p ++ [i]) x v ++ linesItems o p (i + 1) x vs
/-- The lines of the entries of an object, from number `i` on. -/
def linesEntries (o : Layout) (p : Path) (i x : Nat) : List (Bytes × Json) → List Line
  | [] => []
  | (k, v) :: es =>
    let ent := p ++ [i]
    let line := fun text n => [Line.mk ent false x (shown k ++ b!": " ++ text) (taken (x + o.len k + 2 + n) o.width)]
    let key := [Line.mk ent false x (shown k ++ b!": ") (taken (x + o.len k) o.keyWidth)]
    (match v with
      | .arr xs =>
        if o.hidden (ent ++ [0]) then line b!"[ ... ]" 7
        else if xs = [] then line b!"[ ]" 3
        else key ++ lines o (ent ++ [0]) x (.arr xs)
      | .obj es =>
        if o.hidden (ent ++ [0]) then line b!"{ ... }" 7
        else if es = [] then line b!"{ }" 3
        else key ++ lines o (ent ++ [0]) x (.obj es)
      | v => line (shown (v.stringify o.fmt)) (o.len (v.stringify o.fmt))) ++ linesEntries o p (i + 1) x es
end

/-- The outline of the first (`side = false`) or second document in a state of the view. -/
def diffOutline (env : Env) (s : St) (side : Bool) : List Line :=
  lines ⟨fun p => s.collapsed.contains (ptr side p), env.fmt, env.len, less s.width 2, less s.width 4⟩ [] 2 (env.root side)

/-- The cell shows the line. -/
def ShowsLine (side : Bool) (c : Cell) (l : Line) : Prop :=
  c.who = ptr side l.elem ∧ c.closing = l.closing ∧ c.col = l.col ∧ c.text = l.text

/-- The lines a window shows, one below the other: its cells are those lines, and none begins before the end of the one before. -/
structure Listing (side : Bool) (cells : List Cell) (ls : List Line) : Prop where
  same : cells.length = ls.length
  shows : ∀ p ∈ cells.zip ls, ShowsLine side p.1 p.2
  below : ∀ p ∈ cells.zip ls, 1 ≤ p.1.row
  apart : (cells.zip ls).Pairwise fun p q => p.1.row + p.2.lines ≤ q.1.row

/-- Counterparts are of one shape: both are arrays or objects, or neither; and the values of two entries that are counterparts are both
empty, or neither. -/
structure SameShape (env : Env) : Prop where
  containers : ∀ e q x y, env.equiv e = some q → env.elem e = some x → env.elem q = some y → x.isContainer = y.isContainer
  empty : ∀ p q k k' v v', env.equiv (.left (p ++ [0])) = some (.right (q ++ [0])) → env.elem (.left p) = some (.entry k v) →
    env.elem (.right q) = some (.entry k' v') → ((Elem.value v).kids = [] ↔ (Elem.value v').kids = [])

/-- Entries that are counterparts have keys of the same length. -/
def SameKeys (env : Env) : Prop :=
  ∀ p q k k' v v', env.equiv (.left p) = some (.right q) → env.elem (.left p) = some (.entry k v) → env.elem (.right q) = some (.entry k' v') →
    env.len k = env.len k'

/-- The cell is not the opening bracket of the value of an entry, which is on a line of its own, below the key. -/
def Heading (env : Env) (c : Cell) : Prop := c.closing = true ∨ ∀ side p k v, env.elem (ptr side p) = some (.entry k v) → c.who ≠ ptr side (p ++ [0])

end Verif.Spec.SplitView
