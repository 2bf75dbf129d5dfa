import Verif.Model.SimpleOutput
import Verif.Model.Element
/-!
# Specification: the items of a document and their order

A displayed item is the root, an item of an array or an entry of an object; it is named by its position. Positions are ordered as in the
text of the document: lexicographically, an element before what is inside it.
-/
namespace Verif.Spec
open Verif.Model

mutual
/-- The displayed items inside the value `v` at position `p`, in document order: none if it is hidden (collapsed). The value of an entry
is displayed on the line of the entry, it is no item of its own. -/
def inside (hidden : Path → Bool) (p : Path) : Json → List Path
  | .arr xs => if hidden p then [] else insideItems hidden p 0 xs
  | .obj es => if hidden p then [] else insideEntries hidden p 0 es
  | _ => []
def insideItems (hidden : Path → Bool) (p : Path) (i : Nat) : List Json → List Path
  | [] => []
  | x :: xs => (p ++ [i]) :: inside hidden (p ++ [i]) x ++ insideItems hidden p (i + 1) xs
def insideEntries (hidden : Path → Bool) (p : Path) (i : Nat) : List (Bytes × Json) → List Path
  | [] => []
  | (_, v) :: es => (p ++ [i]) :: inside hidden (p ++ [i] ++ [0]) v ++ insideEntries hidden p (i + 1) es
end

/-- The displayed items of a document in which the containers at the positions `hidden` are collapsed. -/
def visible (hidden : Path → Bool) (root : Json) : List Path := [] :: inside hidden [] root

/-- All displayed items, nothing collapsed. -/
def items (root : Json) : List Path := visible (fun _ => false) root

/-- The element at a position. -/
def elem (root : Json) (p : Path) : Option Elem := (Elem.value root).at p

/-- How often an item is a hit: once for the text of a value that is no container, for an entry once for the key and once for
such a value. `m` tells whether a text of an element matches. -/
def hits (m : Bytes → Elem → Bool) (fmt : Bytes → Bytes) : Elem → Nat
  | .entry k v => (if m k (.entry k v) then 1 else 0) + (if !v.isContainer && m (v.stringify fmt) (.value v) then 1 else 0)
  | .value v => if !v.isContainer && m (v.stringify fmt) (.value v) then 1 else 0

end Verif.Spec
