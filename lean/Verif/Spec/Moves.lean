import Verif.Spec.Document
/-!
# Specification: moves in a document

Where the keys lead that follow the structure of a document.
-/
namespace Verif.Spec.Moves
open Verif.Model Verif.Spec

/-- The value an item stands for: itself, or the value of the entry. -/
def ValueOf (root : Json) (p v : Path) : Prop := ∃ e, elem root p = some e ∧ v = if e.isEntry then p ++ [0] else p

/-- The element at `v` is a container, with something in it. -/
def Filled (root : Json) (v : Path) : Prop := ∃ c, elem root v = some c ∧ c.isContainer = true ∧ c.kids ≠ []

/-- The item right around the position `p`: of all items around `p` the innermost. -/
def Around (root : Json) (p q : Path) : Prop :=
  (q ∈ items root ∧ q <+: p ∧ q ≠ p) ∧ ∀ r ∈ items root, r <+: p → r ≠ p → r <+: q

/-- Page Up: to the previous element of the container; from the first one to the item around; from the root, and from what is no item, nowhere. -/
def PageUp (root : Json) (p q : Path) : Prop :=
  (∃ a i, p = a ++ [i + 1] ∧ q = a ++ [i]) ∨ ((∃ a, p = a ++ [0]) ∧ p ∈ items root ∧ Around root p q) ∨ ((p = [] ∨ p ∉ items root) ∧ q = p)

/-- `r` is an element that comes after `p` and all that is inside it, and it is inside the values of all the entries that `p` is inside of. -/
def Behind (root : Json) (p r : Path) : Prop :=
  (∃ e, elem root r = some e) ∧ p < r ∧ ¬ p <+: r ∧ ∀ a k v, elem root a = some (.entry k v) → a ++ [0] <+: p → a ++ [0] <+: r

/-- Page Down: to the first element behind, if there is one. -/
def PageDown (root : Json) (p q : Path) : Prop :=
  (Behind root p q ∧ ∀ r, Behind root p r → q = r ∨ q < r) ∨ ((∀ r, ¬ Behind root p r) ∧ q = p)

end Verif.Spec.Moves
