import Verif.Model.Json
/-!
# Elements of a document by position

The program handles elements by pointer (`JSonElement *`). Here an element is named by its position: the list of child numbers
that leads to it from the root. An object entry (`JSonObjectEntry`) is an element of its own, between the object and the value.
-/
namespace Verif.Model

/-- `JSonElement`: a value (container or primitive), or an object entry (`include/jsonObjectEntry.hh:13-35`). -/
inductive Elem where
  | value (v : Json)
  | entry (k : Bytes) (v : Json)
deriving Repr

/-- The position of an element in its document: child numbers from the root on. -/
abbrev Path := List Nat

namespace Elem

/-- The elements directly below: `std::list` of a container (`include/jsonContainer.hh:12`), `operator*` of an entry
(`include/jsonObjectEntry.hh:31-33`). -/
def kids : Elem → List Elem
  | .value (.arr xs) => xs.map .value
  | .value (.obj es) => es.map fun e => .entry e.1 e.2
  | .value _ => []
  | .entry _ v => [.value v]

/-- The element at a position. -/
def «at» : Elem → Path → Option Elem
  | e, [] => some e
  | e, i :: p => (e.kids[i]?).bind (·.at p)

/-- `dynamic_cast<const JSonContainer *>(e) != nullptr`. -/
def isContainer : Elem → Bool
  | .value (.arr _) => true
  | .value (.obj _) => true
  | _ => false

/-- `dynamic_cast<const JSonObjectEntry *>(e) != nullptr`. -/
def isEntry : Elem → Bool
  | .entry _ _ => true
  | _ => false

end Elem
end Verif.Model
