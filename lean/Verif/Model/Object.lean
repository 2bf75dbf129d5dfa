import Verif.Model.Json
/-!
# Model of `JSonObject` and `JSonSortedObject` as containers

The calls of `include/jsonObject.hh` on one object, by themselves. Simplified: values are trees, not addresses; the destruction of what is erased is in
`Model/Heap.lean`.
-/
namespace Verif.Model.Object
open Verif.Model

/-- A call that changes the object. -/
inductive Call where
  | push (k : Bytes) (v : Json)
  | erase (k : Bytes)
deriving Repr

/-- The new list of entries, and what `erase` returns (`push` returns nothing). `src/jsonObject.cpp:21-33` (`push`, `sorted` selects the class),
`:47-55` (`erase`). -/
def call (sorted : Bool) (es : List (Bytes × Json)) : Call → List (Bytes × Json) × Bool
  | .push k v => (if sorted then Json.sortedPush es k v else Json.push es k v, true)
  | .erase k => if Json.contains es k then (Json.erase es k, true) else (es, false)

/-- The object after a history of calls, from `src/jsonObject.cpp:9-13` (the constructors: no entries). -/
def after (sorted : Bool) (calls : List Call) : List (Bytes × Json) := calls.foldl (fun es c => (call sorted es c).1) []

/-- What the last call of a history returns. -/
def answer (sorted : Bool) (calls : List Call) (c : Call) : Bool := (call sorted (after sorted calls) c).2

/-- `src/jsonObject.cpp:70-84` — `firstChild`: the value of the first entry. -/
def firstChild (es : List (Bytes × Json)) : Option Json := es.head?.map (·.2)

end Verif.Model.Object
