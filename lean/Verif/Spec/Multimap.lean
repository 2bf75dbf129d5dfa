import Verif.Model.Object
/-!
# Specification: an object as a map

What is kept for each key, as a function of the history of calls: an object in source order answers with the value pushed first, a sorted one with the one
pushed last.
-/
namespace Verif.Spec.Multimap
open Verif.Model Verif.Model.Object

/-- The values kept for a key, the one in force first. -/
def kept (sorted : Bool) (k : Bytes) : List Call → List Json
  | [] => []
  | .push k' v :: before => if k' = k then (if sorted then v :: kept sorted k before else kept sorted k before ++ [v]) else kept sorted k before
  | .erase k' :: before => if k' = k then (kept sorted k before).tail else kept sorted k before

/-- No key is pushed while it is there (what the reader takes care of). The latest call comes first. -/
def Single (calls : List Call) : Prop := ∀ k v later before, calls = later ++ .push k v :: before → kept false k before = []

/-- The pushes of a history, oldest first. -/
def pushes (calls : List Call) : List (Bytes × Json) := calls.filterMap fun | .push k v => some (k, v) | .erase _ => none

end Verif.Spec.Multimap
