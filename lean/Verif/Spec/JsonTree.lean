import Verif.Model.Json
/-!
# Specification: sub-elements of a document, key-sorted documents
-/
namespace Verif.Spec
open Verif.Model

/-- `Within a b`: `a` is `b` or lies somewhere inside `b`, at any depth. -/
inductive Within : Json → Json → Prop where
  | self (v : Json) : Within v v
  | item {v x : Json} {xs : List Json} : x ∈ xs → Within v x → Within v (.arr xs)
  | value {v x : Json} {k : Bytes} {es : List (Bytes × Json)} : (k, x) ∈ es → Within v x → Within v (.obj es)

/-- Sort entries by the byte order of their keys (library merge sort, library order of lists). -/
def sortByKey (es : List (Bytes × Json)) : List (Bytes × Json) := es.mergeSort (fun a b => decide (a.1 ≤ b.1))

mutual
/-- Sort the entries of every object of a document. -/
def sortTree : Json → Json
  | .arr xs => .arr (sortTrees xs)
  | .obj es => .obj (sortByKey (sortTreeEntries es))
  | .str s => .str s
  | .bool b => .bool b
  | .null => .null
  | .int i => .int i
  | .long i => .long i
  | .dbl s => .dbl s
/-- `sortTree` on each item. -/
def sortTrees : List Json → List Json
  | [] => []
  | x :: xs => sortTree x :: sortTrees xs
/-- `sortTree` on each value. -/
def sortTreeEntries : List (Bytes × Json) → List (Bytes × Json)
  | [] => []
  | (k, x) :: es => (k, sortTree x) :: sortTreeEntries es
end

/-- A document that is an array or an object. -/
def IsContainer : Json → Prop
  | .arr _ => True
  | .obj _ => True
  | _ => False

end Verif.Spec
