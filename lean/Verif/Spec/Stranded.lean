import Verif.Spec.Refused
import Verif.Spec.Lost
import Verif.Spec.Heap
/-!
# Specification: what is left in memory when the reader ends without a document

`Spec.Refused` says which texts end the reader, and how. Here is what was made before, which nobody destroys: the containers that are not closed yet with what they hold so far, the
keys whose values are not complete, the values in the place of a comma, colon or key, and the values lost in what was complete (`Spec.Lost`). A container without anything in it is not
there yet: an array is made with its first item, an object after its first colon.
-/
namespace Verif.Spec.Stranded
open Verif.Model Verif.Spec Verif.Spec.Accepted Verif.Spec.Refused

/-- The array that is being read, after these items. -/
def array : List Json → List Json
  | [] => []
  | vs => [.arr vs]

/-- The object that is being read, after these members. -/
def object (m : Mode) : List (Bytes × Json) → List Json
  | [] => []
  | es => [.obj (arranged m es)]

/-- A value with insignificant bytes before it, and what is lost in it. -/
def Whole (m : Mode) (text rest : Bytes) (v : Json) (lost : List Json) : Prop := ∃ w t, text = w ++ t ∧ Blank w ∧ Lost.Value m t rest v lost

/-- The next token is this value. -/
def Stray (m : Mode) (text : Bytes) (v : Json) : Prop := ∃ w t rest ws, text = w ++ t ++ rest ∧ Blank w ∧ Prim m t rest v ws

/-- A key that was not there yet, or may be repeated. -/
def New (m : Mode) (es : List (Bytes × Json)) (k : Bytes) : Prop := m.strict = true → k ∉ es.map Prod.fst

mutual
/-- Reading a value from this text ends the reader, and these values are left. -/
inductive Value (m : Mode) : (text : Bytes) → Reason → (left : List Json) → Prop
  | token {w x r} : Blank w → BadToken m x r → Value m (w ++ x) r []
  | array {w y r ls} : Blank w → Items m [] y r ls → Value m (w ++ b!"[" ++ y) r ls
  | object {w y r ls} : Blank w → Members m [] y r ls → Value m (w ++ b!"{" ++ y) r ls
/-- Reading items of an array, after the items `vs`. -/
inductive Items (m : Mode) : (vs : List Json) → (text : Bytes) → Reason → (left : List Json) → Prop
  | item {vs x r ls} : Value m x r ls → Items m vs x r (array vs ++ ls)
  | noItem {vs x} : NoToken m x ∨ Sign (if vs = [] then b!",:}" else b!",:]}") x → Items m vs x (.error .notJson) (array vs)
  | separator {vs t w x r v ls} : Whole m t (w ++ x) v ls → Blank w → BadToken m x r → Items m vs (t ++ w ++ x) r (array (vs ++ [v]) ++ ls)
  | noSeparator {vs t x v ls} : Whole m t x v ls → NoToken m x ∨ Sign b!":[{}" x → Items m vs (t ++ x) (.error (.unexpected (c%']'))) (array (vs ++ [v]) ++ ls)
  | stray {vs t x v ls v'} : Whole m t x v ls → Stray m x v' → Items m vs (t ++ x) (.error (.unexpected (c%']'))) (array (vs ++ [v]) ++ ls ++ [v'])
  | more {vs t w x r v ls ls'} : Whole m t (w ++ b!"," ++ x) v ls → Blank w → Items m (vs ++ [v]) x r ls' → Items m vs (t ++ w ++ b!"," ++ x) r (ls' ++ ls)
/-- Reading members of an object, after the members `es`. -/
inductive Members (m : Mode) : (es : List (Bytes × Json)) → (text : Bytes) → Reason → (left : List Json) → Prop
  | key {es w x r} : Blank w → BadToken m x r → Members m es (w ++ x) r (object m es)
  | noKey {es x} : NoToken m x ∨ Sign (if es = [] then b!",:[]{" else b!",:[]{}") x → Members m es x (.error .notAKey) (object m es)
  | notAKey {es x v} : Stray m x v → (∀ s, v ≠ .str s) → Members m es x (.error .notAKey) (object m es ++ [v])
  | colon {es t k x r} : Key m t k → BadToken m x r → Members m es (t ++ x) r (object m es ++ [.str k])
  | noColon {es t k x} : Key m t k → NoToken m x ∨ Sign b!",[]{}" x → Members m es (t ++ x) (.error (.unexpected (c%':'))) (object m es ++ [.str k])
  | stray {es t k x v} : Key m t k → Stray m x v → Members m es (t ++ x) (.error (.unexpected (c%':'))) (object m es ++ [.str k, v])
  | again {es t k x} : Key m t k → ¬ New m es k → Members m es (t ++ b!":" ++ x) (.error (.doubleKey k)) (object m es ++ [.str k])
  /-- the member with this key is gone already, and the object is there -/
  | value {es t k x r ls} : Key m t k → New m es k → Value m x r ls →
      Members m es (t ++ b!":" ++ x) r ([.obj ((arranged m es).filter (fun e => e.1 ≠ k)), .str k] ++ ls)
  | separator {es t k u w x r v ls} : Key m t k → New m es k → Whole m u (w ++ x) v ls → Blank w → BadToken m x r →
      Members m es (t ++ b!":" ++ u ++ w ++ x) r (object m (es ++ [(k, v)]) ++ ls)
  | noEnd {es t k u x v ls} : Key m t k → New m es k → Whole m u x v ls → NoToken m x →
      Members m es (t ++ b!":" ++ u ++ x) (.error .notAKey) (object m (es ++ [(k, v)]) ++ ls)
  | more {es t k u w c x r v ls ls'} : Key m t k → New m es k → Whole m u (w ++ [c] ++ x) v ls → Blank w → c ∈ b!",:[]{" →
      Members m (es ++ [(k, v)]) x r ls' → Members m es (t ++ b!":" ++ u ++ w ++ [c] ++ x) r (ls' ++ ls)
end

/-- These documents are in memory, at these addresses. -/
def Lies (mem : Heap.Mem) : List Json → List Nat → Prop
  | [], as => as = []
  | v :: vs, as => ∃ parent a as1 as2, as = as1 ++ as2 ∧ Spec.Heap.Stores mem parent v a as1 ∧ Lies mem vs as2

/-- The objects in memory are those of these documents, each of them once, and no others. -/
def Remains (mem : Heap.Mem) (left : List Json) : Prop := ∃ as, as.Nodup ∧ Lies mem left as ∧ ∀ x, mem.get x ≠ none ↔ x ∈ as

/-- The number of objects of a document: one for each value and each entry. -/
def size : Json → Nat
  | .arr vs => 1 + sizes vs
  | .obj es => 1 + sizesE es
  | _ => 1
where
  sizes : List Json → Nat
    | [] => 0
    | v :: vs => size v + sizes vs
  sizesE : List (Bytes × Json) → Nat
    | [] => 0
    | (_, v) :: es => 1 + size v + sizesE es

end Verif.Spec.Stranded
