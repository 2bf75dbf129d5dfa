import Verif.Model.Heap
import Verif.Model.Element
/-!
# Specification: a document as objects in memory

`Stores m parent v a as`: the object at `a` is the root of the document `v`, its parent is `parent`, every other element has as parent the element it is directly in, and
`as` are the addresses of all its elements, entries of objects included, one after the other.
-/
namespace Verif.Spec.Heap
open Verif.Model Verif.Model.Heap

mutual
def Stores (m : Mem) (parent : Option Addr) : Json → Addr → List Addr → Prop
  | .arr xs, a, as => ∃ l bs, m.get a = some ⟨parent, .arr l⟩ ∧ StoresItems m a xs l bs ∧ as = a :: bs
  | .obj es, a, as => ∃ sorted l bs, m.get a = some ⟨parent, .obj sorted l⟩ ∧ StoresEntries m a es l bs ∧ as = a :: bs
  | .str s, a, as => m.get a = some ⟨parent, .prim (.str s)⟩ ∧ as = [a]
  | .bool b, a, as => m.get a = some ⟨parent, .prim (.bool b)⟩ ∧ as = [a]
  | .null, a, as => m.get a = some ⟨parent, .prim .null⟩ ∧ as = [a]
  | .int i, a, as => m.get a = some ⟨parent, .prim (.int i)⟩ ∧ as = [a]
  | .long i, a, as => m.get a = some ⟨parent, .prim (.long i)⟩ ∧ as = [a]
  | .dbl s, a, as => m.get a = some ⟨parent, .prim (.dbl s)⟩ ∧ as = [a]
/-- The items of the array at `p`; `l` are the pointers to them. -/
def StoresItems (m : Mem) (p : Addr) : List Json → List Addr → List Addr → Prop
  | [], l, bs => l = [] ∧ bs = []
  | x :: xs, l, bs => ∃ a l' b1 b2, l = a :: l' ∧ bs = b1 ++ b2 ∧ Stores m (some p) x a b1 ∧ StoresItems m p xs l' b2
/-- The entries of the object at `p`; `l` are the pointers to them. -/
def StoresEntries (m : Mem) (p : Addr) : List (Bytes × Json) → List Addr → List Addr → Prop
  | [], l, bs => l = [] ∧ bs = []
  | (k, v) :: es, l, bs => ∃ e a l' b1 b2, l = e :: l' ∧ bs = e :: b1 ++ b2 ∧ m.get e = some ⟨some p, .entry k a⟩ ∧ Stores m (some e) v a b1 ∧ StoresEntries m p es l' b2
end

/-- The elements directly below, in order (iteration over a container, `operator*` of an entry). -/
def below (m : Mem) (a : Addr) : List Addr :=
  match m.get a with
  | some ⟨_, .arr l⟩ => l
  | some ⟨_, .obj _ l⟩ => l
  | some ⟨_, .entry _ v⟩ => [v]
  | _ => []

/-- The element that is reached from `a` by the child numbers `p`. -/
def follow (m : Mem) : Addr → Path → Option Addr
  | a, [] => some a
  | a, i :: p => ((below m a)[i]?).bind fun x => follow m x p

/-- The object at `a` is what the element is: a primitive with its value, a container, an entry with its key. -/
def IsObject (m : Mem) (a : Addr) : Elem → Prop
  | .value (.arr _) => ∃ p l, m.get a = some ⟨p, .arr l⟩
  | .value (.obj _) => ∃ p sorted l, m.get a = some ⟨p, .obj sorted l⟩
  | .value v => ∃ p, m.get a = some ⟨p, .prim v⟩
  | .entry k _ => ∃ p v, m.get a = some ⟨p, .entry k v⟩

end Verif.Spec.Heap
