import Verif.Spec.SignsExactly
/-!
# Specification: which elements of two documents are opposite each other
-/
namespace Verif.Spec
open Verif.Model Verif.Model.Diff

/-- The alignment that is shown, among the cheapest ones, and its pairs: from the last children backwards, the last child on the left is left alone if this is one of the cheapest ways; otherwise the last child
on the right is, if this is; otherwise the two face each other. -/
inductive Chosen (cost : Nat → Nat → Nat) : Nat → Nat → List (Nat × Nat) → Prop where
  | done : Chosen cost 0 0 []
  | aloneLeft {i j d : Nat} {l : List (Nat × Nat)} : Least cost i j d → Least cost (i + 1) j (d + 1) → Chosen cost i j l → Chosen cost (i + 1) j l
  | aloneRight {i j d : Nat} {l : List (Nat × Nat)} : (∀ i' d', i = i' + 1 → Least cost i' (j + 1) d' → ¬ Least cost i (j + 1) (d' + 1)) →
      Least cost i j d → Least cost i (j + 1) (d + 1) → Chosen cost i j l → Chosen cost i (j + 1) l
  | facing {i j : Nat} {l : List (Nat × Nat)} : (∀ d, Least cost i (j + 1) d → ¬ Least cost (i + 1) (j + 1) (d + 1)) →
      (∀ d, Least cost (i + 1) j d → ¬ Least cost (i + 1) (j + 1) (d + 1)) → Chosen cost i j l → Chosen cost (i + 1) (j + 1) ((i, j) :: l)

/-- `Opposed text a b p q`: the element at `p` in `a` is opposite the one at `q` in `b`: `a` and `b` themselves; the values of entries with the same key; in two containers that cost nothing, the children that face each other in the
chosen alignment, and what is opposite in them. -/
inductive Opposed (text : Json → Bytes) : Elem → Elem → Path → Path → Prop where
  | here {a b : Elem} : Opposed text a b [] []
  | values {k : Bytes} {v v' : Json} {p q : Path} : Opposed text (.value v) (.value v') p q → Opposed text (.entry k v) (.entry k v') (0 :: p) (0 :: q)
  | children {a b x y : Elem} {cost : Nat → Nat → Nat} {pairs : List (Nat × Nat)} {i j : Nat} {p q : Path} : a.isContainer = true → b.isContainer = true → Facing text a b 0 →
      (∀ (i j : Nat) (u w : Elem), a.kids[i]? = some u → b.kids[j]? = some w → Facing text u w (cost i j)) →
      Chosen cost a.kids.length b.kids.length pairs → (i, j) ∈ pairs → a.kids[i]? = some x → b.kids[j]? = some y → Opposed text x y p q → Opposed text a b (i :: p) (j :: q)

/-- The element at `p` is an item of an array or an entry of an object. -/
def IsChild (a : Elem) (p : Path) : Prop := ∃ p' i u, p = p' ++ [i] ∧ a.at p' = some u ∧ u.isContainer = true

/-- Containers that cost nothing; entries; primitives of the same type. -/
def Matched (text : Json → Bytes) (x y : Elem) : Prop := (x.isContainer = true ∧ y.isContainer = true ∧ Facing text x y 0) ∨ comparable x y = true

end Verif.Spec
