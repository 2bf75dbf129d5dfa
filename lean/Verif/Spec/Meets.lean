import Verif.Model.Element
/-!
# Which elements of two documents are compared with each other

The two documents; all the children of two containers that are compared; the values of two entries with the same key that are compared.
-/
namespace Verif.Spec
open Verif.Model

/-- When `a` and `b` are compared, `x` and `y` are. -/
inductive Meets (a b : Elem) : Elem → Elem → Prop
  | here : Meets a b a b
  | kids {x y u w : Elem} {i j : Nat} : Meets a b x y → x.isContainer = true → y.isContainer = true → x.kids[i]? = some u → y.kids[j]? = some w → Meets a b u w
  | values {k : Bytes} {v v' : Json} : Meets a b (.entry k v) (.entry k v') → Meets a b (.value v) (.value v')

/-- A container without children. -/
def Hollow (x : Elem) : Prop := x.isContainer = true ∧ x.kids = []

/-- No container of the document has `2^31` children or more. -/
def NotHuge (a : Json) : Prop := ∀ p x, (Elem.value a).at p = some x → x.kids.length < 2147483648

end Verif.Spec
