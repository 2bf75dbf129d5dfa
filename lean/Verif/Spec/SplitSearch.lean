import Verif.Spec.SplitView
/-!
# Specification: going through the results of a search in the diff view
-/
namespace Verif.Spec.SplitView
open Verif.Model Verif.Model.Diff Verif.Model.Split

/-- The position of an element in the first (`side = false`) or second document, if it is of that one. -/
def positionIn (side : Bool) : Ptr → Option Path
  | .left p => if side then none else some p
  | .right p => if side then some p else none

/-- `q` is the hit after the position `p` in document order, or the first hit if there is none after it. -/
def NextHit (hits : List Path) (p q : Path) : Prop :=
  q ∈ hits ∧ if ∃ r ∈ hits, p < r then p < q ∧ ∀ r ∈ hits, p < r → q = r ∨ q < r else ∀ r ∈ hits, q = r ∨ q < r

/-- The element `a` is a container around `e`, or an entry around it. -/
def Around (a e : Ptr) : Prop :=
  ∃ side p q, positionIn side a = some p ∧ positionIn side e = some q ∧ p <+: q ∧ p ≠ q

end Verif.Spec.SplitView
