import Verif.Spec.SplitView
import Verif.Spec.Document
/-!
# Specification: folding in the diff view
-/
namespace Verif.Spec.SplitFold
open Verif.Model Verif.Model.Diff Verif.Model.Split Verif.Spec

/-- The items of the first (`side = false`) or second document that are not inside a collapsed container, in document order. -/
def shownIn (env : Env) (side : Bool) (s : St) : List Path := visible (fun p => decide (ptr side p ∈ s.collapsed)) (env.root side)

/-- The position `q` of the first or second document is inside the container `e`. -/
def InContainer (env : Env) (e : Ptr) (side : Bool) (q : Path) : Prop :=
  ∃ v c, e = ptr side v ∧ elem (env.root side) v = some c ∧ c.isContainer = true ∧ v <+: q ∧ v ≠ q

end Verif.Spec.SplitFold
