import Verif.Spec.SplitFold
/-!
# Specification: Up and Down in the diff view
-/
namespace Verif.Spec.SplitMoves
open Verif.Model Verif.Model.Diff Verif.Model.Split

/-- The windows are as a completed drawing leaves them. (After the messages of a search the windows are drawn once, complete or not.) -/
def Settled (env : Env) (n k : Nat) (s : St) : Prop := ∃ s0, settle env n k s0 = some (some s)

/-- The line where an element begins is in the window. -/
def OnScreen (w : Win) (e : Ptr) : Prop := ∃ c ∈ w.screen, c.who = e ∧ c.closing = false

end Verif.Spec.SplitMoves
