import Verif.Spec.SplitView
/-!
# The keys that crash the diff view
-/
namespace Verif.Spec.SplitView
open Verif.Model Verif.Model.Diff Verif.Model.Split

/-- The key is `Up` or `Down`, or `Right` on an open container that is not empty, and the active window does not know where it goes. -/
def ToNothing (env : Env) (name : Bytes) (s : St) : Prop :=
  ((name = b!"K" ∨ name = b!"KEY_UP") ∧ s.active.up = none) ∨ ((name = b!"J" ∨ name = b!"KEY_DOWN") ∧ s.active.down = none) ∨
  ((name = b!"L" ∨ name = b!"KEY_RIGHT") ∧ s.active.down = none ∧
    ∃ e, s.active.sel = some e ∧ env.isContainer (env.value e) = true ∧ env.value e ∉ s.collapsed ∧ env.size (env.value e) ≠ 0)

/-- The state is the answer to a search or to `N`, after which the screen was to be drawn again and was not: the message stands over a screen that is not complete. -/
def UnderMessage (env : Env) (n k cols rows : Nat) (ok : St → Input → Prop) (s : St) : Prop :=
  ∃ s0 name pat, Reached env n k cols rows ok s0 ∧ ok s0 (.key name pat) ∧ (name = b!"/" ∨ name = b!"N") ∧
    step env n k (.key name pat) s0 = some (.nextInput s) ∧ ∃ u, redraw env n u = some (.retry s.first s.second)

end Verif.Spec.SplitView
