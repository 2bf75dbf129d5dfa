import Verif.Spec.Correspondence
/-!
# Specification: documents between which a comparison sees no difference
-/
namespace Verif.Spec
open Verif.Model

/-- Two documents built alike, whose primitives, given their displayed `text`, are of the same type and nearly the same: arrays of the same length whose items are so one by one, objects with the same keys
in the same order whose values are so one by one. -/
inductive Indistinct (text : Json → Bytes) : Json → Json → Prop where
  | primitives {v v' : Json} : ¬ IsContainer v → ¬ IsContainer v' → sameKind v v' = true → Near (text v) (text v') → Indistinct text v v'
  | arrays {xs ys : List Json} : xs.length = ys.length → (∀ (i : Nat) (x y : Json), xs[i]? = some x → ys[i]? = some y → Indistinct text x y) →
      Indistinct text (.arr xs) (.arr ys)
  | objects {es fs : List (Bytes × Json)} : es.map (·.1) = fs.map (·.1) →
      (∀ (i : Nat) (k k' : Bytes) (x y : Json), es[i]? = some (k, x) → fs[i]? = some (k', y) → Indistinct text x y) → Indistinct text (.obj es) (.obj fs)

end Verif.Spec
