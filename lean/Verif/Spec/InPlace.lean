import Verif.Spec.SignsExactly
/-!
# Specification: documents that differ in values changed in place
-/
namespace Verif.Spec
open Verif.Model Verif.Model.Diff

/-- The same value, or (changed in place, see below) a container. -/
def Kept (v v' : Json) : Prop := v = v' ∨ IsContainer v

/-- `InPlace x y`: `y` is `x` with primitive values replaced by other primitive values; nothing is inserted or removed, no key is changed. In an array at most one item that is no container is changed;
in every container that is changed some item or member is kept or is itself a container. (Keys of an object are distinct.) -/
inductive InPlace : Elem → Elem → Prop where
  | same (x : Elem) : InPlace x x
  | primitive {v v' : Json} : ¬ IsContainer v → ¬ IsContainer v' → InPlace (.value v) (.value v')
  | member {k : Bytes} {v v' : Json} : InPlace (.value v) (.value v') → InPlace (.entry k v) (.entry k v')
  | items {xs ys : List Json} : xs.length = ys.length →
      (∀ (i : Nat) (x y : Json), xs[i]? = some x → ys[i]? = some y → InPlace (.value x) (.value y)) →
      (∀ (i j : Nat) (x y x' y' : Json), i ≠ j → xs[i]? = some x → ys[i]? = some y → xs[j]? = some x' → ys[j]? = some y' → Kept x y ∨ Kept x' y') →
      (∃ (i : Nat) (x y : Json), xs[i]? = some x ∧ ys[i]? = some y ∧ Kept x y) → InPlace (.value (.arr xs)) (.value (.arr ys))
  | members {es fs : List (Bytes × Json)} : es.map (·.1) = fs.map (·.1) → (es.map (·.1)).Nodup →
      (∀ (i : Nat) (k : Bytes) (v v' : Json), es[i]? = some (k, v) → fs[i]? = some (k, v') → InPlace (.value v) (.value v')) →
      (∃ (i : Nat) (k : Bytes) (v v' : Json), es[i]? = some (k, v) ∧ fs[i]? = some (k, v') ∧ Kept v v') → InPlace (.value (.obj es)) (.value (.obj fs))

/-- The sign of an element of which values were changed in place, on both sides. -/
inductive PlaceMark (text : Json → Bytes) : Elem → Elem → Op → Prop where
  | container {v v' : Json} : IsContainer v → IsContainer v' → PlaceMark text (.value v) (.value v') .equ
  | near {v v' : Json} : ¬ IsContainer v → ¬ IsContainer v' → sameKind v v' = true → Near (text v) (text v') → PlaceMark text (.value v) (.value v') .equ
  | far {v v' : Json} : ¬ IsContainer v → ¬ IsContainer v' → sameKind v v' = true → ¬ Near (text v) (text v') → PlaceMark text (.value v) (.value v') .mod
  | otherType {v v' : Json} : ¬ IsContainer v → ¬ IsContainer v' → sameKind v v' = false → PlaceMark text (.value v) (.value v') .add
  | memberKept {k : Bytes} {v v' : Json} : (IsContainer v ∧ IsContainer v') ∨ (¬ IsContainer v ∧ ¬ IsContainer v' ∧ Near (text v) (text v')) → PlaceMark text (.entry k v) (.entry k v') .equ
  | memberChanged {k : Bytes} {v v' : Json} : ¬ IsContainer v → ¬ IsContainer v' → ¬ Near (text v) (text v') → PlaceMark text (.entry k v) (.entry k v') .mod

end Verif.Spec
