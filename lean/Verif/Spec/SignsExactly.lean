import Verif.Model.Diff
import Verif.Spec.Correspondence
/-!
# Specification: the signs of two elements opposite each other
-/
namespace Verif.Spec
open Verif.Model Verif.Model.Diff

/-- Two entries, or two primitives of the same type. -/
def comparable : Elem → Elem → Bool
  | .entry _ _, .entry _ _ => true
  | .value v, .value v' => sameKind v v'
  | _, _ => false

/-- The signs of two opposite elements; `close`: they cost nothing. -/
def signsFor (close : Bool) (x y : Elem) : Op × Op :=
  if x.isContainer then
    if y.isContainer then if close then (.equ, .equ) else (.add, .add) else (.rem, .add)
  else if y.isContainer then (.add, .rem)
  else if comparable x y then if close then (.equ, .equ) else (.mod, .mod)
  else (.add, .add)

/-- Elements opposite each other: the two documents; elements that face each other (`facing`); the values of two entries with the same key that face each other. -/
def Opposite (facing : Path → Path → Prop) (a b : Elem) (p q : Path) : Prop :=
  (p = [] ∧ q = []) ∨ facing p q ∨
  ∃ p' q' k v v', p = p' ++ [0] ∧ q = q' ++ [0] ∧ ((p' = [] ∧ q' = []) ∨ facing p' q') ∧ a.at p' = some (.entry k v) ∧ b.at q' = some (.entry k v')

end Verif.Spec
