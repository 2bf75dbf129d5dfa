import Verif.Spec.InPlace
/-!
# Specification: edits of a document
-/
namespace Verif.Spec
open Verif.Model Verif.Model.Diff

/-- The same, or (edited, see below) a container or a member with a container as its value. -/
def KeptAs (x y : Elem) : Prop := x = y ∨ x.isContainer = true ∨ ∃ k v, x = .entry k v ∧ IsContainer v

/-- The number, among all children, of the child number `k` of the others than number `s`. -/
def beyond (s k : Nat) : Nat := if k < s then k else k + 1

/-- `Edited text x y place`: `y` is `x` after an edit; `place p q`: what was at `p` is at `q` now. The edit of a container is one of these:
* `added`: children were inserted (number `i` is number `f i` now), none of which resembles an old one, and containers among the old ones may have been edited;
* `removed`: the same backwards;
* `appended`, `cut`: children were appended or cut off at the end, whatever they are, and containers among the remaining ones may have been edited;
* `moved`: the child number `s` was taken out and a child, the same or another one, put in as number `t`, at least two places away; containers among the others may have been edited; no two different children resemble each other;
* `changed`: the children are in the same places, and some of them were edited: at most one that is no container, or any if no two children in different places resemble each other (as members with different keys).
(`Facing text u w 0`: `u` resembles `w`.) Some child is kept in each case. -/
inductive Edited (text : Json → Bytes) : Elem → Elem → (Path → Path → Prop) → Prop where
  | same (x : Elem) : Edited text x x fun p q => p = q ∧ ∃ u, x.at p = some u
  | primitive {v v' : Json} : ¬ IsContainer v → ¬ IsContainer v' → Edited text (.value v) (.value v') fun p q => p = [] ∧ q = []
  | member {k : Bytes} {v v' : Json} {place : Path → Path → Prop} : Edited text (.value v) (.value v') place →
      Edited text (.entry k v) (.entry k v') fun p q => (p = [] ∧ q = []) ∨ ∃ p' q', p = 0 :: p' ∧ q = 0 :: q' ∧ place p' q'
  | added {a b : Elem} {f : Nat → Nat} {place : Nat → Path → Path → Prop} : a.isContainer = true → b.isContainer = true → (∀ i j, i < j → f i < f j) → 0 < a.kids.length → (∀ i < a.kids.length, f i < b.kids.length) →
      (∀ (i : Nat) (u w : Elem), a.kids[i]? = some u → b.kids[f i]? = some w → Edited text u w (place i)) → (∀ (i : Nat) (u w : Elem), a.kids[i]? = some u → b.kids[f i]? = some w → KeptAs u w) →
      (∀ (i j : Nat) (u w : Elem), a.kids[i]? = some u → b.kids[j]? = some w → (∀ k < a.kids.length, f k ≠ j) → ¬ Facing text u w 0) →
      Edited text a b fun p q => (p = [] ∧ q = []) ∨ ∃ i p' q', i < a.kids.length ∧ p = i :: p' ∧ q = f i :: q' ∧ place i p' q'
  | removed {a b : Elem} {f : Nat → Nat} {place : Nat → Path → Path → Prop} : a.isContainer = true → b.isContainer = true → (∀ i j, i < j → f i < f j) → 0 < b.kids.length → (∀ i < b.kids.length, f i < a.kids.length) →
      (∀ (i : Nat) (u w : Elem), a.kids[f i]? = some u → b.kids[i]? = some w → Edited text u w (place i)) → (∀ (i : Nat) (u w : Elem), a.kids[f i]? = some u → b.kids[i]? = some w → KeptAs u w) →
      (∀ (i j : Nat) (u w : Elem), a.kids[i]? = some u → b.kids[j]? = some w → (∀ k < b.kids.length, f k ≠ i) → ¬ Facing text u w 0) →
      Edited text a b fun p q => (p = [] ∧ q = []) ∨ ∃ i p' q', i < b.kids.length ∧ p = f i :: p' ∧ q = i :: q' ∧ place i p' q'
  | changed {a b : Elem} {place : Nat → Path → Path → Prop} : a.isContainer = true → b.isContainer = true → a.kids.length = b.kids.length →
      (∀ (i : Nat) (u w : Elem), a.kids[i]? = some u → b.kids[i]? = some w → Edited text u w (place i)) →
      (∃ (i : Nat) (u w : Elem), a.kids[i]? = some u ∧ b.kids[i]? = some w ∧ KeptAs u w) →
      ((∀ (i j : Nat) (u w u' w' : Elem), i ≠ j → a.kids[i]? = some u → b.kids[i]? = some w → a.kids[j]? = some u' → b.kids[j]? = some w' → KeptAs u w ∨ KeptAs u' w') ∨
        (∀ (i j : Nat) (u w : Elem), i ≠ j → a.kids[i]? = some u → b.kids[j]? = some w → ¬ Facing text u w 0)) →
      Edited text a b fun p q => (p = [] ∧ q = []) ∨ ∃ i p' q', i < a.kids.length ∧ p = i :: p' ∧ q = i :: q' ∧ place i p' q'
  | appended {a b : Elem} {place : Nat → Path → Path → Prop} : a.isContainer = true → b.isContainer = true → 0 < a.kids.length → a.kids.length ≤ b.kids.length →
      (∀ (i : Nat) (u w : Elem), a.kids[i]? = some u → b.kids[i]? = some w → Edited text u w (place i)) → (∀ (i : Nat) (u w : Elem), a.kids[i]? = some u → b.kids[i]? = some w → KeptAs u w) →
      Edited text a b fun p q => (p = [] ∧ q = []) ∨ ∃ i p' q', i < a.kids.length ∧ p = i :: p' ∧ q = i :: q' ∧ place i p' q'
  | cut {a b : Elem} {place : Nat → Path → Path → Prop} : a.isContainer = true → b.isContainer = true → 0 < b.kids.length → b.kids.length ≤ a.kids.length →
      (∀ (i : Nat) (u w : Elem), a.kids[i]? = some u → b.kids[i]? = some w → Edited text u w (place i)) → (∀ (i : Nat) (u w : Elem), a.kids[i]? = some u → b.kids[i]? = some w → KeptAs u w) →
      Edited text a b fun p q => (p = [] ∧ q = []) ∨ ∃ i p' q', i < b.kids.length ∧ p = i :: p' ∧ q = i :: q' ∧ place i p' q'
  | moved {a b : Elem} {s t : Nat} {place : Nat → Path → Path → Prop} : a.isContainer = true → b.isContainer = true → a.kids.length = b.kids.length → s < a.kids.length → t < a.kids.length → (s + 2 ≤ t ∨ t + 2 ≤ s) →
      (∀ (k : Nat) (u w : Elem), a.kids[beyond s k]? = some u → b.kids[beyond t k]? = some w → Edited text u w (place k)) → (∀ (k : Nat) (u w : Elem), a.kids[beyond s k]? = some u → b.kids[beyond t k]? = some w → KeptAs u w) →
      (∀ (i j : Nat) (u w : Elem), a.kids[i]? = some u → b.kids[j]? = some w → (∀ k, ¬ (i = beyond s k ∧ j = beyond t k)) → ¬ (i = s ∧ j = t) → ¬ Facing text u w 0) →
      Edited text a b fun p q => (p = [] ∧ q = []) ∨ ∃ k p' q', k + 1 < a.kids.length ∧ p = beyond s k :: p' ∧ q = beyond t k :: q' ∧ place k p' q'

end Verif.Spec
