import Verif.Model.Reader
/-!
# Lemmas: decidable equality of documents and outcomes, so that examples can be computed by the kernel
-/
namespace Verif.Lemmas
open Verif.Model

mutual
def jbeq : Json → Json → Bool
  | .str a, .str b => decide (a = b)
  | .bool a, .bool b => decide (a = b)
  | .null, .null => true
  | .int a, .int b => decide (a = b)
  | .long a, .long b => decide (a = b)
  | .dbl a, .dbl b => decide (a = b)
  | .arr a, .arr b => jbeqs a b
  | .obj a, .obj b => jbeqe a b
  | _, _ => false
def jbeqs : List Json → List Json → Bool
  | [], [] => true
  | x :: xs, y :: ys => jbeq x y && jbeqs xs ys
  | _, _ => false
def jbeqe : List (Bytes × Json) → List (Bytes × Json) → Bool
  | [], [] => true
  | (k, x) :: xs, (l, y) :: ys => decide (k = l) && (jbeq x y && jbeqe xs ys)
  | _, _ => false
end

mutual
theorem jbeq_iff : (a b : Json) → (jbeq a b = true ↔ a = b)
  | .str a, b => by cases b <;> simp [jbeq]
  | .bool a, b => by cases b <;> simp [jbeq]
  | .null, b => by cases b <;> simp [jbeq]
  | .int a, b => by cases b <;> simp [jbeq]
  | .long a, b => by cases b <;> simp [jbeq]
  | .dbl a, b => by cases b <;> simp [jbeq]
  | .arr a, b => by cases b <;> simp [jbeq, jbeqs_iff a]
  | .obj a, b => by cases b <;> simp [jbeq, jbeqe_iff a]
theorem jbeqs_iff : (a b : List Json) → (jbeqs a b = true ↔ a = b)
  | [], b => by cases b <;> simp [jbeqs]
  | x :: xs, b => by cases b <;> simp [jbeqs, jbeq_iff x, jbeqs_iff xs]
theorem jbeqe_iff : (a b : List (Bytes × Json)) → (jbeqe a b = true ↔ a = b)
  | [], b => by cases b <;> simp [jbeqe]
  | (k, x) :: xs, b => by
    rcases b with _ | ⟨⟨l, y⟩, ys⟩
    · simp [jbeqe]
    · simp [jbeqe, jbeq_iff x, jbeqe_iff xs, and_assoc]
end

instance : DecidableEq Json := fun a b => decidable_of_iff _ (jbeq_iff a b)

deriving instance DecidableEq for Tok
deriving instance DecidableEq for Out

/-- Whether an outcome is a return of `a`. -/
def returns {α : Type} [DecidableEq α] (o : Out α) (a : α) (p : St → Bool := fun _ => true) : Bool :=
  match o with
  | .ret b s => decide (b = a) && p s
  | _ => false

theorem returns_sound {α : Type} [DecidableEq α] {o : Out α} {a : α} {p : St → Bool} (h : returns o a p = true) :
    ∃ s, o = .ret a s ∧ p s = true := by
  cases o <;> simp [returns] at h
  exact ⟨_, by rw [h.1], h.2⟩

/-- Whether an outcome is a thrown exception satisfying `p`. -/
def throws {α : Type} (o : Out α) (p : Exn → Bool) : Bool :=
  match o with
  | .throw e => p e
  | _ => false

theorem throws_sound {α : Type} {o : Out α} {p : Exn → Bool} (h : throws o p = true) : ∃ e, o = .throw e ∧ p e = true := by
  cases o <;> simp [throws] at h
  exact ⟨_, rfl, h⟩

end Verif.Lemmas
