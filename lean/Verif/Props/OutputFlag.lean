import Verif.Model.OutputFlag
/-! # C56: display flags -/
namespace Verif.Props
open Verif.Model Verif.Model.Diff

/-- A call that sets a flag. -/
inductive Setting where
  | selected (v : Bool)
  | searched (v : Bool)
  | type (t : Nat)
  | diffOp (e : Op)

/-- The call, carried out. -/
def Setting.run (f : OutputFlag) : Setting → OutputFlag
  | .selected v => f.setSelected v
  | .searched v => f.setSearched v
  | .type t => f.setType t
  | .diffOp e => f.setDiffOp e

/-- The last value set, by the calls `pick` selects; `start` if there is none. -/
def lastSet {α : Type} (pick : Setting → Option α) (start : α) (calls : List Setting) : α := ((calls.filterMap pick).getLast?).getD start

def Setting.asSelected : Setting → Option Bool | .selected v => some v | _ => none
def Setting.asSearched : Setting → Option Bool | .searched v => some v | _ => none
def Setting.asType : Setting → Option Nat | .type t => some t | _ => none
def Setting.asDiffOp : Setting → Option Op | .diffOp e => some e | _ => none

theorem bit_facts (m : BitVec 16) :
    ((m ||| 1#16) &&& 1#16 != 0) = true ∧ ((m &&& ~~~ 1#16) &&& 1#16 != 0) = false ∧
    ((m ||| 2#16) &&& 2#16 != 0) = true ∧ ((m &&& ~~~ 2#16) &&& 2#16 != 0) = false ∧
    (m ||| 1#16) &&& 2#16 = m &&& 2#16 ∧ (m &&& ~~~ 1#16) &&& 2#16 = m &&& 2#16 ∧
    (m ||| 2#16) &&& 1#16 = m &&& 1#16 ∧ (m &&& ~~~ 2#16) &&& 1#16 = m &&& 1#16 := by
  have e1 : ~~~ (1#16) &&& 1#16 = 0#16 := by decide
  have e2 : ~~~ (2#16) &&& 2#16 = 0#16 := by decide
  have e3 : ~~~ (1#16) &&& 2#16 = 2#16 := by decide
  have e4 : ~~~ (2#16) &&& 1#16 = 1#16 := by decide
  have d : ∀ a b : BitVec 16, (m ||| a) &&& b = (m &&& b) ||| (a &&& b) := by
    intro a b; ext i hi; simp [Bool.and_or_distrib_right]
  have nz : ∀ k, k < 16 → ∀ x : BitVec 16, x.getLsbD k = true → (x != 0) = true := by
    intro k hk x hx
    simp only [bne_iff_ne, ne_eq]
    intro h; rw [h] at hx; simp at hx
  refine ⟨nz 0 (by decide) _ (by simp), ?_, nz 1 (by decide) _ (by simp), ?_, ?_, ?_, ?_, ?_⟩
  · rw [BitVec.and_assoc, e1]; simp
  · rw [BitVec.and_assoc, e2]; simp
  · rw [d]; simp
  · rw [BitVec.and_assoc, e3]
  · rw [d]; simp
  · rw [BitVec.and_assoc, e4]

theorem lastSet_append {α : Type} (pick : Setting → Option α) (start : α) (calls : List Setting) (c : Setting) :
    lastSet pick start (calls ++ [c]) = (pick c).getD (lastSet pick start calls) := by
  unfold lastSet
  rw [List.filterMap_append, List.getLast?_append]
  cases h : pick c <;> simp [h]

/-- **C56.** After every sequence of calls that set flags, each of the four flags reads as it was last set; one that was not set reads as the
flags were created. -/
theorem C56_flags (m : BitVec 16) (calls : List Setting) :
    (calls.foldl Setting.run (OutputFlag.new m)).selected = lastSet Setting.asSelected (m.getLsbD 0) calls ∧
    (calls.foldl Setting.run (OutputFlag.new m)).searched = lastSet Setting.asSearched (m.getLsbD 1) calls ∧
    (calls.foldl Setting.run (OutputFlag.new m)).type = lastSet Setting.asType 0 calls ∧
    (calls.foldl Setting.run (OutputFlag.new m)).diffOp = lastSet Setting.asDiffOp .equ calls := by
  have hbit : ∀ k, k < 16 → (m &&& BitVec.twoPow 16 k != 0) = m.getLsbD k := by
    intro k hk
    rw [BitVec.and_twoPow]
    cases h : m.getLsbD k
    · simp
    · simp only [if_true, bne_iff_ne, ne_eq]
      intro h0
      have := congrArg (fun x : BitVec 16 => x.getLsbD k) h0
      simp [hk] at this
  rw [← List.reverse_reverse calls]
  induction calls.reverse with
  | nil => exact ⟨hbit 0 (by decide), hbit 1 (by decide), rfl, rfl⟩
  | cons c rev ih =>
    rw [List.reverse_cons]
    obtain ⟨h1, h2, h3, h4⟩ := ih
    simp only [List.foldl_append, List.foldl_cons, List.foldl_nil, lastSet_append]
    rw [← h1, ← h2, ← h3, ← h4]
    generalize rev.reverse.foldl Setting.run (OutputFlag.new m) = f
    obtain ⟨b1, b2, b3, b4, b5, b6, b7, b8⟩ := bit_facts f.mode
    cases c with
    | selected v =>
      cases v <;> refine ⟨?_, ?_, rfl, rfl⟩
      · exact b2
      · exact congrArg (· != 0) b6
      · exact b1
      · exact congrArg (· != 0) b5
    | searched v =>
      cases v <;> refine ⟨?_, ?_, rfl, rfl⟩
      · exact congrArg (· != 0) b8
      · exact b4
      · exact congrArg (· != 0) b7
      · exact b3
    | type t => exact ⟨rfl, rfl, rfl, rfl⟩
    | diffOp e => exact ⟨rfl, rfl, rfl, rfl⟩

example : (([.selected true, .searched true, .selected false, .diffOp .rem] : List Setting).foldl Setting.run (OutputFlag.new 0)) = ⟨2, 0, .rem⟩ := by decide

end Verif.Props
