import Verif.Lemmas.WrappedBuffer
/-!
# Lemmas: sequences of operations on the ring buffer
-/
namespace Verif.Lemmas
open Verif.Model Verif.Spec
variable {T : Type} {SIZE : Nat}

/-- Read position after a write (`jp = false`), or at most one `pop_back` later (`jp = true`). -/
def Shape (jp : Bool) (b : WBuf T SIZE) : Prop :=
  (b.curW = -1 ∧ b.curR = 0) ∨ (0 ≤ b.curW ∧ (b.curR = 0 ∨ b.curR = SIZE ∨ b.curR = b.curW + 1 ∨
    (jp = true ∧ (b.curR = b.curW + 2 ∨ (b.curR = 1 ∧ b.curW + 1 = SIZE)))))

theorem Shape.weaken {jp : Bool} {b : WBuf T SIZE} (h : Shape false b) : Shape jp b := by
  unfold Shape at *; simp at h; omega

theorem Shape.putSafe {jp : Bool} {b : WBuf T SIZE} (hi : WInv b) (h : Shape jp b) : PutSafe b := by
  unfold Shape at h; unfold PutSafe
  have := hi.cases
  omega

theorem put_shape {jp : Bool} (b : WBuf T SIZE) (x : T) (hs : 0 < SIZE) (hi : WInv b) (h : Shape jp b) : Shape false (b.put x) := by
  obtain ⟨_, hc⟩ := hi
  unfold Shape at *
  unfold WBuf.put
  dsimp only
  split
  · dsimp only; omega
  · split
    · dsimp only; omega
    · split
      · dsimp only; split <;> omega
      · dsimp only; omega

theorem pop_shape (b : WBuf T SIZE) (hi : WInv b) (h : Shape false b) : Shape true b.popBack := by
  obtain ⟨_, hc⟩ := hi
  unfold Shape at *
  simp only [Bool.false_eq_true, false_and, or_false, true_and] at *
  unfold WBuf.popBack WBuf.size
  dsimp only
  repeat' split
  all_goals try dsimp only
  all_goals omega

theorem putN_shape {jp : Bool} (b : WBuf T SIZE) (xs : List T) (hs : 0 < SIZE) (hx : xs.length ≤ SIZE) (hne : 0 < xs.length) (hi : WInv b)
    (h : Shape jp b) : Shape false (b.putN xs) := by
  have hsz : b.size = if b.curW = -1 then 0 else if b.curR > b.curW then ((SIZE : Int) - b.curR + b.curW + 1).toNat
    else (b.curW - b.curR + 1).toNat := rfl
  obtain ⟨_, hc⟩ := hi
  obtain ⟨buf, r, w, wr⟩ := b
  unfold Shape at *
  simp only [Bool.false_eq_true, false_and, or_false] at *
  unfold WBuf.putN
  simp only [skipBlocks_small _ xs hx]
  rw [if_neg (by omega)]
  generalize (⟨buf, r, w, wr⟩ : WBuf T SIZE).size = sz at *
  have key : ∀ w' : Int, 0 ≤ w' → w' < SIZE → (sz + xs.length ≥ SIZE ∨ w' = w + xs.length) → 
      (∀ bf, let b' : WBuf T SIZE := (if w' = (SIZE : Int) then { buffer := bf, curR := 1, curW := 0, written := (wr + xs.length) % WBuf.uintMod }
        else if sz + xs.length ≥ SIZE then
          { buffer := bf, curR := (w' + 1) % (SIZE : Int), curW := w', written := (wr + xs.length) % WBuf.uintMod }
        else { buffer := bf, curR := r, curW := w', written := (wr + xs.length) % WBuf.uintMod })
       b'.curW = -1 ∧ b'.curR = 0 ∨ 0 ≤ b'.curW ∧ (b'.curR = 0 ∨ b'.curR = SIZE ∨ b'.curR = b'.curW + 1)) := by
    intro w' h0 h1 h2 bf
    dsimp only
    rw [if_neg (by omega)]
    split
    · dsimp only
      right
      refine ⟨h0, ?_⟩
      by_cases e : w' + 1 = SIZE
      · left; rw [e]; exact Int.emod_self
      · right; right; exact Int.emod_eq_of_lt (by omega) (by omega)
    · dsimp only
      right
      refine ⟨h0, ?_⟩
      repeat' split at hsz
      all_goals omega
  by_cases h1 : w + (xs.length : Int) ≥ SIZE
  · have hbig : sz + xs.length ≥ SIZE := by
      repeat' split at hsz
      all_goals omega
    rw [if_pos h1]
    by_cases h2 : w + 1 ≠ (SIZE : Int)
    · rw [if_pos h2]
      simp only [List.length_drop]
      exact key (-1 + ((xs.length - ((SIZE:Int) - w - 1).toNat : Nat) : Int)) (by omega) (by omega) (Or.inl hbig) _
    · rw [if_neg h2]
      exact key (-1 + (xs.length : Int)) (by omega) (by omega) (Or.inl hbig) _
  · rw [if_neg h1]
    exact key (w + (xs.length : Int)) (by omega) (by omega) (Or.inr rfl) _

theorem reset_toString (b : WBuf T SIZE) : b.reset.toString = [] := by
  simp [WBuf.reset, WBuf.toString, WBuf.size]

theorem reset_inv (b : WBuf T SIZE) (h : b.buffer.length = SIZE) : WInv b.reset := ⟨h, Or.inl ⟨rfl, rfl⟩⟩

end Verif.Lemmas
