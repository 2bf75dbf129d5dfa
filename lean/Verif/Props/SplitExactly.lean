import Verif.Props.SplitMoves
import Verif.Props.TuiExactly
/-! # C111, what Down does where it does not select the next item -/
namespace Verif.Props
open Verif.Model Verif.Model.Search Verif.Model.Diff Verif.Model.Split Verif.Spec Verif.Spec.SplitView Verif.Spec.SplitMoves Verif.Spec.SplitFold Verif.Lemmas Verif.Lemmas.Split
open Verif.Model.Nav (findNextRev)

/-- **C111, everywhere.** In the diff view, in every state that is reached and completely drawn, with a displayed item at `p` selected in the active window, and `r` the next
displayed item: Down selects `r`; or `r` does not begin on the screen, and Down goes to the first element behind `p` inside of the same object entries (which leaves out what is
in `p`), and where there is none it stays on `p`. -/
theorem C111_exactly_partial (env : Env) (n k cols rows : Nat) (ok : St → Split.Input → Prop) (s t : St) (hr : Reached env n k cols rows ok s) (hd : Settled env n k s)
    (A B : List Path) (p r : Path) (hsel : s.active.sel = some (ptr (activeSide s) p)) (hvis : shownIn env (activeSide s) s = A ++ p :: r :: B)
    (name : Bytes) (pat : Option Pattern) (hn : name = b!"J" ∨ name = b!"KEY_DOWN") (h : step env n k (.key name pat) s = some (.nextInput t)) :
    t.active.sel = some (ptr (activeSide s) r) ∨
      (¬ OnScreen s.active (ptr (activeSide s) r) ∧
        ((∃ x, FirstBehind (env.root (activeSide s)) p x ∧ t.active.sel = some (ptr (activeSide s) x)) ∨
          ((¬ ∃ x, FirstBehind (env.root (activeSide s)) p x) ∧ t.active.sel = some (ptr (activeSide s) p)))) := by
  have hpm : p ∈ shownIn env (activeSide s) s := by rw [hvis]; simp
  have hpe := ((mem_visible _ _ _).mp hpm).1
  have hBlt : ∀ x ∈ r :: B, p < x := by
    have hs := visible_sorted (fun q => decide (ptr (activeSide s) q ∈ s.collapsed)) (env.root (activeSide s))
    unfold shownIn at hvis
    rw [hvis, List.pairwise_append] at hs
    exact (List.pairwise_cons.mp hs.2.1).1
  have hk : evalKey env n name pat s = some (selectDown env s) := by rcases hn with rfl | rfl <;> rfl
  unfold selectDown at hk
  obtain ⟨-, ⟨q, B', hB, hdn⟩ | ⟨hno, hdn⟩⟩ := settled_pointers hr hd hsel hvis
  · rw [hdn] at hk
    have := (set_step hk h).2.2.1
    left
    rw [this, (List.cons.inj hB).1]
  · cases hf : firstChild env s.view s.active with
    | some c =>
      left
      have hf' := hf
      unfold firstChild at hf
      rw [hsel] at hf
      dsimp only at hf
      split at hf
      · next hcond =>
        simp only [Bool.and_eq_true, decide_eq_true_eq, Bool.not_eq_true'] at hcond
        have hfill := env_filled.mpr hcond.1
        obtain ⟨x, hx1, hx2, hx3⟩ := hfill
        have hcol : decide (ptr (activeSide s) p ∈ s.collapsed) = false := by
          rw [← List.contains_eq_mem]
          exact hcond.2
        have hkid := kid_visible hpm hx1 hx2 hcol hx3
        obtain ⟨B', hB⟩ := next_shown hvis hkid.1 hkid.2 (fun r hr => kid_first (hBlt r hr))
        have hc : c = ptr (activeSide s) (p ++ [0]) := by
          rw [← Option.some.inj hf]
          cases activeSide s <;> rfl
        rw [hdn, hf', hc] at hk
        have := (set_step hk h).2.2.1
        rw [this, (List.cons.inj hB).1]
        rfl
      · cases hf
    | none =>
      right
      refine ⟨hno r List.mem_cons_self, ?_⟩
      rw [hdn, hf, env_next] at hk
      have hk' : evalKey env n name pat s = some (.redraw (setSelection env (some (ptr (activeSide s) ((Nav.findNext (env.root (activeSide s)) p).getD p))) s)) := by
        rw [hk]
        cases Nav.findNext (env.root (activeSide s)) p <;> rfl
      have h3 := (set_step hk' h).2.2.1
      have hbehind : ∀ x, Nav.findNext (env.root (activeSide s)) p = some x ↔ FirstBehind (env.root (activeSide s)) p x := fun x => C43_exactly_partial _ p x hpe
      cases hq : Nav.findNext (env.root (activeSide s)) p with
      | none => exact .inr ⟨fun ⟨x, hx⟩ => (by rw [(hbehind x).mpr hx] at hq; cases hq), by rw [h3, hq]; rfl⟩
      | some x => exact .inl ⟨x, (hbehind x).mp hq, by rw [h3, hq]; rfl⟩

/-- The case of `C111_down_false`: from the entry `a` Down goes to the entry `b`, the first element behind it. -/
example : ∃ s t, Reached downDocs 60 60 80 6 noSearch s ∧ Settled downDocs 60 60 s ∧ s.active.sel = some (ptr (activeSide s) [0]) ∧
    shownIn downDocs (activeSide s) s = [[]] ++ [0] :: [[0, 0, 0], [0, 0, 1], [1]] ∧
    step downDocs 60 60 (skey b!"J") s = some (.nextInput t) ∧ t.active.sel = some (ptr (activeSide s) [1]) := C111_down_false.1

end Verif.Props
