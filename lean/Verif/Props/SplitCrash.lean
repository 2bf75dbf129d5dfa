import Verif.Lemmas.SplitCrash
import Verif.Props.Split
/-! # C75: exactly when the diff view crashes -/
namespace Verif.Props
open Verif.Model Verif.Model.Search Verif.Model.Diff Verif.Model.Split Verif.Spec.SplitView Verif.Lemmas.Split

/-- **C75, exactly.** In every session, searches included: an input crashes the diff view exactly if it is `Up` or `Down`, or `Right` on an open container that is
not empty, and the active window does not know where that goes; and this happens only while the message of a search stands over a screen that
was not drawn completely. So no input crashes it after a new size of the terminal, nor does the first input. -/
theorem C75_exactly_partial (env : Env) (n k cols rows : Nat) (s : St) (h : Reached env n k cols rows anyInput s) :
    (∀ i a, step env n k i s = some a → (a = .crash ↔ ∃ name pat, i = .key name pat ∧ ToNothing env name s)) ∧
    (∀ i, step env n k i s = some .crash → UnderMessage env n k cols rows anyInput s) ∧
    (∀ c r t i, step env n k (.resize c r) s = some (.nextInput t) → step env n k i t ≠ some .crash) := by
  have hx := has_reached h
  refine ⟨fun i a hs => crash_iff hx hs, fun i hs => ?_, fun c r t i hs hc => ?_⟩
  · obtain ⟨name, pat, _, ht⟩ := (crash_iff hx hs).mp rfl
    rcases poised_reached h with hp | hu
    · obtain ⟨h1, h2⟩ := poised_active hp
      rcases ht with ⟨_, ht⟩ | ⟨_, ht⟩ | ⟨_, ht, _⟩
      · exact absurd ht h1
      · exact absurd ht h2
      · exact absurd ht h2
    · exact hu
  · have ht := Reached.input _ h (by trivial) hs
    obtain ⟨name, pat, _, hn⟩ := (crash_iff (has_reached ht) hc).mp rfl
    rcases step_cases hs with ⟨c', r', hi, hst⟩ | ⟨name, pat, hi, _⟩
    · obtain ⟨h1, h2⟩ := poised_active (s := t) ⟨(settle_knows hst).1 hx.last0, (settle_knows hst).2 hx.last1⟩
      rcases hn with ⟨_, hn⟩ | ⟨_, hn⟩ | ⟨_, hn, _⟩
      · exact absurd hn h1
      · exact absurd hn h2
      · exact absurd hn h2
    · cases hi

/-- A session with such a message: `Down` crashes, a new size of the terminal does not and repairs it. -/
example : ∃ s, Reached differing 50 50 80 5 anyInput s ∧ step differing 50 50 (skey b!"J") s = some .crash ∧
    ∃ t, step differing 50 50 (.resize 80 5) s = some (.nextInput t) := by
  obtain ⟨s, hs, hp⟩ := session_some (env := differing) (n := 50) (k := 50) (cols := 80) (rows := 5) (l := [sfind b!"x"])
    (p := fun s => decide (step differing 50 50 (skey b!"J") s = some .crash) && (step differing 50 50 (.resize 80 5) s).any (fun a => match a with | .nextInput _ => true | _ => false)) (by decide +kernel)
  rw [Bool.and_eq_true] at hp
  refine ⟨s, reached_from _ (fun _ _ _ => trivial) hs, of_decide_eq_true hp.1, ?_⟩
  cases hr : step differing 50 50 (.resize 80 5) s with
  | none => rw [hr] at hp; cases hp.2
  | some a =>
    rw [hr] at hp
    cases a with
    | nextInput t => exact ⟨t, rfl⟩
    | redraw t => cases hp.2
    | quit => cases hp.2
    | crash => cases hp.2

end Verif.Props
