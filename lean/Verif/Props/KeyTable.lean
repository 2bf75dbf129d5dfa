import Verif.Props.Loop
import Verif.Spec.KeyTable
/-! # C109: the keys and their commands -/
namespace Verif.Props
open Verif.Model Verif.Model.Search Verif.Model.Loop Verif.Spec.Keys Verif.Spec.KeyTable

/-- What the codes of a command of the table come to, in any view. -/
theorem table_press {σ : Type} (env : Loop.Env) (V : Loop.View σ) {keys : List Nat} {a : Action} (h : (keys, a) ∈ table) (s : σ) :
    ∃ name, run env V (keys.map .code) (begin s) = answer (V.key name none s) false ∧ (name = a.word ∨ (a = .up ∧ name = b!"K") ∨ (a = .down ∧ name = b!"J") ∨
      (a = .right ∧ name = b!"L") ∨ (a = .left ∧ name = b!"H") ∨ (a = .rightWindow ∧ name = b!"^W-L") ∨ (a = .leftWindow ∧ name = b!"^W-H")) := by
  simp only [table, List.mem_cons, Prod.mk.injEq, List.not_mem_nil, or_false] at h
  rcases h with ⟨rfl, rfl⟩ | ⟨rfl, rfl⟩ | ⟨rfl, rfl⟩ | ⟨rfl, rfl⟩ | ⟨rfl, rfl⟩ | ⟨rfl, rfl⟩ | ⟨rfl, rfl⟩ | ⟨rfl, rfl⟩ | ⟨rfl, rfl⟩ | ⟨rfl, rfl⟩ | ⟨rfl, rfl⟩ | ⟨rfl, rfl⟩ |
    ⟨rfl, rfl⟩ | ⟨rfl, rfl⟩ | ⟨rfl, rfl⟩ | ⟨rfl, rfl⟩ | ⟨rfl, rfl⟩ | ⟨rfl, rfl⟩ | ⟨rfl, rfl⟩ | ⟨rfl, rfl⟩ | ⟨rfl, rfl⟩ | ⟨rfl, rfl⟩ | ⟨rfl, rfl⟩ | ⟨rfl, rfl⟩ | ⟨rfl, rfl⟩ | ⟨rfl, rfl⟩
  · exact ⟨b!"Q", (run_one env V _ (begin s)).trans rfl, by decide⟩
  · exact ⟨b!"Q", (run_one env V _ (begin s)).trans rfl, by decide⟩
  · exact ⟨b!"K", (run_one env V _ (begin s)).trans rfl, by decide⟩
  · exact ⟨b!"K", (run_one env V _ (begin s)).trans rfl, by decide⟩
  · exact ⟨b!"KEY_UP", (run_one env V _ (begin s)).trans rfl, by decide⟩
  · exact ⟨b!"J", (run_one env V _ (begin s)).trans rfl, by decide⟩
  · exact ⟨b!"J", (run_one env V _ (begin s)).trans rfl, by decide⟩
  · exact ⟨b!"KEY_DOWN", (run_one env V _ (begin s)).trans rfl, by decide⟩
  · exact ⟨b!"KEY_PPAGE", (run_one env V _ (begin s)).trans rfl, by decide⟩
  · exact ⟨b!"KEY_NPAGE", (run_one env V _ (begin s)).trans rfl, by decide⟩
  · exact ⟨b!"L", (run_one env V _ (begin s)).trans rfl, by decide⟩
  · exact ⟨b!"L", (run_one env V _ (begin s)).trans rfl, by decide⟩
  · exact ⟨b!"KEY_RIGHT", (run_one env V _ (begin s)).trans rfl, by decide⟩
  · exact ⟨b!"H", (run_one env V _ (begin s)).trans rfl, by decide⟩
  · exact ⟨b!"H", (run_one env V _ (begin s)).trans rfl, by decide⟩
  · exact ⟨b!"KEY_LEFT", (run_one env V _ (begin s)).trans rfl, by decide⟩
  · exact ⟨b!"N", (run_one env V _ (begin s)).trans rfl, by decide⟩
  · exact ⟨b!"N", (run_one env V _ (begin s)).trans rfl, by decide⟩
  · exact ⟨b!"^W-W", (run_one env V _ { begin s with seq := b!"^W" }).trans rfl, by decide⟩
  · exact ⟨b!"^W-W", (run_one env V _ { begin s with seq := b!"^W" }).trans rfl, by decide⟩
  · exact ⟨b!"^W-L", (run_one env V _ { begin s with seq := b!"^W" }).trans rfl, by decide⟩
  · exact ⟨b!"^W-L", (run_one env V _ { begin s with seq := b!"^W" }).trans rfl, by decide⟩
  · exact ⟨b!"^W-KEY_RIGHT", (run_one env V _ { begin s with seq := b!"^W" }).trans rfl, by decide⟩
  · exact ⟨b!"^W-H", (run_one env V _ { begin s with seq := b!"^W" }).trans rfl, by decide⟩
  · exact ⟨b!"^W-H", (run_one env V _ { begin s with seq := b!"^W" }).trans rfl, by decide⟩
  · exact ⟨b!"^W-KEY_LEFT", (run_one env V _ { begin s with seq := b!"^W" }).trans rfl, by decide⟩

theorem obey_one {σ : Type} (V : Loop.View σ) (name : Bytes) (s : σ) : answer (V.key name none s) false = obey V [(name, none)] s := by
  unfold answer
  simp only [obey]
  cases V.key name none s with
  | none => rfl
  | some a => cases a <;> rfl

/-- **C109.** Typed with any pauses when no other key is pending, the keys of the table are the command the table says, in both views: one command, whichever of its keys is
typed. `q` ends the view, whatever its state. -/
theorem C109_keys (env : Loop.Env) (keys : List Nat) (a : Action) (h : (keys, a) ∈ table) (es : List Event) (hes : es.filter (· ≠ .timeout) = keys.map .code) :
    (∀ tui n s, run env (single tui n) es (begin s) = obey (single tui n) [(a.word, none)] s) ∧
    (∀ split n k s, run env (double split n k) es (begin s) = obey (double split n k) [(a.word, none)] s) ∧
    (a = .quit → (∀ tui n s, run env (single tui n) es (begin s) = .ended) ∧ ∀ split n k s, run env (double split n k) es (begin s) = .ended) := by
  have h1 : ∀ tui n s, run env (single tui n) es (begin s) = obey (single tui n) [(a.word, none)] s := by
    intro tui n s
    rw [run_timeouts, hes]
    obtain ⟨name, hr, hn⟩ := table_press env (single tui n) h s
    rw [hr, obey_one]
    rcases hn with rfl | ⟨rfl, rfl⟩ | ⟨rfl, rfl⟩ | ⟨rfl, rfl⟩ | ⟨rfl, rfl⟩ | ⟨rfl, rfl⟩ | ⟨rfl, rfl⟩ <;> rfl
  have h2 : ∀ split n k s, run env (double split n k) es (begin s) = obey (double split n k) [(a.word, none)] s := by
    intro split n k s
    rw [run_timeouts, hes]
    obtain ⟨name, hr, hn⟩ := table_press env (double split n k) h s
    rw [hr, obey_one]
    rcases hn with rfl | ⟨rfl, rfl⟩ | ⟨rfl, rfl⟩ | ⟨rfl, rfl⟩ | ⟨rfl, rfl⟩ | ⟨rfl, rfl⟩ | ⟨rfl, rfl⟩ <;> rfl
  refine ⟨h1, h2, ?_⟩
  rintro rfl
  exact ⟨fun tui n s => by rw [h1]; rfl, fun split n k s => by rw [h2]; rfl⟩

/-- Control-W, a pause, and the right arrow key. -/
example : ([23, 261], Action.rightWindow) ∈ table ∧ [Event.code 23, .timeout, .code 261].filter (· ≠ .timeout) = [23, 261].map .code := ⟨by decide, by decide⟩

end Verif.Props
