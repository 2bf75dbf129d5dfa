import Verif.Props.Loop
/-! # C80, C83 exactly -/
namespace Verif.Props
open Verif.Model Verif.Model.Search Verif.Model.Loop Verif.Spec.Keys

section
variable {σ : Type} (env : Loop.Env) (V : Loop.View σ)

/-- After a signal, the program that waits as `m` does so still after the event `e`: after a timeout, a signal, a new size the view can be drawn in; after a key with Control, or `/`
pressed alone; in the prompt, after every key but Enter and Escape. -/
def WaitsOn (m : Wait σ) : Event → Prop
  | .timeout => True
  | .stop => True
  | .resize cols rows => ∃ s, V.resize cols rows m.view = some (.next s)
  | .code c => if m.prompt = none then Control env c ∨ (m.seq = [] ∧ name env c = b!"/") else c ≠ c%'\n' ∧ c ≠ c%'\r' ∧ c ≠ 27

/-- **C80, exactly.** After the signal the view goes on waiting exactly for as long as one of these events comes (`WaitsOn`): with every other one it ends, unless it
crashes or has no end: never does it wait again. -/
theorem C80_exactly_partial (m : Wait σ) (es : List Event) (m' : Wait σ) (h : run env V (.stop :: es) m = .waits m') (e : Event) :
    (WaitsOn env V m' e ↔ ∃ m'', run env V (.stop :: es ++ [e]) m = .waits m'') ∧
    (∀ c command, e = .code c → m'.prompt = none → ¬ WaitsOn env V m' e → keyname env.other (toupper c) ≠ none →
      command = (if m'.seq = [] then name env c else m'.seq ++ b!"-" ++ name env c) →
      (run env V (.stop :: es ++ [e]) m = .ended ↔ V.key command none m'.view = some .quit ∨ ∃ s, V.key command none m'.view = some (.next s))) := by
  have h0 : run env V es { m with stopped := true } = .waits m' := h
  obtain ⟨h1, -⟩ := run_stopped env V es (m := { m with stopped := true }) rfl h0
  rw [run_snoc env V h]
  constructor
  · cases e with
    | timeout => exact ⟨fun _ => ⟨m', rfl⟩, fun _ => trivial⟩
    | stop => exact ⟨fun _ => ⟨_, rfl⟩, fun _ => trivial⟩
    | resize cols rows =>
      unfold WaitsOn
      rw [step]
      cases hv : V.resize cols rows m'.view with
      | none => simp [hv]
      | some a => cases a <;> simp [hv]
    | code c =>
      unfold WaitsOn
      rw [step]
      cases hp : m'.prompt with
      | none =>
        simp only [if_true]
        unfold readCode
        cases hk : keyname env.other (toupper c) with
        | none => simp [Control, name, hk]
        | some nm =>
          simp only
          by_cases hh : nm.head? = some c%'^'
          · rw [if_pos hh]
            refine ⟨fun _ => ⟨_, rfl⟩, fun _ => .inl ?_⟩
            cases nm with
            | nil => cases hh
            | cons a t => cases hh; exact ⟨t, hk⟩
          · rw [if_neg hh]
            unfold press
            by_cases hs : (if m'.seq.isEmpty = true then [] else m'.seq ++ b!"-") ++ nm = b!"/"
            · rw [if_pos hs]
              refine ⟨fun _ => ⟨_, rfl⟩, fun _ => .inr ?_⟩
              cases hq : m'.seq with
              | nil => rw [hq] at hs; exact ⟨rfl, by simpa [name, hk] using hs⟩
              | cons a l =>
                rw [hq] at hs
                have := congrArg List.length hs
                simp at this
            · rw [if_neg hs, h1]
              refine ⟨?_, fun ⟨m'', hr⟩ => absurd hr (answer_stopped _ _)⟩
              rintro (⟨t, ht⟩ | ⟨hq, hn⟩)
              · rw [hk] at ht; cases ht; exact absurd rfl hh
              · refine absurd ?_ hs
                rw [hq]
                simpa [name, hk] using hn
      | some line =>
        simp only [reduceCtorEq, if_false]
        unfold promptCode
        by_cases hc1 : c = c%'\n' ∨ c = c%'\r'
        · rw [if_pos hc1]
          refine ⟨fun ⟨a, b, _⟩ => ?_, fun ⟨m'', hr⟩ => absurd hr (leave_stopped env V h1)⟩
          rcases hc1 with h | h
          · exact absurd h a
          · exact absurd h b
        · rw [if_neg hc1]
          rw [not_or] at hc1
          by_cases hc2 : c = 8 ∨ c = 127
          · rw [if_pos hc2]
            exact ⟨fun _ => ⟨_, rfl⟩, fun _ => ⟨hc1.1, hc1.2, by omega⟩⟩
          · rw [if_neg hc2]
            by_cases hc3 : c = 27
            · rw [if_pos hc3]
              exact ⟨fun h => absurd hc3 h.2.2, fun ⟨m'', hr⟩ => absurd hr (leave_stopped env V h1)⟩
            · rw [if_neg hc3]
              exact ⟨fun _ => ⟨_, rfl⟩, fun _ => ⟨hc1.1, hc1.2, hc3⟩⟩
  · rintro c command rfl hp hno hk hcom
    obtain ⟨nm, hk⟩ := Option.ne_none_iff_exists'.mp hk
    rw [WaitsOn, if_pos hp, not_or] at hno
    have hh : nm.head? ≠ some c%'^' := by
      intro hh
      cases nm with
      | nil => cases hh
      | cons a t => cases hh; exact hno.1 ⟨t, hk⟩
    have hnm : name env c = nm := by simp [name, hk]
    have hseq : (if m'.seq.isEmpty = true then [] else m'.seq ++ b!"-") ++ nm = command := by
      rw [hcom, hnm]
      cases m'.seq <;> simp
    rw [step]
    simp only [hp]
    unfold readCode
    rw [hk]
    simp only [if_neg hh, hseq]
    unfold press
    rw [if_neg, h1]
    · unfold answer
      cases V.key command none m'.view with
      | none => simp
      | some a => cases a <;> simp
    · rintro rfl
      cases hq : m'.seq with
      | nil => rw [hq] at hseq; exact hno.2 ⟨hq, by rw [hnm]; simpa using hseq⟩
      | cons a l =>
        rw [hq] at hseq
        have := congrArg List.length hseq
        simp at this

end

/-- The view of two documents waits, gets the signal, goes on waiting for a key after Control-W, and ends with the `w` that follows. -/
example : ∀ (env : Loop.Env) (V : Loop.View Nat), (∀ nm p s, V.key nm p s = some (.next (s + 1))) →
    ∃ m', run env V [.stop, .code 23] (begin 0) = .waits m' ∧ m'.seq = b!"^W" ∧ ¬ WaitsOn env V m' (.code c%'w') ∧ run env V [.stop, .code 23, .code c%'w'] (begin 0) = .ended := by
  intro env V hV
  have hw : keyname env.other (toupper c%'w') = some b!"W" := rfl
  refine ⟨⟨0, b!"^W", true, none⟩, rfl, rfl, ?_, ?_⟩
  · unfold WaitsOn Control
    simp [name, hw]
  · simp [run, step, readCode, press, begin, keyname, toupper, hV, answer]

/-! ## C83 -/

theorem typed_one {env : Loop.Env} {c : Nat} (h : Spec.Keys.Plain env c) : Spec.Keys.Typed env [c] (name env c) :=
  ⟨⟨[], c, rfl, fun _ h => (by cases h), h⟩, rfl⟩

/-- The names that begin with `^` of the commands of the diff view. -/
theorem control_command {a b : Bytes} (h : c%'^' :: a ++ b!"-" ++ b ∈ commands) : a = b!"W" ∧ b ∈ [b!"W", b!"KEY_RIGHT", b!"L", b!"KEY_LEFT", b!"H"] := by
  simp only [commands, List.mem_cons, List.not_mem_nil, or_false] at h
  rcases a with - | ⟨a1, - | ⟨a2, a⟩⟩
  · simp at h
  · simp at h ⊢
    simpa [and_or_left] using h
  · exfalso
    simp at h
    rcases h with ⟨-, rfl, h⟩ | ⟨-, rfl, h⟩ | ⟨-, rfl, h⟩ | ⟨-, rfl, h⟩ | ⟨-, rfl, h⟩ <;>
    · have := congrArg (c%'-' ∈ ·) h
      simp at this

theorem control_name {env : Loop.Env} {c : Nat} (h : Control env c) : ∃ a, name env c = c%'^' :: a := by
  obtain ⟨a, ha⟩ := h
  exact ⟨a, by simp [name, ha]⟩

theorem typed_two {env : Loop.Env} {c d : Nat} (hc : Control env c) (hd : Spec.Keys.Plain env d) : Spec.Keys.Typed env [c, d] (name env c ++ b!"-" ++ name env d) :=
  ⟨⟨[c], d, rfl, fun _ h => (by simp at h; subst h; exact hc), hd⟩, rfl⟩

theorem q_plain (env : Loop.Env) : Spec.Keys.Plain env c%'q' := ⟨b!"Q", rfl, by decide⟩

theorem q_ends (env : Loop.Env) : (∀ tui n s, run env (single tui n) [.code c%'q'] (begin s) = .ended) ∧ (∀ split n k s, run env (double split n k) [.code c%'q'] (begin s) = .ended) :=
  ⟨fun _ _ _ => rfl, fun _ _ _ _ => rfl⟩

/-- **C83, exactly.** A key that is not bound to a command has no effect, neither on what is shown nor on the keys that follow, exactly if its name does not begin with `^`
(Escape, Tab, keys with Control, and `^` itself do). After such a key `q` does not end the view; and unless it is Control-W in the diff view, what it takes away is the next
key of another kind, and no more. (A key without a name would end the program.) -/
theorem C83_exactly_partial (env : Loop.Env) (c : Nat) (hc : name env c ∉ commands) (hn : keyname env.other (toupper c) ≠ none) :
    (Spec.Keys.Plain env c →
      (∀ tui n s es, run env (single tui n) (.code c :: es) (begin s) = run env (single tui n) es (begin s)) ∧
      (∀ split n k s es, run env (double split n k) (.code c :: es) (begin s) = run env (double split n k) es (begin s))) ∧
    (¬ Spec.Keys.Plain env c →
      (∀ tui n s, run env (single tui n) [.code c%'q'] (begin s) = .ended ∧ run env (single tui n) [.code c, .code c%'q'] (begin s) = .waits (begin s)) ∧
      (∀ split n k s, run env (double split n k) [.code c%'q'] (begin s) = .ended ∧ run env (double split n k) [.code c, .code c%'q'] (begin s) = .waits (begin s)) ∧
      ∀ d, Spec.Keys.Plain env d →
        (∀ tui n s es, run env (single tui n) (.code c :: .code d :: es) (begin s) = run env (single tui n) es (begin s)) ∧
        (name env c ≠ b!"^W" →
          ∀ split n k s es, run env (double split n k) (.code c :: .code d :: es) (begin s) = run env (double split n k) es (begin s))) := by
  constructor
  · intro hp
    exact ⟨fun tui n s es => (C83_unbound_partial env [c] _ (typed_one hp) hc es).1 tui n s, fun split n k s es => (C83_unbound_partial env [c] _ (typed_one hp) hc es).2 split n k s⟩
  · intro hp
    have hctl : Control env c := by
      obtain ⟨nm, hk⟩ := Option.ne_none_iff_exists'.mp hn
      refine Classical.byContradiction fun hno => hp ⟨nm, hk, fun hh => hno ?_⟩
      cases nm with
      | nil => cases hh
      | cons a t => cases hh; exact ⟨t, hk⟩
    obtain ⟨a, ha⟩ := control_name hctl
    have hq : name env c ++ b!"-" ++ name env c%'q' ∉ commands := by
      rw [ha]
      intro hmem
      have := (control_command hmem).2
      revert this
      rw [show name env c%'q' = b!"Q" from rfl]
      decide
    refine ⟨fun tui n s => ⟨(q_ends env).1 tui n s, ?_⟩, fun split n k s => ⟨(q_ends env).2 split n k s, ?_⟩, fun d hd => ⟨fun tui n s es => ?_, fun hw split n k s es => ?_⟩⟩
    · exact (C83_unbound_partial env [c, c%'q'] _ (typed_two hctl (q_plain env)) hq []).1 tui n s
    · exact (C83_unbound_partial env [c, c%'q'] _ (typed_two hctl (q_plain env)) hq []).2 split n k s
    · have hne : name env c ++ b!"-" ++ name env d ≠ b!"/" := by
        rw [ha]; intro h; cases h
      have hrun := run_append env (single tui n) ([c, d].map .code) es (begin s)
      rw [run_typed env _ (typed_two hctl hd) (begin s) rfl rfl, press, if_neg hne, show (begin s).view = s from rfl] at hrun
      have : (single tui n).key (name env c ++ b!"-" ++ name env d) none s = some (.next s) := by
        rw [ha]
        simp only [single, Tui.step, Tui.evalKey]
        simp
      rw [this] at hrun
      exact hrun
    · refine (C83_unbound_partial env [c, d] _ (typed_two hctl hd) ?_ es).2 split n k s
      rw [ha]
      intro hmem
      have := (control_command hmem).1
      rw [this] at ha
      exact hw ha

/-- Escape is such a key, `x` is one of the others. -/
example : name loopEnv 27 ∉ commands ∧ keyname loopEnv.other (toupper 27) ≠ none ∧ ¬ Spec.Keys.Plain loopEnv 27 ∧ name loopEnv 27 ≠ b!"^W" ∧ name loopEnv c%'x' ∉ commands ∧
    Spec.Keys.Plain loopEnv c%'x' := by
  refine ⟨by decide, by decide, ?_, by decide, by decide, ⟨b!"X", rfl, by decide⟩⟩
  rintro ⟨t, ht, hno⟩
  cases ht
  exact hno rfl

end Verif.Props
