import Verif.Props.Prompt
/-! # C103: the prompt after a change of size -/
namespace Verif.Props
open Verif.Model Verif.Model.Search Verif.Model.Loop Verif.Model.Prompt Verif.Model.Term Verif.Spec Verif.Spec.Keys Verif.Lemmas Verif.Lemmas.Prompt
open Verif.Model.SplitPaint (Looks Display)

theorem loop_quiet {σ : Type} {env : Loop.Env} {V : View σ} : ∀ (es : List Event) (m : Wait σ), (∀ e ∈ es, e = .timeout ∨ e = .stop) →
    ∃ m', Loop.run env V es m = .waits m' ∧ m'.view = m.view ∧ m'.prompt = m.prompt := by
  intro es
  induction es with
  | nil => intro m _; exact ⟨m, rfl, rfl, rfl⟩
  | cons e es ih =>
    intro m hq
    have hq' := fun e he => hq e (List.mem_cons_of_mem _ he)
    rcases hq e (List.mem_cons_self ..) with rfl | rfl
    · exact ih m hq'
    · exact ih { m with stopped := true } hq'

/-- After a change of size there is no difference at all. -/
theorem run_resized {σ : Type} {R Q : σ → σ → Prop} {env : Loop.Env} {V : View σ} {write : List Nat → σ → σ} (hs : Sim R Q V write)
    (hsame : ∀ c r s s0, R s s0 ∨ Q s s0 → V.resize c r s = V.resize c r s0) {es quiet : List Event} {c r : Nat} {m0 m : Wait σ} (h0 : WaitRel R Q m0 m0)
    (hq : ∀ e ∈ quiet, e = .timeout ∨ e = .stop) (h : Prompt.run env V write (es ++ .resize c r :: quiet) m0 = .waits m) :
    ∃ m', Loop.run env V (es ++ .resize c r :: quiet) m0 = .waits m' ∧ m.view = m'.view ∧ m.prompt = m'.prompt := by
  have hrel := run_rel (env := env) hs es h0
  rw [Prompt.run_append] at h
  rw [Props.run_append]
  cases h1 : Prompt.run env V write es m0 with
  | waits m1 =>
    rw [h1] at h hrel
    cases h2 : Loop.run env V es m0 with
    | waits m2 =>
      rw [h2] at hrel
      obtain ⟨-, -, g3, g4, g5⟩ := hrel
      have hv : V.resize c r m1.view = V.resize c r m2.view := by
        apply hsame
        cases hp : m1.prompt with
        | none => exact .inl (g4 hp)
        | some l => exact .inr (g5 (by rw [hp]; simp))
      simp only at h ⊢
      rw [Prompt.run] at h
      rw [Loop.run]
      unfold Prompt.step Loop.step at h
      unfold Loop.step
      simp only [hv] at h
      simp only
      cases hr : V.resize c r m2.view with
      | none => rw [hr] at h; cases h
      | some a =>
        rw [hr] at h
        cases a with
        | quit => cases h
        | crash => cases h
        | next v =>
          obtain ⟨q1, q2⟩ := run_quiet quiet hq (m := { m1 with view := v }) h
          obtain ⟨m', k1, k2, k3⟩ := loop_quiet (env := env) (V := V) quiet { m2 with view := v } hq
          exact ⟨m', k1, by rw [q1, k2], by rw [q2, k3]; exact g3⟩
    | ended => rw [h2] at hrel; exact hrel.elim
    | crash => rw [h2] at hrel; exact hrel.elim
    | unknown => rw [h2] at hrel; exact hrel.elim
  | ended => rw [h1] at h; cases h
  | crash => rw [h1] at h; cases h
  | unknown => rw [h1] at h; cases h

/-- **C103 after a change of size, partial.** In every session of each view, until the next key after a change of size, the terminal shows exactly what it would show without a prompt (and what that is, say
C87 and C94): nothing of the prompt, also while it is open. -/
theorem C103_resized_partial (env : Loop.Env) (wide : List Nat → Bytes) (es quiet : List Event) (c r : Nat) (hq : ∀ e ∈ quiet, e = .timeout ∨ e = .stop) (cols rows : Nat) :
    (∀ look tui n s t (m : Wait One), Paint.settleOn look tui n (Tui.start cols rows) ⟨cols, rows, fun _ => nothing, 0⟩ = some (.done s, t) →
      Prompt.run env (singleOn look tui n) (promptOne look wide) (es ++ .resize c r :: quiet) (begin (s, t, none)) = .waits m →
      ∃ m0, Loop.run env (singleOn look tui n) (es ++ .resize c r :: quiet) (begin (s, t, none)) = .waits m0 ∧ m.prompt = m0.prompt ∧ m.view.2.1 = m0.view.2.1 ∧
        Watches look tui anything m0.view.1 m0.view.2.1 m0.view.2.2) ∧
    (∀ look split n k s d (m : Wait Two), SplitPaint.settleOn look split n k (Split.start split cols rows) ⟨cols, rows, fun _ _ => nothing⟩ = some (some (s, d)) →
      Prompt.run env (doubleOn look split n k) (promptTwo look wide) (es ++ .resize c r :: quiet) (begin (s, d, none)) = .waits m →
      ∃ m0, Loop.run env (doubleOn look split n k) (es ++ .resize c r :: quiet) (begin (s, d, none)) = .waits m0 ∧ m.prompt = m0.prompt ∧ m.view.2.1 = m0.view.2.1 ∧
        SplitView.Watched look split n k cols rows SplitView.anyInput m0.view.1 m0.view.2.1 m0.view.2.2) := by
  constructor
  · intro look tui n s t m h0 h
    have hw : Watches look tui anything s t none := .start trivial h0
    obtain ⟨m0, h1, h2, h3⟩ := run_resized (sim_one look tui n wide) (fun c r v v0 hv => by
      have : v.1 = v0.1 := by
        rcases hv with ⟨rfl, -⟩ | ⟨h1, -⟩
        · rfl
        · exact h1
      obtain ⟨s1, t1, m1⟩ := v
      obtain ⟨s2, t2, m2⟩ := v0
      dsimp only at this
      subst this
      exact one_resize n c r s1 t1 t2 m1 m2) ⟨rfl, rfl, rfl, fun _ => ⟨rfl, hw⟩, fun hc => absurd rfl hc⟩ hq h
    obtain ⟨m1, g1, -, g3, -⟩ := C104_no_trace env look tui n cols rows wide _ s t m h0 h
    rw [h1] at g1
    cases g1
    exact ⟨m0, h1, h3, by rw [h2], g3⟩
  · intro look split n k s d m h0 h
    have hw : Session look split n k cols rows (s, d, none) := .start h0
    obtain ⟨m0, h1, h2, h3⟩ := run_resized (sim_two look split n k cols rows wide) (fun c r v v0 hv => by
      have : v.1 = v0.1 ∧ v.2.2 = v0.2.2 := by
        rcases hv with ⟨h1, h2, -⟩ | ⟨h1, h2, -⟩ <;> exact ⟨h1, h2⟩
      obtain ⟨s1, t1, m1⟩ := v
      obtain ⟨s2, t2, m2⟩ := v0
      dsimp only at this
      obtain ⟨rfl, rfl⟩ := this
      rfl) ⟨rfl, rfl, rfl, fun _ => ⟨rfl, rfl, hw, rfl, rfl, fun _ _ _ => rfl⟩, fun hc => absurd rfl hc⟩ hq h
    obtain ⟨m1, g1, -, g3, -⟩ := C105_no_trace_diff_partial env look split n k cols rows wide _ s d m h0 h
    rw [h1] at g1
    cases g1
    exact ⟨m0, h1, h3, by rw [h2], g3⟩

/-- While the prompt is open with a text, the size is changed: the first place of the last line is not that of the prompt. -/
example : ∃ s t m, Paint.settleOn inColours (textEnv someDoc) 9 (Tui.start 20 5) ⟨20, 5, fun _ => nothing, 0⟩ = some (.done s, t) ∧
    Prompt.run loopEnv (singleOn inColours (textEnv someDoc) 9) (promptOne inColours id) ([.code c%'/', .code c%'h'] ++ .resize 22 6 :: []) (begin (s, t, none)) = .waits m ∧
    m.prompt = some b!"h" := by
  obtain ⟨⟨s, t, m, h1, h2, h3, -⟩, -⟩ := C103_prompt_false
  exact ⟨s, t, m, h1, h2, h3⟩

end Verif.Props
