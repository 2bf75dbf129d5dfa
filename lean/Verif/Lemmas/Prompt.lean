import Verif.Model.Prompt
/-! # The program with and without what the prompt writes -/
namespace Verif.Lemmas.Prompt
open Verif.Model Verif.Model.Search Verif.Model.Loop

/-- The same answer, up to `R`. -/
def AnsRel {σ : Type} (R : σ → σ → Prop) : Option (Ans σ) → Option (Ans σ) → Prop
  | none, none => True
  | some .quit, some .quit => True
  | some .crash, some .crash => True
  | some (.next s), some (.next s0) => R s s0
  | _, _ => False

/-- The same up to `R` while there is no prompt and up to `Q` while there is one. -/
structure WaitRel {σ : Type} (R Q : σ → σ → Prop) (m m0 : Wait σ) : Prop where
  seq : m.seq = m0.seq
  stopped : m.stopped = m0.stopped
  prompt : m.prompt = m0.prompt
  closed : m.prompt = none → R m.view m0.view
  opened : m.prompt ≠ none → Q m.view m0.view

def ResRel {σ : Type} (R Q : σ → σ → Prop) : Result σ → Result σ → Prop
  | .waits m, .waits m0 => WaitRel R Q m m0
  | .ended, .ended => True
  | .crash, .crash => True
  | .unknown, .unknown => True
  | _, _ => False

section
variable {σ : Type} {R Q : σ → σ → Prop} {env : Loop.Env} {V : View σ} {write : List Nat → σ → σ}

theorem answer_rel {a a0 : Option (Ans σ)} (h : AnsRel R a a0) (st : Bool) : ResRel R Q (answer a st) (answer a0 st) := by
  cases a with
  | none => cases a0 with
    | none => trivial
    | some b => cases b <;> exact h.elim
  | some a => cases a0 with
    | none => cases a <;> exact h.elim
    | some b =>
      cases a <;> cases b <;> first | exact h.elim | trivial | skip
      simp only [answer]
      cases st
      · exact ⟨rfl, rfl, rfl, fun _ => h, fun hc => absurd rfl hc⟩
      · trivial

/-- What the two views have in common. -/
structure Sim (R Q : σ → σ → Prop) (V : View σ) (write : List Nat → σ → σ) : Prop where
  key : ∀ name s s0, name ≠ b!"/" → R s s0 → AnsRel R (V.key name none s) (V.key name none s0)
  search : ∀ pat s s0, Q s s0 → AnsRel R (V.key b!"/" pat s) (V.key b!"/" pat s0)
  resize : ∀ c r s s0, R s s0 → AnsRel R (V.resize c r s) (V.resize c r s0)
  resized : ∀ c r s s0, Q s s0 → AnsRel Q (V.resize c r s) (V.resize c r s0)
  opens : ∀ s s0, R s s0 → Q (write [] s) s0
  types : ∀ line s s0, Q s s0 → Q (write line s) s0

theorem shown_waits {r r0 : Result σ} (c : Nat) (hs : Sim R Q V write) (h : ResRel R Q r r0)
    : ResRel R Q (Prompt.shown write (.code c) r) r0 := by
  cases r <;> cases r0 <;> first | exact h.elim | trivial | skip
  next m m0 =>
  simp only [Prompt.shown]
  cases hp : m.prompt with
  | none => exact h
  | some line =>
    obtain ⟨h1, h2, h3, h4, h5⟩ := h
    exact ⟨h1, h2, hp ▸ h3, (fun hc => by cases hc), fun _ => hs.types _ _ _ (h5 (by rw [hp]; simp))⟩

theorem step_rel (hs : Sim R Q V write) (e : Event) {m m0 : Wait σ} (h : WaitRel R Q m m0) : ResRel R Q (Prompt.step env V write e m) (Loop.step env V e m0) := by
  obtain ⟨h1, h2, h3, h4, h5⟩ := h
  cases e with
  | timeout => exact ⟨h1, h2, h3, h4, h5⟩
  | stop => exact ⟨h1, rfl, h3, h4, h5⟩
  | resize c r =>
    simp only [Prompt.step, Prompt.shown, Loop.step]
    cases hp : m.prompt with
    | none =>
      have := hs.resize c r _ _ (h4 hp)
      revert this
      generalize V.resize c r m.view = a
      generalize V.resize c r m0.view = a0
      intro h
      cases a with
      | none => cases a0 with
        | none => trivial
        | some b => cases b <;> exact h.elim
      | some a => cases a0 with
        | none => cases a <;> exact h.elim
        | some b =>
          cases a <;> cases b <;> first | exact h.elim | trivial | skip
          exact ⟨h1, h2, hp ▸ h3, fun _ => h, fun hc => absurd rfl hc⟩
    | some line =>
      have := hs.resized c r _ _ (h5 (by rw [hp]; simp))
      revert this
      generalize V.resize c r m.view = a
      generalize V.resize c r m0.view = a0
      intro h
      cases a with
      | none => cases a0 with
        | none => trivial
        | some b => cases b <;> exact h.elim
      | some a => cases a0 with
        | none => cases a <;> exact h.elim
        | some b =>
          cases a <;> cases b <;> first | exact h.elim | trivial | skip
          exact ⟨h1, h2, hp ▸ h3, (fun hc => by cases hc), fun _ => h⟩
  | code c =>
    unfold Prompt.step
    cases hp : m.prompt with
    | none =>
      have hR := h4 hp
      have hp0 : m0.prompt = none := by rw [← h3, hp]
      simp only [Loop.step, hp, hp0]
      unfold readCode
      cases hk : keyname env.other (toupper c) with
      | none => trivial
      | some nm =>
        simp only [h1]
        generalize (if m0.seq.isEmpty = true then [] else m0.seq ++ b!"-") ++ nm = sq
        split
        · simp only [Prompt.shown, hp]
          exact ⟨rfl, h2, hp ▸ h3, fun _ => hR, fun hc => absurd rfl hc⟩
        · unfold press
          split
          · simp only [Prompt.shown]
            exact ⟨rfl, h2, rfl, fun hc => (by cases hc), fun _ => hs.opens _ _ hR⟩
          · next hn =>
            refine shown_waits c hs ?_
            rw [h2]
            exact answer_rel (hs.key _ _ _ hn hR) _
    | some line =>
      have hQ := h5 (by rw [hp]; simp)
      have hp0 : m0.prompt = some line := by rw [← h3, hp]
      simp only [Loop.step, hp, hp0]
      have hleave : ∀ ab, ResRel R Q (Prompt.shown write (.code c) (leave env V line ab m)) (leave env V line ab m0) := by
        intro ab
        refine shown_waits c hs ?_
        unfold leave
        cases lineToPattern env.rx env.junk env.surr env.enc env.ascii line ab with
        | cancelled => simp only [h2]; exact answer_rel (hs.search _ _ _ hQ) _
        | pattern p => simp only [h2]; exact answer_rel (hs.search _ _ _ hQ) _
        | uncaught => trivial
        | undefined => trivial
      unfold promptCode
      split
      · exact hleave _
      · split
        · exact ⟨h1, h2, rfl, fun hc => (by cases hc), fun _ => hs.types _ _ _ hQ⟩
        · split
          · exact hleave _
          · exact ⟨h1, h2, rfl, fun hc => (by cases hc), fun _ => hs.types _ _ _ hQ⟩

/-- The whole run. -/
theorem run_rel (hs : Sim R Q V write) : ∀ (es : List Event) {m m0 : Wait σ}, WaitRel R Q m m0 → ResRel R Q (Prompt.run env V write es m) (Loop.run env V es m0) := by
  intro es
  induction es with
  | nil => intro m m0 h; exact h
  | cons e es ih =>
    intro m m0 h
    have h' := step_rel (env := env) hs e h
    rw [Prompt.run, Loop.run]
    revert h'
    generalize Prompt.step env V write e m = r
    generalize Loop.step env V e m0 = r0
    intro h'
    cases r <;> cases r0 <;> first | exact h'.elim | trivial | exact ih h'

theorem run_append (es es' : List Event) (m : Wait σ) : Prompt.run env V write (es ++ es') m = match Prompt.run env V write es m with
    | .waits m => Prompt.run env V write es' m
    | r => r := by
  induction es generalizing m with
  | nil => rfl
  | cons e es ih =>
    rw [List.cons_append, Prompt.run, Prompt.run]
    cases Prompt.step env V write e m with
    | waits m1 => exact ih m1
    | _ => rfl

end
end Verif.Lemmas.Prompt
