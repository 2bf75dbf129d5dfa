import Verif.Lemmas.PromptTwo
import Verif.Props.SplitPicture
/-! # C103–C105: the prompt of the search on the terminal -/
namespace Verif.Props
open Verif.Model Verif.Model.Search Verif.Model.Loop Verif.Model.Prompt Verif.Model.Term Verif.Spec Verif.Spec.Keys Verif.Lemmas Verif.Lemmas.Prompt
open Verif.Model.SplitPaint (Looks Display)

/-! ## What the two programs have in common -/

theorem ansRel_same {σ : Type} {R : σ → σ → Prop} {a : Option (Ans σ)} (h : ∀ s, a = some (.next s) → R s s) : AnsRel R a a := by
  cases a with
  | none => trivial
  | some a =>
    cases a with
    | next s => exact h s rfl
    | quit => trivial
    | crash => trivial

theorem stepOn_not_redraw {look : Paint.Look} {env : Tui.Env} {n : Nat} {i : Tui.Input} {s s' : Tui.St} {t t' : Terminal} {m m' : Option Bytes} :
    Paint.stepOn look env n i s t m ≠ some (.redraw s', t', m') := by
  have after : ∀ (r : Option (Tui.Drawn × Terminal)), (match r with
      | none => none
      | some (.crash, t) => some (Tui.Answer.crash, t, none)
      | some (.done s, t) => some (Tui.Answer.nextInput s, t, none)
      | some (.retry _, _) => none : Option (Tui.Answer × Terminal × Option Bytes)) ≠ some (.redraw s', t', m') := by
    intro r h
    rcases r with _ | ⟨d, u⟩
    · cases h
    · cases d <;> cases h
  cases i with
  | resize w h => exact after _
  | key name pat =>
    simp only [Paint.stepOn]
    rcases Paint.evalKeyOn look env name pat s t m with ⟨a, u, x⟩
    cases a with
    | redraw s1 => exact after _
    | nextInput s1 => intro h; cases h
    | quit => intro h; cases h
    | crash => intro h; cases h

/-- The answer of the view is that of the step. -/
theorem singleOn_key {look : Paint.Look} {env : Tui.Env} {n : Nat} {name : Bytes} {pat : Option Pattern} {v v' : One} (h : (singleOn look env n).key name pat v = some (.next v')) :
    Paint.stepOn look env n (.key name pat) v.1 v.2.1 v.2.2 = some (.nextInput v'.1, v'.2.1, v'.2.2) := by
  obtain ⟨⟨a, t, m⟩, hr, h2⟩ := Option.map_eq_some_iff.mp h
  cases a with
  | redraw s => exact absurd hr stepOn_not_redraw
  | nextInput s => cases h2; exact hr
  | quit => cases h2
  | crash => cases h2

theorem singleOn_resize {look : Paint.Look} {env : Tui.Env} {n c r : Nat} {v v' : One} (h : (singleOn look env n).resize c r v = some (.next v')) :
    Paint.stepOn look env n (.resize c r) v.1 v.2.1 v.2.2 = some (.nextInput v'.1, v'.2.1, v'.2.2) := by
  obtain ⟨⟨a, t, m⟩, hr, h2⟩ := Option.map_eq_some_iff.mp h
  cases a with
  | redraw s => exact absurd hr stepOn_not_redraw
  | nextInput s => cases h2; exact hr
  | quit => cases h2
  | crash => cases h2

/-- Nothing differs. -/
def SameOne (look : Paint.Look) (env : Tui.Env) (v v0 : One) : Prop := v = v0 ∧ Watches look env anything v0.1 v0.2.1 v0.2.2

/-- Only the last line of the terminal differs. -/
def LastOne (look : Paint.Look) (env : Tui.Env) (v v0 : One) : Prop :=
  v.1 = v0.1 ∧ v.2.2 = v0.2.2 ∧ SameSize v.2.1 v0.2.1 ∧ (∀ k, k < (v0.2.1.height - 1) * v0.2.1.width → v.2.1.at_ k = v0.2.1.at_ k) ∧ Watches look env anything v0.1 v0.2.1 v0.2.2

theorem sim_one (look : Paint.Look) (env : Tui.Env) (n : Nat) (wide : List Nat → Bytes) : Sim (SameOne look env) (LastOne look env) (singleOn look env n) (promptOne look wide) where
  key := by
    rintro name s s0 hn ⟨rfl, hw⟩
    exact ansRel_same fun v h => ⟨rfl, .step hw trivial (singleOn_key h)⟩
  search := by
    rintro pat ⟨s, t, m⟩ ⟨s0, t0, m0⟩ ⟨h1, h2, h3, h4, hw⟩
    dsimp only at h1 h2 h3 h4 hw
    subst h1
    obtain ⟨hp, hr⟩ := waits_ptrs (watches_waits hw)
    obtain ⟨z1, z2⟩ := fresh_size (watches_fresh hw)
    rw [one_search n m m0 pat hp h3 z1 z2]
    exact ansRel_same fun v h => ⟨rfl, .step hw trivial (singleOn_key h)⟩
  resize := by
    rintro c r s s0 ⟨rfl, hw⟩
    exact ansRel_same fun v h => ⟨rfl, .step hw trivial (singleOn_resize h)⟩
  resized := by
    rintro c r ⟨s, t, m⟩ ⟨s0, t0, m0⟩ ⟨h1, h2, h3, h4, hw⟩
    dsimp only at h1 h2 h3 h4 hw
    subst h1
    rw [one_resize n c r s t t0 m m0]
    exact ansRel_same fun v h => ⟨rfl, rfl, ⟨rfl, rfl⟩, fun _ _ => rfl, .step hw trivial (singleOn_resize h)⟩
  opens := by
    rintro v v0 ⟨rfl, hw⟩
    obtain ⟨h1, h2⟩ := promptOne_above look.colours wide [] v.2.1
    exact ⟨rfl, rfl, h1, h2, hw⟩
  types := by
    rintro line v v0 ⟨h1, h2, h3, h4, hw⟩
    obtain ⟨h5, h6⟩ := promptOne_above look.colours wide line v.2.1
    refine ⟨h1, h2, ⟨h5.1.trans h3.1, h5.2.trans h3.2⟩, fun k hk => ?_, hw⟩
    exact (h6 k (by rw [h3.1, h3.2]; exact hk)).trans (h4 k hk)

/-- The answer, with a part of the state. -/
def ansMap {σ τ : Type} (f : σ → τ) : Ans σ → Ans τ
  | .next s => .next (f s)
  | .quit => .quit
  | .crash => .crash

/-- The terminal has no effect on what the program does. -/
theorem run_map {σ τ : Type} (env : Loop.Env) (V : View σ) (W : View τ) (f : σ → τ) (g : Option (Ans σ) → Option (Ans τ)) (hg : g = Option.map (ansMap f))
    (hk : ∀ name pat s, g (V.key name pat s) = W.key name pat (f s)) (hr : ∀ c r s, g (V.resize c r s) = W.resize c r (f s)) :
    ∀ (es : List Event) (m : Wait σ), Loop.run env W es ⟨f m.view, m.seq, m.stopped, m.prompt⟩ = match Loop.run env V es m with
      | .waits m => .waits ⟨f m.view, m.seq, m.stopped, m.prompt⟩
      | .ended => .ended
      | .crash => .crash
      | .unknown => .unknown := by
  have hans : ∀ (a : Option (Ans σ)) (st : Bool), answer (g a) st = match answer a st with
      | .waits m => .waits ⟨f m.view, m.seq, m.stopped, m.prompt⟩
      | .ended => .ended
      | .crash => .crash
      | .unknown => .unknown := by
    intro a st
    subst hg
    rcases a with _ | a
    · rfl
    · cases a <;> cases st <;> rfl
  have hleave : ∀ line ab (m : Wait σ), leave env W line ab ⟨f m.view, m.seq, m.stopped, m.prompt⟩ = match leave env V line ab m with
      | .waits m => .waits ⟨f m.view, m.seq, m.stopped, m.prompt⟩
      | .ended => .ended
      | .crash => .crash
      | .unknown => .unknown := by
    intro line ab m
    unfold leave
    cases lineToPattern env.rx env.junk env.surr env.enc env.ascii line ab with
    | cancelled => simp only [← hk]; exact hans _ _
    | pattern p => simp only [← hk]; exact hans _ _
    | uncaught => rfl
    | undefined => rfl
  have hstep : ∀ e (m : Wait σ), Loop.step env W e ⟨f m.view, m.seq, m.stopped, m.prompt⟩ = match Loop.step env V e m with
      | .waits m => .waits ⟨f m.view, m.seq, m.stopped, m.prompt⟩
      | .ended => .ended
      | .crash => .crash
      | .unknown => .unknown := by
    intro e m
    cases e with
    | timeout => rfl
    | stop => rfl
    | resize c r =>
      simp only [Loop.step, ← hr]
      rw [hg]
      rcases V.resize c r m.view with _ | a
      · rfl
      · cases a <;> rfl
    | code c =>
      simp only [Loop.step]
      cases hp : m.prompt with
      | none =>
        simp only
        unfold readCode
        cases keyname env.other (toupper c) with
        | none => rfl
        | some nm =>
          simp only
          generalize (if m.seq.isEmpty = true then [] else m.seq ++ b!"-") ++ nm = sq
          split
          · simp only [hp]
          · unfold press
            split
            · rfl
            · simp only [← hk]; exact hans _ _
      | some line =>
        simp only
        unfold promptCode
        have hl := fun ab => hleave line ab m
        rw [hp] at hl
        split
        · exact hl _
        · split
          · rfl
          · split
            · exact hl _
            · rfl
  intro es
  induction es with
  | nil => intro m; rfl
  | cons e es ih =>
    intro m
    rw [Loop.run, Loop.run, hstep]
    cases Loop.step env V e m with
    | waits m1 => exact ih m1
    | _ => rfl

theorem run_single (env : Loop.Env) (look : Paint.Look) (tui : Tui.Env) (n : Nat) (es : List Event) (v : One) (m : Wait One) (h : Loop.run env (singleOn look tui n) es (begin v) = .waits m) :
    Loop.run env (single tui n) es (begin v.1) = .waits ⟨m.view.1, m.seq, m.stopped, m.prompt⟩ := by
  have hk : ∀ name pat (v : One), Option.map (ansMap Prod.fst) ((singleOn look tui n).key name pat v) = (single tui n).key name pat v.1 := by
    intro name pat v
    dsimp only [singleOn, single]
    rw [← stepOn_step look tui n (.key name pat) v.1 v.2.1 v.2.2]
    rcases Paint.stepOn look tui n (.key name pat) v.1 v.2.1 v.2.2 with _ | ⟨a, t, m⟩
    · rfl
    · cases a <;> rfl
  have hr : ∀ c r (v : One), Option.map (ansMap Prod.fst) ((singleOn look tui n).resize c r v) = (single tui n).resize c r v.1 := by
    intro c r v
    dsimp only [singleOn, single]
    rw [← stepOn_step look tui n (.resize c r) v.1 v.2.1 v.2.2]
    rcases Paint.stepOn look tui n (.resize c r) v.1 v.2.1 v.2.2 with _ | ⟨a, t, m⟩
    · rfl
    · cases a <;> rfl
  have := run_map env (singleOn look tui n) (single tui n) Prod.fst _ rfl hk hr es (begin v)
  rw [h] at this
  exact this

/-! ## The same for the diff view -/

theorem ansRel_up {σ : Type} {P R : σ → σ → Prop} {a a0 : Option (Ans σ)} (h : AnsRel P a a0) (hu : ∀ s s0, a0 = some (.next s0) → P s s0 → R s s0) : AnsRel R a a0 := by
  rcases a with _ | a <;> rcases a0 with _ | a0 <;> first | exact h | skip
  · cases a <;> exact h
  · cases a <;> cases a0 <;> first | exact h | exact hu _ _ rfl h

/-- The size of the terminal. -/
def SizeIs (d : Display) (e : Display) : Prop := e.cols = d.cols ∧ e.rows = d.rows

theorem splitRedrawOn_size {look : Looks} {env : Split.Env} {n : Nat} {s : Split.St} {d e : Display} {r : Split.Drawn} (h : SplitPaint.redrawOn look env n s d = some (r, e)) : SizeIs d e := by
  unfold SplitPaint.redrawOn at h
  cases hx : Split.redraw env n s with
  | none => rw [hx] at h; cases h
  | some q => rw [hx] at h; cases q <;> cases h <;> exact ⟨rfl, rfl⟩

theorem splitSettleOn_size {look : Looks} {env : Split.Env} {n : Nat} : ∀ (k : Nat) {s t : Split.St} {d e : Display}, SplitPaint.settleOn look env n k s d = some (some (t, e)) → SizeIs d e := by
  intro k
  induction k with
  | zero => intro s t d e h; cases h
  | succ k ih =>
    intro s t d e h
    rw [SplitPaint.settleOn] at h
    rcases hr : SplitPaint.redrawOn look env n s d with _ | ⟨r, d1⟩
    · rw [hr] at h; cases h
    · have h1 := splitRedrawOn_size hr
      rw [hr] at h
      cases r with
      | crash => cases h
      | retry a b => have h2 := ih h; exact ⟨h2.1.trans h1.1, h2.2.trans h1.2⟩
      | done a b => cases h; exact h1

theorem splitMessageOn_size {look : Looks} {env : Split.Env} {n : Nat} {s : Split.St} {d e : Display} {msg : Bytes} {a : Split.Answer} {m : Option Bytes}
    (h : SplitPaint.messageOn look env n s d msg = some (a, e, m)) : SizeIs d e := by
  unfold SplitPaint.messageOn at h
  rcases hr : SplitPaint.redrawOn look env n s d with _ | ⟨r, d1⟩
  · rw [hr] at h; cases h
  · have h1 := splitRedrawOn_size hr
    rw [hr] at h
    cases r <;> cases h <;> exact h1

theorem splitNextResultOn_size {look : Looks} {env : Split.Env} {n : Nat} {s : Split.St} {d e : Display} {a : Split.Answer} {m : Option Bytes}
    (h : SplitPaint.nextResultOn look env n s d = some (a, e, m)) : SizeIs d e := by
  unfold SplitPaint.nextResultOn at h
  cases hq : s.active.results with
  | nil => rw [hq] at h; exact splitMessageOn_size h
  | cons q qs =>
    rw [hq] at h
    dsimp only at h
    split at h
    · cases h; exact ⟨rfl, rfl⟩
    · exact splitMessageOn_size h

theorem splitKeyOn_size {look : Looks} {env : Split.Env} {n k : Nat} {name : Bytes} {pat : Option Pattern} {s t : Split.St} {d e : Display} {m m' : Option Bytes}
    (h : SplitPaint.stepOn look env n k (.key name pat) s d m = some (.nextInput t, e, m')) : SizeIs d e := by
  have hkey : ∀ a e x, SplitPaint.evalKeyOn look env n name pat s d m = some (a, e, x) → SizeIs d e := by
    intro a e x h
    unfold SplitPaint.evalKeyOn at h
    split at h
    · unfold SplitPaint.initSearchOn at h
      cases pat with
      | none => cases h; exact ⟨rfl, rfl⟩
      | some p =>
        dsimp only at h
        split at h
        · cases h; exact ⟨rfl, rfl⟩
        · exact splitNextResultOn_size h
    · split at h
      · exact splitNextResultOn_size h
      · obtain ⟨b, _, h⟩ := Option.map_eq_some_iff.mp h
        cases h; exact ⟨rfl, rfl⟩
  simp only [SplitPaint.stepOn] at h
  rcases hx : SplitPaint.evalKeyOn look env n name pat s d m with _ | ⟨a, d1, m1⟩
  · rw [hx] at h; cases h
  · have h1 := hkey _ _ _ hx
    rw [hx] at h
    cases a with
    | redraw s1 =>
      obtain ⟨r, hr, h2⟩ := Option.map_eq_some_iff.mp h
      rcases r with _ | ⟨u, e1⟩
      · cases h2
      · cases h2
        have h3 := splitSettleOn_size k hr
        exact ⟨h3.1.trans h1.1, h3.2.trans h1.2⟩
    | nextInput s1 => cases h; exact h1
    | quit => cases h
    | crash => cases h

theorem splitStepOn_not_redraw {look : Looks} {env : Split.Env} {n k : Nat} {i : Split.Input} {s s' : Split.St} {d d' : Display} {m m' : Option Bytes} :
    SplitPaint.stepOn look env n k i s d m ≠ some (.redraw s', d', m') := by
  intro h
  cases i with
  | resize c r =>
    obtain ⟨r, _, h2⟩ := Option.map_eq_some_iff.mp h
    rcases r with _ | ⟨u, e1⟩ <;> cases h2
  | key name pat =>
    simp only [SplitPaint.stepOn] at h
    rcases hx : SplitPaint.evalKeyOn look env n name pat s d m with _ | ⟨a, d1, m1⟩
    · rw [hx] at h; cases h
    · rw [hx] at h
      cases a with
      | redraw s1 =>
        obtain ⟨r, _, h2⟩ := Option.map_eq_some_iff.mp h
        rcases r with _ | ⟨u, e1⟩ <;> cases h2
      | nextInput s1 => cases h
      | quit => cases h
      | crash => cases h

theorem doubleOn_key {look : Looks} {env : Split.Env} {n k : Nat} {name : Bytes} {pat : Option Pattern} {v v' : Two} (h : (doubleOn look env n k).key name pat v = some (.next v')) :
    SplitPaint.stepOn look env n k (.key name pat) v.1 v.2.1 v.2.2 = some (.nextInput v'.1, v'.2.1, v'.2.2) := by
  obtain ⟨⟨a, t, m⟩, hr, h2⟩ := Option.map_eq_some_iff.mp h
  cases a with
  | redraw s => exact absurd hr splitStepOn_not_redraw
  | nextInput s => cases h2; exact hr
  | quit => cases h2
  | crash => cases h2

theorem doubleOn_resize {look : Looks} {env : Split.Env} {n k c r : Nat} {v v' : Two} (h : (doubleOn look env n k).resize c r v = some (.next v')) :
    SplitPaint.stepOn look env n k (.resize c r) v.1 v.2.1 v.2.2 = some (.nextInput v'.1, v'.2.1, v'.2.2) := by
  obtain ⟨⟨a, t, m⟩, hr, h2⟩ := Option.map_eq_some_iff.mp h
  cases a with
  | redraw s => exact absurd hr splitStepOn_not_redraw
  | nextInput s => cases h2; exact hr
  | quit => cases h2
  | crash => cases h2

section
variable (look : Looks) (env : Split.Env) (n k cols rows : Nat)

/-- A session with this on the terminal. -/
def Session (v : Two) : Prop := SplitView.Watched look env n k cols rows SplitView.anyInput v.1 v.2.1 v.2.2

/-- Only what the frames do not cover of the last line differs. -/
def SameTwo (v v0 : Two) : Prop :=
  v.1 = v0.1 ∧ v.2.2 = v0.2.2 ∧ Session look env n k cols rows v0 ∧ Agree (fun y x => Above v0.2.1.rows y x ∨ Framed v0.1 y x) v.2.1 v0.2.1

/-- Only the last line differs. -/
def LastTwo (v v0 : Two) : Prop := v.1 = v0.1 ∧ v.2.2 = v0.2.2 ∧ Session look env n k cols rows v0 ∧ Agree (Above v0.2.1.rows) v.2.1 v0.2.1

theorem sim_two (wide : List Nat → Bytes) : Sim (SameTwo look env n k cols rows) (LastTwo look env n k cols rows) (doubleOn look env n k) (promptTwo look wide) := by
  have up : ∀ name pat (v0 : Two) (a : Option (Ans Two)), Session look env n k cols rows v0 →
      AnsRel (fun v v' => v.1 = v'.1 ∧ v.2.2 = v'.2.2 ∧ Agree (fun y x => Above v0.2.1.rows y x ∨ Framed v0.1 y x) v.2.1 v'.2.1) a ((doubleOn look env n k).key name pat v0) →
      AnsRel (SameTwo look env n k cols rows) a ((doubleOn look env n k).key name pat v0) := by
    intro name pat v0 a hw h
    refine ansRel_up h ?_
    rintro v v' hv ⟨h1, h2, h3⟩
    have hst := doubleOn_key hv
    have hw' : Session look env n k cols rows v' := .input _ hw trivial hst
    obtain ⟨z1, z2⟩ := splitKeyOn_size hst
    have s0 := watched_shown hw
    have s1 := watched_shown hw'
    refine ⟨h1, h2, hw', h3.mono fun y x hx => ?_⟩
    have e1 : v'.1.width = v0.1.width := by rw [s1.width, s0.width, z1]
    have e2 : v'.1.height = v0.1.height := by rw [s1.height, s0.height, z2]
    rw [z2] at hx
    unfold Framed at *
    rw [e1, e2] at hx
    exact hx
  have upr : ∀ c r (v v0 : Two), v.1 = v0.1 → v.2.2 = v0.2.2 → (doubleOn look env n k).resize c r v = (doubleOn look env n k).resize c r v0 := by
    rintro c r ⟨s, d, m⟩ ⟨s0, d0, m0⟩ h1 h2
    dsimp only at h1 h2
    subst h1 h2
    rfl
  constructor
  · rintro name ⟨s, d, m⟩ ⟨s0, d0, m0⟩ hn ⟨h1, h2, hw, h3⟩
    dsimp only at h1 h2 hw h3
    subst h1 h2
    refine up _ _ _ _ hw ?_
    have hsim : Similar s d0.rows (fun y x => Above d0.rows y x ∨ Framed s y x) (SplitPaint.evalKeyOn look env n name none s d m) (SplitPaint.evalKeyOn look env n name none s d0 m) := by
      unfold SplitPaint.evalKeyOn
      rw [if_neg hn, if_neg hn]
      split
      · exact agree_next look env n s s rfl rfl h3 fun _ _ h => .inl h
      · cases he : Split.evalKey env n name none s with
        | none => trivial
        | some a =>
          cases a with
          | redraw s1 => have hz := split_key_size he (.inl rfl); exact ⟨rfl, hz.1, hz.2, h3⟩
          | nextInput s1 => exact ⟨rfl, rfl, h3⟩
          | quit => trivial
          | crash => trivial
    exact agree_after (v := (s, d, m)) (v0 := (s, d0, m)) hsim fun _ _ h => .inl h
  · rintro pat ⟨s, d, m⟩ ⟨s0, d0, m0⟩ ⟨h1, h2, hw, h3⟩
    dsimp only at h1 h2 hw h3
    subst h1 h2
    refine up _ _ _ _ hw ?_
    have hsim : Similar s d0.rows (Above d0.rows) (SplitPaint.evalKeyOn look env n b!"/" pat s d m) (SplitPaint.evalKeyOn look env n b!"/" pat s d0 m) :=
      agree_init look env n s pat h3 fun _ _ h => h
    exact agree_after (v := (s, d, m)) (v0 := (s, d0, m)) hsim fun _ _ h => h
  · rintro c r v v0 ⟨h1, h2, hw, h3⟩
    rw [upr c r v v0 h1 h2]
    exact ansRel_same fun u h => ⟨rfl, rfl, .input _ hw trivial (doubleOn_resize h), rfl, rfl, fun _ _ _ => rfl⟩
  · rintro c r v v0 ⟨h1, h2, hw, h3⟩
    rw [upr c r v v0 h1 h2]
    exact ansRel_same fun u h => ⟨rfl, rfl, .input _ hw trivial (doubleOn_resize h), rfl, rfl, fun _ _ _ => rfl⟩
  · rintro v v0 ⟨h1, h2, hw, h3⟩
    refine ⟨h1, h2, hw, h3.cols, h3.rows, fun y x hx => ?_⟩
    simp only [promptTwo, SplitPaint.refresh]
    rw [if_neg (by unfold Above at hx; have := h3.rows; omega)]
    exact h3.at_ y x (.inl hx)
  · rintro line v v0 ⟨h1, h2, hw, h3⟩
    refine ⟨h1, h2, hw, h3.cols, h3.rows, fun y x hx => ?_⟩
    simp only [promptTwo, SplitPaint.refresh]
    rw [if_neg (by unfold Above at hx; have := h3.rows; omega)]
    exact h3.at_ y x hx

end

theorem run_double (env : Loop.Env) (look : Looks) (split : Split.Env) (n k : Nat) (es : List Event) (v : Two) (m : Wait Two) (h : Loop.run env (doubleOn look split n k) es (begin v) = .waits m) :
    Loop.run env (double split n k) es (begin v.1) = .waits ⟨m.view.1, m.seq, m.stopped, m.prompt⟩ := by
  have hk : ∀ name pat (v : Two), Option.map (ansMap Prod.fst) ((doubleOn look split n k).key name pat v) = (double split n k).key name pat v.1 := by
    intro name pat v
    dsimp only [doubleOn, double]
    rw [← splitStepOn_step look split n k (.key name pat) v.1 v.2.1 v.2.2]
    rcases SplitPaint.stepOn look split n k (.key name pat) v.1 v.2.1 v.2.2 with _ | ⟨a, t, m⟩
    · rfl
    · cases a <;> rfl
  have hr : ∀ c r (v : Two), Option.map (ansMap Prod.fst) ((doubleOn look split n k).resize c r v) = (double split n k).resize c r v.1 := by
    intro c r v
    dsimp only [doubleOn, double]
    rw [← splitStepOn_step look split n k (.resize c r) v.1 v.2.1 v.2.2]
    rcases SplitPaint.stepOn look split n k (.resize c r) v.1 v.2.1 v.2.2 with _ | ⟨a, t, m⟩
    · rfl
    · cases a <;> rfl
  have := run_map env (doubleOn look split n k) (double split n k) Prod.fst _ rfl hk hr es (begin v)
  rw [h] at this
  exact this

/-! ## C104 -/

/-- **C104.** The view of one document, whatever happens (`es`: keys, timeouts, signals, changes of size). What the prompt writes does no harm: compared with the same program that writes no
prompt (`m0`), the document is in the same state, and while no prompt is open every place of the terminal shows the same: the terminal is one of those of C87–C89. While the prompt is open,
all lines but the last one are those of such a terminal. -/
theorem C104_no_trace (env : Loop.Env) (look : Paint.Look) (tui : Tui.Env) (n cols rows : Nat) (wide : List Nat → Bytes) (es : List Event) (s : Tui.St) (t : Terminal) (m : Wait One)
    (h0 : Paint.settleOn look tui n (Tui.start cols rows) ⟨cols, rows, fun _ => nothing, 0⟩ = some (.done s, t))
    (h : Prompt.run env (singleOn look tui n) (promptOne look wide) es (begin (s, t, none)) = .waits m) :
    ∃ m0, Loop.run env (singleOn look tui n) es (begin (s, t, none)) = .waits m0 ∧
      Loop.run env (single tui n) es (begin s) = .waits ⟨m.view.1, m.seq, m.stopped, m.prompt⟩ ∧
      Watches look tui anything m0.view.1 m0.view.2.1 m0.view.2.2 ∧ m.prompt = m0.prompt ∧ m.view.1 = m0.view.1 ∧
      (m.prompt = none → m.view = m0.view) ∧
      (m.prompt ≠ none → ∀ y x, y + 1 < m.view.1.height → x < m.view.1.width →
        m.view.2.1.at_ (place m.view.1.width y x) = m0.view.2.1.at_ (place m.view.1.width y x)) := by
  have hw : Watches look tui anything s t none := .start trivial h0
  have hrel := run_rel (env := env) (sim_one look tui n wide) es (m := begin (s, t, none)) (m0 := begin (s, t, none))
    ⟨rfl, rfl, rfl, fun _ => ⟨rfl, hw⟩, fun hc => absurd rfl hc⟩
  rw [h] at hrel
  cases hr : Loop.run env (singleOn look tui n) es (begin (s, t, none)) with
  | waits m0 =>
    rw [hr] at hrel
    obtain ⟨h1, h2, h3, h4, h5⟩ := hrel
    have hs := run_single env look tui n es (s, t, none) m0 hr
    cases hp : m.prompt with
    | none =>
      obtain ⟨h6, h7⟩ := h4 hp
      refine ⟨m0, rfl, ?_, h7, hp ▸ h3, congrArg Prod.fst h6, fun _ => h6, fun hc => absurd rfl hc⟩
      rw [hs, h1, h2, ← hp, h3, h6]
    | some line =>
      obtain ⟨h6, h7, h8, h9, h10⟩ := h5 (by rw [hp]; simp)
      obtain ⟨z1, z2⟩ := fresh_size (watches_fresh h10)
      refine ⟨m0, rfl, ?_, h10, hp ▸ h3, h6, fun hc => (by cases hc), fun _ y x hy hx => h9 _ ?_⟩
      · rw [hs, h1, h2, ← hp, h3, h6]
      · rw [z1, z2, ← h6]
        unfold place
        have : (y + 1) * m.view.1.width ≤ (m.view.1.height - 1) * m.view.1.width := Nat.mul_le_mul_right _ (by omega)
        rw [Nat.succ_mul] at this
        omega
  | ended => rw [hr] at hrel; exact hrel.elim
  | crash => rw [hr] at hrel; exact hrel.elim
  | unknown => rw [hr] at hrel; exact hrel.elim

/-! ## C105 -/

/-- **C105, partial.** The same for the diff view, up to what the two frames do not cover of the last line: the last column (of an even number of columns) or the last two. Above the last line there
is no difference. -/
theorem C105_no_trace_diff_partial (env : Loop.Env) (look : Looks) (split : Split.Env) (n k cols rows : Nat) (wide : List Nat → Bytes) (es : List Event) (s : Split.St) (d : Display) (m : Wait Two)
    (h0 : SplitPaint.settleOn look split n k (Split.start split cols rows) ⟨cols, rows, fun _ _ => nothing⟩ = some (some (s, d)))
    (h : Prompt.run env (doubleOn look split n k) (promptTwo look wide) es (begin (s, d, none)) = .waits m) :
    ∃ m0, Loop.run env (doubleOn look split n k) es (begin (s, d, none)) = .waits m0 ∧
      Loop.run env (double split n k) es (begin s) = .waits ⟨m.view.1, m.seq, m.stopped, m.prompt⟩ ∧
      SplitView.Watched look split n k cols rows SplitView.anyInput m0.view.1 m0.view.2.1 m0.view.2.2 ∧ m.prompt = m0.prompt ∧ m.view.1 = m0.view.1 ∧ m.view.2.2 = m0.view.2.2 ∧
      m.view.2.1.cols = m0.view.2.1.cols ∧ m.view.2.1.rows = m0.view.2.1.rows ∧
      (∀ y x, y + 1 < m.view.2.1.rows → m.view.2.1.at_ y x = m0.view.2.1.at_ y x) ∧
      (m.prompt = none → m.view.2.1.rows < 4294967296 → ∀ y x, y < m.view.2.1.rows → x + 1 < 2 * (m.view.2.1.cols / 2) → m.view.2.1.at_ y x = m0.view.2.1.at_ y x) := by
  have hw : Session look split n k cols rows (s, d, none) := .start h0
  have hrel := run_rel (env := env) (sim_two look split n k cols rows wide) es (m := begin (s, d, none)) (m0 := begin (s, d, none))
    ⟨rfl, rfl, rfl, fun _ => ⟨rfl, rfl, hw, rfl, rfl, fun _ _ _ => rfl⟩, fun hc => absurd rfl hc⟩
  rw [h] at hrel
  cases hr : Loop.run env (doubleOn look split n k) es (begin (s, d, none)) with
  | waits m0 =>
    rw [hr] at hrel
    obtain ⟨h1, h2, h3, h4, h5⟩ := hrel
    have hs := run_double env look split n k es (s, d, none) m0 hr
    cases hp : m.prompt with
    | none =>
      obtain ⟨h6, h7, h8, h9⟩ := h4 hp
      have hsh := watched_shown h8
      refine ⟨m0, rfl, ?_, h8, hp ▸ h3, h6, h7, h9.cols, h9.rows, fun y x hy => h9.at_ y x (.inl (by rw [← h9.rows]; exact hy)), fun _ hrows y x hy hx => h9.at_ y x (.inr ?_)⟩
      · rw [hs, h1, h2, ← hp, h3, h6]
      · unfold Framed
        rw [hsh.width, hsh.height, ← h9.cols, ← h9.rows]
        refine ⟨?_, hx⟩
        unfold Split.less
        generalize m.view.2.1.rows = r at *
        rcases Nat.lt_or_ge r 2 with hr2 | hr2
        · omega
        · have : (r + (4294967296 - 2)) % 4294967296 = r - 2 := by omega
          omega
    | some line =>
      obtain ⟨h6, h7, h8, h9⟩ := h5 (by rw [hp]; simp)
      refine ⟨m0, rfl, ?_, h8, hp ▸ h3, h6, h7, h9.cols, h9.rows, fun y x hy => h9.at_ y x (by rw [← h9.rows]; exact hy), fun hc => (by cases hc)⟩
      rw [hs, h1, h2, ← hp, h3, h6]
  | ended => rw [hr] at hrel; exact hrel.elim
  | crash => rw [hr] at hrel; exact hrel.elim
  | unknown => rw [hr] at hrel; exact hrel.elim

/-! ## C103 -/

/-- `%S` writes printable ASCII texts as they are. -/
def Printing (wide : List Nat → Bytes) : Prop := ∀ l, Ascii l → wide l = l

theorem run_quiet {σ : Type} {env : Loop.Env} {V : View σ} {write : List Nat → σ → σ} : ∀ (es : List Event) {m m' : Wait σ}, (∀ e ∈ es, e = .timeout ∨ e = .stop) →
    Prompt.run env V write es m = .waits m' → m'.view = m.view ∧ m'.prompt = m.prompt := by
  intro es
  induction es with
  | nil => intro m m' _ h; cases h; exact ⟨rfl, rfl⟩
  | cons e es ih =>
    intro m m' hq h
    have hq' := fun e he => hq e (List.mem_cons_of_mem _ he)
    rcases hq e (List.mem_cons_self ..) with rfl | rfl
    · exact ih hq' h
    · exact ih (m := { m with stopped := true }) hq' h

/-- After a key the prompt is what was written last. -/
theorem run_written {σ : Type} {env : Loop.Env} {V : View σ} {write : List Nat → σ → σ} {es quiet : List Event} {c : Nat} {m0 m : Wait σ} {line : List Nat}
    (hq : ∀ e ∈ quiet, e = .timeout ∨ e = .stop) (h : Prompt.run env V write (es ++ .code c :: quiet) m0 = .waits m) (hp : m.prompt = some line) : ∃ v, m.view = write line v := by
  rw [Prompt.run_append] at h
  cases h1 : Prompt.run env V write es m0 with
  | waits m1 =>
    rw [h1] at h
    simp only at h
    rw [Prompt.run] at h
    cases h2 : Prompt.step env V write (.code c) m1 with
    | waits m2 =>
      rw [h2] at h
      obtain ⟨q1, q2⟩ := run_quiet quiet hq h
      rw [q2] at hp
      unfold Prompt.step at h2
      cases h3 : Loop.step env V (.code c) m1 with
      | waits m3 =>
        rw [h3] at h2
        simp only [Prompt.shown] at h2
        cases hp3 : m3.prompt with
        | none => rw [hp3] at h2; cases h2; rw [hp3] at hp; cases hp
        | some l =>
          rw [hp3] at h2
          cases h2
          cases hp
          exact ⟨_, q1⟩
      | ended => rw [h3] at h2; cases h2
      | crash => rw [h3] at h2; cases h2
      | unknown => rw [h3] at h2; cases h2
    | ended => rw [h2] at h; cases h
    | crash => rw [h2] at h; cases h
    | unknown => rw [h2] at h; cases h
  | ended => rw [h1] at h; cases h
  | crash => rw [h1] at h; cases h
  | unknown => rw [h1] at h; cases h

/-- What the last line shows while the prompt is open: `/` and the text, cut at the width of the terminal, and blanks, in white on blue (in the default colours with `--color=never`). -/
def promptSeen (colours : Bool) (line : List Nat) (x : Nat) : Seen := ⟨(c%'/' :: line).getD x 32, false, if colours then some (.white, .blue) else none⟩

/-- **C103, partial.** While the prompt is open, after a key (and no change of size since), the last line of the terminal shows `/` and the text typed so far, in both views; and in
the view of one document the cursor is behind it. Missing: a text as long as the terminal is wide, or longer, is cut; after a change of size the prompt is not seen until the next key; other
texts than printable ASCII. -/
theorem C103_prompt_partial (env : Loop.Env) (wide : List Nat → Bytes) (hwide : Printing wide) (es quiet : List Event) (c : Nat) (hq : ∀ e ∈ quiet, e = .timeout ∨ e = .stop) (line : List Nat) (hl : Ascii line) :
    (∀ look tui n (v : One) (m : Wait One), Prompt.run env (singleOn look tui n) (promptOne look wide) (es ++ .code c :: quiet) (begin v) = .waits m → m.prompt = some line → 0 < m.view.2.1.height →
      (∀ x, x < m.view.2.1.width → seen look (m.view.2.1.at_ (place m.view.2.1.width (m.view.2.1.height - 1) x)) = promptSeen look.colours line x) ∧
      (line.length + 1 < m.view.2.1.width → m.view.2.1.cursor = place m.view.2.1.width (m.view.2.1.height - 1) (line.length + 1))) ∧
    (∀ look split n k (v : Two) (m : Wait Two), Prompt.run env (doubleOn look split n k) (promptTwo look wide) (es ++ .code c :: quiet) (begin v) = .waits m → m.prompt = some line → 0 < m.view.2.1.rows →
      ∀ x, x < m.view.2.1.cols → seen (look.of false) (m.view.2.1.at_ (m.view.2.1.rows - 1) x) = promptSeen look.colours line x) := by
  have hw : wide (c%'/' :: line) = c%'/' :: line := hwide _ (by intro d hd; rcases List.mem_cons.mp hd with rfl | hd; decide; exact hl d hd)
  constructor
  · intro look tui n v m h hp hh
    obtain ⟨u, hu⟩ := run_written hq h hp
    have hz : SameSize m.view.2.1 u.2.1 := by rw [hu]; exact (promptOne_above look.colours wide line u.2.1).1
    rw [hz.1, hz.2]
    rw [hz.2] at hh
    have hm : m.view.2.1 = Term.runCmds (promptCmds look.colours wide u.2.1.width u.2.1.height line) u.2.1 := by rw [hu]; rfl
    refine ⟨fun x hx => ?_, fun hlen => ?_⟩
    · rw [hm, show place u.2.1.width (u.2.1.height - 1) x = (u.2.1.height - 1) * u.2.1.width + x from rfl, prompt_shows look.colours wide line u.2.1 hw (by omega) hh x hx]
      unfold seen promptSeen
      cases hc : look.colours
      · rfl
      · simp [Paint.palette, hc, Paint.specialSearch]
    · rw [hm, prompt_cursor look.colours wide line u.2.1 hh hlen]; rfl
  · intro look split n k v m h hp hh x hx
    obtain ⟨u, hu⟩ := run_written hq h hp
    have hz : m.view.2.1.cols = u.2.1.cols ∧ m.view.2.1.rows = u.2.1.rows := by rw [hu]; exact ⟨rfl, rfl⟩
    rw [hz.1] at hx
    rw [hz.2] at hh ⊢
    have hat : m.view.2.1.at_ (u.2.1.rows - 1) x = (Term.runCmds (promptCmds look.colours wide u.2.1.cols 1 line) (SplitPaint.blankWin u.2.1.cols 1)).at_ x := by
      rw [hu]
      have hsz := runCmds_size (promptCmds look.colours wide u.2.1.cols 1 line) (SplitPaint.blankWin u.2.1.cols 1)
      have hsz1 : (SplitPaint.blankWin u.2.1.cols 1).width = u.2.1.cols ∧ (SplitPaint.blankWin u.2.1.cols 1).height = 1 := ⟨rfl, rfl⟩
      simp only [promptTwo, SplitPaint.refresh, hsz.1, hsz.2, hsz1.1, hsz1.2]
      rw [if_pos (by omega), Nat.sub_self, Nat.zero_mul, Nat.zero_add, Nat.sub_zero]
    have := prompt_shows look.colours wide line (SplitPaint.blankWin u.2.1.cols 1) hw (show 0 < u.2.1.cols by omega) Nat.zero_lt_one x hx
    have hsz1 : (SplitPaint.blankWin u.2.1.cols 1).width = u.2.1.cols ∧ (SplitPaint.blankWin u.2.1.cols 1).height = 1 := ⟨rfl, rfl⟩
    rw [hsz1.1, hsz1.2, show (1 - 1) * u.2.1.cols + x = x from by omega] at this
    rw [hat, this]
    have hcol : (look.of false).colours = look.colours := rfl
    unfold seen promptSeen
    cases hc : look.colours
    · rfl
    · simp [Paint.palette, hcol, hc, Paint.specialSearch]

theorem last_code (keys : List Nat) (c : Nat) : ∀ (es : List Event), es.filter (· ≠ .timeout) = (keys ++ [c]).map .code → ∃ es' quiet, es = es' ++ .code c :: quiet ∧ ∀ e ∈ quiet, e = .timeout ∨ e = .stop := by
  induction keys with
  | nil =>
    intro es h
    induction es with
    | nil => cases h
    | cons e es ih =>
      by_cases he : e = .timeout
      · subst he
        obtain ⟨a, b, h1, h2⟩ := ih (by simpa using h)
        exact ⟨.timeout :: a, b, by rw [h1]; rfl, h2⟩
      · rw [List.filter_cons_of_pos (by simpa using he)] at h
        injection h with h1 h2
        refine ⟨[], es, by rw [h1]; rfl, fun e he => ?_⟩
        by_cases ht : e = .timeout
        · exact .inl ht
        · have : e ∈ es.filter (· ≠ .timeout) := List.mem_filter.mpr ⟨he, by simpa using ht⟩
          rw [h2] at this
          cases this
  | cons k keys ihk =>
    intro es h
    induction es with
    | nil => cases h
    | cons e es ih =>
      by_cases he : e = .timeout
      · subst he
        obtain ⟨a, b, h1, h2⟩ := ih (by simpa using h)
        exact ⟨.timeout :: a, b, by rw [h1]; rfl, h2⟩
      · rw [List.filter_cons_of_pos (by simpa using he)] at h
        injection h with h1 h2
        obtain ⟨a, b, h3, h4⟩ := ihk es h2
        exact ⟨e :: a, b, by rw [h3]; rfl, h4⟩

/-- What is typed after `/`. -/
theorem run_line {σ : Type} {env : Loop.Env} {V : View σ} {write : List Nat → σ → σ} (keys : List Nat) (hk : Letters keys) : ∀ (es : List Event),
    es.filter (· ≠ .timeout) = .code c%'/' :: keys.map .code → ∀ s, ∃ v, Prompt.run env V write es (begin s) = .waits ⟨v, [], false, some (editedFrom [] keys)⟩ := by
  have rest : ∀ (es : List Event) (keys : List Nat), Letters keys → es.filter (· ≠ .timeout) = keys.map .code → ∀ (s : σ) (line : List Nat),
      ∃ v, Prompt.run env V write es ⟨s, [], false, some line⟩ = .waits ⟨v, [], false, some (editedFrom line keys)⟩ := by
    intro es
    induction es with
    | nil =>
      intro keys _ h s line
      cases keys with
      | nil => exact ⟨s, rfl⟩
      | cons k keys => cases h
    | cons e es ih =>
      intro keys hk h s line
      by_cases he : e = .timeout
      · subst he
        exact ih keys hk (by simpa using h) s line
      · rw [List.filter_cons_of_pos (by simpa using he)] at h
        cases keys with
        | nil => cases h
        | cons k keys =>
          injection h with h1 h2
          subst h1
          obtain ⟨k1, k2, k3⟩ := hk k (List.mem_cons_self ..)
          have hrest := fun d hd => hk d (List.mem_cons_of_mem _ hd)
          rw [Prompt.run, Prompt.step, Loop.step]
          simp only
          unfold promptCode
          rw [editedFrom]
          simp only [k1, k2, k3, or_self, if_false]
          by_cases hb : k = 8 ∨ k = 127
          · simp only [hb, if_true]
            exact ih keys hrest h2 _ _
          · simp only [hb, if_false]
            exact ih keys hrest h2 _ _
  intro es
  induction es with
  | nil => intro h; cases h
  | cons e es ih =>
    intro h s
    by_cases he : e = .timeout
    · subst he
      exact ih (by simpa using h) s
    · rw [List.filter_cons_of_pos (by simpa using he)] at h
      injection h with h1 h2
      subst h1
      rw [Prompt.run]
      exact rest es keys hk h2 (write [] s) []

/-- **C103 in terms of the keys, partial.** Whenever the program waits for a command (in any state of the view): after `/` and any keys (slowly or not) that do not leave the prompt, what the last line shows is `/` and the
text the keys make, Backspace taking letters away. -/
theorem C103_typed_partial (env : Loop.Env) (wide : List Nat → Bytes) (hwide : Printing wide) (keys : List Nat) (hk : Letters keys) (hl : Ascii (editedFrom [] keys)) (es : List Event)
    (hes : es.filter (· ≠ .timeout) = .code c%'/' :: keys.map .code) :
    (∀ look tui n (v : One), ∃ m, Prompt.run env (singleOn look tui n) (promptOne look wide) es (begin v) = .waits m ∧ m.prompt = some (editedFrom [] keys) ∧ (0 < m.view.2.1.height →
      ∀ x, x < m.view.2.1.width → seen look (m.view.2.1.at_ (place m.view.2.1.width (m.view.2.1.height - 1) x)) = promptSeen look.colours (editedFrom [] keys) x)) ∧
    (∀ look split n k (v : Two), ∃ m, Prompt.run env (doubleOn look split n k) (promptTwo look wide) es (begin v) = .waits m ∧ m.prompt = some (editedFrom [] keys) ∧ (0 < m.view.2.1.rows →
      ∀ x, x < m.view.2.1.cols → seen (look.of false) (m.view.2.1.at_ (m.view.2.1.rows - 1) x) = promptSeen look.colours (editedFrom [] keys) x)) := by
  have hsplit : ∃ es' c quiet, es = es' ++ .code c :: quiet ∧ ∀ e ∈ quiet, e = .timeout ∨ e = .stop := by
    rcases List.eq_nil_or_concat keys with rfl | ⟨a, c, rfl⟩
    · obtain ⟨a, b, h⟩ := last_code [] c%'/' es hes
      exact ⟨a, _, b, h⟩
    · obtain ⟨x, y, h⟩ := last_code (c%'/' :: a) c es (by rw [hes]; simp)
      exact ⟨x, _, y, h⟩
  obtain ⟨es', c, quiet, he, hq⟩ := hsplit
  obtain ⟨p1, p2⟩ := C103_prompt_partial env wide hwide es' quiet c hq (editedFrom [] keys) hl
  refine ⟨fun look tui n v => ?_, fun look split n k v => ?_⟩
  · obtain ⟨u, hu⟩ := run_line (env := env) (V := singleOn look tui n) (write := promptOne look wide) keys hk es hes v
    exact ⟨_, hu, rfl, fun hh => (p1 look tui n v _ (he ▸ hu) rfl hh).1⟩
  · obtain ⟨u, hu⟩ := run_line (env := env) (V := doubleOn look split n k) (write := promptTwo look wide) keys hk es hes v
    exact ⟨_, hu, rfl, fun hh => p2 look split n k v _ (he ▸ hu) rfl hh⟩

/-! ## Concrete cases -/

/-- A session of the view of one document, with its terminal. -/
def promptSession (cols rows : Nat) (es : List Event) : Result One :=
  match Paint.settleOn inColours (textEnv someDoc) 9 (Tui.start cols rows) ⟨cols, rows, fun _ => nothing, 0⟩ with
  | some (.done s, t) => Prompt.run loopEnv (singleOn inColours (textEnv someDoc) 9) (promptOne inColours id) es (begin (s, t, none))
  | _ => .unknown

theorem promptSession_some {cols rows : Nat} {es : List Event} {p : Wait One → Bool} (h : waitsFor (promptSession cols rows es) p = true) :
    ∃ s t m, Paint.settleOn inColours (textEnv someDoc) 9 (Tui.start cols rows) ⟨cols, rows, fun _ => nothing, 0⟩ = some (.done s, t) ∧
      Prompt.run loopEnv (singleOn inColours (textEnv someDoc) 9) (promptOne inColours id) es (begin (s, t, none)) = .waits m ∧ p m = true := by
  unfold promptSession at h
  rcases hs : Paint.settleOn inColours (textEnv someDoc) 9 (Tui.start cols rows) ⟨cols, rows, fun _ => nothing, 0⟩ with _ | ⟨d, t⟩
  · rw [hs] at h; cases h
  · rw [hs] at h
    cases d with
    | done s =>
      simp only at h
      cases hr : Prompt.run loopEnv (singleOn inColours (textEnv someDoc) 9) (promptOne inColours id) es (begin (s, t, none)) with
      | waits m => rw [hr] at h; exact ⟨s, t, m, rfl, hr, h⟩
      | ended => rw [hr] at h; cases h
      | crash => rw [hr] at h; cases h
      | unknown => rw [hr] at h; cases h
    | retry s => cases h
    | crash => cases h

theorem id_printing : Printing id := fun _ _ => rfl

/-- The hypotheses of C103 and of C104: `/hx`, Backspace and a timeout: the prompt shows `/h`, with the cursor behind it, above it the document; after Escape all of the document is there again. -/
example : waitsFor (promptSession 20 5 [.code c%'/', .code c%'h', .code c%'x', .code 127, .timeout]) (fun m =>
      m.prompt == some b!"h" && readsAs m.view.2.1 == [b!"a.json              ", b!"{                   ", b!"    ab:             ", b!"      [             ", b!"/h                  "] &&
      m.view.2.1.cursor == 82) = true ∧
    waitsFor (promptSession 20 5 [.code c%'/', .code c%'h', .code c%'x', .code 127, .timeout, .code 27]) (fun m =>
      m.prompt == none && readsAs m.view.2.1 == [b!"a.json              ", b!"{                   ", b!"    ab:             ", b!"      [             ", b!"          hello worl"]) = true ∧
    ([.code c%'/', .code c%'h', .code c%'x', .code 127, .timeout] : List Event).filter (· ≠ .timeout) = .code c%'/' :: [c%'h', c%'x', 127].map .code ∧
    editedFrom [] [c%'h', c%'x', 127] = b!"h" ∧ Letters [c%'h', c%'x', 127] := by
  refine ⟨by decide +kernel, by decide +kernel, by decide, by decide, by unfold Letters; decide⟩

/-- C103 without its hypotheses is false: after a change of size in the prompt, the last line does not begin with `/`; and two texts longer than the terminal is wide look the same. -/
theorem C103_prompt_false :
    (∃ s t m, Paint.settleOn inColours (textEnv someDoc) 9 (Tui.start 20 5) ⟨20, 5, fun _ => nothing, 0⟩ = some (.done s, t) ∧
      Prompt.run loopEnv (singleOn inColours (textEnv someDoc) 9) (promptOne inColours id) [.code c%'/', .code c%'h', .resize 22 6] (begin (s, t, none)) = .waits m ∧
      m.prompt = some b!"h" ∧ m.view.2.1.width = 22 ∧ m.view.2.1.height = 6 ∧
      seen inColours (m.view.2.1.at_ (place 22 5 0)) ≠ promptSeen true b!"h" 0) ∧
    (∃ s t m m', Paint.settleOn inColours (textEnv someDoc) 9 (Tui.start 6 5) ⟨6, 5, fun _ => nothing, 0⟩ = some (.done s, t) ∧
      Prompt.run loopEnv (singleOn inColours (textEnv someDoc) 9) (promptOne inColours id) ((b!"/worlds" : Bytes).map .code) (begin (s, t, none)) = .waits m ∧
      Prompt.run loopEnv (singleOn inColours (textEnv someDoc) 9) (promptOne inColours id) ((b!"/worldx" : Bytes).map .code) (begin (s, t, none)) = .waits m' ∧
      m.prompt = some b!"worlds" ∧ m'.prompt = some b!"worldx" ∧ ∀ k, k < 30 → m.view.2.1.at_ k = m'.view.2.1.at_ k) := by
  constructor
  · obtain ⟨s, t, m, h1, h2, h3⟩ := promptSession_some (cols := 20) (rows := 5) (es := [.code c%'/', .code c%'h', .resize 22 6])
      (p := fun m => decide (m.prompt = some b!"h") && decide (m.view.2.1.width = 22) && decide (m.view.2.1.height = 6) && decide (seen inColours (m.view.2.1.at_ (place 22 5 0)) ≠ promptSeen true b!"h" 0))
      (by decide +kernel)
    simp only [Bool.and_eq_true, decide_eq_true_eq] at h3
    exact ⟨s, t, m, h1, h2, h3.1.1.1, h3.1.1.2, h3.1.2, h3.2⟩
  · obtain ⟨s, t, m, h1, h2, h3⟩ := promptSession_some (cols := 6) (rows := 5) (es := (b!"/worlds" : Bytes).map .code)
      (p := fun m => decide (m.prompt = some b!"worlds") && waitsFor (promptSession 6 5 ((b!"/worldx" : Bytes).map .code)) fun m' => decide (m'.prompt = some b!"worldx") &&
        (List.range 30).all fun k => decide (m.view.2.1.at_ k = m'.view.2.1.at_ k)) (by decide +kernel)
    simp only [Bool.and_eq_true, decide_eq_true_eq] at h3
    obtain ⟨h3, h4⟩ := h3
    obtain ⟨s', t', m', h5, h6, h7⟩ := promptSession_some h4
    rw [h1] at h5
    cases h5
    simp only [Bool.and_eq_true, decide_eq_true_eq] at h7
    refine ⟨s, t, m, m', h1, h2, h6, h3, h7.1, fun k hk => ?_⟩
    have := List.all_eq_true.mp h7.2 k (List.mem_range.mpr hk)
    exact of_decide_eq_true this

/-- A session of the diff view. -/
def promptDiff (look : Looks) (env : Split.Env) (n k cols rows : Nat) (es : List Event) : Result Two :=
  match SplitPaint.settleOn look env n k (Split.start env cols rows) ⟨cols, rows, fun _ _ => nothing⟩ with
  | some (some (s, d)) => Prompt.run loopEnv (doubleOn look env n k) (promptTwo look id) es (begin (s, d, none))
  | _ => .unknown

theorem promptDiff_some {look : Looks} {env : Split.Env} {n k cols rows : Nat} {es : List Event} {p : Wait Two → Bool} (h : waitsFor (promptDiff look env n k cols rows es) p = true) :
    ∃ s d m, SplitPaint.settleOn look env n k (Split.start env cols rows) ⟨cols, rows, fun _ _ => nothing⟩ = some (some (s, d)) ∧
      Prompt.run loopEnv (doubleOn look env n k) (promptTwo look id) es (begin (s, d, none)) = .waits m ∧ p m = true := by
  unfold promptDiff at h
  rcases hs : SplitPaint.settleOn look env n k (Split.start env cols rows) ⟨cols, rows, fun _ _ => nothing⟩ with _ | _ | ⟨s, d⟩
  · rw [hs] at h; cases h
  · rw [hs] at h; cases h
  · rw [hs] at h
    simp only at h
    cases hr : Prompt.run loopEnv (doubleOn look env n k) (promptTwo look id) es (begin (s, d, none)) with
    | waits m => rw [hr] at h; exact ⟨s, d, m, rfl, hr, h⟩
    | ended => rw [hr] at h; cases h
    | crash => rw [hr] at h; cases h
    | unknown => rw [hr] at h; cases h

/-- The prompt in the diff view: the last line is the prompt, the frames are above it. -/
example : waitsFor (promptDiff aAndB changed 50 50 24 7 [.code c%'/', .code c%'h']) (fun m => decide (splitReads m.view.2.1 = [b!"####################### ", b!"#a         #b         # ", b!"#  [       #  [       # ",
    b!"#!!    x   #!!    y   # ", b!"#      0   #      0   # ", b!"#  ]       #  ]       # ", b!"/h                      "])) = true := by
  decide +kernel

/-- C105 without its hypothesis on the column is false: the prompt was opened and left, and the last column of the last line is still blue; nothing is there in the program that writes no prompt. -/
theorem C105_no_trace_diff_false : ∃ s d m m0, SplitPaint.settleOn aAndB changed 50 50 (Split.start changed 24 7) ⟨24, 7, fun _ _ => nothing⟩ = some (some (s, d)) ∧
    Prompt.run loopEnv (doubleOn aAndB changed 50 50) (promptTwo aAndB id) [.code c%'/', .code c%'h', .code 27] (begin (s, d, none)) = .waits m ∧ m.prompt = none ∧
    Loop.run loopEnv (doubleOn aAndB changed 50 50) [.code c%'/', .code c%'h', .code 27] (begin (s, d, none)) = .waits m0 ∧
    seen (aAndB.of false) (m.view.2.1.at_ 6 23) = ⟨32, false, some (.white, .blue)⟩ ∧ seen (aAndB.of false) (m0.view.2.1.at_ 6 23) = unused := by
  obtain ⟨s, d, m, h1, h2, h3⟩ := promptDiff_some (look := aAndB) (env := changed) (n := 50) (k := 50) (cols := 24) (rows := 7) (es := [.code c%'/', .code c%'h', .code 27])
    (p := fun m => decide (m.prompt = none) && decide (seen (aAndB.of false) (m.view.2.1.at_ 6 23) = ⟨32, false, some (.white, .blue)⟩)) (by decide +kernel)
  simp only [Bool.and_eq_true, decide_eq_true_eq] at h3
  have h4 : (match SplitPaint.settleOn aAndB changed 50 50 (Split.start changed 24 7) ⟨24, 7, fun _ _ => nothing⟩ with
      | some (some (s, d)) => waitsFor (Loop.run loopEnv (doubleOn aAndB changed 50 50) [.code c%'/', .code c%'h', .code 27] (begin (s, d, none))) fun m0 =>
        decide (seen (aAndB.of false) (m0.view.2.1.at_ 6 23) = unused)
      | _ => false) = true := by decide +kernel
  rw [h1] at h4
  simp only at h4
  cases hr : Loop.run loopEnv (doubleOn aAndB changed 50 50) [.code c%'/', .code c%'h', .code 27] (begin (s, d, none)) with
  | waits m0 => rw [hr] at h4; exact ⟨s, d, m, m0, h1, h2, h3.1, hr, h3.2, of_decide_eq_true h4⟩
  | ended => rw [hr] at h4; cases h4
  | crash => rw [hr] at h4; cases h4
  | unknown => rw [hr] at h4; cases h4

end Verif.Props
