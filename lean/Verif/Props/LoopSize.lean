import Verif.Props.Loop
/-! # C86: the size of the terminal -/
namespace Verif.Props
open Verif.Model Verif.Model.Search Verif.Model.Loop Verif.Spec.Keys

section
variable {σ : Type} (env : Loop.Env) (V : Loop.View σ)

/-- What an event does to the view. -/
theorem step_view {e : Event} {m m' : Wait σ} (h : step env V e m = .waits m') :
    match e with
    | .resize c r => V.resize c r m.view = some (.next m'.view)
    | _ => m'.view = m.view ∨ ∃ name pat, V.key name pat m.view = some (.next m'.view) := by
  have hans : ∀ name pat (s : σ) st (m' : Wait σ), answer (V.key name pat s) st = .waits m' → ∃ name pat, V.key name pat s = some (.next m'.view) := by
    intro name pat s st m' h
    unfold answer at h
    split at h <;> first | cases h | skip
    next t ht =>
    split at h
    · cases h
    · cases h
      exact ⟨_, _, ht⟩
  have hleave : ∀ line ab (m m' : Wait σ), leave env V line ab m = .waits m' → ∃ name pat, V.key name pat m.view = some (.next m'.view) := by
    intro line ab m m' h
    unfold leave at h
    split at h <;> first | cases h | exact hans _ _ _ _ _ h
  have hpress : ∀ name (m' : Wait σ), press V name m = .waits m' → m'.view = m.view ∨ ∃ name pat, V.key name pat m.view = some (.next m'.view) := by
    intro name m' h
    unfold press at h
    split at h
    · cases h; exact .inl rfl
    · exact .inr (hans _ _ _ _ _ h)
  cases e with
  | timeout => cases h; exact .inl rfl
  | stop => cases h; exact .inl rfl
  | resize c r =>
    rw [step] at h
    split at h <;> first | cases h | skip
    next t ht => exact ht
  | code c =>
    rw [step] at h
    cases hp : m.prompt with
    | none =>
      simp only [hp] at h
      unfold readCode at h
      split at h
      · cases h
      · dsimp only at h
        split at h
        · cases h; exact .inl rfl
        · exact hpress _ _ h
    | some line =>
      simp only [hp] at h
      unfold promptCode at h
      split at h
      · exact .inr (hleave _ _ _ _ h)
      · split at h
        · cases h; exact .inl rfl
        · split at h
          · exact .inr (hleave _ _ _ _ h)
          · cases h; exact .inl rfl

theorem run_size (size : σ → Nat × Nat) (g : Nat × Nat → Nat × Nat) (hk : ∀ name pat s t, V.key name pat s = some (.next t) → size t = size s)
    (hr : ∀ c r s t, V.resize c r s = some (.next t) → size t = g (c, r)) (es : List Event) (m m' : Wait σ) (z : Nat × Nat) (h0 : size m.view = g z)
    (h : run env V es m = .waits m') : size m'.view = g (sizeAfter z es) := by
  induction es generalizing m z with
  | nil => cases h; exact h0
  | cons e es ih =>
    rw [run] at h
    cases hst : step env V e m with
    | waits m1 =>
      rw [hst] at h
      have hv := step_view env V hst
      cases e with
      | resize c r => exact ih m1 (c, r) (hr _ _ _ _ hv) h
      | code c =>
        refine ih m1 z ?_ h
        rcases hv with hv | ⟨_, _, hv⟩
        · rw [hv, h0]
        · rw [hk _ _ _ _ hv, h0]
      | stop => refine ih m1 z ?_ h; cases hst; exact h0
      | timeout => refine ih m1 z ?_ h; cases hst; exact h0
    | _ => rw [hst] at h; cases h

end

theorem tui_redraw_size {env : Tui.Env} {s t : Tui.St} (h : Tui.redraw env s = .retry t ∨ Tui.redraw env s = .done t) : t.width = s.width ∧ t.height = s.height := by
  unfold Tui.redraw at h
  dsimp only at h
  generalize Tui.drawValue env ⟨s.width, s.height, s.collapsed, s.results⟩ s.sel [] false 0 ⟨1, s.scroll, none, none, false, []⟩ env.root = r at h
  obtain ⟨d, b⟩ := r
  dsimp only at h
  split at h
  · rcases h with h | h <;> cases h
    exact ⟨rfl, rfl⟩
  · split at h
    · rcases h with h | h <;> cases h
      exact ⟨rfl, rfl⟩
    · rcases h with h | h <;> cases h
    · rcases h with h | h <;> cases h
      exact ⟨rfl, rfl⟩

theorem tui_settle_size {env : Tui.Env} (n : Nat) {s t : Tui.St} (h : Tui.settle env n s = some (.done t)) : t.width = s.width ∧ t.height = s.height := by
  induction n generalizing s with
  | zero => cases h
  | succ n ih =>
    rw [Tui.settle] at h
    cases hr : Tui.redraw env s with
    | crash => rw [hr] at h; cases h
    | retry u =>
      rw [hr] at h
      have := ih h
      have h2 := tui_redraw_size (.inl hr)
      exact ⟨this.1.trans h2.1, this.2.trans h2.2⟩
    | done u => rw [hr] at h; cases h; exact tui_redraw_size (.inr hr)

/-- The size in an answer. -/
def TuiSized (s : Tui.St) : Tui.Answer → Prop
  | .redraw t => t.width = s.width ∧ t.height = s.height
  | .nextInput t => t.width = s.width ∧ t.height = s.height
  | _ => True

theorem tui_message_size (env : Tui.Env) {s0 s : Tui.St} (hs : s.width = s0.width ∧ s.height = s0.height) : TuiSized s0 (Tui.redrawMessage env s) := by
  unfold Tui.redrawMessage
  cases hr : Tui.redraw env s with
  | crash => trivial
  | retry u => have := tui_redraw_size (.inl hr); exact ⟨this.1.trans hs.1, this.2.trans hs.2⟩
  | done u => have := tui_redraw_size (.inr hr); exact ⟨this.1.trans hs.1, this.2.trans hs.2⟩

theorem tui_next_size (env : Tui.Env) {s0 s : Tui.St} (hs : s.width = s0.width ∧ s.height = s0.height) : TuiSized s0 (Tui.nextResult env s) := by
  unfold Tui.nextResult
  split
  · exact tui_message_size env hs
  · split
    · exact tui_message_size env hs
    · split
      · trivial
      · exact hs
      · exact tui_message_size env hs

theorem tui_key_size (env : Tui.Env) (name : Bytes) (pat : Option Pattern) (s : Tui.St) : TuiSized s (Tui.evalKey env name pat s) := by
  have r : TuiSized s (.nextInput s) := ⟨rfl, rfl⟩
  unfold Tui.evalKey
  split
  · trivial
  split
  · exact ⟨rfl, rfl⟩
  split
  · unfold Tui.selectDown
    split
    · exact ⟨rfl, rfl⟩
    split <;> exact ⟨rfl, rfl⟩
  split
  · unfold Tui.selectPUp
    split
    · trivial
    · split
      · exact ⟨rfl, rfl⟩
      · split <;> exact ⟨rfl, rfl⟩
  split
  · unfold Tui.selectPDown
    split
    · trivial
    · split <;> exact ⟨rfl, rfl⟩
  split
  · unfold Tui.expandSelection
    split
    · exact r
    · dsimp only
      split
      · trivial
      · split
        · exact r
        split
        · exact ⟨rfl, rfl⟩
        split <;> exact ⟨rfl, rfl⟩
  split
  · unfold Tui.collapseSelection
    split
    · trivial
    · dsimp only
      split
      · trivial
      · split <;> exact ⟨rfl, rfl⟩
  split
  · unfold Tui.initSearch
    split
    · exact ⟨rfl, rfl⟩
    · split
      · exact ⟨rfl, rfl⟩
      · exact tui_next_size env ⟨rfl, rfl⟩
  split
  · exact tui_next_size env ⟨rfl, rfl⟩
  · exact r

theorem split_redraw_size {env : Split.Env} {n : Nat} {s0 s : Split.St} (hs : s.width = s0.width ∧ s.height = s0.height) {a : Split.Answer}
    (h : Split.redrawMessage env n s = some a) {t : Split.St} (ht : a = .redraw t ∨ a = .nextInput t) : t.width = s0.width ∧ t.height = s0.height := by
  unfold Split.redrawMessage at h
  cases hr : Split.redraw env n s with
  | none => rw [hr] at h; cases h
  | some r => rw [hr] at h; cases r <;> cases h <;> rcases ht with ht | ht <;> cases ht <;> exact hs

theorem split_set_size (env : Split.Env) (e : Option Diff.Ptr) (s : Split.St) : (Split.setSelection env e s).width = s.width ∧ (Split.setSelection env e s).height = s.height := by
  unfold Split.setSelection
  split <;> exact ⟨rfl, rfl⟩

theorem split_next_size {env : Split.Env} {n : Nat} {s0 s : Split.St} (hs : s.width = s0.width ∧ s.height = s0.height) {a : Split.Answer}
    (h : Split.nextResult env n s = some a) {t : Split.St} (ht : a = .redraw t ∨ a = .nextInput t) : t.width = s0.width ∧ t.height = s0.height := by
  unfold Split.nextResult at h
  split at h
  · exact split_redraw_size hs h ht
  · next q _ _ =>
    dsimp only at h
    split at h
    · next e _ =>
      have h2 := split_set_size env (some e) s
      cases h
      rcases ht with ht | ht <;> cases ht
      exact ⟨h2.1.trans hs.1, h2.2.trans hs.2⟩
    · have h2 := split_set_size env (some q) s
      refine split_redraw_size ?_ h ht
      exact ⟨h2.1.trans hs.1, h2.2.trans hs.2⟩

theorem split_key_size {env : Split.Env} {n : Nat} {name : Bytes} {pat : Option Pattern} {s : Split.St} {a : Split.Answer}
    (h : Split.evalKey env n name pat s = some a) {t : Split.St} (ht : a = .redraw t ∨ a = .nextInput t) : t.width = s.width ∧ t.height = s.height := by
  have set : ∀ e, a = .redraw (Split.setSelection env e s) → t.width = s.width ∧ t.height = s.height := by
    intro e he
    subst he
    rcases ht with ht | ht <;> cases ht
    exact split_set_size env e s
  have same : a = .nextInput s → t.width = s.width ∧ t.height = s.height := by
    intro he
    subst he
    rcases ht with ht | ht <;> cases ht
    exact ⟨rfl, rfl⟩
  have cr : a ≠ .crash := by intro he; subst he; rcases ht with ht | ht <;> cases ht
  have fold : ∀ c, a = .redraw { s with collapsed := c } → t.width = s.width ∧ t.height = s.height := by
    intro c he
    subst he
    rcases ht with ht | ht <;> cases ht
    exact ⟨rfl, rfl⟩
  have win : ∀ d c, a = Split.changeWindow env d c s → t.width = s.width ∧ t.height = s.height := by
    intro d c he
    unfold Split.changeWindow at he
    split at he
    · exact same he
    · dsimp only at he
      split at he
      · subst he
        rcases ht with ht | ht <;> cases ht
        exact ⟨rfl, rfl⟩
      · subst he
        rcases ht with ht | ht <;> cases ht
        exact split_set_size env _ { s with selected := _ }
  unfold Split.evalKey at h
  by_cases hc0 : name = b!"Q"
  · rw [if_pos hc0] at h
    cases h; rcases ht with ht | ht <;> cases ht
  rw [if_neg hc0] at h
  by_cases hc1 : name = b!"K" ∨ name = b!"KEY_UP"
  · rw [if_pos hc1] at h
    exact set _ (Option.some.inj h).symm
  rw [if_neg hc1] at h
  by_cases hc2 : name = b!"J" ∨ name = b!"KEY_DOWN"
  · rw [if_pos hc2] at h
    exact set _ (Option.some.inj h).symm
  rw [if_neg hc2] at h
  by_cases hc3 : name = b!"KEY_PPAGE"
  · rw [if_pos hc3] at h
    replace h := (Option.some.inj h).symm
    unfold Split.selectPUp at h
    split at h
    · exact absurd h cr
    · split at h
      · exact set _ h
      · split at h
        · split at h
          · exact set _ h
          · exact same h
        · exact same h
  rw [if_neg hc3] at h
  by_cases hc4 : name = b!"KEY_NPAGE"
  · rw [if_pos hc4] at h
    replace h := (Option.some.inj h).symm
    unfold Split.selectPDown at h
    split at h
    · exact absurd h cr
    · split at h
      · exact set _ h
      · exact same h
  rw [if_neg hc4] at h
  by_cases hc5 : name = b!"L" ∨ name = b!"KEY_RIGHT"
  · rw [if_pos hc5] at h
    replace h := (Option.some.inj h).symm
    unfold Split.expandSelection at h
    split at h
    · exact same h
    · dsimp only at h
      split at h
      · exact same h
      split at h
      · exact fold _ h
      split at h
      · exact same h
      · exact set _ h
  rw [if_neg hc5] at h
  by_cases hc6 : name = b!"H" ∨ name = b!"KEY_LEFT"
  · rw [if_pos hc6] at h
    replace h := (Option.some.inj h).symm
    unfold Split.collapseSelection at h
    split at h
    · exact absurd h cr
    · dsimp only at h
      split at h
      · split at h
        · exact absurd h cr
        · exact set _ h
      · exact fold _ h
  rw [if_neg hc6] at h
  by_cases hc7 : name = b!"/"
  · rw [if_pos hc7] at h
    unfold Split.initSearch at h
    split at h
    · cases h; rcases ht with ht | ht <;> cases ht; exact ⟨rfl, rfl⟩
    · dsimp only at h
      split at h
      · cases h; rcases ht with ht | ht <;> cases ht; exact ⟨rfl, rfl⟩
      · refine split_next_size ?_ h ht
        unfold Split.St.set
        split <;> exact ⟨rfl, rfl⟩
  rw [if_neg hc7] at h
  by_cases hc8 : name = b!"N"
  · rw [if_pos hc8] at h
    exact split_next_size ⟨rfl, rfl⟩ h ht
  rw [if_neg hc8] at h
  by_cases hc9 : name = b!"^W-W"
  · rw [if_pos hc9] at h
    exact win _ _ (Option.some.inj h).symm
  rw [if_neg hc9] at h
  by_cases hc10 : name = b!"^W-KEY_RIGHT" ∨ name = b!"^W-L"
  · rw [if_pos hc10] at h
    exact win _ _ (Option.some.inj h).symm
  rw [if_neg hc10] at h
  by_cases hc11 : name = b!"^W-KEY_LEFT" ∨ name = b!"^W-H"
  · rw [if_pos hc11] at h
    exact win _ _ (Option.some.inj h).symm
  · rw [if_neg hc11] at h
    exact same (Option.some.inj h).symm

/-- **C86.** Whatever happens: whenever the program waits, the screen was drawn for the size the terminal has now. -/
theorem C86_size (env : Loop.Env) (es : List Event) (cols rows : Nat) :
    (∀ tui n (s : Tui.St) (m : Wait Tui.St), Tui.settle tui n (Tui.start cols rows) = some (.done s) → run env (single tui n) es (begin s) = .waits m →
      (m.view.width, m.view.height) = sizeAfter (cols, rows) es) ∧
    (∀ split n k (s : Split.St) (m : Wait Split.St), Split.settle split n k (Split.start split cols rows) = some (some s) →
      run env (double split n k) es (begin s) = .waits m →
      m.view.width = (sizeAfter (cols, rows) es).1 / 2 ∧ m.view.height = Split.less (sizeAfter (cols, rows) es).2 2) := by
  constructor
  · intro tui n s m hs hr
    refine run_size env (single tui n) (fun s => (s.width, s.height)) id ?_ ?_ es (begin s) m (cols, rows) ?_ hr
    · intro name pat s t h
      dsimp only [single, Tui.step] at h
      have hk := tui_key_size tui name pat s
      cases he : Tui.evalKey tui name pat s with
      | redraw u =>
        rw [he] at h hk
        dsimp only at h
        cases hq : Tui.settle tui n u with
        | none => rw [hq] at h; cases h
        | some d =>
          rw [hq] at h
          cases d with
          | done v => cases h; have := tui_settle_size n hq; exact Prod.ext (this.1.trans hk.1) (this.2.trans hk.2)
          | retry v => cases h
          | crash => cases h
      | nextInput u => rw [he] at h hk; cases h; exact Prod.ext hk.1 hk.2
      | quit => rw [he] at h; cases h
      | crash => rw [he] at h; cases h
    · intro c r s t h
      dsimp only [single, Tui.step] at h
      cases hq : Tui.settle tui n { s with width := c, height := r } with
      | none => rw [hq] at h; cases h
      | some d =>
        rw [hq] at h
        cases d with
        | done v => cases h; have := tui_settle_size n hq; exact Prod.ext this.1 this.2
        | retry v => cases h
        | crash => cases h
    · have := tui_settle_size n hs
      exact Prod.ext this.1 this.2
  · intro split n k s m hs hr
    have key := run_size env (double split n k) (fun s => (s.width, s.height)) (fun z => (z.1 / 2, Split.less z.2 2)) ?_ ?_ es (begin s) m (cols, rows) ?_ hr
    · exact ⟨congrArg Prod.fst key, congrArg Prod.snd key⟩
    · intro name pat s t h
      dsimp only [double, Split.step] at h
      cases he : Split.evalKey split n name pat s with
      | none => rw [he] at h; cases h
      | some a =>
        rw [he] at h
        cases a with
        | redraw u =>
          have hk := split_key_size he (.inl rfl)
          dsimp only at h
          cases hq : Split.settle split n k u with
          | none => rw [hq] at h; cases h
          | some d =>
            rw [hq] at h
            cases d with
            | some v =>
              cases h
              obtain ⟨_, _, _, _, h1, h2⟩ := Lemmas.Split.settle_keeps hq
              exact Prod.ext (h1.trans hk.1) (h2.trans hk.2)
            | none => cases h
        | nextInput u => have hk := split_key_size he (.inr rfl); cases h; exact Prod.ext hk.1 hk.2
        | quit => cases h
        | crash => cases h
    · intro c r s t h
      dsimp only [double, Split.step] at h
      cases hq : Split.settle split n k { s with width := c / 2, height := Split.less r 2 } with
      | none => rw [hq] at h; cases h
      | some d =>
        rw [hq] at h
        cases d with
        | some v =>
          cases h
          obtain ⟨_, _, _, _, h1, h2⟩ := Lemmas.Split.settle_keeps hq
          exact Prod.ext h1 h2
        | none => cases h
    · obtain ⟨_, _, _, _, h1, h2⟩ := Lemmas.Split.settle_keeps hs
      have h3 := split_set_size split (some (Split.ptr false [])) ⟨Split.Win.mk none (some (Split.ptr false [])) none none [] 0 0 0 [] false false [] [] [],
        Split.Win.mk none (some (Split.ptr true [])) none none [] 0 0 0 [] false false [] [] [], 0, [], cols / 2, Split.less rows 2⟩
      exact Prod.ext (h1.trans h3.1) (h2.trans h3.2)

/-- A session with two changes of size, one of them in the prompt. -/
example : (match (Tui.settle (plainEnv loopDoc noRx) 9 (Tui.start 80 24)) with
    | some (.done s) => waitsFor (run loopEnv (single (plainEnv loopDoc noRx) 9) [.resize 90 30, .code c%'j', .code c%'/', .resize 20 4, .code c%'q'] (begin s)) fun m =>
        m.view.width == 20 && m.view.height == 4 && m.prompt == some [c%'q']
    | _ => false) = true := by
  decide +kernel

end Verif.Props
