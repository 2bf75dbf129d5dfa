import Verif.Spec.Keys
import Verif.Props.TuiMore
import Verif.Props.Split
/-! # C80–C85: keys, the main loop and signals -/
namespace Verif.Props
open Verif.Model Verif.Model.Search Verif.Model.Loop Verif.Spec.Keys

section
variable {σ : Type} (env : Loop.Env) (V : Loop.View σ)

theorem run_append (es es' : List Event) (m : Wait σ) : run env V (es ++ es') m = match run env V es m with
    | .waits m => run env V es' m
    | r => r := by
  induction es generalizing m with
  | nil => rfl
  | cons e es ih =>
    rw [List.cons_append, run, run]
    cases step env V e m with
    | waits m' => exact ih m'
    | _ => rfl

theorem run_one (e : Event) (m : Wait σ) : run env V [e] m = step env V e m := by
  rw [run]
  cases step env V e m <;> rfl

theorem run_snoc {es : List Event} {e : Event} {m m' : Wait σ} (h : run env V es m = .waits m') : run env V (es ++ [e]) m = step env V e m' := by
  rw [run_append, h]
  exact run_one env V e m'

theorem step_code (c : Nat) {m : Wait σ} (hm : m.prompt = none) : step env V (.code c) m = readCode env V c m := by
  rw [step]
  simp only [hm]

/-! ## Timeouts -/

theorem run_timeouts (es : List Event) (m : Wait σ) : run env V es m = run env V (es.filter (· ≠ .timeout)) m := by
  induction es generalizing m with
  | nil => rfl
  | cons e es ih =>
    by_cases he : e = .timeout
    · subst he
      rw [List.filter_cons_of_neg (by simp), run]
      exact ih m
    · rw [List.filter_cons_of_pos (by simpa using he), run, run]
      cases step env V e m with
      | waits m' => exact ih m'
      | _ => rfl

/-! ## C80 -/

theorem answer_stopped (a : Option (Ans σ)) (m : Wait σ) : answer a true ≠ .waits m := by
  intro h
  unfold answer at h
  split at h <;> simp at h

theorem press_stopped {name : Bytes} {m m' : Wait σ} (hs : m.stopped = true) (h : press V name m = .waits m') : m'.stopped = true ∧ m'.view = m.view := by
  unfold press at h
  split at h
  · cases h; exact ⟨hs, rfl⟩
  · rw [hs] at h; exact absurd h (answer_stopped _ _)

theorem leave_stopped {line : List Nat} {ab : Bool} {m m' : Wait σ} (hs : m.stopped = true) : leave env V line ab m ≠ .waits m' := by
  unfold leave
  rw [hs]
  split
  · exact answer_stopped _ _
  · exact answer_stopped _ _
  · simp
  · simp

theorem step_stopped {e : Event} {m m' : Wait σ} (hs : m.stopped = true) (h : step env V e m = .waits m') : m'.stopped = true ∧ Resized V m.view m'.view := by
  cases e with
  | timeout => cases h; exact ⟨hs, .refl _⟩
  | stop => cases h; exact ⟨rfl, .refl _⟩
  | resize c r =>
    rw [step] at h
    split at h <;> first | cases h | skip
    next s hr => exact ⟨hs, .step (.refl _) hr⟩
  | code c =>
    rw [step] at h
    cases hp : m.prompt with
    | none =>
      simp only [hp] at h
      unfold readCode at h
      split at h
      · cases h
      · dsimp only at h
        split at h
        · cases h; exact ⟨hs, .refl _⟩
        · have := press_stopped V hs h
          exact ⟨this.1, by rw [this.2]; exact .refl _⟩
    | some line =>
      simp only [hp] at h
      unfold promptCode at h
      split at h
      · exact absurd h (leave_stopped env V hs)
      · split at h
        · cases h; exact ⟨hs, .refl _⟩
        · split at h
          · exact absurd h (leave_stopped env V hs)
          · cases h; exact ⟨hs, .refl _⟩

theorem resized_trans {s t u : σ} (h : Resized V s t) (h' : Resized V t u) : Resized V s u := by
  induction h' with
  | refl => exact h
  | step _ hr ih => exact .step ih hr

theorem run_stopped (es : List Event) {m m' : Wait σ} (hs : m.stopped = true) (h : run env V es m = .waits m') : m'.stopped = true ∧ Resized V m.view m'.view := by
  induction es generalizing m with
  | nil => cases h; exact ⟨hs, .refl _⟩
  | cons e es ih =>
    rw [run] at h
    cases hst : step env V e m with
    | waits m1 =>
      rw [hst] at h
      have h1 := step_stopped env V hs hst
      have h2 := ih h1.1 h
      exact ⟨h2.1, resized_trans V h1.2 h2.2⟩
    | _ => rw [hst] at h; cases h

/-- **C80, in part.** After the signal no command is executed but the last one: as long as the view goes on waiting, it has at most been
resized; and it ends (or crashes) with the next key that completes a command, or leaves the prompt. -/
theorem C80_stop_partial (m : Wait σ) (es : List Event) (m' : Wait σ) (h : run env V (.stop :: es) m = .waits m') :
    Resized V m.view m'.view ∧
    (∀ c, m'.prompt = none → Plain env c → (m'.seq = [] → name env c ≠ b!"/") → ∀ m'', run env V (.stop :: es ++ [.code c]) m ≠ .waits m'') ∧
    (∀ c, m'.prompt ≠ none → c = c%'\n' ∨ c = c%'\r' ∨ c = 27 → ∀ m'', run env V (.stop :: es ++ [.code c]) m ≠ .waits m'') := by
  have h0 : run env V es { m with stopped := true } = .waits m' := h
  obtain ⟨h1, h2⟩ := run_stopped env V es (m := { m with stopped := true }) rfl h0
  refine ⟨h2, ?_, ?_⟩
  · intro c hp hpl hsl m'' hr
    rw [run_snoc env V h] at hr
    obtain ⟨t, ht, hth⟩ := hpl
    rw [step] at hr
    simp only [hp] at hr
    unfold readCode at hr
    rw [ht] at hr
    simp only [if_neg hth] at hr
    unfold press at hr
    rw [if_neg, h1] at hr
    · exact answer_stopped _ _ hr
    · intro he
      cases hq : m'.seq with
      | nil =>
        rw [hq] at he
        refine hsl hq ?_
        unfold name
        rw [ht]
        simpa using he
      | cons a l =>
        rw [hq] at he
        have := congrArg List.length he
        simp at this
  · intro c hp hc m'' hr
    rw [run_snoc env V h] at hr
    obtain ⟨line, hl⟩ := Option.ne_none_iff_exists'.mp hp
    rw [step] at hr
    simp only [hl] at hr
    unfold promptCode at hr
    rcases hc with rfl | rfl | rfl <;> exact leave_stopped env V h1 hr

/-- **C80 does not hold**, in no view and no state in which a key is read: after the signal the program goes on waiting, for as long as no
key (other than with Control) is pressed. -/
theorem C80_stop_false (m : Wait σ) (hm : m.prompt = none) (es : List Event) (hes : ∀ e ∈ es, e = .timeout ∨ ∃ c, e = .code c ∧ Control env c) :
    ∃ m', run env V (.stop :: es) m = .waits m' := by
  have key : ∀ (es : List Event) (m : Wait σ), m.prompt = none → (∀ e ∈ es, e = .timeout ∨ ∃ c, e = .code c ∧ Control env c) → ∃ m', run env V es m = .waits m' := by
    intro es
    induction es with
    | nil => intro m _ _; exact ⟨m, rfl⟩
    | cons e es ih =>
      intro m hm hes
      have hrest := fun e he => hes e (List.mem_cons_of_mem _ he)
      rw [run]
      rcases hes e (List.mem_cons_self ..) with rfl | ⟨c, rfl, t, ht⟩
      · exact ih m hm hrest
      · have : step env V (.code c) m = .waits { m with seq := (if m.seq.isEmpty then [] else m.seq ++ b!"-") ++ (c%'^' :: t) } := by
          rw [step_code env V c hm]
          unfold readCode
          rw [ht]
          rfl
        rw [this]
        exact ih _ hm hrest
  exact key es { m with stopped := true } hm hes

/-! ## C81 -/

theorem joined_concat (l : List Bytes) (b : Bytes) : joined (l ++ [b]) = (if l.isEmpty then [] else joined l ++ b!"-") ++ b := by
  induction l with
  | nil => simp [joined]
  | cons a l ih =>
    cases l with
    | nil => simp [joined]
    | cons c l =>
      rw [List.cons_append] at ih ⊢
      rw [List.cons_append, joined, ih]
      · simp only [List.isEmpty_cons, Bool.false_eq_true, if_false]
        rw [show joined (a :: c :: l) = a ++ b!"-" ++ joined (c :: l) from rfl]
        simp
      · simp

theorem name_control {c : Nat} (h : Control env c) : ∃ t, keyname env.other (toupper c) = some (name env c) ∧ name env c = c%'^' :: t := by
  obtain ⟨t, ht⟩ := h
  exact ⟨t, by unfold name; rw [ht]; rfl, by unfold name; rw [ht]; rfl⟩

theorem joined_empty {l : List Bytes} (h : ∀ a ∈ l, a ≠ []) : (joined l).isEmpty = l.isEmpty := by
  cases l with
  | nil => rfl
  | cons a l =>
    have := h a (List.mem_cons_self ..)
    cases l with
    | nil => cases a <;> simp_all [joined]
    | cons b l =>
      rw [joined]
      · cases a <;> simp_all
      · simp

/-- A key with Control is kept. -/
theorem run_controls (l : List Nat) (h : ∀ c ∈ l, Control env c) (pre : List Nat) (hpre : ∀ c ∈ pre, Control env c) (m : Wait σ) (hm : m.prompt = none)
    (hs : m.seq = joined (pre.map (name env))) :
    run env V (l.map .code) m = .waits { m with seq := joined ((pre ++ l).map (name env)) } := by
  induction l generalizing pre m with
  | nil => simp only [List.map_nil, run, List.append_nil]; rw [← hs]
  | cons c l ih =>
    obtain ⟨t, h1, h2⟩ := name_control env (h c (List.mem_cons_self ..))
    have hne : ∀ a ∈ pre.map (name env), a ≠ [] := by
      intro a ha
      obtain ⟨d, hd, rfl⟩ := List.mem_map.mp ha
      obtain ⟨t', _, h2'⟩ := name_control env (hpre d hd)
      rw [h2']
      simp
    have hstep : step env V (.code c) m = .waits { m with seq := joined ((pre ++ [c]).map (name env)) } := by
      rw [step_code env V c hm]
      unfold readCode
      rw [h1]
      simp only
      rw [if_pos (by rw [h2]; rfl), List.map_append, List.map_singleton, joined_concat, hs, joined_empty hne]
    rw [List.map_cons, run, hstep]
    have := ih (fun d hd => h d (List.mem_cons_of_mem _ hd)) (pre ++ [c]) (fun d hd => by
      rcases List.mem_append.mp hd with hd | hd
      · exact hpre d hd
      · rw [List.mem_singleton.mp hd]; exact h c (List.mem_cons_self ..)) { m with seq := joined ((pre ++ [c]).map (name env)) } hm rfl
    simpa using this

theorem run_typed {keys : List Nat} {command : Bytes} (h : Typed env keys command) (m : Wait σ) (hm : m.prompt = none) (hs : m.seq = []) :
    run env V (keys.map .code) m = press V command m := by
  obtain ⟨⟨l, c, rfl, hl, t, ht, hth⟩, rfl⟩ := h
  have h1 := run_controls env V l hl [] (fun _ h => by cases h) m hm hs
  rw [List.map_append, List.map_singleton, run_snoc env V h1, step_code env V c (by exact hm)]
  unfold readCode
  rw [ht]
  have hne : ∀ a ∈ l.map (name env), a ≠ [] := by
    intro a ha
    obtain ⟨d, hd, rfl⟩ := List.mem_map.mp ha
    obtain ⟨t', _, h2'⟩ := name_control env (hl d hd)
    rw [h2']
    simp
  simp only [if_neg hth, List.nil_append]
  rw [List.map_append, List.map_singleton, joined_concat, joined_empty hne, show name env c = t from by unfold name; rw [ht]; rfl]
  unfold press
  split
  · rw [← hs]
  · rfl

theorem run_prompt (keys : List Nat) (hk : Letters keys) (s : σ) (st : Bool) (line : List Nat) :
    run env V (keys.map .code) ⟨s, [], st, some line⟩ = .waits ⟨s, [], st, some (editedFrom line keys)⟩ := by
  induction keys generalizing line with
  | nil => rfl
  | cons c keys ih =>
    obtain ⟨h1, h2, h3⟩ := hk c (List.mem_cons_self ..)
    have hrest := fun d hd => hk d (List.mem_cons_of_mem _ hd)
    rw [List.map_cons, run, step]
    unfold promptCode
    rw [editedFrom]
    simp only [h1, h2, h3, or_self, if_false]
    by_cases hb : c = 8 ∨ c = 127
    · simp only [hb, if_true]
      exact ih hrest _
    · simp only [hb, if_false]
      exact ih hrest _

/-- **C81.** Whatever commands and searches are typed, however fast or slowly (`es` has any timeouts between the keys): each is executed once, in the
order of the keys, until one of them ends the view. -/
theorem C81_commands (keys : List Nat) (commands : List (Bytes × Option Pattern)) (h : TypedAll env keys commands) (es : List Event)
    (hes : es.filter (· ≠ .timeout) = keys.map .code) (s : σ) : run env V es (begin s) = obey V commands s := by
  rw [run_timeouts, hes]
  clear hes es
  have after : ∀ (more : List Nat) (rest : List (Bytes × Option Pattern)) (a : Option (Ans σ)),
      (∀ t, run env V (more.map .code) (begin t) = obey V rest t) →
      (match answer a false with | .waits m => run env V (more.map .code) m | r => r) = (match a with
        | none => .unknown
        | some .quit => .ended
        | some .crash => .crash
        | some (.next s) => obey V rest s) := by
    intro more rest a ih
    cases a with
    | none => rfl
    | some a =>
      cases a with
      | next t => exact ih t
      | quit => rfl
      | crash => rfl
  have pr : ∀ (keys more : List Nat) (c : Nat) (s : σ), Letters keys → run env V ((c%'/' :: keys ++ c :: more).map .code) (begin s) =
      match promptCode env V (editedFrom [] keys) c ⟨s, [], false, some (editedFrom [] keys)⟩ with
        | .waits m => run env V (more.map .code) m
        | r => r := by
    intro keys more c s hk
    rw [List.cons_append, List.map_cons, run, List.map_append]
    show run env V (keys.map .code ++ (c :: more).map .code) ⟨s, [], false, some []⟩ = _
    rw [run_append, run_prompt env V keys hk s false []]
    show run env V ((c :: more).map .code) _ = _
    rw [List.map_cons, run]
    rfl
  induction h generalizing s with
  | nil => rfl
  | @command keys more command rest h hn _ ih =>
    rw [List.map_append, run_append, run_typed env V h (begin s) rfl rfl]
    unfold press
    rw [if_neg hn, obey]
    exact after more rest (V.key command none s) ih
  | @search keys more enter p rest hk he hp _ ih =>
    rw [pr keys more enter s hk, promptCode, if_pos he]
    unfold leave
    rw [hp, obey]
    exact after more rest (V.key b!"/" (some p) s) ih
  | @cancel keys more rest hk hp _ ih =>
    rw [pr keys more 27 s hk, promptCode, if_neg (by decide), if_neg (by decide), if_pos rfl]
    unfold leave
    rw [hp, obey]
    exact after more rest (V.key b!"/" none s) ih

/-! ## C82 -/

/-- **C82.** A letter typed instead of its capital, anywhere but in the prompt, makes no difference. -/
theorem C82_case (m : Wait σ) (before after : List Event) (m' : Wait σ) (h : run env V before m = .waits m') (hp : m'.prompt = none) (c : Nat)
    (hc : c%'A' ≤ c ∧ c ≤ c%'Z') : run env V (before ++ .code (c + 32) :: after) m = run env V (before ++ .code c :: after) m := by
  rw [run_append, run_append, h]
  show run env V (.code (c + 32) :: after) m' = run env V (.code c :: after) m'
  have h1 : toupper (c + 32) = toupper c := by
    unfold toupper
    rw [if_pos (by omega), if_neg (by omega)]
    omega
  rw [run, run, step, step]
  simp only [hp]
  unfold readCode
  rw [h1]

/-! ## C84 -/

/-- **C84.** After `/`, whatever keys are typed (slowly or not) are letters of a text that Backspace shortens: none of them is a command. Enter searches for this
text; Escape leaves the prompt without a search. -/
theorem C84_prompt (keys : List Nat) (hk : Letters keys) (es : List Event)
    (hes : es.filter (· ≠ .timeout) = .code c%'/' :: keys.map .code) (s : σ) :
    run env V es (begin s) = .waits ⟨s, [], false, some (editedFrom [] keys)⟩ ∧
    (∀ p, lineToPattern env.rx env.junk env.surr env.enc env.ascii (editedFrom [] keys) false = .pattern p → ∀ c, c = c%'\n' ∨ c = c%'\r' →
      run env V (es ++ [.code c]) (begin s) = answer (V.key b!"/" (some p) s) false) ∧
    (lineToPattern env.rx env.junk env.surr env.enc env.ascii (editedFrom [] keys) true = .cancelled →
      run env V (es ++ [.code 27]) (begin s) = answer (V.key b!"/" none s) false) := by
  have h0 : run env V es (begin s) = .waits ⟨s, [], false, some (editedFrom [] keys)⟩ := by
    rw [run_timeouts, hes, run]
    exact run_prompt env V keys hk s false []
  refine ⟨h0, ?_, ?_⟩
  · intro p hp c hc
    rw [run_snoc env V h0, step]
    unfold promptCode
    simp only [hc, if_true]
    unfold leave
    rw [hp]
  · intro hp
    rw [run_snoc env V h0, step]
    show leave env V _ true _ = _
    unfold leave
    rw [hp]

end

/-! ## C83 -/

theorem single_unbound (env : Tui.Env) (n : Nat) {name : Bytes} (h : name ∉ commands) (s : Tui.St) : (single env n).key name none s = some (.next s) := by
  simp only [commands, List.mem_cons, List.not_mem_nil, or_false, not_or] at h
  obtain ⟨h1, h2, h3, h4, h5, h6, h7, h8, h9, h10, h11, h12, h13, -⟩ := h
  have : Tui.evalKey env name none s = .nextInput s := by
    unfold Tui.evalKey
    rw [if_neg h1, if_neg (by simp [h2, h3]), if_neg (by simp [h4, h5]), if_neg h6, if_neg h7, if_neg (by simp [h8, h9]), if_neg (by simp [h10, h11]), if_neg h12,
      if_neg h13]
  simp only [single, Tui.step, this]
  rfl

theorem double_unbound (env : Split.Env) (n k : Nat) {name : Bytes} (h : name ∉ commands) (s : Split.St) : (double env n k).key name none s = some (.next s) := by
  simp only [commands, List.mem_cons, List.not_mem_nil, or_false, not_or] at h
  obtain ⟨h1, h2, h3, h4, h5, h6, h7, h8, h9, h10, h11, h12, h13, h14, h15, h16, h17, h18⟩ := h
  have : Split.evalKey env n name none s = some (.nextInput s) := by
    unfold Split.evalKey
    rw [if_neg h1, if_neg (by simp [h2, h3]), if_neg (by simp [h4, h5]), if_neg h6, if_neg h7, if_neg (by simp [h8, h9]), if_neg (by simp [h10, h11]), if_neg h12,
      if_neg h13, if_neg h14, if_neg (by simp [h15, h16]), if_neg (by simp [h17, h18])]
  simp only [double, Split.step, this]
  rfl

/-- **C83 does not hold**: after Escape, `q` does not end the view. -/
theorem C83_unbound_false : ¬ ∀ (env : Loop.Env) (tui : Tui.Env) (n : Nat) (s : Tui.St) (c : Nat) (es : List Event), name env c ∉ commands →
    run env (single tui n) (.code c :: es) (begin s) = run env (single tui n) es (begin s) := by
  intro h
  have := h ⟨fun _ => none, noRx, 0, fun _ => none, fun _ => none, false⟩ (plainEnv .null noRx) 9 (Tui.start 80 24) 27 [.code c%'q'] (by decide)
  revert this
  decide +kernel

/-- **C83, in part.** The keys of what is no command — any number of keys with Control and another key — change nothing, in either view. Missing: a key with Control alone
takes away the key that follows. -/
theorem C83_unbound_partial (env : Loop.Env) (keys : List Nat) (command : Bytes) (ht : Typed env keys command) (hc : command ∉ commands) (es : List Event) :
    (∀ tui n s, run env (single tui n) (keys.map .code ++ es) (begin s) = run env (single tui n) es (begin s)) ∧
    (∀ split n k s, run env (double split n k) (keys.map .code ++ es) (begin s) = run env (double split n k) es (begin s)) := by
  have hn : command ≠ b!"/" := fun h => hc (by rw [h]; decide)
  constructor
  · intro tui n s
    rw [run_append, run_typed env _ ht (begin s) rfl rfl, press, if_neg hn, show (begin s).view = s from rfl, single_unbound tui n hc]
    rfl
  · intro split n k s
    rw [run_append, run_typed env _ ht (begin s) rfl rfl, press, if_neg hn, show (begin s).view = s from rfl, double_unbound split n k hc]
    rfl

/-! ## C85 -/

/-- A property of the view that every answer keeps is kept by every run. -/
theorem run_keeps {σ : Type} (env : Loop.Env) (V : Loop.View σ) (P : σ → Prop) (hk : ∀ name pat s t, P s → V.key name pat s = some (.next t) → P t)
    (hr : ∀ c r s t, P s → V.resize c r s = some (.next t) → P t) (es : List Event) (m m' : Wait σ) (h0 : P m.view) (h : run env V es m = .waits m') : P m'.view := by
  have hans : ∀ name pat (s : σ) st (m' : Wait σ), P s → answer (V.key name pat s) st = .waits m' → P m'.view := by
    intro name pat s st m' hs h
    unfold answer at h
    split at h <;> first | cases h | skip
    next t ht =>
    split at h
    · cases h
    · cases h
      exact hk _ _ _ _ hs ht
  have hleave : ∀ line ab (m m' : Wait σ), P m.view → leave env V line ab m = .waits m' → P m'.view := by
    intro line ab m m' hs h
    unfold leave at h
    split at h <;> first | cases h | exact hans _ _ _ _ _ hs h
  have hpress : ∀ name (m m' : Wait σ), P m.view → press V name m = .waits m' → P m'.view := by
    intro name m m' hs h
    unfold press at h
    split at h
    · cases h; exact hs
    · exact hans _ _ _ _ _ hs h
  have hstep : ∀ e (m m' : Wait σ), P m.view → step env V e m = .waits m' → P m'.view := by
    intro e m m' hs h
    cases e with
    | timeout => cases h; exact hs
    | stop => cases h; exact hs
    | resize c r =>
      rw [step] at h
      split at h <;> first | cases h | skip
      next t ht => exact hr _ _ _ _ hs ht
    | code c =>
      rw [step] at h
      cases hp : m.prompt with
      | none =>
        simp only [hp] at h
        unfold readCode at h
        split at h
        · cases h
        · dsimp only at h
          split at h
          · cases h; exact hs
          · exact hpress _ _ _ hs h
      | some line =>
        simp only [hp] at h
        unfold promptCode at h
        split at h
        · exact hleave _ _ _ _ hs h
        · split at h
          · cases h; exact hs
          · split at h
            · exact hleave _ _ _ _ hs h
            · cases h; exact hs
  induction es generalizing m with
  | nil => cases h; exact h0
  | cons e es ih =>
    rw [run] at h
    cases hst : step env V e m with
    | waits m1 =>
      rw [hst] at h
      exact ih m1 (hstep _ _ _ h0 hst) h
    | _ => rw [hst] at h; cases h

/-- **C85.** Whatever happens while the program waits — keys, timeouts, signals, new sizes — from the first drawing on: the state of the view is one of those of a session. All that is
proved of all sessions is true of all these runs. -/
theorem C85_sessions (env : Loop.Env) (es : List Event) :
    (∀ tui n w h (s : Tui.St) (m : Wait Tui.St), Tui.settle tui n (Tui.start w h) = some (.done s) → run env (single tui n) es (begin s) = .waits m →
      Waits tui (fun _ _ => True) m.view) ∧
    (∀ split n k cols rows (s : Split.St) (m : Wait Split.St), Split.settle split n k (Split.start split cols rows) = some (some s) →
      run env (double split n k) es (begin s) = .waits m → Spec.SplitView.Reached split n k cols rows Spec.SplitView.anyInput m.view) := by
  constructor
  · intro tui n w h s m hs hr
    have key : ∀ i (s t : Tui.St), Waits tui (fun _ _ => True) s → (Tui.step tui n i s).map (fun a => match a with
        | .quit => Ans.quit
        | .crash => .crash
        | .redraw s => .next s
        | .nextInput s => .next s) = some (.next t) → Waits tui (fun _ _ => True) t := by
      intro i s t hw h
      cases ha : Tui.step tui n i s with
      | none => rw [ha] at h; cases h
      | some a =>
        rw [ha] at h
        cases a with
        | quit => cases h
        | crash => cases h
        | nextInput u => cases h; exact .step hw trivial ha
        | redraw u =>
          exfalso
          unfold Tui.step at ha
          dsimp only at ha
          split at ha
          · split at ha <;> simp at ha
          · next nm pt =>
            cases hx : Tui.evalKey tui nm pt s with
            | redraw _ => rw [hx] at ha; dsimp only at ha; split at ha <;> simp at ha
            | nextInput _ => rw [hx] at ha; cases ha
            | quit => rw [hx] at ha; cases ha
            | crash => rw [hx] at ha; cases ha
    exact run_keeps env (single tui n) _ (fun name pat s t hs ht => key _ s t hs ht) (fun c r s t hs ht => key _ s t hs ht) es (begin s) m (.start trivial hs) hr
  · intro split n k cols rows s m hs hr
    have key : ∀ i (s t : Split.St), Spec.SplitView.Reached split n k cols rows Spec.SplitView.anyInput s → (Split.step split n k i s).map (fun a => match a with
        | .quit => Ans.quit
        | .crash => .crash
        | .redraw s => .next s
        | .nextInput s => .next s) = some (.next t) → Spec.SplitView.Reached split n k cols rows Spec.SplitView.anyInput t := by
      intro i s t hw h
      cases ha : Split.step split n k i s with
      | none => rw [ha] at h; cases h
      | some a =>
        rw [ha] at h
        cases a with
        | quit => cases h
        | crash => cases h
        | nextInput u => cases h; exact .input i hw trivial ha
        | redraw u =>
          exfalso
          unfold Split.step at ha
          dsimp only at ha
          split at ha
          · cases hx : Split.settle split n k _ with
            | none => rw [hx] at ha; cases ha
            | some r => rw [hx] at ha; cases r <;> cases ha
          · next nm pt =>
            cases hx : Split.evalKey split n nm pt s with
            | none => rw [hx] at ha; cases ha
            | some r =>
              rw [hx] at ha
              cases r with
              | redraw s' =>
                dsimp only at ha
                cases hy : Split.settle split n k s' with
                | none => rw [hy] at ha; cases ha
                | some r => rw [hy] at ha; cases r <;> cases ha
              | nextInput _ => cases ha
              | quit => cases ha
              | crash => cases ha
    exact run_keeps env (double split n k) _ (fun name pat s t hs ht => key _ s t hs ht) (fun c r s t hs ht => key _ s t hs ht) es (begin s) m (.start hs) hr

/-! ## Examples -/

/-- No other key has a name; there are no regular expressions. -/
def loopEnv : Loop.Env := ⟨fun _ => none, noRx, 0, fun _ => none, fun c => some [c], false⟩

theorem typed_control (l : List Nat) (c : Nat) (hl : ∀ d ∈ l, d < 32) (hc : 32 ≤ c ∧ c < 127 ∧ c ≠ c%'^') (env : Loop.Env) :
    Typed env (l ++ [c]) (joined ((l ++ [c]).map (Spec.Keys.name env))) := by
  refine ⟨⟨l, c, rfl, fun d hd => ⟨[d + 64], ?_⟩, [toupper c], ?_, ?_⟩, rfl⟩
  · have := hl d hd
    unfold toupper
    rw [if_neg (by omega), keyname, if_pos this]
  · have : 32 ≤ toupper c ∧ toupper c < 127 := by unfold toupper; split <;> omega
    rw [keyname, if_neg (by omega), if_pos (by omega)]
  · have : toupper c ≠ c%'^' := by unfold toupper; split <;> omega
    simpa using this

/-- `jj^Ww/ab`, Backspace, Escape, `l`: five commands; a command with Control is one command. -/
theorem typed_example : TypedAll loopEnv ([c%'j', c%'j', 23, c%'w', c%'/', c%'a', c%'b', 127, 27, c%'l'])
    [(b!"J", none), (b!"J", none), (b!"^W-W", none), (b!"/", none), (b!"L", none)] :=
  .command (keys := [c%'j']) (typed_control [] c%'j' (fun _ h => by cases h) (by decide) loopEnv) (by decide)
    (.command (keys := [c%'j']) (typed_control [] c%'j' (fun _ h => by cases h) (by decide) loopEnv) (by decide)
      (.command (keys := [23, c%'w']) (typed_control [23] c%'w' (by decide) (by decide) loopEnv) (by decide)
        (.cancel (keys := [c%'a', c%'b', 127]) (by unfold Letters; decide) (by decide +kernel)
          (.command (keys := [c%'l']) (typed_control [] c%'l' (fun _ h => by cases h) (by decide) loopEnv) (by decide) .nil))))

/-- `/1` and Enter: a search. -/
theorem typed_search : ∃ p, TypedAll loopEnv [c%'/', c%'1', c%'\n'] [(b!"/", some p)] ∧ p.pattern = b!"1" := by
  cases h : lineToPattern loopEnv.rx loopEnv.junk loopEnv.surr loopEnv.enc loopEnv.ascii (editedFrom [] [c%'1']) false with
  | pattern p =>
    refine ⟨p, .search (keys := [c%'1']) (more := []) (by unfold Letters; decide) (.inl rfl) h .nil, ?_⟩
    have : (match lineToPattern loopEnv.rx loopEnv.junk loopEnv.surr loopEnv.enc loopEnv.ascii (editedFrom [] [c%'1']) false with
      | .pattern p => p.pattern
      | _ => []) = b!"1" := by decide +kernel
    rw [h] at this
    exact this
  | _ => exact absurd h (by decide +kernel)

def waitsFor {σ : Type} (r : Result σ) (p : Wait σ → Bool) : Bool :=
  match r with
  | .waits m => p m
  | _ => false

def loopDoc : Json := .arr [.int 1, .arr [.int 4], .int 3]

/-- The hypotheses of C81, with a timeout between the keys: the two `j` select the inner array. -/
example : ([.code c%'j', .timeout, .code c%'j', .code 23, .timeout, .timeout, .code c%'w'] : List Event).filter (· ≠ .timeout) =
      [c%'j', c%'j', 23, c%'w'].map .code ∧
    (match (Tui.settle (plainEnv loopDoc noRx) 9 (Tui.start 80 24)) with
      | some (.done s) =>
        waitsFor (run loopEnv (single (plainEnv loopDoc noRx) 9) [.code c%'j', .timeout, .code c%'j', .code 23, .timeout, .code c%'w'] (begin s)) fun m =>
          m.view.sel == some [1] && m.seq == []
      | _ => false) = true := by
  decide +kernel

/-- C83: `x` alone, and Escape followed by `q`, are no commands. -/
example : Typed loopEnv [c%'x'] b!"X" ∧ b!"X" ∉ commands ∧ Typed loopEnv [27, c%'q'] b!"^[-Q" ∧ b!"^[-Q" ∉ commands :=
  ⟨typed_control [] c%'x' (fun _ h => by cases h) (by decide) loopEnv, by decide, typed_control [27] c%'q' (by decide) (by decide) loopEnv, by decide⟩

/-- C84: `/abx`, Backspace, `c`: the text is `abc`. -/
example : editedFrom [] [c%'a', c%'b', c%'x', 127, c%'c'] = b!"abc" := by decide

/-- C80: the signal and `j` end the view; the signal alone, with timeouts and Escape, does not. -/
example : (match (Tui.settle (plainEnv loopDoc noRx) 9 (Tui.start 80 24)) with
    | some (.done s) => decide (run loopEnv (single (plainEnv loopDoc noRx) 9) [.code c%'j', .stop, .timeout, .code c%'j', .code c%'j'] (begin s) = .ended) &&
        waitsFor (run loopEnv (single (plainEnv loopDoc noRx) 9) [.stop, .timeout, .code 27, .timeout] (begin s)) (·.stopped)
    | _ => false) = true := by
  decide +kernel

end Verif.Props
