import Verif.Lemmas.ProgramInv
import Verif.Props.Main
/-!
# C112–C115: the process, the terminal and the signals
-/
namespace Verif.Props
open Verif.Model Verif.Model.Params Verif.Model.Main Verif.Model.Program Verif.Spec.Process Verif.Lemmas.Program

/-- The words of the command line are accepted, and mean these settings. -/
def Asks (e : Surround) (args : List Bytes) (s : Settings) : Prop := Params.read (fun f => (e.world.files f).isSome) args = .go s

theorem program_go {e : Surround} {args : List Bytes} {s : Settings} (h : Asks e args s) :
    program e args = ((Program.choose e s ⟨[], false, false, false⟩).1,
      if (Program.choose e s ⟨[], false, false, false⟩).2 = .main .returned then .main (.exit 0) else (Program.choose e s ⟨[], false, false, false⟩).2) := by
  unfold program
  rw [show Params.read (fun f => (e.world.files f).isSome) args = .go s from h]
  dsimp only
  cases Program.choose e s ⟨[], false, false, false⟩ with
  | mk p fin =>
    cases fin with
    | main en => cases en <;> rfl
    | _ => rfl

theorem program_tape {e : Surround} {args : List Bytes} {s : Settings} (h : Asks e args s) :
    (program e args).1 = (Program.choose e s ⟨[], false, false, false⟩).1 := by
  rw [program_go h]

theorem crash_irregular (w : World) (s : Settings) (x : Bytes × Source) (f : Effects) (en : Main.Ending) (h : (readOneFile w s x f).2 = .crash en) :
    ¬ Regular (.main en) := by
  rcases readOneFile_cases w s x with ⟨v, ws, hh⟩ | ⟨r, hh⟩ | ⟨_, _, e', h1, h2, rs, h3, _⟩
  · rw [readOneFile_holds hh] at h; cases h
  · rw [readOneFile_fails hh] at h; cases h
  · rw [h3] at h
    cases h
    cases en with
    | returned => exact fun _ => h1 rfl
    | exit n => exact fun _ => h2 n rfl
    | _ => exact id

/-- The surroundings of the examples: the terminal is there, no signals, and the user leaves each view. -/
def terminal (tty : Bool) : Surround :=
  ⟨{ exampleWorld with tty := tty }, true, true, fun _ => false, fun _ _ _ => .left⟩

/-- The same surroundings without signals. -/
def unsignalled (e : Surround) : Surround := { e with signal := fun _ => false }

theorem readOne_unsignalled (e : Surround) (s : Settings) (x : Bytes × Source) : readOne (unsignalled e) s x = readOne e s x := rfl

/-- While one document after the other is shown, signals that arrive while an input is read change nothing. -/
theorem browse_signals (e : Surround) (s : Settings) : ∀ (xs : List (Bytes × Source)) (i : Nat) (warns : List (Bytes × Exn)) (p p' : Proc),
    p.tape = p'.tape → p.handled = true → (browse e s i xs warns p).1.tape = (browse (unsignalled e) s i xs warns p').1.tape ∧
      (browse e s i xs warns p).2 = (browse (unsignalled e) s i xs warns p').2
  | [], i, warns, p, p', h, _ => by
    refine ⟨?_, rfl⟩
    show (p.tape ++ [.leave]) ++ _ = (p'.tape ++ [.leave]) ++ _
    rw [h]
  | x :: xs, i, warns, p, p', h, hh => by
    rw [browse, browse, readOne_unsignalled]
    have h' : reading (unsignalled e) i p' = some p' := by simp [reading, unsignalled]
    rw [h']
    cases hq : reading e i p with
    | none => rw [reading_handled hq] at hh; cases hh
    | some q =>
      obtain ⟨q1, q2, _⟩ := reading_tape hq
      rw [← q1] at h
      rw [← q2] at hh
      cases readOne e s x with
      | mk t g =>
      have ht : (q.does t).tape = (p'.does t).tape := by show q.tape ++ t = p'.tape ++ t; rw [h]
      cases g with
      | none =>
        refine ⟨?_, rfl⟩
        show ((q.does t).tape ++ [.leave]) ++ _ = ((p'.does t).tape ++ [.leave]) ++ _
        rw [ht]
      | crash r => exact ⟨ht, rfl⟩
      | doc v new =>
        dsimp only [runView, unsignalled]
        rw [ht]
        have ht' : (q.does t).tape ++ [.view [(x.1, v)]] = (p'.does t).tape ++ [.view [(x.1, v)]] := by rw [ht]
        cases e.session (shown (p'.does t).tape) false [(x.1, v)] with
        | left => exact browse_signals e s xs (i + 1) _ _ _ ht' hh
        | crash => exact ⟨ht', rfl⟩
        | waits => exact ⟨ht', rfl⟩

/-- The settings with which the inputs are shown one by one, in these surroundings. -/
theorem choose_browse {e : Surround} {s : Settings} (hb : Browsing e.world s) (p : Proc) : Program.choose e s p = Program.run e s p := by
  obtain ⟨h1, h2, h3, h4⟩ := hb
  unfold Program.choose
  rw [h1]
  simp [h2, h3, h4]

theorem run_signals (e : Surround) (s : Settings) (p : Proc) : (Program.run e s p).1.tape = (Program.run (unsignalled e) s p).1.tape ∧
    (Program.run e s p).2 = (Program.run (unsignalled e) s p).2 := by
  unfold Program.run
  rw [show openView (unsignalled e) p = openView e p from rfl]
  cases ho : openView e p with
  | none => exact ⟨rfl, rfl⟩
  | some q =>
    refine browse_signals e s _ _ _ q q rfl ?_
    unfold openView at ho
    split at ho
    · exact (Option.some.inj ho) ▸ rfl
    · cases ho

/-! ## C114 -/

/-- **C114 is false as stated**: while one document after the other is shown, the signals that arrive while inputs are read, however many, change nothing at all. -/
theorem C114_signals_false (e : Surround) (args : List Bytes) (s : Settings) (h : Asks e args s) (hb : Browsing e.world s) :
    (program e args).1.tape = (program (unsignalled e) args).1.tape ∧ (program e args).2 = (program (unsignalled e) args).2 := by
  obtain ⟨h1, h2⟩ := run_signals e s ⟨[], false, false, false⟩
  have h' : Asks (unsignalled e) args s := h
  rw [program_go h, program_go h', choose_browse hb, choose_browse (e := unsignalled e) hb]
  exact ⟨h1, by rw [h2]⟩

/-! ## C112 -/

theorem run_opens {e : Surround} (hs : e.stdinTty = true) (ht : e.world.tty = true) (p : Proc) :
    openView e p = some { p.does [.enter] with handled := true, running := true } := by
  unfold openView
  rw [if_pos (by simp [hs, ht])]

/-- **C112 is false as stated**: a number that is too large, met while the inputs are shown one after the other, ends the program with the terminal taken; so does
anything that crashes in a view. -/
theorem C112_terminal_false (e : Surround) (ht : e.world.tty = true) (hs : e.stdinTty = true) :
    ((program e [b!"--", b!"[9223372036854775808]"]).2 = .main .uncaught ∧ taken (program e [b!"--", b!"[9223372036854775808]"]).1.tape = true) ∧
    ((∀ before b docs, e.session before b docs = .crash) →
      (program e [b!"--", b!"[1]"]).2 = .viewCrash ∧ taken (program e [b!"--", b!"[1]"]).1.tape = true) := by
  have hb : ∀ t, Browsing e.world { initial.set with inputs := [(b!"ARGS", .text)], argsText := t } := fun t => ⟨rfl, rfl, ht, rfl⟩
  have key := fun t (h : Asks e [b!"--", t] { initial.set with inputs := [(b!"ARGS", .text)], argsText := t }) => C114_signals_false e _ _ h (hb t)
  obtain ⟨a1, a2⟩ := key b!"[9223372036854775808]" rfl
  obtain ⟨b1, b2⟩ := key b!"[1]" rfl
  rw [a1, a2, b1, b2]
  clear key hb a1 a2 b1 b2
  obtain ⟨⟨a, b, c, d, e, f, g, h⟩, st, dt, sg, se⟩ := e
  simp only at ht hs
  subst ht hs
  constructor
  · exact ⟨rfl, rfl⟩
  · intro hse
    have : se = fun _ _ _ => .crash := funext fun _ => funext fun _ => funext fun _ => hse ..
    subst this
    exact ⟨rfl, rfl⟩

/-- **C112, the part that holds.** Whatever the command line, the files, the signals and the sessions: the terminal is taken only when it is free, given back only
when it is taken, and documents are shown only while it is taken; and when the program ends regularly, or is ended by a signal while it reads, the terminal is
free. Missing: crashes while it is taken. -/
theorem C112_terminal_partial (e : Surround) (args : List Bytes) : Orderly (program e args).1.tape ∧
    ((∃ n, (program e args).2 = .main (.exit n)) ∨ (program e args).2 = .killed → taken (program e args).1.tape = false) := by
  cases h : Params.read (fun f => (e.world.files f).isSome) args with
  | throw x =>
    have : program e args = (⟨[.report (.usage x), .usage], false, false, false⟩, .main (.exit 1)) := by unfold program; rw [h]; rfl
    rw [this]
    refine ⟨(inv_snoc (inv_snoc (inv_nil true) (.report (.usage x)) ?_ ?_ ?_ ?_) .usage ?_ ?_ ?_ ?_).orderly, fun _ => rfl⟩ <;> simp [taken]
  | stop x =>
    have hp : program e args = (⟨[.usage], false, false, false⟩, .main (.exit 0)) ∨ program e args = (⟨[.version], false, false, false⟩, .main (.exit 0)) := by
      unfold program
      rw [h]
      cases x <;> first | exact .inl rfl | exact .inr rfl
    rcases hp with hp | hp <;> rw [hp]
    · exact ⟨(inv_snoc (inv_nil true) .usage (by simp) (by simp) (by simp) (by simp)).orderly, fun _ => rfl⟩
    · exact ⟨(inv_snoc (inv_nil true) .version (by simp) (by simp) (by simp) (by simp)).orderly, fun _ => rfl⟩
  | go s =>
    have ha : Asks e args s := h
    obtain ⟨h1, h2⟩ := choose_ends (crash_irregular e.world s) ⟨[], false, false, false⟩ (fun b => inv_nil b) rfl
    rw [program_tape ha]
    refine ⟨h1.orderly, fun hf => h2 ?_⟩
    rw [program_go ha] at hf
    dsimp only at hf
    by_cases hr : (Program.choose e s ⟨[], false, false, false⟩).2 = .main .returned
    · rw [hr]; trivial
    · rw [if_neg hr] at hf
      rcases hf with ⟨n, hf⟩ | hf <;> rw [hf] <;> trivial

example : (program (terminal true) [b!"a", b!"-W", b!"c"]).2 = .main (.exit 0) ∧
    ((program (terminal true) [b!"a", b!"-W", b!"c"]).1.tape.map fun h => match h with | .enter => 1 | .view _ => 2 | .leave => 3 | .report _ => 4 | _ => 0) = [1, 2, 2, 3, 4] := by
  decide +kernel

/-! ## C113 -/

/-- **C113 is false as stated**: when the inputs are shown one after the other, the report about one that cannot be read is made while the terminal is taken (and lost when it is given
back). -/
theorem C113_reports_false (e : Surround) (ht : e.world.tty = true) (hs : e.stdinTty = true) :
    (program e [b!"--"]).1.tape = [.enter, .report (.eof b!"ARGS"), .leave] ∧ At (program e [b!"--"]).1.tape (.report (.eof b!"ARGS")) true := by
  have h1 : (program e [b!"--"]).1.tape = [.enter, .report (.eof b!"ARGS"), .leave] := by
    rw [(C114_signals_false e [b!"--"] { initial.set with inputs := [(b!"ARGS", .text)] } rfl ⟨rfl, rfl, ht, rfl⟩).1]
    obtain ⟨⟨a, b, c, d, e, f, g, h⟩, st, dt, sg, se⟩ := e
    simp only at ht hs
    subst ht hs
    rfl
  exact ⟨h1, [.enter], [.leave], h1, rfl⟩

/-- **C113, the part that holds.** Whatever the command line, the files, the signals and the sessions: a report made while the terminal is taken says that an input could not be read, and then the
inputs are being shown one after the other. All warnings, all errors of the command line, and all reports of the other ways to run the program are made while the terminal
is free. Missing: errors while the inputs are shown one after the other. -/
theorem C113_reports_partial (e : Surround) (args : List Bytes) (r : Report) (h : At (program e args).1.tape (.report r) true) :
    Failure r ∧ ∃ s, Asks e args s ∧ Browsing e.world s := by
  cases hp : Params.read (fun f => (e.world.files f).isSome) args with
  | throw x =>
    have : (program e args).1.tape = [.report (.usage x)] ++ [.usage] := by unfold program; rw [hp]; rfl
    rw [this, at_snoc, show [Happening.report (.usage x)] = [] ++ [.report (.usage x)] from rfl, at_snoc] at h
    rcases h with (h | ⟨_, h⟩) | ⟨h, _⟩
    · exact ((inv_nil false).told r h).1 |> fun h => by cases h
    · cases h
    · cases h
  | stop x =>
    have : (program e args).1.tape = [] ++ [.usage] ∨ (program e args).1.tape = [] ++ [.version] := by
      unfold program
      rw [hp]
      cases x <;> first | exact .inl rfl | exact .inr rfl
    rcases this with this | this <;> rw [this, at_snoc] at h <;> rcases h with h | ⟨h, _⟩
    · exact ((inv_nil false).told r h).1 |> fun h => by cases h
    · cases h
    · exact ((inv_nil false).told r h).1 |> fun h => by cases h
    · cases h
  | go s =>
    have ha : Asks e args s := hp
    obtain ⟨h1, _⟩ := choose_ends (crash_irregular e.world s) ⟨[], false, false, false⟩ (fun b => inv_nil b) rfl
    rw [program_tape ha] at h
    obtain ⟨h2, h3⟩ := h1.told r h
    simp only [Bool.and_eq_true, Bool.not_eq_true', Option.isNone_iff_eq_none] at h2
    exact ⟨h3, s, ha, h2.1.1.1, h2.1.1.2, h2.2, h2.1.2⟩

/-- An error and a warning, on a terminal and not. -/
example : ((program (terminal true) [b!"-W", b!"c", b!"b"]).1.tape.map fun h => match h with | .enter => 1 | .view _ => 2 | .leave => 3 | .report _ => 4 | _ => 0) = [1, 2, 4, 3, 4] ∧
    ((program (terminal false) [b!"-W", b!"c", b!"b"]).1.tape.map fun h => match h with | .enter => 1 | .view _ => 2 | .leave => 3 | .report _ => 4 | _ => 0) = [0, 4, 4] := by
  decide +kernel

/-! ## C114, C115 -/

theorem readOne_holds {e : Surround} {s : Settings} {x : Bytes × Source} {v : Json} {ws : List Exn} (h : Holds e.world s x v ws) :
    readOne e s x = ([], .doc v (ws.map (x.1, ·))) := by
  unfold readOne
  rw [readOneFile_holds h]
  rfl

theorem reading_unsignalled {e : Surround} {i : Nat} (h : e.signal i = false) (p : Proc) : reading e i p = some p := by
  unfold reading
  rw [if_neg (by simp [h])]

theorem does_nil (p : Proc) : p.does [] = p := by simp [Proc.does]

theorem program_runDiff_good (e : Surround) (s : Settings) (rest : List (Bytes × Source)) : ∀ (good : List Good) (i : Nat) (docs : List (Bytes × Json)) (warns : List (Bytes × Exn)) (p : Proc),
    (∀ g ∈ good, Holds e.world s g.1 g.2.1 g.2.2) → (∀ j, j < good.length → e.signal (i + j) = false) →
    Program.runDiff e s i (good.map (·.1) ++ rest) docs warns p =
      Program.runDiff e s (i + good.length) rest (docs ++ good.map fun g => (g.1.1, g.2.1)) (warns ++ warningsOf good) p
  | [], i, docs, warns, p, _, _ => by simp [warningsOf]
  | g :: good, i, docs, warns, p, hh, hn => by
    rw [List.map_cons, List.cons_append, Program.runDiff, reading_unsignalled (i := i) (hn 0 (by simp)), readOne_holds (hh g (List.mem_cons_self ..))]
    dsimp only
    rw [does_nil, program_runDiff_good e s rest good (i + 1) _ _ _ (fun x hx => hh x (List.mem_cons_of_mem _ hx)) (fun j hj => by
      rw [show i + 1 + j = i + (j + 1) by omega]; exact hn _ (by simpa using hj))]
    rw [show i + 1 + good.length = i + (g :: good).length by simp; omega]
    simp [warningsOf]

/-- What is done when nothing has gone wrong yet: documents are printed or written to temporary files. -/
def Printed (tape : List Happening) : Prop := ∀ h ∈ tape, (∃ b, h = .output b) ∨ ∃ n c, h = .wrote n c

theorem program_runStdout_killed (e : Surround) (s : Settings) (x : Bytes × Source) (rest : List (Bytes × Source)) : ∀ (good : List Good) (i : Nat) (warns : List (Bytes × Exn)) (p : Proc),
    p.handled = false → Printed p.tape → (∀ g ∈ good, Holds e.world s g.1 g.2.1 g.2.2) → (∀ j, j < good.length → e.signal (i + j) = false) → e.signal (i + good.length) = true →
    (Program.runStdout e s i (good.map (·.1) ++ x :: rest) warns p).2 = .killed ∧ Printed (Program.runStdout e s i (good.map (·.1) ++ x :: rest) warns p).1.tape
  | [], i, warns, p, hp, ht, _, _, hs => by
    have : reading e i p = none := by unfold reading; rw [if_pos (show e.signal i = true from hs), if_neg (by simp [hp])]
    rw [List.map_nil, List.nil_append, Program.runStdout, this]
    exact ⟨rfl, ht⟩
  | g :: good, i, warns, p, hp, ht, hh, hn, hs => by
    rw [List.map_cons, List.cons_append, Program.runStdout, reading_unsignalled (i := i) (hn 0 (by simp)), readOne_holds (hh g (List.mem_cons_self ..))]
    refine program_runStdout_killed e s x rest good (i + 1) _ _ hp ?_ (fun x hx => hh x (List.mem_cons_of_mem _ hx)) (fun j hj => by
      rw [show i + 1 + j = i + (j + 1) by omega]; exact hn _ (by simpa using hj)) (by rw [← hs]; congr 1; simp; omega)
    intro h hm
    simp only [Proc.does, List.append_nil, List.mem_append, List.mem_singleton] at hm
    rcases hm with hm | rfl
    · exact ht h hm
    · exact .inl ⟨_, rfl⟩

theorem program_prepare_killed (e : Surround) (s : Settings) (cmd : List Bytes) (x : Bytes × Source) (rest : List (Bytes × Source)) :
    ∀ (good : List Good) (i : Nat) (files : List Bytes) (warns : List (Bytes × Exn)) (p : Proc),
    p.handled = false → Printed p.tape → (∀ g ∈ good, Holds e.world s g.1 g.2.1 g.2.2) → (∀ g ∈ good, e.world.canCreate (DiffCmd.tempName g.1.1) = true) →
    (∀ j, j < good.length → e.signal (i + j) = false) → e.signal (i + good.length) = true →
    (prepare e s cmd i (good.map (·.1) ++ x :: rest) files warns p).1.2 = .killed ∧ Printed (prepare e s cmd i (good.map (·.1) ++ x :: rest) files warns p).1.1.tape
  | [], i, files, warns, p, hp, ht, _, _, _, hs => by
    have : reading e i p = none := by unfold reading; rw [if_pos (show e.signal i = true from hs), if_neg (by simp [hp])]
    rw [List.map_nil, List.nil_append, prepare, this]
    exact ⟨rfl, ht⟩
  | g :: good, i, files, warns, p, hp, ht, hh, hcan, hn, hs => by
    rw [List.map_cons, List.cons_append, prepare, reading_unsignalled (i := i) (hn 0 (by simp)), readOne_holds (hh g (List.mem_cons_self ..))]
    dsimp only
    rw [if_pos (hcan g (List.mem_cons_self ..))]
    refine program_prepare_killed e s cmd x rest good (i + 1) _ _ _ hp ?_ (fun x hx => hh x (List.mem_cons_of_mem _ hx)) (fun x hx => hcan x (List.mem_cons_of_mem _ hx)) (fun j hj => by
      rw [show i + 1 + j = i + (j + 1) by omega]; exact hn _ (by simpa using hj)) (by rw [← hs]; congr 1; simp; omega)
    intro h hm
    simp only [Proc.does, List.append_nil, List.mem_append, List.mem_singleton] at hm
    rcases hm with hm | rfl
    · exact ht h hm
    · exact .inr ⟨_, _, rfl⟩

/-- **C114, the part that holds.** When the inputs are not shown one after the other: a signal that arrives while an input is read ends the program there; nothing is reported, shown or run.
Missing: the view of one document after the other. (If `--diff-cmd` cannot create a temporary file, the program hangs before: C65.) -/
theorem C114_signals_partial (e : Surround) (args : List Bytes) (s : Settings) (h : Asks e args s) (hb : ¬ Browsing e.world s)
    (good : List Good) (x : Bytes × Source) (rest : List (Bytes × Source)) (hg : getInputs s = good.map (·.1) ++ x :: rest) (hh : ∀ g ∈ good, Holds e.world s g.1 g.2.1 g.2.2)
    (hcan : ∀ g ∈ good, s.diffCmd ≠ none → e.world.canCreate (DiffCmd.tempName g.1.1) = true)
    (hs : e.signal good.length = true) (hn : ∀ j, j < good.length → e.signal j = false) :
    (program e args).2 = .killed ∧ Printed (program e args).1.tape := by
  have key : ∀ r : Proc × Fin, Program.choose e s ⟨[], false, false, false⟩ = r → r.2 = .killed ∧ Printed r.1.tape → (program e args).2 = .killed ∧ Printed (program e args).1.tape := by
    rintro r hr ⟨h1, h2⟩
    rw [program_go h, hr, h1]
    exact ⟨by simp, h2⟩
  have hn' : ∀ j, j < good.length → e.signal (0 + j) = false := fun j hj => by rw [Nat.zero_add]; exact hn j hj
  have hs' : e.signal (0 + good.length) = true := by rw [Nat.zero_add]; exact hs
  have hnil : Printed (⟨[], false, false, false⟩ : Proc).tape := fun h hm => by cases hm
  refine key _ rfl ?_
  unfold Program.choose
  cases hd : s.diffCmd with
  | some cmd =>
    dsimp only
    unfold Program.runExternalDiff
    rw [hg]
    obtain ⟨h1, h2⟩ := program_prepare_killed e s cmd x rest good 0 [] [] ⟨[], false, false, false⟩ rfl hnil hh (fun g hg => hcan g hg (by rw [hd]; simp)) hn' hs'
    generalize prepare e s cmd 0 (good.map (·.1) ++ x :: rest) [] [] ⟨[], false, false, false⟩ = r at h1 h2
    obtain ⟨⟨q, fin⟩, files⟩ := r
    simp only at h1 h2
    subst h1
    exact ⟨rfl, h2⟩
  | none =>
    dsimp only
    by_cases h1 : s.diffMode = true
    · rw [if_pos h1, hg, program_runDiff_good e s (x :: rest) good 0 _ _ _ hh hn']
      rw [Program.runDiff, show reading e (0 + good.length) ⟨[], false, false, false⟩ = none by unfold reading; rw [if_pos hs']; rfl]
      exact ⟨rfl, hnil⟩
    · rw [if_neg h1, if_neg, hg]
      · exact program_runStdout_killed e s x rest good 0 _ _ rfl hnil hh hn' hs'
      · intro h2
        simp only [Bool.and_eq_true, Bool.not_eq_true'] at h2
        exact hb ⟨hd, by simpa using h1, h2.2, h2.1⟩

example : (program { terminal false with signal := fun i => i == 1 } [b!"a", b!"c"]).2 = .killed ∧ (program { terminal false with signal := fun i => i == 1 } [b!"a", b!"c"]).1.tape.length = 1 := by
  decide +kernel

/-- **C115 is false as stated**: two or three documents to be compared are never printed, whether or not standard output is redirected: the terminal is taken for them, and without a terminal the program
crashes. -/
theorem C115_redirected_false (e : Surround) (args : List Bytes) (s : Settings) (h : Asks e args s) (hb : Comparing s) (good : List Good)
    (hg : getInputs s = good.map (·.1)) (hh : ∀ g ∈ good, Holds e.world s g.1 g.2.1 g.2.2) (hn : ∀ j, j < good.length → e.signal j = false) :
    (∀ b, .output b ∉ (program e args).1.tape) ∧
    (e.devTty = true → .enter ∈ (program e args).1.tape) ∧
    (e.devTty = false → e.world.tty = false → (program e args).2 = .main .ub) := by
  have hc : Program.choose e s ⟨[], false, false, false⟩ = compareView e s (good.map fun g => (g.1.1, g.2.1)) (warningsOf good) ⟨[], false, false, false⟩ := by
    unfold Program.choose
    rw [hb.1]
    dsimp only
    rw [if_pos hb.2, hg, ← List.append_nil (good.map (·.1)), program_runDiff_good e s [] good 0 _ _ _ hh (fun j hj => by rw [Nat.zero_add]; exact hn j hj)]
    rfl
  have hw : ∀ (p : Proc) (b : Bytes), .output b ∉ p.tape → .output b ∉ (warn (warningsOf good) p).1.tape := by
    intro p b hp hm
    simp only [warn, Proc.does, List.mem_append, List.mem_map] at hm
    rcases hm with hm | ⟨r, _, hr⟩
    · exact hp hm
    · cases hr
  rw [program_go h, hc]
  unfold compareView
  refine ⟨?_, ?_, ?_⟩
  · intro b
    dsimp only
    cases ho : openView e ⟨[], false, false, false⟩ with
    | none => simp
    | some q =>
      have hq : q.tape = [.enter] := by
        unfold openView at ho
        split at ho
        · exact (Option.some.inj ho) ▸ rfl
        · cases ho
      have h0 : .output b ∉ q.tape := by simp [hq]
      dsimp only
      split <;> try exact h0
      split <;> try exact h0
      dsimp only [runView]
      have h1 : ∀ docs, .output b ∉ (q.does [.view docs]).tape := by simp [Proc.does, hq]
      split
      next heq =>
        cases (Prod.mk.inj heq).1
        exact hw _ _ (by simp [closeView, Proc.does, hq])
      next heq => cases (Prod.mk.inj heq).1; exact h1 _
      next heq => cases (Prod.mk.inj heq).1; exact h1 _
  · intro hd
    have ho : openView e ⟨[], false, false, false⟩ = some ⟨[.enter], true, true, false⟩ := by
      unfold openView
      rw [if_pos (by simp [hd])]
      rfl
    rw [ho]
    dsimp only
    split <;> try simp
    split <;> try simp
    dsimp only [runView]
    split
    next heq => cases (Prod.mk.inj heq).1; simp [warn, closeView, Proc.does]
    next heq => cases (Prod.mk.inj heq).1; simp [Proc.does]
    next heq => cases (Prod.mk.inj heq).1; simp [Proc.does]
  · intro hd ht
    have ho : openView e ⟨[], false, false, false⟩ = none := by
      unfold openView
      rw [if_neg (by simp [hd, ht])]
    rw [ho]
    rfl

theorem warn_dry (warns : List (Bytes × Exn)) (p : Proc) (h : .enter ∉ p.tape) : .enter ∉ (warn warns p).1.tape := by
  intro hm
  simp only [warn, Proc.does, List.mem_append, List.mem_map] at hm
  rcases hm with hm | ⟨r, _, hr⟩
  · exact h hm
  · cases hr

theorem readOne_dry {e : Surround} {s : Settings} {x : Bytes × Source} {t : List Happening} {g : Got} (hr : readOne e s x = (t, g)) (p : Proc) (h : .enter ∉ p.tape) :
    .enter ∉ (p.does t).tape := by
  obtain ⟨rs, rfl, _⟩ := readOne_reports x hr
  intro hm
  simp only [Proc.does, List.mem_append, List.mem_map] at hm
  rcases hm with hm | ⟨r, _, hr⟩
  · exact h hm
  · cases hr

theorem runStdout_dry (e : Surround) (s : Settings) : ∀ (xs : List (Bytes × Source)) (i : Nat) (warns : List (Bytes × Exn)) (p : Proc), .enter ∉ p.tape →
    .enter ∉ (Program.runStdout e s i xs warns p).1.tape
  | [], i, warns, p, h => warn_dry warns p h
  | x :: xs, i, warns, p, h => by
    rw [Program.runStdout]
    cases hq : reading e i p with
    | none => exact h
    | some q =>
      rw [← (reading_tape hq).1] at h
      cases hr : readOne e s x with
      | mk t g =>
      have h1 := readOne_dry hr q h
      cases g with
      | none => exact warn_dry _ _ h1
      | crash r => exact h1
      | doc v new =>
        refine runStdout_dry e s xs (i + 1) _ _ ?_
        intro hm
        rcases List.mem_append.mp hm with hm | hm
        · exact h1 hm
        · simp at hm

theorem prepare_dry (e : Surround) (s : Settings) (cmd : List Bytes) : ∀ (xs : List (Bytes × Source)) (i : Nat) (files : List Bytes) (warns : List (Bytes × Exn)) (p : Proc), .enter ∉ p.tape →
    .enter ∉ (prepare e s cmd i xs files warns p).1.1.tape
  | [], i, files, warns, p, h => by
    rw [prepare]
    have h1 := warn_dry warns p h
    cases hw : warn warns p with
    | mk q fin =>
    rw [hw] at h1
    split
    next q' heq =>
      have := (Prod.mk.inj heq).1
      subst this
      unfold Program.runCommand
      split
      · exact h1
      next argv _ _ =>
        split
        · exact h1
        · intro hm
          rcases List.mem_append.mp hm with hm | hm
          · exact h1 hm
          · simp at hm
    · exact h1
  | x :: xs, i, files, warns, p, h => by
    rw [prepare]
    cases hq : reading e i p with
    | none => exact h
    | some q =>
      rw [← (reading_tape hq).1] at h
      cases hr : readOne e s x with
      | mk t g =>
      have h1 := readOne_dry hr q h
      cases g with
      | none => exact h1
      | crash r => exact h1
      | doc v new =>
        dsimp only
        split
        · refine prepare_dry e s cmd xs (i + 1) _ _ _ ?_
          intro hm
          rcases List.mem_append.mp hm with hm | hm
          · exact h1 hm
          · simp at hm
        · exact h1

/-- **C115, the part that holds.** Without `--diff`: the terminal is taken only if standard output is a terminal and there is neither `--compress` nor `--diff-cmd`; and if standard output is
redirected (or with `--compress`), whether there is a terminal or not, what is printed are the documents of the inputs up to the first one that cannot be read, in order, when the program ends
regularly. Missing: `--diff`. -/
theorem C115_redirected_partial (e : Surround) (args : List Bytes) (s : Settings) (h : Asks e args s) (hc : s.diffMode = false) :
    (.enter ∈ (program e args).1.tape → Browsing e.world s) ∧
    (Redirected e.world s → (∀ i, e.signal i = false) →
      ∃ (good : List Good) (rest : List (Bytes × Source)), getInputs s = good.map (·.1) ++ rest ∧ (∀ g ∈ good, Holds e.world s g.1 g.2.1 g.2.2) ∧
        (rest = [] ∨ ∃ i r, rest = i :: r ∧ ∀ v ws, ¬ Holds e.world s i v ws) ∧
        ∀ n, (program e args).2 = .main (.exit n) →
          (effects (program e args).1.tape).out = good.flatMap fun g => Output.display (e.world.fmt s) s.compressMode g.2.1) := by
  constructor
  · intro hm
    rw [program_tape h] at hm
    unfold Program.choose at hm
    cases hd : s.diffCmd with
    | some cmd =>
      rw [hd] at hm
      dsimp only at hm
      have h1 := prepare_dry e s cmd (getInputs s) 0 [] [] ⟨[], false, false, false⟩ (by simp)
      unfold Program.runExternalDiff at hm
      generalize prepare e s cmd 0 (getInputs s) [] [] ⟨[], false, false, false⟩ = r at h1 hm
      obtain ⟨⟨q, fin⟩, files⟩ := r
      simp only at h1
      split at hm
      next q' files' heq =>
        injection heq with ha hb
        injection ha with ha _
        subst ha
        rcases List.mem_append.mp hm with hm | hm
        · exact (h1 hm).elim
        · simp at hm
      next heq =>
        injection heq with ha hb
        subst ha
        exact (h1 hm).elim
    | none =>
      rw [hd] at hm
      dsimp only at hm
      rw [if_neg (by simp [hc])] at hm
      by_cases h2 : (!s.compressMode && e.world.tty) = true
      · simp only [Bool.and_eq_true, Bool.not_eq_true'] at h2
        exact ⟨hd, hc, h2.2, h2.1⟩
      · rw [if_neg h2] at hm
        exact (runStdout_dry e s _ _ _ _ (by simp) hm).elim
  · intro hr hs
    obtain ⟨good, rest, h1, h2, h3, h4, _⟩ := C53_concatenation_partial e.world args s h hr
    refine ⟨good, rest, h1, h2, h3, fun n hn => ?_⟩
    obtain ⟨a1, a2⟩ := runStdout_main (e := e) (s := s) hs (getInputs s) 0 [] ⟨[], false, false, false⟩ {} rfl
    have hch : Program.choose e s ⟨[], false, false, false⟩ = Program.runStdout e s 0 (getInputs s) [] ⟨[], false, false, false⟩ := by
      obtain ⟨r1, r2, r3⟩ := hr
      unfold Program.choose
      rw [r1]
      dsimp only
      rw [if_neg (by simp [r2]), if_neg]
      rcases r3 with r | r <;> simp [r]
    have hcm := choose_redirected hr
    rw [program_go h, hch] at hn ⊢
    dsimp only at hn ⊢
    have hm := main_go h (f := (Main.runStdout e.world s (getInputs s) [] {}).1) (e := (Main.runStdout e.world s (getInputs s) [] {}).2) hcm
    rw [hm] at h4
    rw [a1]
    rw [a2] at hn
    by_cases hret : (Main.runStdout e.world s (getInputs s) [] {}).2 = .returned
    · exact h4 0 (by simp only [hret, if_true])
    · rw [if_neg (by simpa using hret)] at hn
      exact h4 n (by simp only [if_neg hret]; simpa using hn)

/-- The hypotheses are met: redirected, with a terminal and without one; and two documents compared without a terminal. -/
example : Redirected (terminal false).world Params.initial.set ∧
    (program { terminal false with devTty := false, stdinTty := false } [b!"-W", b!"a", b!"c"]).2 = .main (.exit 0) ∧
    (effects (program { terminal false with devTty := false, stdinTty := false } [b!"-W", b!"a", b!"c"]).1.tape).out.length > 0 ∧
    (program { terminal false with devTty := false, stdinTty := false } [b!"-W", b!"--diff", b!"a", b!"c"]).2 = .main .ub ∧
    ((program (terminal false) [b!"-W", b!"--diff", b!"a", b!"c"]).1.tape.map fun h => match h with | .enter => 1 | .view _ => 2 | .leave => 3 | .report _ => 4 | _ => 0) = [1, 2, 3, 4] :=
  ⟨⟨rfl, rfl, .inl rfl⟩, by decide +kernel, by decide +kernel, by decide +kernel, by decide +kernel⟩

end Verif.Props
