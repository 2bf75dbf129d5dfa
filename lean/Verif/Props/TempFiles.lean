import Verif.Props.Program
/-!
# C117: temporary files do not outlive the program
-/
namespace Verif.Props
open Verif.Model Verif.Model.Params Verif.Model.Main Verif.Model.Program Verif.Spec.Process Verif.Lemmas.Program

/-- The files written, in order. -/
def filesWritten (tape : List Happening) : List Bytes := tape.filterMap fun h => match h with | .wrote n _ => some n | _ => none

/-- The files removed, in order. -/
def filesRemoved (tape : List Happening) : List Bytes := tape.filterMap fun h => match h with | .removed n => some n | _ => none

/-- A happening that neither writes nor removes a file. -/
def NoFile : Happening → Prop
  | .wrote _ _ => False
  | .removed _ => False
  | _ => True

theorem files_noFile (t hs : List Happening) (h : ∀ x ∈ hs, NoFile x) : filesWritten (t ++ hs) = filesWritten t ∧ filesRemoved (t ++ hs) = filesRemoved t := by
  have h1 : filesWritten hs = [] := by
    unfold filesWritten
    rw [List.filterMap_eq_nil_iff]
    intro x hx
    have := h x hx
    cases x <;> first | rfl | exact this.elim
  have h2 : filesRemoved hs = [] := by
    unfold filesRemoved
    rw [List.filterMap_eq_nil_iff]
    intro x hx
    have := h x hx
    cases x <;> first | rfl | exact this.elim
  unfold filesWritten filesRemoved at *
  rw [List.filterMap_append, List.filterMap_append, h1, h2, List.append_nil, List.append_nil]
  exact ⟨rfl, rfl⟩

/-- The process has gone on without files. -/
def Keeps (t t' : List Happening) : Prop := filesWritten t' = filesWritten t ∧ filesRemoved t' = filesRemoved t

theorem Keeps.does {t : List Happening} {p : Proc} (h : Keeps t p.tape) (hs : List Happening) (hn : ∀ x ∈ hs, NoFile x) : Keeps t (p.does hs).tape := by
  obtain ⟨a, b⟩ := files_noFile p.tape hs hn
  exact ⟨a.trans h.1, b.trans h.2⟩

theorem reports_noFile (rs : List Report) : ∀ x ∈ rs.map Happening.report, NoFile x := by
  intro x hx
  obtain ⟨r, _, rfl⟩ := List.mem_map.mp hx
  trivial

theorem warn_keeps {t : List Happening} (warns : List (Bytes × Exn)) {p : Proc} (h : Keeps t p.tape) : Keeps t (warn warns p).1.tape :=
  h.does _ (reports_noFile _)

theorem readOne_noFile {e : Surround} {s : Settings} {x : Bytes × Source} {hs : List Happening} {g : Got} (hr : readOne e s x = (hs, g)) : ∀ y ∈ hs, NoFile y := by
  obtain ⟨rs, rfl, _⟩ := readOne_reports x hr
  exact reports_noFile rs

theorem close_keeps {t : List Happening} {p : Proc} (h : Keeps t p.tape) : Keeps t (closeView p).tape := h.does [.leave] (by simp [NoFile])

theorem browse_keeps (e : Surround) (s : Settings) (t : List Happening) : ∀ (xs : List (Bytes × Source)) (i : Nat) (warns : List (Bytes × Exn)) (p : Proc), Keeps t p.tape →
    Keeps t (browse e s i xs warns p).1.tape
  | [], i, warns, p, h => warn_keeps warns (close_keeps h)
  | x :: xs, i, warns, p, h => by
    rw [browse]
    cases hq : reading e i p with
    | none => exact h
    | some q =>
      rw [← (reading_tape hq).1] at h
      cases hr : readOne e s x with
      | mk hs g =>
      have h1 : Keeps t (q.does hs).tape := h.does hs (readOne_noFile hr)
      cases g with
      | none => exact warn_keeps _ (close_keeps h1)
      | crash r => exact h1
      | doc v new =>
        dsimp only [runView]
        have h2 : Keeps t ((q.does hs).does [.view [(x.1, v)]]).tape := h1.does _ (by simp [NoFile])
        cases e.session (shown (q.does hs).tape) false [(x.1, v)] with
        | left => exact browse_keeps e s t xs (i + 1) _ _ h2
        | crash => exact h2
        | waits => exact h2

theorem open_keeps {e : Surround} {t : List Happening} {p q : Proc} (h : Keeps t p.tape) (ho : openView e p = some q) : Keeps t q.tape := by
  unfold openView at ho
  split at ho
  · have := Option.some.inj ho
    subst this
    exact h.does [.enter] (by simp [NoFile])
  · cases ho

theorem compareView_keeps (e : Surround) (s : Settings) (t : List Happening) (docs : List (Bytes × Json)) (warns : List (Bytes × Exn)) (p : Proc) (h : Keeps t p.tape) :
    Keeps t (compareView e s docs warns p).1.tape := by
  unfold compareView
  cases ho : openView e p with
  | none => exact h
  | some q =>
    have h1 := open_keeps h ho
    match docs with
    | [] => exact h1
    | [_] => exact h1
    | [_, _, _] => exact h1
    | _ :: _ :: _ :: _ :: _ => exact h1
    | [x, y] =>
      dsimp only
      cases Diff.diff (e.world.fmt s) x.2 y.2 with
      | none => exact h1
      | some _ =>
        dsimp only [runView]
        have h2 : Keeps t (q.does [.view [x, y]]).tape := h1.does _ (by simp [NoFile])
        cases e.session (shown q.tape) false [x, y] with
        | left => exact warn_keeps _ (close_keeps (p := { q.does [.view [x, y]] with breakLoop := false }) h2)
        | crash => exact h2
        | waits => exact h2

theorem runDiff_keeps (e : Surround) (s : Settings) (t : List Happening) : ∀ (xs : List (Bytes × Source)) (i : Nat) (docs : List (Bytes × Json)) (warns : List (Bytes × Exn)) (p : Proc),
    Keeps t p.tape → Keeps t (Program.runDiff e s i xs docs warns p).1.tape
  | [], i, docs, warns, p, h => compareView_keeps e s t docs warns p h
  | x :: xs, i, docs, warns, p, h => by
    rw [Program.runDiff]
    cases hq : reading e i p with
    | none => exact h
    | some q =>
      rw [← (reading_tape hq).1] at h
      cases hr : readOne e s x with
      | mk hs g =>
      have h1 : Keeps t (q.does hs).tape := h.does hs (readOne_noFile hr)
      cases g with
      | none => exact h1
      | crash r => exact h1
      | doc v new => exact runDiff_keeps e s t xs (i + 1) _ _ _ h1

theorem runStdout_keeps (e : Surround) (s : Settings) (t : List Happening) : ∀ (xs : List (Bytes × Source)) (i : Nat) (warns : List (Bytes × Exn)) (p : Proc), Keeps t p.tape →
    Keeps t (Program.runStdout e s i xs warns p).1.tape
  | [], i, warns, p, h => warn_keeps warns h
  | x :: xs, i, warns, p, h => by
    rw [Program.runStdout]
    cases hq : reading e i p with
    | none => exact h
    | some q =>
      rw [← (reading_tape hq).1] at h
      cases hr : readOne e s x with
      | mk hs g =>
      have h1 : Keeps t (q.does hs).tape := h.does hs (readOne_noFile hr)
      cases g with
      | none => exact warn_keeps _ h1
      | crash r => exact h1
      | doc v new => exact runStdout_keeps e s t xs (i + 1) _ _ (h1.does _ (by simp [NoFile]))

/-- Before anything is removed, exactly the files to be removed have been written. -/
def Kept (p : Proc) (files : List Bytes) : Prop := filesWritten p.tape = files ∧ filesRemoved p.tape = []

theorem Kept.keeps {p q : Proc} {files : List Bytes} (h : Kept p files) (hk : Keeps p.tape q.tape) : Kept q files := ⟨hk.1.trans h.1, hk.2.trans h.2⟩

theorem keeps_rfl (t : List Happening) : Keeps t t := ⟨rfl, rfl⟩

theorem prepare_kept (e : Surround) (s : Settings) (cmd : List Bytes) : ∀ (xs : List (Bytes × Source)) (i : Nat) (files : List Bytes) (warns : List (Bytes × Exn)) (p : Proc),
    Kept p files → Kept (prepare e s cmd i xs files warns p).1.1 (prepare e s cmd i xs files warns p).2
  | [], i, files, warns, p, h => by
    rw [prepare]
    have h1 := h.keeps (warn_keeps warns (keeps_rfl _))
    cases hw : warn warns p with
    | mk q fin =>
    rw [hw] at h1
    split
    next q' heq =>
      have := (Prod.mk.inj heq).1
      subst this
      unfold Program.runCommand
      split
      · exact h1
      · split
        · exact h1
        · exact h1.keeps ((keeps_rfl _).does _ (by simp [NoFile]))
    · exact h1
  | x :: xs, i, files, warns, p, h => by
    rw [prepare]
    cases hq : reading e i p with
    | none => exact h
    | some q =>
      have h0 : Kept q files := by unfold Kept at h ⊢; rw [(reading_tape hq).1]; exact h
      cases hr : readOne e s x with
      | mk hs g =>
      have h1 : Kept (q.does hs) files := h0.keeps ((keeps_rfl _).does hs (readOne_noFile hr))
      cases g with
      | none => exact h1
      | crash r => exact h1
      | doc v new =>
        dsimp only
        split
        · refine prepare_kept e s cmd xs (i + 1) _ _ _ ?_
          obtain ⟨a, b⟩ := h1
          constructor
          · show ((q.does hs).tape ++ [_]).filterMap _ = _
            rw [List.filterMap_append]
            exact congrArg (· ++ [DiffCmd.tempName x.1]) a
          · show ((q.does hs).tape ++ [_]).filterMap _ = _
            rw [List.filterMap_append]
            exact congrArg (· ++ []) b
        · exact h1

/-- None of the steps before the removal ends the program with an exit status. -/
theorem prepare_not_exit (e : Surround) (s : Settings) (cmd : List Bytes) : ∀ (xs : List (Bytes × Source)) (i : Nat) (files : List Bytes) (warns : List (Bytes × Exn)) (p : Proc) (n : Nat),
    (prepare e s cmd i xs files warns p).1.2 ≠ .main (.exit n)
  | [], i, files, warns, p, n => by
    rw [prepare]
    have h1 : (warn warns p).2 ≠ .main (.exit n) := fun h => showWarnings_not_exit warns {} n (Fin.main.inj h)
    cases hw : warn warns p with
    | mk q fin =>
    rw [hw] at h1
    split
    · unfold Program.runCommand
      split
      · simp
      · split
        · simp
        · intro h
          have := Fin.main.inj h
          revert this
          unfold wait
          split <;> simp
    · exact h1
  | x :: xs, i, files, warns, p, n => by
    rw [prepare]
    cases reading e i p with
    | none => simp
    | some q =>
      cases hr : readOne e s x with
      | mk hs g =>
      cases g with
      | none => simp
      | crash r =>
        intro h
        have hr' : r = .exit n := Fin.main.inj h
        subst hr'
        have h2 : (readOneFile e.world s x {}).2 = .crash (.exit n) := (Prod.mk.inj hr).2
        rcases readOneFile_cases e.world s x with ⟨v, ws, h⟩ | ⟨r, h⟩ | ⟨_, _, e', _, h3, rs, h4, _⟩
        · rw [readOneFile_holds h] at h2; cases h2
        · rw [readOneFile_fails h] at h2; cases h2
        · rw [h4] at h2
          exact h3 n (Got.crash.inj h2)
      | doc v new =>
        dsimp only
        split
        · exact prepare_not_exit e s cmd xs (i + 1) _ _ _ n
        · simp

theorem filesWritten_map (files : List Bytes) : filesWritten (files.map .removed) = [] := by
  induction files with
  | nil => rfl
  | cons a l ih => exact ih

theorem filesRemoved_map (files : List Bytes) : filesRemoved (files.map .removed) = files := by
  induction files with
  | nil => rfl
  | cons a l ih => exact congrArg (a :: ·) ih

/-- **C117 is false as stated**: a signal that arrives while the second input is read ends the program with the file for the first one written and not removed; so does a number that is too
large in the second input. -/
theorem C117_temporary_false :
    (∃ e args, (program e args).2 = .killed ∧ (filesWritten (program e args).1.tape).length = 1 ∧ filesRemoved (program e args).1.tape = []) ∧
    ∃ e args, (program e args).2 = .main .uncaught ∧ (filesWritten (program e args).1.tape).length = 1 ∧ filesRemoved (program e args).1.tape = [] :=
  ⟨⟨{ terminal true with signal := fun i => i == 1 }, [b!"--diff-cmd", b!"diff", b!"{}", b!";", b!"a", b!"c"], by decide +kernel⟩,
    ⟨terminal true, [b!"--diff-cmd", b!"diff", b!"{}", b!";", b!"a", b!"--", b!"[9223372036854775808]"], by decide +kernel⟩⟩

/-- **C117, the part that holds.** Whatever the command line, the files, the signals and the sessions: when the program ends regularly, the files it has removed are exactly those it has written, once
for each time they were written; and until then no file is removed. Missing: crashes, signals and commands that do not end. -/
theorem C117_temporary_partial (e : Surround) (args : List Bytes) :
    (∀ n, (program e args).2 = .main (.exit n) → filesRemoved (program e args).1.tape = filesWritten (program e args).1.tape) ∧
    ((∀ n, (program e args).2 ≠ .main (.exit n)) → filesRemoved (program e args).1.tape = []) := by
  cases h : Params.read (fun f => (e.world.files f).isSome) args with
  | throw x =>
    have : program e args = (⟨[.report (.usage x), .usage], false, false, false⟩, .main (.exit 1)) := by unfold program; rw [h]; rfl
    rw [this]
    exact ⟨fun _ _ => rfl, fun _ => rfl⟩
  | stop x =>
    have hp : program e args = (⟨[.usage], false, false, false⟩, .main (.exit 0)) ∨ program e args = (⟨[.version], false, false, false⟩, .main (.exit 0)) := by
      unfold program
      rw [h]
      cases x <;> first | exact .inl rfl | exact .inr rfl
    rcases hp with hp | hp <;> rw [hp] <;> exact ⟨fun _ _ => rfl, fun _ => rfl⟩
  | go s =>
    have ha : Asks e args s := h
    have hno : ∀ p : Proc, Keeps [] p.tape → filesRemoved p.tape = filesWritten p.tape ∧ filesRemoved p.tape = [] := fun p hk => ⟨hk.2.trans hk.1.symm, hk.2⟩
    have hplain : Keeps [] (Program.choose e s ⟨[], false, false, false⟩).1.tape → filesRemoved (program e args).1.tape = filesWritten (program e args).1.tape ∧
        filesRemoved (program e args).1.tape = [] := by
      intro hk
      rw [program_tape ha]
      exact hno _ hk
    unfold Program.choose at hplain
    cases hd : s.diffCmd with
    | none =>
      rw [hd] at hplain
      dsimp only at hplain
      have : filesRemoved (program e args).1.tape = filesWritten (program e args).1.tape ∧ filesRemoved (program e args).1.tape = [] := by
        apply hplain
        split
        · exact runDiff_keeps e s [] _ _ _ _ _ (keeps_rfl [])
        · split
          · unfold Program.run
            cases ho : openView e ⟨[], false, false, false⟩ with
            | none => exact keeps_rfl []
            | some q => exact browse_keeps e s [] _ _ _ _ (open_keeps (keeps_rfl []) ho)
          · exact runStdout_keeps e s [] _ _ _ _ (keeps_rfl [])
      exact ⟨fun _ _ => this.1, fun _ => this.2⟩
    | some cmd =>
      have hc : Program.choose e s ⟨[], false, false, false⟩ = Program.runExternalDiff e s cmd ⟨[], false, false, false⟩ := by unfold Program.choose; rw [hd]
      have hk := prepare_kept e s cmd (getInputs s) 0 [] [] ⟨[], false, false, false⟩ ⟨rfl, rfl⟩
      have hnot := prepare_not_exit e s cmd (getInputs s) 0 [] [] ⟨[], false, false, false⟩
      rw [program_go ha, hc]
      unfold Program.runExternalDiff
      generalize prepare e s cmd 0 (getInputs s) [] [] ⟨[], false, false, false⟩ = r at hk hnot
      obtain ⟨⟨q, fin⟩, files⟩ := r
      obtain ⟨k1, k2⟩ := hk
      dsimp only at k1 k2 hnot
      have hw : filesWritten (q.tape ++ files.map .removed) = files := by
        have h1 : filesWritten (q.tape ++ files.map .removed) = filesWritten q.tape ++ filesWritten (files.map .removed) := List.filterMap_append
        rw [h1, k1, filesWritten_map, List.append_nil]
      have hr : filesRemoved (q.tape ++ files.map .removed) = files := by
        have h1 : filesRemoved (q.tape ++ files.map .removed) = filesRemoved q.tape ++ filesRemoved (files.map .removed) := List.filterMap_append
        rw [h1, k2, filesRemoved_map, List.nil_append]
      cases fin with
      | killed => exact ⟨fun n hn => by simp at hn, fun _ => k2⟩
      | viewCrash => exact ⟨fun n hn => by simp at hn, fun _ => k2⟩
      | waits => exact ⟨fun n hn => by simp at hn, fun _ => k2⟩
      | main en =>
        cases en with
        | returned => exact ⟨fun _ _ => hr.trans hw.symm, fun hx => (hx 0 rfl).elim⟩
        | exit n => exact (hnot n rfl).elim
        | _ => exact ⟨fun n hn => by simp at hn, fun _ => k2⟩

/-- The hypothesis is met: both files are written and removed. -/
example : (program (terminal true) [b!"-W", b!"--diff-cmd", b!"diff", b!"{}", b!";", b!"a", b!"c"]).2 = .main (.exit 0) :=
  by decide +kernel

example : (filesWritten (program (terminal true) [b!"-W", b!"--diff-cmd", b!"diff", b!"{}", b!";", b!"a", b!"c"]).1.tape).length = 2 := by decide +kernel

end Verif.Props
