import Verif.Model.Main
import Verif.Props.ReaderTree
import Verif.Props.DiffCmd
import Verif.Props.Diff
import Verif.Props.Params
import Verif.Props.Layout
/-!
# C53, C54, C65–C69: the program as a whole
-/
namespace Verif.Props
open Verif.Model Verif.Model.Params Verif.Model.Main

/-! ### What an input holds -/

/-- What is to be read: the contents of the file, the text of the command line, or standard input. -/
def textOf (w : World) (s : Settings) : Source → Bytes
  | .file f => (w.files f).getD []
  | .text => s.argsText
  | .stdin => w.stdin

theorem contents_text (w : World) (s : Settings) (x : Source) : contents w s x = textOf w s x := by cases x <;> rfl

/-- The input is read: its document, and the warnings about it. -/
def Holds (w : World) (s : Settings) (i : Bytes × Source) (v : Json) (warns : List Exn) : Prop :=
  ∃ st, Model.read (envOf s.strict s.ignoreUnicode s.sorted w.surr) (St.init (w.junk i.1).1 (w.junk i.1).2 (textOf w s i.2)) = .ret (some v) st ∧
    st.warns = warns

/-- The input cannot be read, and that can be reported. -/
inductive Fails (w : World) (s : Settings) (i : Bytes × Source) : Report → Prop
  | nothing (st : St) : Model.read (envOf s.strict s.ignoreUnicode s.sorted w.surr) (St.init (w.junk i.1).1 (w.junk i.1).2 (textOf w s i.2)) = .ret none st →
      Fails w s i (.eof i.1)
  | wrong (e : Exn) (line col : Nat) (what context : Bytes) (tildes : Nat) :
      Model.read (envOf s.strict s.ignoreUnicode s.sorted w.surr) (St.init (w.junk i.1).1 (w.junk i.1).2 (textOf w s i.2)) = .throw e →
      displayException e = .shown line col what context tildes → Fails w s i (.error i.1 line col what context tildes)

/-- The report about a warning, if it can be displayed (see C19). -/
def warningOf (name : Bytes) (e : Exn) : Option Report :=
  match displayException e with
  | .shown line col what context tildes => some (.warning name line col what context tildes)
  | _ => none

/-- An input with the document read from it and the warnings. -/
abbrev Good := (Bytes × Source) × Json × List Exn

/-- All warnings, with the names of their inputs. -/
def warningsOf (good : List Good) : List (Bytes × Exn) := good.flatMap fun g => g.2.2.map (g.1.1, ·)

/-! ### Lemmas -/

theorem readOneFile_holds {w : World} {s : Settings} {i : Bytes × Source} {v : Json} {ws : List Exn} (h : Holds w s i v ws) (f : Effects) :
    readOneFile w s i f = (f, .doc v (ws.map (i.1, ·))) := by
  obtain ⟨st, h, rfl⟩ := h
  unfold readOneFile readFile
  rw [contents_text]
  rw [show (⟨some ⟨s.strict, s.ignoreUnicode, s.sorted⟩, w.surr⟩ : Env) = envOf s.strict s.ignoreUnicode s.sorted w.surr from rfl, h]

theorem readOneFile_fails {w : World} {s : Settings} {i : Bytes × Source} {r : Report} (h : Fails w s i r) (f : Effects) :
    readOneFile w s i f = ({ f with err := f.err ++ [r] }, .none) := by
  unfold readOneFile readFile
  rw [contents_text]
  rw [show (⟨some ⟨s.strict, s.ignoreUnicode, s.sorted⟩, w.surr⟩ : Env) = envOf s.strict s.ignoreUnicode s.sorted w.surr from rfl]
  cases h with
  | nothing st h => rw [h]
  | wrong e line col what context tildes h hd => rw [h]; simp only [hd]

/-- What is written about an input whose reading ends the program: nothing, or the first line of the report. -/
inductive LastWords (w : World) (s : Settings) (i : Bytes × Source) : Ending → List Report → Prop
  | none (e : Ending) : LastWords w s i e []
  | cut (x : Exn) (h : Model.read (envOf s.strict s.ignoreUnicode s.sorted w.surr) (St.init (w.junk i.1).1 (w.junk i.1).2 (textOf w s i.2)) = .throw x)
      (hd : displayException x = .lengthError) :
      LastWords w s i .uncaught [.cutError i.1 x.hist.currentLine x.hist.totalSize ((message x.kind).getD [])]

theorem readOneFile_cases (w : World) (s : Settings) (i : Bytes × Source) :
    (∃ v ws, Holds w s i v ws) ∨ (∃ r, Fails w s i r) ∨
      (∀ v ws, ¬ Holds w s i v ws) ∧ (∀ r, ¬ Fails w s i r) ∧ ∃ e, e ≠ .returned ∧ (∀ n, e ≠ .exit n) ∧
        ∃ rs, (∀ f, readOneFile w s i f = ({ f with err := f.err ++ rs }, .crash e)) ∧ LastWords w s i e rs := by
  unfold readOneFile readFile Holds
  rw [contents_text]
  rw [show (⟨some ⟨s.strict, s.ignoreUnicode, s.sorted⟩, w.surr⟩ : Env) = envOf s.strict s.ignoreUnicode s.sorted w.surr from rfl]
  cases h : Model.read (envOf s.strict s.ignoreUnicode s.sorted w.surr) (St.init (w.junk i.1).1 (w.junk i.1).2 (textOf w s i.2)) with
  | ret v st =>
    cases v with
    | some v => exact .inl ⟨v, st.warns, st, rfl, rfl⟩
    | none => exact .inr (.inl ⟨_, .nothing st h⟩)
  | throw e =>
    cases hd : displayException e with
    | shown line col what context tildes => exact .inr (.inl ⟨_, .wrong e line col what context tildes h hd⟩)
    | lengthError =>
      refine .inr (.inr ⟨by simp, fun r hr => ?_, .uncaught, by simp, by simp, _, fun f => by simp only [hd], .cut e h hd⟩)
      cases hr <;> simp_all
    | ub =>
      refine .inr (.inr ⟨by simp, fun r hr => ?_, .ub, by simp, by simp, [], fun f => by simp only [hd, List.append_nil], .none _⟩)
      cases hr <;> simp_all
  | uncaught u =>
    refine .inr (.inr ⟨by simp, fun r hr => ?_, .uncaught, by simp, by simp, [], fun f => by simp only [List.append_nil], .none _⟩)
    cases hr <;> simp_all
  | ub u =>
    refine .inr (.inr ⟨by simp, fun r hr => ?_, .ub, by simp, by simp, [], fun f => by simp only [List.append_nil], .none _⟩)
    cases hr <;> simp_all
  | fuel =>
    refine .inr (.inr ⟨by simp, fun r hr => ?_, .hangs, by simp, by simp, [], fun f => by simp only [List.append_nil], .none _⟩)
    cases hr <;> simp_all

theorem not_holds_of_fails {w : World} {s : Settings} {i : Bytes × Source} {r : Report} (h : Fails w s i r) : ∀ v ws, ¬ Holds w s i v ws := by
  rintro v ws ⟨st, h', _⟩
  cases h <;> simp_all

/-- The inputs up to the first that is not read. -/
theorem session (w : World) (s : Settings) (is : List (Bytes × Source)) :
    ∃ (good : List Good) (rest : List (Bytes × Source)), is = good.map (·.1) ++ rest ∧ (∀ g ∈ good, Holds w s g.1 g.2.1 g.2.2) ∧
      (rest = [] ∨ ∃ i r, rest = i :: r ∧ ∀ v ws, ¬ Holds w s i v ws) := by
  induction is with
  | nil => exact ⟨[], [], rfl, by simp, .inl rfl⟩
  | cons i is ih =>
    by_cases h : ∃ v ws, Holds w s i v ws
    · obtain ⟨v, ws, h⟩ := h
      obtain ⟨good, rest, h1, h2, h3⟩ := ih
      refine ⟨(i, v, ws) :: good, rest, by simp [h1], ?_, h3⟩
      intro g hg
      rcases List.mem_cons.mp hg with rfl | hg
      · exact h
      · exact h2 g hg
    · exact ⟨[], i :: is, rfl, by simp, .inr ⟨i, is, rfl, fun v ws hv => h ⟨v, ws, hv⟩⟩⟩

theorem showWarnings_ok : ∀ (warns : List (Bytes × Exn)) (f : Effects) (rs : List Report), warns.map (fun x => warningOf x.1 x.2) = rs.map some →
    showWarnings warns f = ({ f with err := f.err ++ rs }, .returned) := by
  intro warns
  induction warns with
  | nil => intro f rs h; cases rs <;> simp_all [showWarnings]
  | cons x warns ih =>
    intro f rs h
    obtain ⟨n, e⟩ := x
    cases rs with
    | nil => simp at h
    | cons r rs =>
      simp only [List.map_cons, List.cons.injEq] at h
      unfold warningOf at h
      unfold showWarnings
      cases hd : displayException e with
      | shown line col what context tildes =>
        rw [hd] at h
        simp only [Option.some.injEq] at h
        dsimp only
        rw [ih _ rs h.2, ← h.1]
        simp
      | lengthError => rw [hd] at h; simp at h
      | ub => rw [hd] at h; simp at h

theorem showWarnings_bad : ∀ (warns : List (Bytes × Exn)) (f : Effects), (∃ x ∈ warns, warningOf x.1 x.2 = none) →
    ∃ f' e, showWarnings warns f = (f', e) ∧ e ≠ .returned ∧ (∀ n, e ≠ .exit n) := by
  intro warns
  induction warns with
  | nil => intro f h; simp at h
  | cons x warns ih =>
    intro f h
    obtain ⟨n, e⟩ := x
    unfold showWarnings
    cases hd : displayException e with
    | shown line col what context tildes =>
      apply ih
      obtain ⟨x, hx, h⟩ := h
      rcases List.mem_cons.mp hx with rfl | hx
      · simp [warningOf, hd] at h
      · exact ⟨x, hx, h⟩
    | lengthError => exact ⟨_, _, rfl, by simp, by simp⟩
    | ub => exact ⟨_, _, rfl, by simp, by simp⟩

/-- Either all warnings can be displayed, or one cannot. -/
theorem warnings_cases (warns : List (Bytes × Exn)) :
    (∃ rs : List Report, warns.map (fun x => warningOf x.1 x.2) = rs.map some) ∨ ∃ x ∈ warns, warningOf x.1 x.2 = none := by
  induction warns with
  | nil => exact .inl ⟨[], rfl⟩
  | cons x warns ih =>
    cases h : warningOf x.1 x.2 with
    | none => exact .inr ⟨x, by simp, h⟩
    | some r =>
      rcases ih with ⟨rs, ih⟩ | ⟨y, hy, ih⟩
      · exact .inl ⟨r :: rs, by simp [h, ih]⟩
      · exact .inr ⟨y, by simp [hy], ih⟩

theorem runStdout_good (w : World) (s : Settings) (rest : List (Bytes × Source)) : ∀ (good : List Good) (warns : List (Bytes × Exn)) (f : Effects),
    (∀ g ∈ good, Holds w s g.1 g.2.1 g.2.2) →
    runStdout w s (good.map (·.1) ++ rest) warns f =
      runStdout w s rest (warns ++ warningsOf good) { f with out := f.out ++ good.flatMap fun g => Output.display (w.fmt s) s.compressMode g.2.1 } := by
  intro good
  induction good with
  | nil => intro warns f _; simp [warningsOf]
  | cons g good ih =>
    intro warns f h
    rw [List.map_cons, List.cons_append, runStdout, readOneFile_holds (h g (by simp)) f]
    simp only
    rw [ih _ _ fun g hg => h g (by simp [hg])]
    simp [warningsOf]

theorem run_good (w : World) (s : Settings) (rest : List (Bytes × Source)) : ∀ (good : List Good) (warns : List (Bytes × Exn)) (f : Effects),
    (∀ g ∈ good, Holds w s g.1 g.2.1 g.2.2) →
    run w s (good.map (·.1) ++ rest) warns f =
      run w s rest (warns ++ warningsOf good) { f with views := f.views ++ good.map fun g => [(g.1.1, g.2.1)] } := by
  intro good
  induction good with
  | nil => intro warns f _; simp [warningsOf]
  | cons g good ih =>
    intro warns f h
    rw [List.map_cons, List.cons_append, run, readOneFile_holds (h g (by simp)) f]
    simp only
    rw [ih _ _ fun g hg => h g (by simp [hg])]
    simp [warningsOf]

theorem runDiff_good (w : World) (s : Settings) (rest : List (Bytes × Source)) : ∀ (good : List Good) (docs : List (Bytes × Json)) (warns : List (Bytes × Exn))
    (f : Effects), (∀ g ∈ good, Holds w s g.1 g.2.1 g.2.2) →
    runDiff w s (good.map (·.1) ++ rest) docs warns f =
      runDiff w s rest (docs ++ good.map fun g => (g.1.1, g.2.1)) (warns ++ warningsOf good) f := by
  intro good
  induction good with
  | nil => intro docs warns f _; simp [warningsOf]
  | cons g good ih =>
    intro docs warns f h
    rw [List.map_cons, List.cons_append, runDiff, readOneFile_holds (h g (by simp)) f]
    simp only
    rw [ih _ _ _ fun g hg => h g (by simp [hg])]
    simp [warningsOf]

theorem main_go {w : World} {args : List Bytes} {s : Settings} (h : Params.read (fun f => (w.files f).isSome) args = .go s) {f : Effects} {e : Ending}
    (hc : choose w s {} = (f, e)) : Main.main w args = (f, if e = .returned then .exit 0 else e) := by
  unfold Main.main
  rw [h]
  simp only [hc]
  cases e <;> rfl

/-- The reports about the input at which the program stops, if any. -/
def FirstFailure (w : World) (s : Settings) (rest : List (Bytes × Source)) (reports : List Report) : Prop :=
  rest = [] ∧ reports = [] ∨ ∃ i r report, rest = i :: r ∧ Fails w s i report ∧ reports = [report]

theorem failure_cases (w : World) (s : Settings) (rest : List (Bytes × Source)) (h : rest = [] ∨ ∃ i r, rest = i :: r ∧ ∀ v ws, ¬ Holds w s i v ws) :
    (∃ reports, FirstFailure w s rest reports) ∨
    ∃ i r e, rest = i :: r ∧ (∀ rep, ¬ Fails w s i rep) ∧ e ≠ .returned ∧ (∀ n, e ≠ .exit n) ∧ ∃ rs, ∀ f, readOneFile w s i f = ({ f with err := f.err ++ rs }, .crash e) := by
  rcases h with rfl | ⟨i, r, rfl, h⟩
  · exact .inl ⟨[], .inl ⟨rfl, rfl⟩⟩
  · rcases readOneFile_cases w s i with ⟨v, ws, h'⟩ | ⟨rep, h'⟩ | ⟨_, h2, e, h3, h4, rs, h5, _⟩
    · exact absurd h' (h v ws)
    · exact .inl ⟨[rep], .inr ⟨i, r, rep, rfl, h', rfl⟩⟩
    · exact .inr ⟨i, r, e, rfl, h2, h3, h4, rs, h5⟩

/-- What the loops of `run` and `runStdout` do with the inputs after the good ones. -/
theorem runStdout_rest (w : World) (s : Settings) (rest : List (Bytes × Source)) (warns : List (Bytes × Exn)) (f : Effects) (reports rs : List Report)
    (h : FirstFailure w s rest reports) (hw : warns.map (fun x => warningOf x.1 x.2) = rs.map some) :
    runStdout w s rest warns f = ({ f with err := f.err ++ reports ++ rs }, .returned) := by
  rcases h with ⟨rfl, rfl⟩ | ⟨i, r, rep, rfl, h, rfl⟩
  · rw [runStdout, showWarnings_ok warns f rs hw]; simp
  · rw [runStdout, readOneFile_fails h]
    simp only
    rw [showWarnings_ok warns _ rs hw]

theorem run_rest (w : World) (s : Settings) (rest : List (Bytes × Source)) (warns : List (Bytes × Exn)) (f : Effects) (reports rs : List Report)
    (h : FirstFailure w s rest reports) (hw : warns.map (fun x => warningOf x.1 x.2) = rs.map some) :
    run w s rest warns f = ({ f with err := f.err ++ reports ++ rs }, .returned) := by
  rcases h with ⟨rfl, rfl⟩ | ⟨i, r, rep, rfl, h, rfl⟩
  · rw [run, showWarnings_ok warns f rs hw]; simp
  · rw [run, readOneFile_fails h]
    simp only
    rw [showWarnings_ok warns _ rs hw]

theorem runStdout_bad (w : World) (s : Settings) (rest : List (Bytes × Source)) (warns : List (Bytes × Exn)) (f : Effects)
    (h : (∃ i r e, rest = i :: r ∧ (∀ rep, ¬ Fails w s i rep) ∧ e ≠ .returned ∧ (∀ n, e ≠ .exit n) ∧ ∃ rs, ∀ f, readOneFile w s i f = ({ f with err := f.err ++ rs }, .crash e)) ∨
      (∃ reports, FirstFailure w s rest reports) ∧ ∃ x ∈ warns, warningOf x.1 x.2 = none) :
    ∃ f' e, runStdout w s rest warns f = (f', e) ∧ e ≠ .returned ∧ (∀ n, e ≠ .exit n) := by
  rcases h with ⟨i, r, e, rfl, _, h1, h2, rs, h3⟩ | ⟨⟨reports, h⟩, hx⟩
  · refine ⟨{ f with err := f.err ++ rs }, e, ?_, h1, h2⟩
    rw [runStdout, h3]
  · rcases h with ⟨rfl, rfl⟩ | ⟨i, r, rep, rfl, h, rfl⟩
    · rw [runStdout]; exact showWarnings_bad warns f hx
    · rw [runStdout, readOneFile_fails h]; exact showWarnings_bad warns _ hx

theorem run_bad (w : World) (s : Settings) (rest : List (Bytes × Source)) (warns : List (Bytes × Exn)) (f : Effects)
    (h : (∃ i r e, rest = i :: r ∧ (∀ rep, ¬ Fails w s i rep) ∧ e ≠ .returned ∧ (∀ n, e ≠ .exit n) ∧ ∃ rs, ∀ f, readOneFile w s i f = ({ f with err := f.err ++ rs }, .crash e)) ∨
      (∃ reports, FirstFailure w s rest reports) ∧ ∃ x ∈ warns, warningOf x.1 x.2 = none) :
    ∃ f' e, run w s rest warns f = (f', e) ∧ e ≠ .returned ∧ (∀ n, e ≠ .exit n) := by
  rcases h with ⟨i, r, e, rfl, _, h1, h2, rs, h3⟩ | ⟨⟨reports, h⟩, hx⟩
  · refine ⟨{ f with err := f.err ++ rs }, e, ?_, h1, h2⟩
    rw [run, h3]
  · rcases h with ⟨rfl, rfl⟩ | ⟨i, r, rep, rfl, h, rfl⟩
    · rw [run]; exact showWarnings_bad warns f hx
    · rw [run, readOneFile_fails h]; exact showWarnings_bad warns _ hx

theorem showWarnings_not_exit (warns : List (Bytes × Exn)) (f : Effects) : ∀ n, (showWarnings warns f).2 ≠ .exit n := by
  rcases warnings_cases warns with ⟨rs, h⟩ | h
  · rw [showWarnings_ok warns f rs h]; simp
  · obtain ⟨f', e, h1, _, h2⟩ := showWarnings_bad warns f h
    rw [h1]; exact h2

theorem runStdout_not_exit (w : World) (s : Settings) : ∀ is warns f n, (runStdout w s is warns f).2 ≠ .exit n := by
  intro is
  induction is with
  | nil => intro warns f n; exact showWarnings_not_exit warns f n
  | cons i is ih =>
    intro warns f n
    rw [runStdout]
    rcases readOneFile_cases w s i with ⟨v, ws, h⟩ | ⟨r, h⟩ | ⟨_, _, e, _, h1, rs, h2, _⟩
    · rw [readOneFile_holds h]; exact ih _ _ _
    · rw [readOneFile_fails h]; exact showWarnings_not_exit _ _ _
    · rw [h2]; exact h1 n

theorem run_not_exit (w : World) (s : Settings) : ∀ is warns f n, (run w s is warns f).2 ≠ .exit n := by
  intro is
  induction is with
  | nil => intro warns f n; exact showWarnings_not_exit warns f n
  | cons i is ih =>
    intro warns f n
    rw [run]
    rcases readOneFile_cases w s i with ⟨v, ws, h⟩ | ⟨r, h⟩ | ⟨_, _, e, _, h1, rs, h2, _⟩
    · rw [readOneFile_holds h]; exact ih _ _ _
    · rw [readOneFile_fails h]; exact showWarnings_not_exit _ _ _
    · rw [h2]; exact h1 n

theorem splitView_not_exit (w : World) (s : Settings) (docs : List (Bytes × Json)) (f : Effects) : ∀ n, (splitView w s docs f).2 ≠ .exit n := by
  intro n
  unfold splitView
  split
  · simp
  · split <;> simp
  · simp

theorem runDiff_not_exit (w : World) (s : Settings) : ∀ is docs warns f n, (runDiff w s is docs warns f).2 ≠ .exit n := by
  intro is
  induction is with
  | nil =>
    intro docs warns f n
    rw [runDiff]
    have h := splitView_not_exit w s docs f n
    cases hv : splitView w s docs f with
    | mk f' e =>
      rw [hv] at h
      cases e <;> first | exact showWarnings_not_exit warns f' n | exact h
  | cons i is ih =>
    intro docs warns f n
    rw [runDiff]
    rcases readOneFile_cases w s i with ⟨v, ws, h⟩ | ⟨r, h⟩ | ⟨_, _, e, _, h1, rs, h2, _⟩
    · rw [readOneFile_holds h]; exact ih _ _ _ _
    · rw [readOneFile_fails h]; simp
    · rw [h2]; exact h1 n

theorem runCommand_not_exit (w : World) (cmd files : List Bytes) (f : Effects) : ∀ n, (runCommand w cmd files f).2 ≠ .exit n := by
  intro n
  unfold runCommand
  split
  · simp
  · next argv _ _ =>
    cases hc : w.child argv with
    | noExec b => cases b <;> simp [wait]
    | _ => simp [wait]

theorem doRunExternalDiff_not_exit (w : World) (s : Settings) (cmd : List Bytes) : ∀ is files warns f n, (doRunExternalDiff w s cmd is files warns f).2.1 ≠ .exit n := by
  intro is
  induction is with
  | nil =>
    intro files warns f n
    rw [doRunExternalDiff]
    have h := showWarnings_not_exit warns f n
    cases hv : showWarnings warns f with
    | mk f' e =>
      rw [hv] at h
      cases e <;> first | exact runCommand_not_exit w cmd files f' n | exact h
  | cons i is ih =>
    intro files warns f n
    rw [doRunExternalDiff]
    rcases readOneFile_cases w s i with ⟨v, ws, h⟩ | ⟨r, h⟩ | ⟨_, _, e, _, h1, rs, h2, _⟩
    · rw [readOneFile_holds h]
      simp only
      split
      · exact ih _ _ _ _
      · simp
    · rw [readOneFile_fails h]; simp
    · rw [h2]; exact h1 n

theorem choose_not_exit (w : World) (s : Settings) (f : Effects) (e : Ending) (h : choose w s {} = (f, e)) : ∀ n, e ≠ .exit n := by
  have hsnd : e = (choose w s {}).2 := by rw [h]
  intro n
  rw [hsnd]
  unfold choose
  split
  · unfold runExternalDiff
    next cmd _ =>
    have h := doRunExternalDiff_not_exit w s cmd (getInputs s) [] [] {} n
    cases hd : doRunExternalDiff w s cmd (getInputs s) [] [] {} with
    | mk f' x =>
      obtain ⟨e', files⟩ := x
      rw [hd] at h
      cases e' <;> first | exact h | (intro hh; cases hh)
  · split
    · exact runDiff_not_exit w s _ _ _ _ n
    · split
      · exact run_not_exit w s _ _ _ n
      · exact runStdout_not_exit w s _ _ _ n

/-! ### Properties -/

/-- The settings with which the inputs are written to standard output. -/
def Redirected (w : World) (s : Settings) : Prop := s.diffCmd = none ∧ s.diffMode = false ∧ (w.tty = false ∨ s.compressMode = true)

/-- The settings with which the inputs are shown one by one. -/
def Browsing (w : World) (s : Settings) : Prop := s.diffCmd = none ∧ s.diffMode = false ∧ w.tty = true ∧ s.compressMode = false

theorem choose_redirected {w : World} {s : Settings} (h : Redirected w s) : choose w s {} = runStdout w s (getInputs s) [] {} := by
  obtain ⟨h1, h2, h3⟩ := h
  unfold choose
  rw [h1]
  simp only [h2, Bool.false_eq_true, if_false]
  rw [if_neg]
  rcases h3 with h | h <;> simp [h]

theorem choose_browsing {w : World} {s : Settings} (h : Browsing w s) : choose w s {} = run w s (getInputs s) [] {} := by
  obtain ⟨h1, h2, h3, h4⟩ := h
  unfold choose
  rw [h1]
  simp [h2, h3, h4]

/-- A world for the examples: two files, standard output redirected, and a command that ends normally. -/
def exampleWorld : World where
  files := fun f => if f = b!"a" then some b!"[1]" else if f = b!"b" then some b!"[nul]" else if f = b!"c" then some b!"{\"k\":1,\"k\":2}" else none
  stdin := []
  tty := false
  surr := fun _ => none
  point := b!"."
  junk := fun _ => (List.replicate 45 0, 0)
  canCreate := fun _ => true
  child := fun _ => .exits 0

/-- **C53 is false as stated**: an input that crashes the reader (C10) or cannot be reported (C19) takes the program with it, also after documents
have been printed; and so does a warning that cannot be reported. -/
theorem C53_concatenation_false (w : World) (ht : w.tty = false) :
    (Main.main w [b!"--", b!"[9223372036854775808]"]).2 = .uncaught ∧ (Main.main w [b!"--", b!"[1 2]"]).2 = .ub ∧
    (Main.main w [b!"-W", b!"--", b!"[\"\\x\"]"]).2 = .ub := by
  obtain ⟨a, b, c, d, e, f, g, h⟩ := w
  simp only at ht
  subst ht
  exact ⟨rfl, rfl, rfl⟩

/-- **C53, the part that holds.** For every run with redirected output: the inputs are the ones read, followed by the first one that is not read (and
any others after it), if any. If the program ends regularly, its output is the concatenation of what is printed for the
former, and nothing else. It ends regularly if and only if the input that is not read can be reported and all warnings can. Missing: the crashes. -/
theorem C53_concatenation_partial (w : World) (args : List Bytes) (s : Settings) (h : Params.read (fun f => (w.files f).isSome) args = .go s)
    (hr : Redirected w s) :
    ∃ (good : List Good) (rest : List (Bytes × Source)), getInputs s = good.map (·.1) ++ rest ∧ (∀ g ∈ good, Holds w s g.1 g.2.1 g.2.2) ∧
      (rest = [] ∨ ∃ i r, rest = i :: r ∧ ∀ v ws, ¬ Holds w s i v ws) ∧
      (∀ n, (Main.main w args).2 = .exit n → (Main.main w args).1.out = good.flatMap fun g => Output.display (w.fmt s) s.compressMode g.2.1) ∧
      ((∃ n, (Main.main w args).2 = .exit n) ↔
        (∀ i ∈ rest.head?, ∃ report, Fails w s i report) ∧ ∀ g ∈ good, ∀ e ∈ g.2.2, ∃ report, warningOf g.1.1 e = some report) := by
  obtain ⟨good, rest, h1, h2, h3⟩ := session w s (getInputs s)
  refine ⟨good, rest, h1, h2, h3, ?_⟩
  have hc := choose_redirected hr
  rw [h1, runStdout_good w s rest good _ _ h2] at hc
  rcases failure_cases w s rest h3 with ⟨reports, hf⟩ | hf
  · have hhead : ∀ i ∈ rest.head?, ∃ report, Fails w s i report := by
      rcases hf with ⟨rfl, _⟩ | ⟨i, r, rep, rfl, hf, _⟩
      · simp
      · intro j hj; simp at hj; subst hj; exact ⟨rep, hf⟩
    rcases warnings_cases (([] : List (Bytes × Exn)) ++ warningsOf good) with ⟨rs, hw⟩ | hw
    · rw [runStdout_rest w s rest _ _ reports rs hf hw] at hc
      rw [main_go h hc]
      refine ⟨fun n _ => by simp, ⟨fun _ => ⟨hhead, ?_⟩, fun _ => ⟨0, by simp⟩⟩⟩
      intro g hg e he
      have hm : (g.1.1, e) ∈ ([] : List (Bytes × Exn)) ++ warningsOf good := by
        simp only [List.nil_append, warningsOf, List.mem_flatMap, List.mem_map]
        exact ⟨g, hg, e, he, rfl⟩
      have : warningOf g.1.1 e ∈ rs.map some := by rw [← hw]; exact List.mem_map.mpr ⟨_, hm, rfl⟩
      obtain ⟨r, _, hr⟩ := List.mem_map.mp this
      exact ⟨r, hr.symm⟩
    · obtain ⟨f', e, h4, h5, h6⟩ := runStdout_bad w s rest (([] : List (Bytes × Exn)) ++ warningsOf good) _ (.inr ⟨⟨reports, hf⟩, hw⟩)
      rw [h4] at hc
      rw [main_go h hc]
      simp only [if_neg h5]
      refine ⟨fun n hn => absurd hn (h6 n), ⟨fun ⟨n, hn⟩ => absurd hn (h6 n), fun ⟨_, hall⟩ => ?_⟩⟩
      obtain ⟨x, hx, hn⟩ := hw
      simp only [List.nil_append, warningsOf, List.mem_flatMap, List.mem_map] at hx
      obtain ⟨g, hg, e, he, rfl⟩ := hx
      obtain ⟨r, hr⟩ := hall g hg e he
      rw [hr] at hn
      cases hn
  · obtain ⟨f', e, h4, h5, h6⟩ := runStdout_bad w s rest (([] : List (Bytes × Exn)) ++ warningsOf good) _ (.inl hf)
    rw [h4] at hc
    rw [main_go h hc]
    simp only [if_neg h5]
    refine ⟨fun n hn => absurd hn (h6 n), ⟨fun ⟨n, hn⟩ => absurd hn (h6 n), fun ⟨hall, _⟩ => ?_⟩⟩
    obtain ⟨i, r, e, rfl, hno, _⟩ := hf
    obtain ⟨rep, hr⟩ := hall i (by simp)
    exact absurd hr (hno rep)

/-- Two files and a broken one: the first two are printed, the error is reported. -/
example : (Main.main exampleWorld [b!"-W", b!"--compress", b!"a", b!"c", b!"b"]).1.out = b!"[1]{\"k\":2}" ∧
    (Main.main exampleWorld [b!"-W", b!"--compress", b!"a", b!"c", b!"b"]).2 = .exit 0 := by decide +kernel

/-- **C54 is false as stated**: an input in which nothing can be read is reported, but the exit status is 0. -/
theorem C54_status_false (w : World) : (Main.main w [b!"--"]).1.err = [.eof b!"ARGS"] ∧ (Main.main w [b!"--"]).2 = .exit 0 := by
  obtain ⟨a, b, c, d, e, f, g, h⟩ := w
  cases c <;> exact ⟨rfl, rfl⟩

/-- **C54, the part that holds.** The exit status is 0 or 1, and it is 1 exactly when the command line is wrong; so it is when a file cannot be
opened (and nothing before it is wrong). Missing: inputs that can be opened but not read. -/
theorem C54_status_partial (w : World) (args : List Bytes) :
    (∀ n, (Main.main w args).2 = .exit n → n = 0 ∨ n = 1) ∧
    ((Main.main w args).2 = .exit 1 ↔ ∃ e, Params.read (fun f => (w.files f).isSome) args = .throw e) ∧
    (∀ (u : List Spec.CommandLine.Word) (f : Bytes) (rest : List Bytes), Spec.CommandLine.Good (fun f => (w.files f).isSome) u → Spec.CommandLine.Closed u →
      args = u.flatMap Spec.CommandLine.Word.args ++ f :: rest → b!"-".isPrefixOf f = false → w.files f = none → (Main.main w args).2 = .exit 1) := by
  have hch : ∀ s f e, choose w s {} = (f, e) → ∀ n, e ≠ .exit n := choose_not_exit w
  have key : (Main.main w args).2 = .exit 1 ↔ ∃ e, Params.read (fun f => (w.files f).isSome) args = .throw e := by
    cases h : Params.read (fun f => (w.files f).isSome) args with
    | throw e => simp [Main.main, h]
    | stop x => simp [Main.main, h]
    | go s =>
      cases hc : choose w s {} with
      | mk f e =>
        rw [main_go h hc]
        simp only
        constructor
        · intro h1
          split at h1
          · cases h1
          · exact absurd h1 (hch s f e hc 1)
        · rintro ⟨e, he⟩; cases he
  refine ⟨?_, key, ?_⟩
  · intro n hn
    cases h : Params.read (fun f => (w.files f).isSome) args with
    | throw e => simp [Main.main, h] at hn; omega
    | stop x => simp [Main.main, h] at hn; omega
    | go s =>
      cases hc : choose w s {} with
      | mk f e =>
        rw [main_go h hc] at hn
        simp only at hn
        split at hn
        · cases hn; exact .inl rfl
        · exact absurd hn (hch s f e hc n)
  · rintro u f rest hg hcl rfl hdash hf
    rw [key]
    refine ⟨.cannotOpen f, ?_⟩
    rw [Params.read, readArgs_append, read_closed _ u hcl hg]
    simp only [readArgs]
    rw [Lemmas.read_file _ u hcl f hdash, if_pos (by simp [hf])]

/-- The hypotheses of the last part are met. -/
example : Spec.CommandLine.Closed exampleWords ∧ Spec.CommandLine.Good (fun _ => true) exampleWords := ⟨exampleWords_closed, exampleWords_good⟩

example : (Main.main exampleWorld [b!"a", b!"missing"]).2 = .exit 1 := by decide +kernel

/-- **C68 is false as stated**, for the same reasons as C53: an input that crashes the reader or cannot be reported. -/
theorem C68_browsing_false (w : World) (ht : w.tty = true) :
    (Main.main w [b!"--", b!"[9223372036854775808]"]).2 = .uncaught ∧ (Main.main w [b!"--", b!"[1 2]"]).2 = .ub := by
  obtain ⟨a, b, c, d, e, f, g, h⟩ := w
  simp only at ht
  subst ht
  exact ⟨rfl, rfl⟩

/-- **C68, the part that holds.** On a terminal, without `--compress` and `--diff`: if the program ends regularly, it has shown, one after the other, in order, the
inputs before the first one that cannot be read, each under its name, and has written nothing to standard output or to files. Missing: the crashes. -/
theorem C68_browsing_partial (w : World) (args : List Bytes) (s : Settings) (h : Params.read (fun f => (w.files f).isSome) args = .go s)
    (hb : Browsing w s) (n : Nat) (hn : (Main.main w args).2 = .exit n) :
    ∃ (good : List Good) (rest : List (Bytes × Source)), getInputs s = good.map (·.1) ++ rest ∧ (∀ g ∈ good, Holds w s g.1 g.2.1 g.2.2) ∧
      (rest = [] ∨ ∃ i r, rest = i :: r ∧ ∀ v ws, ¬ Holds w s i v ws) ∧
      (Main.main w args).1.views = good.map (fun g => [(g.1.1, g.2.1)]) ∧ (Main.main w args).1.out = [] ∧ (Main.main w args).1.written = [] := by
  obtain ⟨good, rest, h1, h2, h3⟩ := session w s (getInputs s)
  refine ⟨good, rest, h1, h2, h3, ?_⟩
  have hc := choose_browsing hb
  rw [h1, run_good w s rest good _ _ h2] at hc
  have hbad : ∀ f' e, choose w s {} = (f', e) → e ≠ .returned → False := by
    intro f' e hc' he
    rw [main_go h hc'] at hn
    simp only [if_neg he] at hn
    exact choose_not_exit w s f' e hc' n hn
  rcases failure_cases w s rest h3 with ⟨reports, hf⟩ | hf
  · rcases warnings_cases (([] : List (Bytes × Exn)) ++ warningsOf good) with ⟨rs, hw⟩ | hw
    · rw [run_rest w s rest _ _ reports rs hf hw] at hc
      rw [main_go h hc]
      exact ⟨by simp, rfl, rfl⟩
    · obtain ⟨f', e, h4, h5, _⟩ := run_bad w s rest (([] : List (Bytes × Exn)) ++ warningsOf good) _ (.inr ⟨⟨reports, hf⟩, hw⟩)
      rw [h4] at hc
      exact (hbad f' e hc h5).elim
  · obtain ⟨f', e, h4, h5, _⟩ := run_bad w s rest (([] : List (Bytes × Exn)) ++ warningsOf good) _ (.inl hf)
    rw [h4] at hc
    exact (hbad f' e hc h5).elim

example : (Main.main { exampleWorld with tty := true } [b!"a", b!"b"]).1.views.map (·.map (·.1)) = [[b!"a"]] ∧
    (Main.main { exampleWorld with tty := true } [b!"a", b!"b"]).2 = .exit 0 := by decide +kernel

/-- The name in a report about an input, and whether it is a warning. -/
def about : Report → Bytes × Bool
  | .warning name _ _ _ _ _ => (name, true)
  | .error name _ _ _ _ _ => (name, false)
  | .cutWarning name _ _ _ => (name, true)
  | .cutError name _ _ _ => (name, false)
  | .eof name => (name, false)
  | .usage _ => ([], false)

/-- **C69 is false as stated**: in a comparison the warnings about the first input are lost when the second cannot be read. -/
theorem C69_reports_false :
    (Main.main exampleWorld [b!"-W", b!"c", b!"b"]).1.err.map about = [(b!"b", false), (b!"c", true)] ∧
    (Main.main exampleWorld [b!"-W", b!"--diff", b!"c", b!"b"]).1.err.map about = [(b!"b", false)] ∧
    (Main.main exampleWorld [b!"-W", b!"c", b!"b", b!"--diff-cmd", b!"diff", b!"{}"]).1.err.map about = [(b!"b", false)] := by
  decide +kernel

/-- **C69, the part that holds.** For every run that shows or prints the inputs one by one, if the program ends regularly: standard error has the report about
the first input that cannot be read, if there is one, with its name, and then one report for each warning about the inputs before it,
in order, each with the name of its input; and nothing else. Missing: comparisons, and the warnings about the input that cannot be read. -/
theorem C69_reports_partial (w : World) (args : List Bytes) (s : Settings) (h : Params.read (fun f => (w.files f).isSome) args = .go s)
    (hb : Redirected w s ∨ Browsing w s) (n : Nat) (hn : (Main.main w args).2 = .exit n) :
    ∃ (good : List Good) (rest : List (Bytes × Source)) (first warnings : List Report), getInputs s = good.map (·.1) ++ rest ∧
      (∀ g ∈ good, Holds w s g.1 g.2.1 g.2.2) ∧ FirstFailure w s rest first ∧
      (good.flatMap fun g => g.2.2.map (warningOf g.1.1)) = warnings.map some ∧ (Main.main w args).1.err = first ++ warnings := by
  obtain ⟨good, rest, h1, h2, h3⟩ := session w s (getInputs s)
  have hbad : ∀ f' e, choose w s {} = (f', e) → e ≠ .returned → False := by
    intro f' e hc' he
    rw [main_go h hc'] at hn
    simp only [if_neg he] at hn
    exact choose_not_exit w s f' e hc' n hn
  have hws : ∀ rs : List Report, (([] : List (Bytes × Exn)) ++ warningsOf good).map (fun x => warningOf x.1 x.2) = rs.map some →
      (good.flatMap fun g => g.2.2.map (warningOf g.1.1)) = rs.map some := by
    intro rs hr
    rw [← hr]
    simp only [List.nil_append, warningsOf, List.map_flatMap, List.map_map]
    rfl
  rcases hb with hr | hr
  · have hc := choose_redirected hr
    rw [h1, runStdout_good w s rest good _ _ h2] at hc
    rcases failure_cases w s rest h3 with ⟨reports, hf⟩ | hf
    · rcases warnings_cases (([] : List (Bytes × Exn)) ++ warningsOf good) with ⟨rs, hw⟩ | hw
      · refine ⟨good, rest, reports, rs, h1, h2, hf, hws rs hw, ?_⟩
        rw [runStdout_rest w s rest _ _ reports rs hf hw] at hc
        rw [main_go h hc]
        simp
      · obtain ⟨f', e, h4, h5, _⟩ := runStdout_bad w s rest (([] : List (Bytes × Exn)) ++ warningsOf good) _ (.inr ⟨⟨reports, hf⟩, hw⟩)
        rw [h4] at hc
        exact (hbad f' e hc h5).elim
    · obtain ⟨f', e, h4, h5, _⟩ := runStdout_bad w s rest (([] : List (Bytes × Exn)) ++ warningsOf good) _ (.inl hf)
      rw [h4] at hc
      exact (hbad f' e hc h5).elim
  · have hc := choose_browsing hr
    rw [h1, run_good w s rest good _ _ h2] at hc
    rcases failure_cases w s rest h3 with ⟨reports, hf⟩ | hf
    · rcases warnings_cases (([] : List (Bytes × Exn)) ++ warningsOf good) with ⟨rs, hw⟩ | hw
      · refine ⟨good, rest, reports, rs, h1, h2, hf, hws rs hw, ?_⟩
        rw [run_rest w s rest _ _ reports rs hf hw] at hc
        rw [main_go h hc]
        simp
      · obtain ⟨f', e, h4, h5, _⟩ := run_bad w s rest (([] : List (Bytes × Exn)) ++ warningsOf good) _ (.inr ⟨⟨reports, hf⟩, hw⟩)
        rw [h4] at hc
        exact (hbad f' e hc h5).elim
    · obtain ⟨f', e, h4, h5, _⟩ := run_bad w s rest (([] : List (Bytes × Exn)) ++ warningsOf good) _ (.inl hf)
      rw [h4] at hc
      exact (hbad f' e hc h5).elim

/-- A warning and an error. -/
example : (Main.main exampleWorld [b!"-W", b!"--compress", b!"a", b!"c", b!"b"]).1.err.length = 2 := by decide +kernel

/-! ### Comparisons -/

theorem runDiff_end (w : World) (s : Settings) (docs : List (Bytes × Json)) (warns : List (Bytes × Exn)) (f : Effects) :
    runDiff w s [] docs warns f = match splitView w s docs f with | (f, .returned) => showWarnings warns f | (f, e) => (f, e) := rfl

/-- The settings of the interactive comparison. -/
def Comparing (s : Settings) : Prop := s.diffCmd = none ∧ s.diffMode = true

theorem choose_comparing {w : World} {s : Settings} (h : Comparing s) : choose w s {} = runDiff w s (getInputs s) [] [] {} := by
  obtain ⟨h1, h2⟩ := h
  unfold choose
  rw [h1]
  simp [h2]

/-- **C67 is false as stated**: with three inputs that can all be read the program dies with an exception; with two, when both contain an empty
container in comparable places, it divides by zero. -/
theorem C67_comparison_false (w : World) (args : List Bytes) (s : Settings) (h : Params.read (fun f => (w.files f).isSome) args = .go s)
    (hb : Comparing s) (good : List Good) (hg : getInputs s = good.map (·.1)) (hh : ∀ g ∈ good, Holds w s g.1 g.2.1 g.2.2) :
    (good.length = 3 → (Main.main w args).2 = .uncaught ∧ (Main.main w args).1.views = []) ∧
    (good.map (·.2.1) = [.arr [], .arr []] → (Main.main w args).2 = .ub) := by
  have hc := choose_comparing (w := w) hb
  have := runDiff_good w s [] good [] [] {} hh
  rw [List.append_nil, ← hg, runDiff_end] at this
  rw [this] at hc
  constructor
  · intro h3
    match good, h3 with
    | [a, b, c], _ =>
      simp only [splitView, List.nil_append, List.map_cons, List.map_nil] at hc
      rw [main_go h hc]
      exact ⟨rfl, rfl⟩
  · intro h2
    match good, h2 with
    | [(i, .arr [], wi), (j, .arr [], wj)], _ =>
      simp only [splitView, List.nil_append, List.map_cons, List.map_nil, C28_no_crash_false] at hc
      rw [main_go h hc]
      rfl

/-- **C67, the part that holds.** With two inputs that can be read, are comparable (C28) and have no warnings that cannot be displayed, the two documents are shown side by
side; if an input cannot be read, nothing is shown. Missing: three inputs, and documents that are not comparable. -/
theorem C67_comparison_partial (w : World) (args : List Bytes) (s : Settings) (h : Params.read (fun f => (w.files f).isSome) args = .go s)
    (hb : Comparing s) (good : List Good) (rest : List (Bytes × Source)) (hg : getInputs s = good.map (·.1) ++ rest)
    (hh : ∀ g ∈ good, Holds w s g.1 g.2.1 g.2.2) :
    (∀ a b, rest = [] → good = [a, b] → NoEmptyPair a.2.1 b.2.1 → (∀ g ∈ good, ∀ e ∈ g.2.2, ∃ report, warningOf g.1.1 e = some report) →
      (Main.main w args).2 = .exit 0 ∧ (Main.main w args).1.views = [[(a.1.1, a.2.1), (b.1.1, b.2.1)]]) ∧
    (∀ i r report, rest = i :: r → Fails w s i report →
      (Main.main w args).2 = .exit 0 ∧ (Main.main w args).1.views = [] ∧ (Main.main w args).1.err = [report]) := by
  have hc := choose_comparing (w := w) hb
  have := runDiff_good w s rest good [] [] {} hh
  rw [← hg] at this
  rw [this] at hc
  constructor
  · rintro a b rfl rfl hn hw
    obtain ⟨t, ht⟩ := C28_no_crash_partial (w.fmt s) _ _ hn
    rcases warnings_cases (([] : List (Bytes × Exn)) ++ warningsOf [a, b]) with ⟨rs, hr⟩ | ⟨x, hx, hxn⟩
    · simp only [runDiff_end, splitView, List.nil_append, List.map_cons, List.map_nil, ht] at hc hr
      rw [showWarnings_ok _ _ rs hr] at hc
      rw [main_go h hc]
      exact ⟨rfl, rfl⟩
    · simp only [List.nil_append, warningsOf, List.mem_flatMap, List.mem_map] at hx
      obtain ⟨g, hg', e, he, rfl⟩ := hx
      obtain ⟨r, hr⟩ := hw g hg' e he
      rw [hr] at hxn
      cases hxn
  · rintro i r report rfl hf
    rw [runDiff, readOneFile_fails hf] at hc
    rw [main_go h hc]
    exact ⟨rfl, rfl, rfl⟩

example : (Main.main exampleWorld [b!"-W", b!"--diff", b!"a", b!"c"]).2 = .exit 0 ∧
    (Main.main exampleWorld [b!"-W", b!"--diff", b!"a", b!"c"]).1.views.map (·.map (·.1)) = [[b!"a", b!"c"]] := by decide +kernel

example : Params.read (fun f => (exampleWorld.files f).isSome) [b!"--diff", b!"a", b!"c"] =
    .go { initial.set with diffMode := true, inputs := [(b!"a", .file b!"a"), (b!"c", .file b!"c")] } := by decide +kernel

/-- Three inputs. -/
example : (Main.main exampleWorld [b!"-W", b!"--diff", b!"a", b!"c", b!"--", b!"[2]"]).2 = .uncaught := by decide +kernel

/-! ### External comparison -/

theorem external_good (w : World) (s : Settings) (cmd : List Bytes) (rest : List (Bytes × Source)) : ∀ (good : List Good) (files : List Bytes)
    (warns : List (Bytes × Exn)) (f : Effects), (∀ g ∈ good, Holds w s g.1 g.2.1 g.2.2) → (∀ g ∈ good, w.canCreate (DiffCmd.tempName g.1.1) = true) →
    doRunExternalDiff w s cmd (good.map (·.1) ++ rest) files warns f =
      doRunExternalDiff w s cmd rest (files ++ good.map fun g => DiffCmd.tempName g.1.1) (warns ++ warningsOf good)
        { f with written := f.written ++ good.map fun g => (DiffCmd.tempName g.1.1, Output.display (w.fmt s) s.compressMode g.2.1) } := by
  intro good
  induction good with
  | nil => intro files warns f _ _; simp [warningsOf]
  | cons g good ih =>
    intro files warns f h hc
    rw [List.map_cons, List.cons_append, doRunExternalDiff, readOneFile_holds (h g (by simp)) f]
    simp only
    rw [if_pos (hc g (by simp)), ih _ _ _ (fun g hg => h g (by simp [hg])) (fun g hg => hc g (by simp [hg]))]
    simp [warningsOf]

theorem tempName_no_null (n : Bytes) : 0 ∉ DiffCmd.tempName n := by
  unfold DiffCmd.tempName
  simp only [List.mem_append, not_or]
  refine ⟨⟨by decide, fun h => ?_⟩, by decide⟩
  have := (natDigits_digit _).2 0 h
  omega

/-- What a file holds after some writes. -/
def lastWritten (writes : List (Bytes × Bytes)) (name : Bytes) : Option Bytes := ((writes.filter (·.1 = name)).getLast?).map (·.2)

/-- The arguments of the external command: each `{}` is replaced by the temporary files of the inputs. -/
def arguments (cmd : List Bytes) (good : List Good) : List DiffCmd.Cell :=
  (expand cmd (good.map fun g => DiffCmd.tempName g.1.1)).map .text ++ [.null]

/-- The run when all inputs can be read. -/
theorem external_all (w : World) (args : List Bytes) (s : Settings) (h : Params.read (fun f => (w.files f).isSome) args = .go s)
    (cmd : List Bytes) (hs : s.diffCmd = some cmd) (h0 : ∀ a ∈ cmd, 0 ∉ a) (good : List Good) (hg : getInputs s = good.map (·.1))
    (hh : ∀ g ∈ good, Holds w s g.1 g.2.1 g.2.2) (hc : ∀ g ∈ good, w.canCreate (DiffCmd.tempName g.1.1) = true)
    (hw : ∀ g ∈ good, ∀ e ∈ g.2.2, ∃ report, warningOf g.1.1 e = some report) :
    ∃ f : Effects, f.written = (good.map fun g => (DiffCmd.tempName g.1.1, Output.display (w.fmt s) s.compressMode g.2.1)) ∧ f.out = [] ∧
      f.ran = (if w.child (arguments cmd good) = .noFork then none else some (arguments cmd good)) ∧
      f.removed = (if wait (w.child (arguments cmd good)) = .returned then good.map fun g => DiffCmd.tempName g.1.1 else []) ∧
      Main.main w args = (f, if wait (w.child (arguments cmd good)) = .returned then .exit 0 else wait (w.child (arguments cmd good))) := by
  have hd := external_good w s cmd [] good [] [] {} hh hc
  rw [List.append_nil, ← hg] at hd
  simp only [List.nil_append] at hd
  rcases warnings_cases (warningsOf good) with ⟨rs, hr⟩ | ⟨x, hx, hxn⟩
  · rw [doRunExternalDiff, showWarnings_ok _ _ rs hr] at hd
    simp only at hd
    obtain ⟨d', hav, _⟩ := C51_arguments cmd (good.map fun g => DiffCmd.tempName g.1.1) h0
      (by intro f hf; obtain ⟨g, _, rfl⟩ := List.mem_map.mp hf; exact tempName_no_null _)
    rw [runCommand, hav] at hd
    simp only at hd
    rw [show (expand cmd (good.map fun g => DiffCmd.tempName g.1.1)).map DiffCmd.Cell.text ++ [DiffCmd.Cell.null] = arguments cmd good from rfl] at hd
    have hch : choose w s {} = runExternalDiff w s cmd {} := by unfold choose; rw [hs]
    unfold runExternalDiff at hch
    cases hcc : w.child (arguments cmd good) with
    | noFork =>
      rw [hcc] at hd
      rw [hd] at hch
      refine ⟨_, rfl, rfl, rfl, ?_, (main_go h hch).trans rfl⟩
      simp [wait]
    | exits n =>
      rw [hcc] at hd
      rw [hd] at hch
      refine ⟨_, rfl, rfl, rfl, ?_, (main_go h hch).trans rfl⟩
      simp [wait]
    | killed n =>
      rw [hcc] at hd
      rw [hd] at hch
      refine ⟨_, rfl, rfl, rfl, ?_, (main_go h hch).trans rfl⟩
      simp [wait]
    | noExec b =>
      rw [hcc] at hd
      rw [hd] at hch
      cases b with
      | true =>
        refine ⟨_, rfl, rfl, rfl, ?_, (main_go h hch).trans rfl⟩
        simp [wait]
      | false =>
        refine ⟨_, rfl, rfl, rfl, ?_, (main_go h hch).trans rfl⟩
        simp [wait]
  · simp only [warningsOf, List.mem_flatMap, List.mem_map] at hx
    obtain ⟨g, hg', e, he, rfl⟩ := hx
    obtain ⟨r, hr⟩ := hw g hg' e he
    rw [hr] at hxn
    cases hxn

/-- **C65 is false as stated**: when the command is ended by a signal, the program waits for ever; so it does when a temporary file cannot be
created. -/
theorem C65_waiting_false (w : World) (args : List Bytes) (s : Settings) (h : Params.read (fun f => (w.files f).isSome) args = .go s)
    (cmd : List Bytes) (hs : s.diffCmd = some cmd) (h0 : ∀ a ∈ cmd, 0 ∉ a) (good : List Good) (hg : getInputs s = good.map (·.1))
    (hh : ∀ g ∈ good, Holds w s g.1 g.2.1 g.2.2) (hw : ∀ g ∈ good, ∀ e ∈ g.2.2, ∃ report, warningOf g.1.1 e = some report) :
    ((∀ g ∈ good, w.canCreate (DiffCmd.tempName g.1.1) = true) → ∀ signal, w.child (arguments cmd good) = .killed signal → (Main.main w args).2 = .hangs) ∧
    (∀ g ∈ good.head?, w.canCreate (DiffCmd.tempName g.1.1) = false → (Main.main w args).2 = .hangs) := by
  constructor
  · intro hc signal hk
    obtain ⟨f, _, _, _, _, hm⟩ := external_all w args s h cmd hs h0 good hg hh hc hw
    rw [hm, hk]
    rfl
  · intro g hg' hcr
    cases good with
    | nil => cases hg'
    | cons g' good =>
      simp only [List.head?_cons, Option.mem_def, Option.some.injEq] at hg'
      subst hg'
      have hch : choose w s {} = runExternalDiff w s cmd {} := by unfold choose; rw [hs]
      unfold runExternalDiff at hch
      rw [hg, List.map_cons, doRunExternalDiff, readOneFile_holds (hh g' (by simp))] at hch
      simp only [hcr, Bool.false_eq_true, if_false] at hch
      rw [main_go h hch]
      rfl

/-- **C65, the part that holds.** If all inputs can be read, the temporary files can be created, and the command is started and exits by itself, with whatever code, then the
program ends after it, with status 0. Missing: the other ends of a command. -/
theorem C65_waiting_partial (w : World) (args : List Bytes) (s : Settings) (h : Params.read (fun f => (w.files f).isSome) args = .go s)
    (cmd : List Bytes) (hs : s.diffCmd = some cmd) (h0 : ∀ a ∈ cmd, 0 ∉ a) (good : List Good) (hg : getInputs s = good.map (·.1))
    (hh : ∀ g ∈ good, Holds w s g.1 g.2.1 g.2.2) (hw : ∀ g ∈ good, ∀ e ∈ g.2.2, ∃ report, warningOf g.1.1 e = some report)
    (hc : ∀ g ∈ good, w.canCreate (DiffCmd.tempName g.1.1) = true) (code : Nat) (hk : w.child (arguments cmd good) = .exits code) :
    (Main.main w args).2 = .exit 0 ∧ (Main.main w args).1.ran = some (arguments cmd good) := by
  obtain ⟨f, _, _, hran, _, hm⟩ := external_all w args s h cmd hs h0 good hg hh hc hw
  rw [hm, hk]
  rw [hk] at hran
  exact ⟨rfl, hran⟩

theorem lastWritten_distinct {α : Type} (name : α → Bytes) (text : α → Bytes) : ∀ (l : List α), (l.map name).Nodup → ∀ a ∈ l,
    lastWritten (l.map fun a => (name a, text a)) (name a) = some (text a) := by
  intro l hn a ha
  unfold lastWritten
  have : ∀ l : List α, name a ∉ l.map name → (l.map fun a => (name a, text a)).filter (fun x => decide (x.1 = name a)) = [] := by
    intro l hl
    rw [List.filter_eq_nil_iff]
    intro x hx
    obtain ⟨b, hb, rfl⟩ := List.mem_map.mp hx
    simp only [decide_eq_true_eq]
    intro h
    exact hl (List.mem_map.mpr ⟨b, hb, h⟩)
  obtain ⟨u, v, rfl⟩ := List.append_of_mem ha
  simp only [List.map_append, List.map_cons, List.nodup_append, List.nodup_cons] at hn
  rw [List.map_append, List.map_cons, List.filter_append, List.filter_cons, if_pos (by simp), this v hn.2.1.1]
  simp

/-- **C66 is false as stated**: inputs of the same name in two directories share one temporary file, so that the command compares the second one with
itself. -/
theorem C66_files_false (w : World) (args : List Bytes) (s : Settings) (h : Params.read (fun f => (w.files f).isSome) args = .go s)
    (cmd : List Bytes) (hs : s.diffCmd = some cmd) (h0 : ∀ a ∈ cmd, 0 ∉ a) (a b : Good) (hg : getInputs s = [a.1, b.1]) (p q t : Bytes)
    (ha : a.1.1 = p ++ t) (hb : b.1.1 = q ++ t) (ht : 13 ≤ t.length)
    (hh : ∀ g ∈ [a, b], Holds w s g.1 g.2.1 g.2.2) (hw : ∀ g ∈ [a, b], ∀ e ∈ g.2.2, ∃ report, warningOf g.1.1 e = some report)
    (hc : ∀ g ∈ [a, b], w.canCreate (DiffCmd.tempName g.1.1) = true) (code : Nat) (hk : w.child (arguments cmd [a, b]) = .exits code) :
    lastWritten (Main.main w args).1.written (DiffCmd.tempName a.1.1) = some (Output.display (w.fmt s) s.compressMode b.2.1) := by
  obtain ⟨f, hwr, _, hran, _, hm⟩ := external_all w args s h cmd hs h0 [a, b] hg hh hc hw
  rw [hm]
  simp only [hwr]
  have he : DiffCmd.tempName b.1.1 = DiffCmd.tempName a.1.1 := by rw [ha, hb]; exact (C52_temporary_files_false.1 q p t ht)
  simp [lastWritten, he]

/-- **C66, the part that holds.** If the temporary files of the inputs have distinct names (see C52) and can be created, and the inputs can be read: the
command gets, for each `{}`, one file for each input, in order, and each of these files holds what the program prints for that
input; when the command has exited, exactly these files are removed. If an input cannot be read, no command is run, and the files written
are removed. Missing: names that share a temporary file, and commands that do not exit. -/
theorem C66_files_partial (w : World) (args : List Bytes) (s : Settings) (h : Params.read (fun f => (w.files f).isSome) args = .go s)
    (cmd : List Bytes) (hs : s.diffCmd = some cmd) (h0 : ∀ a ∈ cmd, 0 ∉ a) (good : List Good) (rest : List (Bytes × Source))
    (hg : getInputs s = good.map (·.1) ++ rest) (hh : ∀ g ∈ good, Holds w s g.1 g.2.1 g.2.2)
    (hw : ∀ g ∈ good, ∀ e ∈ g.2.2, ∃ report, warningOf g.1.1 e = some report) (hc : ∀ g ∈ good, w.canCreate (DiffCmd.tempName g.1.1) = true)
    (hn : (good.map fun g => DiffCmd.tempName g.1.1).Nodup) :
    (∀ code, rest = [] → w.child (arguments cmd good) = .exits code →
      (Main.main w args).1.ran = some (arguments cmd good) ∧
      (∀ g ∈ good, lastWritten (Main.main w args).1.written (DiffCmd.tempName g.1.1) = some (Output.display (w.fmt s) s.compressMode g.2.1)) ∧
      (Main.main w args).1.removed = (Main.main w args).1.written.map (·.1)) ∧
    (∀ i r report, rest = i :: r → Fails w s i report →
      (Main.main w args).1.ran = none ∧ (Main.main w args).1.err = [report] ∧ (Main.main w args).1.removed = (Main.main w args).1.written.map (·.1)) := by
  constructor
  · rintro code rfl hk
    rw [List.append_nil] at hg
    obtain ⟨f, hwr, _, hran, hrem, hm⟩ := external_all w args s h cmd hs h0 good hg hh hc hw
    rw [hm]
    simp only [hk] at hran hrem
    refine ⟨hran, ?_, ?_⟩
    · simp only [hwr]
      exact lastWritten_distinct (fun g : Good => DiffCmd.tempName g.1.1) (fun g => Output.display (w.fmt s) s.compressMode g.2.1) good hn
    · simp only [hwr, hrem]
      simp [wait, Function.comp_def]
  · rintro i r report rfl hf
    have hch : choose w s {} = runExternalDiff w s cmd {} := by unfold choose; rw [hs]
    unfold runExternalDiff at hch
    rw [hg, external_good w s cmd _ good [] [] {} hh hc, doRunExternalDiff, readOneFile_fails hf] at hch
    simp only at hch
    rw [main_go h hch]
    simp [Function.comp_def]

/-- A run to which the theorems apply. -/
example : (Main.main exampleWorld [b!"--diff-cmd", b!"diff", b!"{}", b!";", b!"a", b!"--", b!"[2]"]).2 = .exit 0 ∧
    (Main.main exampleWorld [b!"--diff-cmd", b!"diff", b!"{}", b!";", b!"a", b!"--", b!"[2]"]).1.removed.length = 2 := by decide +kernel

/-- An input that meets the hypotheses, and one that fails. -/
example : ∃ (s : Settings) (good : List Good), Params.read (fun f => (exampleWorld.files f).isSome) [b!"--diff-cmd", b!"diff", b!"{}", b!";", b!"a", b!"b"] = .go s ∧
    s.diffCmd = some [b!"diff", b!"{}"] ∧ getInputs s = good.map (·.1) ++ [(b!"b", .file b!"b")] ∧ good.length = 1 ∧
    (∀ g ∈ good, Holds exampleWorld s g.1 g.2.1 g.2.2) ∧ (good.map fun g => DiffCmd.tempName g.1.1).Nodup ∧
    ∃ report, Fails exampleWorld s (b!"b", .file b!"b") report := by
  let s : Settings := { initial.set with diffCmd := some [b!"diff", b!"{}"], inputs := [(b!"a", .file b!"a"), (b!"b", .file b!"b")] }
  refine ⟨s, [((b!"a", .file b!"a"), .arr [.int 1], [])], by decide +kernel, rfl, rfl, rfl, ?_, ?_, ?_⟩
  · intro g hg
    simp only [List.mem_cons, List.not_mem_nil, or_false] at hg
    subst hg
    exact ⟨_, rfl, rfl⟩
  · simp
  · exact ⟨_, .wrong _ _ _ _ _ _ rfl rfl⟩

end Verif.Props
