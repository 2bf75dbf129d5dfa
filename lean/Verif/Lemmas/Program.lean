import Verif.Spec.Process
/-!
# The process and `Model/Main.lean` do the same
-/
namespace Verif.Lemmas.Program
open Verif.Model Verif.Model.Params Verif.Model.Main Verif.Model.Program Verif.Spec.Process

/-- The effects with more reports. -/
def more (f : Effects) (rs : List Report) : Effects := { f with err := f.err ++ rs }

theorem more_nil (f : Effects) : more f [] = f := by simp [more]

theorem more_more (f : Effects) (a b : List Report) : more (more f a) b = more f (a ++ b) := by simp [more]

theorem readOneFile_more (w : World) (s : Settings) (x : Bytes × Source) (f : Effects) :
    readOneFile w s x f = (more f (readOneFile w s x {}).1.err, (readOneFile w s x {}).2) := by
  unfold readOneFile
  split <;> try simp [more]
  split <;> simp

theorem showWarnings_more : ∀ (warns : List (Bytes × Exn)) (f : Effects),
    showWarnings warns f = (more f (showWarnings warns {}).1.err, (showWarnings warns {}).2)
  | [], f => by simp [showWarnings, more]
  | (name, e) :: warns, f => by
    unfold showWarnings
    split
    next line col what context tildes _ =>
      rw [showWarnings_more warns { f with err := _ },
        showWarnings_more warns { ({} : Effects) with err := [] ++ [Report.warning name line col what context tildes] }]
      simp [more]
    · simp [more]
    · simp [more]

theorem effects_append (a b : List Happening) : effects (a ++ b) = b.foldl effect (effects a) := by simp [effects]

theorem fold_reports : ∀ (rs : List Report) (f : Effects), (rs.map Happening.report).foldl effect f = more f rs
  | [], f => by simp [more]
  | r :: rs, f => by
    rw [List.map_cons, List.foldl_cons, fold_reports rs]
    simp [effect, more]

theorem effects_reports (t : List Happening) (rs : List Report) : effects (t ++ rs.map .report) = more (effects t) rs := by
  rw [effects_append, fold_reports]

theorem fold_removed : ∀ (ns : List Bytes) (f : Effects), (ns.map Happening.removed).foldl effect f = { f with removed := f.removed ++ ns }
  | [], f => by simp
  | n :: ns, f => by
    rw [List.map_cons, List.foldl_cons, fold_removed ns]
    simp [effect]

variable {e : Surround} {s : Settings}

theorem warn_main (warns : List (Bytes × Exn)) (p : Proc) : effects (warn warns p).1.tape = (showWarnings warns (effects p.tape)).1 ∧
    (warn warns p).2 = .main (showWarnings warns (effects p.tape)).2 := by
  rw [showWarnings_more]
  exact ⟨effects_reports _ _, rfl⟩

theorem readOne_main (x : Bytes × Source) (f : Effects) {h : List Happening} {g : Got} (hr : readOne e s x = (h, g)) :
    readOneFile e.world s x f = (h.foldl effect f, g) := by
  rw [readOneFile_more]
  unfold readOne at hr
  obtain ⟨rfl, rfl⟩ := Prod.mk.inj hr
  rw [fold_reports]

theorem reading_calm (hc : ∀ i, e.signal i = false) (i : Nat) (p : Proc) : reading e i p = some p := by
  rw [reading, if_neg (by simp [hc i])]

theorem openView_calm (hc : Calm e) (p : Proc) : openView e p = some { p.does [.enter] with handled := true, running := true } := by
  rw [openView, if_pos (by simp [hc.2.1])]

theorem effects_enter (t : List Happening) : effects (t ++ [.enter]) = effects t := by simp [effects, effect]

theorem effects_leave (t : List Happening) : effects (t ++ [.leave]) = effects t := by simp [effects, effect]

/-- A process has the effects and the end of the functions of `Model/Main.lean`. -/
def Same (r : Proc × Fin) (m : Effects × Ending) : Prop := effects r.1.tape = m.1 ∧ r.2 = .main m.2

theorem warn_same (warns : List (Bytes × Exn)) (p : Proc) (f : Effects) (hf : effects p.tape = f) : Same (warn warns p) (showWarnings warns f) := by
  rw [← hf]
  exact warn_main warns p

theorem browse_main (hc : Calm e) : ∀ (xs : List (Bytes × Source)) (i : Nat) (warns : List (Bytes × Exn)) (p : Proc) (f : Effects), effects p.tape = f →
    Same (browse e s i xs warns p) (Main.run e.world s xs warns f)
  | [], i, warns, p, f, hf => warn_same _ _ _ (by rw [show (closeView p).tape = p.tape ++ [.leave] from rfl, effects_leave, hf])
  | x :: xs, i, warns, p, f, hf => by
    rw [browse, Main.run, reading_calm hc.1]
    cases hr : readOne e s x with
    | mk h g =>
    rw [readOne_main x f hr]
    have hh : effects (p.does h).tape = h.foldl effect f := by rw [← hf, ← effects_append]; rfl
    cases g with
    | none => exact warn_same _ _ _ (by rw [show (closeView (p.does h)).tape = (p.does h).tape ++ [.leave] from rfl, effects_leave, hh])
    | crash r => exact ⟨hh, rfl⟩
    | doc v new =>
      simp only [runView, hc.2.2]
      refine browse_main hc xs (i + 1) (warns ++ new) _ _ ?_
      show effects ((p.does h).tape ++ [.view [(x.1, v)]]) = _
      rw [effects_append, hh]
      rfl

theorem compareView_main (hc : Calm e) (docs : List (Bytes × Json)) (warns : List (Bytes × Exn)) (p : Proc) (f : Effects) (hf : effects p.tape = f) :
    Same (compareView e s docs warns p) (Main.runDiff e.world s [] docs warns f) := by
  have he : effects (p.tape ++ [.enter]) = f := by rw [effects_enter, hf]
  unfold compareView Main.runDiff splitView
  rw [openView_calm hc]
  match docs with
  | [] => exact ⟨he, rfl⟩
  | [_] => exact ⟨he, rfl⟩
  | [_, _, _] => exact ⟨he, rfl⟩
  | _ :: _ :: _ :: _ :: _ => exact ⟨he, rfl⟩
  | [a, b] =>
    dsimp only
    cases Diff.diff (e.world.fmt s) a.2 b.2 with
    | none => exact ⟨he, rfl⟩
    | some _ =>
      simp only [runView, hc.2.2]
      refine warn_same _ _ _ ?_
      show effects (((p.tape ++ [.enter]) ++ [.view [a, b]]) ++ [.leave]) = _
      rw [effects_leave, effects_append, he]
      rfl

theorem runDiff_main (hc : Calm e) : ∀ (xs : List (Bytes × Source)) (i : Nat) (docs : List (Bytes × Json)) (warns : List (Bytes × Exn)) (p : Proc) (f : Effects),
    effects p.tape = f → Same (Program.runDiff e s i xs docs warns p) (Main.runDiff e.world s xs docs warns f)
  | [], i, docs, warns, p, f, hf => compareView_main hc docs warns p f hf
  | x :: xs, i, docs, warns, p, f, hf => by
    rw [Program.runDiff, Main.runDiff, reading_calm hc.1]
    cases hr : readOne e s x with
    | mk h g =>
    rw [readOne_main x f hr]
    have hh : effects (p.does h).tape = h.foldl effect f := by rw [← hf, ← effects_append]; rfl
    cases g with
    | none => exact ⟨hh, rfl⟩
    | crash r => exact ⟨hh, rfl⟩
    | doc v new => exact runDiff_main hc xs (i + 1) _ _ _ _ hh

theorem runStdout_main (hc : ∀ i, e.signal i = false) : ∀ (xs : List (Bytes × Source)) (i : Nat) (warns : List (Bytes × Exn)) (p : Proc) (f : Effects),
    effects p.tape = f → Same (Program.runStdout e s i xs warns p) (Main.runStdout e.world s xs warns f)
  | [], i, warns, p, f, hf => warn_same _ _ _ hf
  | x :: xs, i, warns, p, f, hf => by
    rw [Program.runStdout, Main.runStdout, reading_calm hc]
    cases hr : readOne e s x with
    | mk h g =>
    rw [readOne_main x f hr]
    have hh : effects (p.does h).tape = h.foldl effect f := by rw [← hf, ← effects_append]; rfl
    cases g with
    | none => exact warn_same _ _ _ hh
    | crash r => exact ⟨hh, rfl⟩
    | doc v new =>
      refine runStdout_main hc xs (i + 1) _ _ _ ?_
      show effects ((p.does h).tape ++ [_]) = _
      rw [effects_append, hh]
      rfl

theorem runCommand_main (cmd files : List Bytes) (p : Proc) (f : Effects) (hf : effects p.tape = f) :
    Same (Program.runCommand e cmd files p) (Main.runCommand e.world cmd files f) := by
  unfold Program.runCommand Main.runCommand
  cases DiffCmd.computeArgv (List.foldl DiffCmd.add DiffCmd.new cmd) files with
  | none => exact ⟨hf, rfl⟩
  | some r =>
    obtain ⟨argv, _⟩ := r
    dsimp only
    cases e.world.child argv <;> first
      | exact ⟨hf, rfl⟩
      | (refine ⟨?_, rfl⟩
         show effects (p.tape ++ [_]) = _
         rw [effects_append, hf]
         rfl)

theorem prepare_main (hc : Calm e) (cmd : List Bytes) : ∀ (xs : List (Bytes × Source)) (i : Nat) (files : List Bytes) (warns : List (Bytes × Exn)) (p : Proc) (f : Effects),
    effects p.tape = f → Same (prepare e s cmd i xs files warns p).1
        ((doRunExternalDiff e.world s cmd xs files warns f).1, (doRunExternalDiff e.world s cmd xs files warns f).2.1) ∧
      (prepare e s cmd i xs files warns p).2 = (doRunExternalDiff e.world s cmd xs files warns f).2.2
  | [], i, files, warns, p, f, hf => by
    rw [prepare, doRunExternalDiff]
    obtain ⟨h1, h2⟩ := warn_same warns p f hf
    cases hw : warn warns p with
    | mk q r =>
    cases hm : showWarnings warns f with
    | mk f' r' =>
    rw [hw] at h1 h2
    rw [hm] at h1 h2
    simp only at h1 h2
    subst h2
    cases r' with
    | returned => exact ⟨runCommand_main cmd files q f' h1, rfl⟩
    | _ => exact ⟨⟨h1, rfl⟩, rfl⟩
  | x :: xs, i, files, warns, p, f, hf => by
    rw [prepare, doRunExternalDiff, reading_calm hc.1]
    cases hr : readOne e s x with
    | mk h g =>
    rw [readOne_main x f hr]
    have hh : effects (p.does h).tape = h.foldl effect f := by rw [← hf, ← effects_append]; rfl
    cases g with
    | none => exact ⟨⟨hh, rfl⟩, rfl⟩
    | crash r => exact ⟨⟨hh, rfl⟩, rfl⟩
    | doc v new =>
      dsimp only
      by_cases hn : e.world.canCreate (DiffCmd.tempName x.1) = true
      · rw [if_pos hn, if_pos hn]
        refine prepare_main hc cmd xs (i + 1) _ _ _ _ ?_
        show effects ((p.does h).tape ++ [_]) = _
        rw [effects_append, hh]
        rfl
      · rw [if_neg hn, if_neg hn]
        exact ⟨⟨hh, rfl⟩, rfl⟩

theorem runExternalDiff_main (hc : Calm e) (cmd : List Bytes) (p : Proc) (f : Effects) (hf : effects p.tape = f) :
    Same (Program.runExternalDiff e s cmd p) (Main.runExternalDiff e.world s cmd f) := by
  obtain ⟨⟨h1, h2⟩, h3⟩ := prepare_main (s := s) hc cmd (getInputs s) 0 [] [] p f hf
  unfold Program.runExternalDiff Main.runExternalDiff
  cases hp : prepare e s cmd 0 (getInputs s) [] [] p with
  | mk r files =>
  obtain ⟨q, fin⟩ := r
  cases hd : doRunExternalDiff e.world s cmd (getInputs s) [] [] f with
  | mk f' r' =>
  obtain ⟨en, files'⟩ := r'
  rw [hp, hd] at h1 h2 h3
  simp only at h1 h2 h3
  subst h2 h3
  cases en with
  | returned =>
    refine ⟨?_, rfl⟩
    show effects (q.tape ++ files.map .removed) = _
    rw [effects_append, h1, fold_removed]
  | _ => exact ⟨h1, rfl⟩

theorem choose_main (hc : Calm e) (p : Proc) (f : Effects) (hf : effects p.tape = f) : Same (Program.choose e s p) (Main.choose e.world s f) := by
  unfold Program.choose Main.choose
  cases s.diffCmd with
  | some cmd => exact runExternalDiff_main hc cmd p f hf
  | none =>
    dsimp only
    by_cases h1 : s.diffMode = true
    · rw [if_pos h1, if_pos h1]
      exact runDiff_main hc _ _ _ _ _ _ hf
    · rw [if_neg h1, if_neg h1]
      by_cases h2 : (!s.compressMode && e.world.tty) = true
      · rw [if_pos h2, if_pos h2, Program.run, openView_calm hc]
        refine browse_main hc _ _ _ _ _ ?_
        show effects (p.tape ++ [.enter]) = f
        rw [effects_enter, hf]
      · rw [if_neg h2, if_neg h2]
        exact runStdout_main hc.1 _ _ _ _ _ hf

/-- When no signal arrives, there is a terminal, and the user leaves each view, the process has the effects and the end of `Model/Main.lean`. -/
theorem program_main (e : Surround) (hc : Calm e) (args : List Bytes) :
    effects (program e args).1.tape = (Main.main e.world args).1 ∧ (program e args).2 = .main (Main.main e.world args).2 := by
  unfold program Main.main
  cases h : Params.read (fun f => (e.world.files f).isSome) args with
  | throw x => exact ⟨rfl, rfl⟩
  | stop x => cases x <;> exact ⟨rfl, rfl⟩
  | go s =>
    dsimp only
    obtain ⟨h1, h2⟩ := choose_main (s := s) hc ⟨[], false, false, false⟩ {} rfl
    cases hp : Program.choose e s ⟨[], false, false, false⟩ with
    | mk q fin =>
    cases hm : Main.choose e.world s {} with
    | mk f' en =>
    rw [hp, hm] at h1 h2
    simp only at h1 h2
    subst h2
    cases en <;> exact ⟨h1, rfl⟩

end Verif.Lemmas.Program
