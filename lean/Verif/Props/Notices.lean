import Verif.Props.Silence
import Verif.Props.RoundTrip
import Verif.Lemmas.Clean
import Verif.Spec.Notices
/-! # C125: what standard error holds -/
namespace Verif.Props
open Verif.Model Verif.Model.Params Verif.Model.Main Verif.Model.Program Verif.Spec Verif.Spec.Process Verif.Spec.Notices Verif.Lemmas Verif.Lemmas.Program

/-! ## Which reports, in which order -/

/-- The reports among what was done. -/
def told : List Happening → List Report
  | [] => []
  | .report r :: t => r :: told t
  | _ :: t => told t

theorem told_append : ∀ (a b : List Happening), told (a ++ b) = told a ++ told b
  | [], b => rfl
  | .report r :: a, b => by simp [told, told_append a b]
  | .enter :: a, b => told_append a b
  | .leave :: a, b => told_append a b
  | .view _ :: a, b => told_append a b
  | .output _ :: a, b => told_append a b
  | .usage :: a, b => told_append a b
  | .version :: a, b => told_append a b
  | .wrote _ _ :: a, b => told_append a b
  | .removed _ :: a, b => told_append a b
  | .ran _ :: a, b => told_append a b

theorem told_map : ∀ rs : List Report, told (rs.map .report) = rs
  | [] => rfl
  | r :: rs => by simp [told, told_map rs]

theorem told_removed : ∀ fs : List Bytes, told (fs.map .removed) = []
  | [] => rfl
  | _ :: fs => told_removed fs

theorem told_err (lib : Texts.Lib) (prog : Bytes) (t : List Happening) : t.flatMap (Texts.toErr lib prog) = (told t).flatMap (Texts.report lib prog) := by
  induction t with
  | nil => rfl
  | cons h t ih => cases h <;> simp [told, Texts.toErr, ih]

/-- The reports about warnings, one for each. -/
def noted (warns : List (Bytes × Exn)) : List (Option Report) := warns.map fun w => warningOf w.1 w.2

variable {e : Surround} {s : Settings} {one : Bool}

/-- The last report, when it cannot be completed: about the input that fails, or about the next warning. -/
def LastReport (e : Surround) (s : Settings) (rest : List (Bytes × Source)) (fl ws : List Report) (warns : List (Bytes × Exn)) (last : List Report) (fin : Fin) : Prop :=
  last = [] ∨ fin = .main .uncaught ∧
    ((fl = [] ∧ ws = [] ∧ ∃ x, rest.head? = some x ∧ LastWords e.world s x .uncaught last) ∨
     ∃ name ex, warns[ws.length]? = some (name, ex) ∧ displayException ex = .lengthError ∧ last = [.cutWarning name ex.hist.currentLine ex.hist.totalSize ((message ex.kind).getD [])])

/-- What is reported about the inputs `xs`, if there are already the warnings `warns` to report: first, if an input fails, that; then warnings. When all inputs were read and the program goes
on, all the warnings; if an input failed and the program goes on, all the warnings if the inputs are treated one by one (`one`), and none otherwise. -/
def Tells (e : Surround) (s : Settings) (one : Bool) (xs : List (Bytes × Source)) (warns : List (Bytes × Exn)) (r : Proc × Fin) : Prop :=
  ∃ (good : List Good) (rest : List (Bytes × Source)) (fl ws last : List Report), xs = good.map (·.1) ++ rest ∧ (∀ g ∈ good, Holds e.world s g.1 g.2.1 g.2.2) ∧ told r.1.tape = fl ++ ws ++ last ∧
    (fl = [] ∨ ∃ x f, rest.head? = some x ∧ Fails e.world s x f ∧ fl = [f]) ∧ ws.map some <+: noted (warns ++ warningsOf good) ∧
    (r.2 = .main .returned → (fl = [] → rest = []) ∧ (one = true ∨ fl = [] → ws.map some = noted (warns ++ warningsOf good))) ∧ (one = false → fl ≠ [] → ws = [] ∧ last = []) ∧
    LastReport e s rest fl ws (warns ++ warningsOf good) last r.2

theorem showWarnings_noted : ∀ (warns : List (Bytes × Exn)) (f : Effects), ∃ ws last, (showWarnings warns f).1.err = f.err ++ ws ++ last ∧ ws.map some <+: noted warns ∧
    ((showWarnings warns f).2 = .returned → ws.map some = noted warns) ∧
    (last = [] ∨ (showWarnings warns f).2 = .uncaught ∧ ∃ name ex, warns[ws.length]? = some (name, ex) ∧ displayException ex = .lengthError ∧
      last = [.cutWarning name ex.hist.currentLine ex.hist.totalSize ((message ex.kind).getD [])])
  | [], f => ⟨[], [], by simp [showWarnings], by simp [noted], fun _ => rfl, .inl rfl⟩
  | (name, x) :: warns, f => by
    unfold showWarnings
    cases hd : displayException x with
    | shown line col what context tildes =>
      obtain ⟨ws, last, h1, h2, h3, h4⟩ := showWarnings_noted warns { f with err := f.err ++ [.warning name line col what context tildes] }
      have hn : noted ((name, x) :: warns) = some (.warning name line col what context tildes) :: noted warns := by simp [noted, warningOf, hd]
      refine ⟨.warning name line col what context tildes :: ws, last, by rw [h1]; simp, ?_, fun h => ?_, by simpa using h4⟩
      · rw [hn]; simpa using h2
      · rw [hn, ← h3 h]; rfl
    | lengthError => exact ⟨[], _, by rw [List.append_nil], by simp, (fun h => by cases h), .inr ⟨rfl, name, x, rfl, hd, rfl⟩⟩
    | ub => exact ⟨[], [], by simp, by simp, (fun h => by cases h), .inl rfl⟩

theorem warn_told (warns : List (Bytes × Exn)) (p : Proc) : ∃ ws last, told (warn warns p).1.tape = told p.tape ++ ws ++ last ∧ ws.map some <+: noted warns ∧
    ((warn warns p).2 = .main .returned → ws.map some = noted warns) ∧ ∀ rest fl, LastReport e s rest fl ws warns last (warn warns p).2 := by
  obtain ⟨ws, last, h1, h2, h3, h4⟩ := showWarnings_noted warns {}
  refine ⟨ws, last, ?_, h2, fun h => h3 (Fin.main.inj h), fun rest fl => h4.imp id fun ⟨h, h'⟩ => ⟨congrArg Fin.main h, .inr h'⟩⟩
  show told (p.tape ++ (showWarnings warns {}).1.err.map .report) = _
  rw [told_append, told_map, h1, ← List.append_assoc]
  simp

/-- Nothing was reported, and the program does not go on. -/
theorem tells_nothing {xs : List (Bytes × Source)} {warns : List (Bytes × Exn)} {r : Proc × Fin} (h : told r.1.tape = []) (hr : r.2 ≠ .main .returned) : Tells e s one xs warns r :=
  ⟨[], xs, [], [], [], rfl, by simp, h, Or.inl rfl, by simp, fun h => absurd h hr, fun _ h => absurd rfl h, .inl rfl⟩

/-- Reading an input ends the program. -/
theorem tells_crash {x : Bytes × Source} {xs : List (Bytes × Source)} {warns : List (Bytes × Exn)} {p : Proc} {en : Main.Ending} {rs : List Report} (h : told p.tape = rs)
    (hl : LastWords e.world s x en rs) (hr : en ≠ .returned) : Tells e s one (x :: xs) warns (p, .main en) := by
  refine ⟨[], x :: xs, [], [], rs, rfl, by simp, h, Or.inl rfl, by simp, fun h => absurd (Fin.main.inj h) hr, fun _ h => absurd rfl h, ?_⟩
  cases hl with
  | none => exact .inl rfl
  | cut y h1 h2 => exact .inr ⟨rfl, .inl ⟨rfl, rfl, x, rfl, .cut y h1 h2⟩⟩

/-- All inputs are read, and the warnings are reported. -/
theorem tells_warn {warns : List (Bytes × Exn)} {p : Proc} (h : told p.tape = []) : Tells e s one [] warns (warn warns p) := by
  obtain ⟨ws, last, h1, h2, h3, h4⟩ := warn_told (e := e) (s := s) warns p
  refine ⟨[], [], [], ws, last, rfl, by simp, by rw [h1, h], Or.inl rfl, by simpa [warningsOf] using h2, fun h => ⟨fun _ => rfl, fun _ => by simpa [warningsOf] using h3 h⟩, fun _ h => absurd rfl h,
    by simpa [warningsOf] using h4 [] []⟩

/-- An input fails, and the warnings are reported. -/
theorem tells_fails {x : Bytes × Source} {xs : List (Bytes × Source)} {warns : List (Bytes × Exn)} {p : Proc} {f : Report} (hf : Fails e.world s x f) (h : told p.tape = [f]) :
    Tells e s true (x :: xs) warns (warn warns p) := by
  obtain ⟨ws, last, h1, h2, h3, h4⟩ := warn_told (e := e) (s := s) warns p
  exact ⟨[], x :: xs, [f], ws, last, rfl, by simp, by rw [h1, h], Or.inr ⟨x, f, rfl, hf, rfl⟩, by simpa [warningsOf] using h2, fun h => ⟨(fun h => by cases h), fun _ => by simpa [warningsOf] using h3 h⟩, (fun h => by cases h),
    by simpa [warningsOf] using h4 (x :: xs) [f]⟩

/-- An input fails, and that is all. -/
theorem tells_fails' {x : Bytes × Source} {xs : List (Bytes × Source)} {warns : List (Bytes × Exn)} {r : Proc × Fin} {f : Report} (hf : Fails e.world s x f) (h : told r.1.tape = [f]) :
    Tells e s false (x :: xs) warns r :=
  ⟨[], x :: xs, [f], [], [], rfl, by simp, by simpa using h, Or.inr ⟨x, f, rfl, hf, rfl⟩, by simp, fun _ => ⟨(fun h => by cases h), (fun h => by rcases h with h | h <;> cases h)⟩, fun _ _ => ⟨rfl, rfl⟩, .inl rfl⟩

theorem Tells.cons {x : Bytes × Source} {v : Json} {ws : List Exn} {xs : List (Bytes × Source)} {warns : List (Bytes × Exn)} {r : Proc × Fin} (hx : Holds e.world s x v ws)
    (h : Tells e s one xs (warns ++ ws.map (x.1, ·)) r) : Tells e s one (x :: xs) warns r := by
  obtain ⟨good, rest, fl, wr, last, h1, h2, h3, h4, h5, h6⟩ := h
  have e : warns ++ ws.map (x.1, ·) ++ warningsOf good = warns ++ warningsOf ((x, v, ws) :: good) := by simp [warningsOf]
  rw [e] at h5 h6
  refine ⟨(x, v, ws) :: good, rest, fl, wr, last, by rw [h1]; rfl, ?_, h3, h4, h5, h6⟩
  intro g hg
  rcases List.mem_cons.mp hg with rfl | hg
  · exact hx
  · exact h2 g hg

/-- What `readOneFile` does. -/
theorem readOne_told (e : Surround) (s : Settings) (x : Bytes × Source) :
    (∃ v ws, Holds e.world s x v ws ∧ readOne e s x = ([], .doc v (ws.map (x.1, ·)))) ∨
    (∃ f, Fails e.world s x f ∧ readOne e s x = ([.report f], .none)) ∨
    (∃ en rs, en ≠ .returned ∧ readOne e s x = (rs.map .report, .crash en) ∧ LastWords e.world s x en rs) := by
  rcases readOneFile_cases e.world s x with ⟨v, ws, h⟩ | ⟨r, h⟩ | ⟨-, -, en, h2, -, rs, h4, h5⟩
  · exact .inl ⟨v, ws, h, readOne_holds h⟩
  · refine .inr (.inl ⟨r, h, ?_⟩)
    unfold readOne
    rw [readOneFile_fails h]
    rfl
  · refine .inr (.inr ⟨en, rs, h2, ?_, h5⟩)
    unfold readOne
    rw [h4]
    rfl

theorem told_does (p : Proc) (h : List Happening) : told (p.does h).tape = told p.tape ++ told h := told_append _ _

theorem told_close (p : Proc) : told (closeView p).tape = told p.tape := by
  show told (p.tape ++ [.leave]) = _
  rw [told_append]
  exact List.append_nil _

theorem told_view (docs : List (Bytes × Json)) (p : Proc) : told (runView e docs p).1.tape = told p.tape := by
  show told (p.tape ++ [.view docs]) = _
  rw [told_append]
  exact List.append_nil _

theorem tells_stdout : ∀ (xs : List (Bytes × Source)) (i : Nat) (warns : List (Bytes × Exn)) (p : Proc), told p.tape = [] → Tells e s true xs warns (Program.runStdout e s i xs warns p)
  | [], i, warns, p, hp => by rw [Program.runStdout]; exact tells_warn hp
  | x :: xs, i, warns, p, hp => by
    rw [Program.runStdout]
    cases hr : reading e i p with
    | none => exact tells_nothing hp (by simp)
    | some q =>
      have hq : told q.tape = [] := by rw [(reading_tape hr).1]; exact hp
      dsimp only
      rcases readOne_told e s x with ⟨v, ws, h1, h2⟩ | ⟨f, h1, h2⟩ | ⟨en, rs, h1, h2, h3⟩
      · rw [h2]
        refine Tells.cons h1 (tells_stdout xs (i + 1) _ _ ?_)
        rw [told_does, told_does, hq]
        rfl
      · rw [h2]
        exact tells_fails h1 (by rw [told_does, hq]; rfl)
      · rw [h2]
        exact tells_crash (by rw [told_does, hq, told_map]; rfl) h3 h1

theorem tells_browse : ∀ (xs : List (Bytes × Source)) (i : Nat) (warns : List (Bytes × Exn)) (p : Proc), told p.tape = [] → Tells e s true xs warns (Program.browse e s i xs warns p)
  | [], i, warns, p, hp => by rw [Program.browse]; exact tells_warn (by rw [told_close]; exact hp)
  | x :: xs, i, warns, p, hp => by
    rw [Program.browse]
    cases hr : reading e i p with
    | none => exact tells_nothing hp (by simp)
    | some q =>
      have hq : told q.tape = [] := by rw [(reading_tape hr).1]; exact hp
      dsimp only
      rcases readOne_told e s x with ⟨v, ws, h1, h2⟩ | ⟨f, h1, h2⟩ | ⟨en, rs, h1, h2, h3⟩
      · rw [h2]
        dsimp only
        have hv : told (runView e [(x.1, v)] (q.does [])).1.tape = [] := by rw [told_view, told_does, hq]; rfl
        cases hw : runView e [(x.1, v)] (q.does []) with
        | mk p' en =>
        rw [hw] at hv
        cases en with
        | left => exact Tells.cons h1 (tells_browse xs (i + 1) _ _ hv)
        | crash => exact tells_nothing hv (by simp)
        | waits => exact tells_nothing hv (by simp)
      · rw [h2]
        exact tells_fails h1 (by rw [told_close, told_does, hq]; rfl)
      · rw [h2]
        exact tells_crash (by rw [told_does, hq, told_map]; rfl) h3 h1

theorem open_told {p q : Proc} (h : openView e p = some q) (hp : told p.tape = []) : told q.tape = [] := by
  unfold openView at h
  split at h
  · have := Option.some.inj h
    subst this
    show told (p.tape ++ [.enter]) = _
    rw [told_append, hp]
    rfl
  · cases h

theorem tells_compare (docs : List (Bytes × Json)) (warns : List (Bytes × Exn)) (p : Proc) (hp : told p.tape = []) : Tells e s one [] warns (compareView e s docs warns p) := by
  unfold compareView
  cases ho : openView e p with
  | none => exact tells_nothing hp (by simp)
  | some q =>
    have hq := open_told ho hp
    dsimp only
    match docs with
    | [a, b] =>
      dsimp only
      cases hd : Diff.diff (e.world.fmt s) a.2 b.2 with
      | none => exact tells_nothing hq (by simp)
      | some _ =>
        dsimp only
        have hv : told (runView e [a, b] q).1.tape = [] := by rw [told_view]; exact hq
        cases hw : runView e [a, b] q with
        | mk p' en =>
        rw [hw] at hv
        cases en with
        | left => exact tells_warn (by rw [told_close]; exact hv)
        | crash => exact tells_nothing hv (by simp)
        | waits => exact tells_nothing hv (by simp)
    | [] => exact tells_nothing hq (by simp)
    | [_] => exact tells_nothing hq (by simp)
    | [_, _, _] => exact tells_nothing hq (by simp)
    | _ :: _ :: _ :: _ :: _ => exact tells_nothing hq (by simp)

theorem tells_diff : ∀ (xs : List (Bytes × Source)) (i : Nat) (docs : List (Bytes × Json)) (warns : List (Bytes × Exn)) (p : Proc), told p.tape = [] →
    Tells e s false xs warns (Program.runDiff e s i xs docs warns p)
  | [], i, docs, warns, p, hp => by rw [Program.runDiff]; exact tells_compare docs warns p hp
  | x :: xs, i, docs, warns, p, hp => by
    rw [Program.runDiff]
    cases hr : reading e i p with
    | none => exact tells_nothing hp (by simp)
    | some q =>
      have hq : told q.tape = [] := by rw [(reading_tape hr).1]; exact hp
      dsimp only
      rcases readOne_told e s x with ⟨v, ws, h1, h2⟩ | ⟨f, h1, h2⟩ | ⟨en, rs, h1, h2, h3⟩
      · rw [h2]
        exact Tells.cons h1 (tells_diff xs (i + 1) _ _ _ (by rw [told_does, hq]; rfl))
      · rw [h2]
        exact tells_fails' h1 (by show told (q.does [.report f]).tape = _; rw [told_does, hq]; rfl)
      · rw [h2]
        exact tells_crash (by rw [told_does, hq, told_map]; rfl) h3 h1

theorem command_told (cmd files : List Bytes) (p : Proc) : told (Program.runCommand e cmd files p).1.tape = told p.tape := by
  unfold Program.runCommand
  cases hc : DiffCmd.computeArgv (cmd.foldl DiffCmd.add DiffCmd.new) files with
  | none => rfl
  | some a =>
    obtain ⟨argv, k⟩ := a
    dsimp only
    have : told (p.does [.ran argv]).tape = told p.tape := by
      rw [told_does]
      exact List.append_nil _
    cases e.world.child argv <;> first | rfl | exact this

theorem tells_prepare (cmd : List Bytes) : ∀ (xs : List (Bytes × Source)) (i : Nat) (files : List Bytes) (warns : List (Bytes × Exn)) (p : Proc), told p.tape = [] →
    Tells e s false xs warns (Program.prepare e s cmd i xs files warns p).1
  | [], i, files, warns, p, hp => by
    rw [Program.prepare]
    have hw : Tells e s false [] warns (warn warns p) := tells_warn hp
    cases h : warn warns p with
    | mk q en =>
      rw [h] at hw
      cases en with
      | main z =>
        cases z with
        | returned =>
          obtain ⟨good, rest, fl, wr, last, h1, h2, h3, h4, h5, h6, h7, h8⟩ := hw
          refine ⟨good, rest, fl, wr, last, h1, h2, (command_told cmd files q).trans h3, h4, h5, fun _ => h6 rfl, h7, ?_⟩
          rcases h8 with h8 | ⟨h8, -⟩
          · exact .inl h8
          · cases h8
        | _ => exact hw
      | _ => exact hw
  | x :: xs, i, files, warns, p, hp => by
    rw [Program.prepare]
    cases hr : reading e i p with
    | none => exact tells_nothing hp (by simp)
    | some q =>
      have hq : told q.tape = [] := by rw [(reading_tape hr).1]; exact hp
      dsimp only
      rcases readOne_told e s x with ⟨v, ws, h1, h2⟩ | ⟨f, h1, h2⟩ | ⟨en, rs, h1, h2, h3⟩
      · rw [h2]
        dsimp only
        by_cases hc : e.world.canCreate (DiffCmd.tempName x.1) = true
        · rw [if_pos hc]
          refine Tells.cons h1 (tells_prepare cmd xs (i + 1) _ _ _ ?_)
          rw [told_does, told_does, hq]
          rfl
        · rw [if_neg hc]
          exact tells_nothing (by rw [told_does, hq]; rfl) (by simp)
      · rw [h2]
        exact tells_fails' h1 (by show told (q.does [.report f]).tape = _; rw [told_does, hq]; rfl)
      · rw [h2]
        exact tells_crash (by rw [told_does, hq, told_map]; rfl) h3 h1

theorem tells_external (cmd : List Bytes) (p : Proc) (hp : told p.tape = []) : Tells e s false (getInputs s) [] (Program.runExternalDiff e s cmd p) := by
  unfold Program.runExternalDiff
  have h := tells_prepare (e := e) (s := s) cmd (getInputs s) 0 [] [] p hp
  cases hc : Program.prepare e s cmd 0 (getInputs s) [] [] p with
  | mk r files =>
    obtain ⟨q, en⟩ := r
    rw [hc] at h
    cases en with
    | main z =>
      cases z with
      | returned =>
        obtain ⟨good, rest, fl, wr, last, h1, h2, h3, h4, h5, h6⟩ := h
        refine ⟨good, rest, fl, wr, last, h1, h2, ?_, h4, h5, h6⟩
        show told (q.does (files.map .removed)).tape = _
        rw [told_does, told_removed, List.append_nil]
        exact h3
      | _ => exact h
    | _ => exact h

theorem tells_choose (e : Surround) (s : Settings) (p : Proc) (hp : told p.tape = []) : Tells e s (!(s.diffMode || s.diffCmd.isSome)) (getInputs s) [] (Program.choose e s p) := by
  unfold Program.choose
  cases hc : s.diffCmd with
  | some cmd =>
    rw [Option.isSome_some, Bool.or_true]
    exact tells_external cmd p hp
  | none =>
    dsimp only
    rw [Option.isSome_none, Bool.or_false]
    by_cases hm : s.diffMode = true
    · rw [if_pos hm, hm]
      exact tells_diff _ _ _ _ _ hp
    · rw [if_neg hm, show s.diffMode = false by simpa using hm]
      split
      · unfold Program.run
        cases ho : openView e p with
        | none => exact tells_nothing hp (by simp)
        | some q => exact tells_browse _ _ _ _ (open_told ho hp)
      · exact tells_stdout _ _ _ _ hp

/-! ## What a report looks like -/

/-- The notice tells what the exception holds: its line and column (modulo `2^32`), its message up to a null byte, and the end of the line that was read. -/
def About (n : Notice) (name : Bytes) (x : Exn) : Prop :=
  n.name = name ∧ decimal n.line = x.hist.currentLine % 4294967296 ∧ decimal n.col = x.hist.totalSize % 4294967296 ∧ n.context = x.hist.toString ∧
    ∃ what, message x.kind = some what ∧ n.what = what.takeWhile (· ≠ 0)

theorem numeral (n : Nat) : Numeral (Texts.number n) := ⟨natDigits_digits _, natDigits_noLeadingZero _⟩

/-- The notice of what `displayException` shows. -/
def noticeOf (lib : Texts.Lib) (severity name : Bytes) (line col : Nat) (what context : Bytes) (tildes : Nat) : Notice :=
  ⟨severity, name, lib.typeName what, Texts.number line, Texts.number col, Texts.cString what, context, List.replicate tildes (c%'~') ++ b!"^"⟩

theorem display_none {x : Exn} (hd : displayException x = .lengthError) : x.hist.toString = [] ∧ ∃ what, message x.kind = some what := by
  unfold displayException at hd
  cases hm : message x.kind with
  | none => rw [hm] at hd; cases hd
  | some m =>
    rw [hm] at hd
    dsimp only at hd
    split at hd
    · exact ⟨List.eq_nil_of_length_eq_zero ‹_›, m, rfl⟩
    · cases hd

/-- The notice of which only the first line is written. -/
def cutNotice (lib : Texts.Lib) (severity name : Bytes) (x : Exn) : Notice :=
  ⟨severity, name, lib.typeName ((message x.kind).getD []), Texts.number x.hist.currentLine, Texts.number x.hist.totalSize, Texts.cString ((message x.kind).getD []), [], []⟩

theorem cut_about (lib : Texts.Lib) (severity name : Bytes) {x : Exn} (hd : displayException x = .lengthError) : About (cutNotice lib severity name x) name x ∧ x.hist.toString = [] := by
  obtain ⟨h1, m, h2⟩ := display_none hd
  exact ⟨⟨rfl, natDigits_decimal _, natDigits_decimal _, h1.symm, m, h2, by simp [cutNotice, h2, Texts.cString]⟩, h1⟩

theorem notice_of {lib : Texts.Lib} {severity name what context : Bytes} {line col tildes : Nat} {x : Exn} (hl : Legible x.hist) (hd : displayException x = .shown line col what context tildes) :
    (noticeOf lib severity name line col what context tildes).WellShaped ∧ About (noticeOf lib severity name line col what context tildes) name x := by
  unfold displayException at hd
  cases hm : message x.kind with
  | none => rw [hm] at hd; cases hd
  | some m =>
    rw [hm] at hd
    dsimp only at hd
    split at hd
    · cases hd
    · rename_i h0
      injection hd with h1 h2 h3 h4 h5
      subst h1 h2 h3 h4 h5
      refine ⟨⟨fun h => h0 (by rw [show x.hist.toString = [] from h]; rfl), hl.1, fun h => hl.2 _ h rfl, ?_, ?_, ?_, numeral _, numeral _⟩, rfl, natDigits_decimal _, natDigits_decimal _, rfl, m, hm, rfl⟩
      · simp [noticeOf]; omega
      · simp [noticeOf]
      · intro c hc
        simp [noticeOf] at hc
        exact hc.2

/-- The notices of the reports about warnings. -/
theorem notices_of (lib : Texts.Lib) (prog : Bytes) : ∀ (ws : List Report) (warns : List (Bytes × Exn)), (∀ w ∈ warns, Legible w.2.hist) → ws.map some <+: noted warns →
    ∃ (shown : List (Bytes × Exn)) (notices : List Notice), shown <+: warns ∧ shown.length = ws.length ∧ notices.length = shown.length ∧
      (∀ p ∈ notices.zip shown, p.1.severity = b!"Warning" ∧ p.1.WellShaped ∧ About p.1 p.2.1 p.2.2) ∧
      ws.flatMap (Texts.report lib prog) = notices.flatMap (Notice.text prog)
  | [], warns, _, _ => ⟨[], [], by simp, rfl, rfl, by simp, rfl⟩
  | r :: ws, [], _, h => by simp [noted] at h
  | r :: ws, (name, x) :: warns, hl, h => by
    have hw : noted ((name, x) :: warns) = warningOf name x :: noted warns := rfl
    rw [hw, List.map_cons, List.cons_prefix_cons] at h
    obtain ⟨h1, h2⟩ := h
    obtain ⟨shown, notices, g1, g2, g3, g4, g5⟩ := notices_of lib prog ws warns (fun w hw => hl w (List.mem_cons_of_mem _ hw)) h2
    unfold warningOf at h1
    cases hd : displayException x with
    | shown line col what context tildes =>
      rw [hd] at h1
      have h1 := Option.some.inj h1
      subst h1
      obtain ⟨k1, k2⟩ := notice_of (lib := lib) (severity := b!"Warning") (name := name) (hl (name, x) (List.mem_cons_self ..)) hd
      refine ⟨(name, x) :: shown, noticeOf lib b!"Warning" name line col what context tildes :: notices, by simpa using g1, by simp [g2], by simp [g3], ?_, ?_⟩
      · intro p hp
        rw [List.zip_cons_cons, List.mem_cons] at hp
        rcases hp with rfl | hp
        · exact ⟨rfl, k1, k2⟩
        · exact g4 p hp
      · rw [List.flatMap_cons, List.flatMap_cons, g5]
        simp [Texts.report, Texts.displayed, Texts.heading, noticeOf, Notice.text, Notice.opening, List.append_assoc]
    | lengthError => rw [hd] at h1; cases h1
    | ub => rw [hd] at h1; cases h1

/-- Reading the input. -/
def reads (w : World) (s : Settings) (x : Bytes × Source) : Out (Option Json) :=
  Model.read (envOf s.strict s.ignoreUnicode s.sorted w.surr) (St.init (w.junk x.1).1 (w.junk x.1).2 (textOf w s x.2))

/-- **C125.** What standard error holds, for every command line, every input and however the program ends. If the command line is wrong: one line that begins with the name of the program and
says what is wrong. If there are too few or too many files to compare: one line that says so. If only the help or the version is asked for: nothing. Otherwise, if an input could not be read, a report about it; then reports about warnings. Every report about an error or
a warning has three lines: the first one names the program, the input, the line and the column and what is wrong; the second one holds between 1 and 45 bytes of the input line (and no line feed), the third
one is exactly as long as the second one and points at its last byte. The report about the error belongs to the first input that could not be read; the warnings are the ones about the inputs before it, in their
order, each once. If there is nothing of the input line to show, only the first line of the report is written (and the line feed after it, or not), it is the last one, and the program dies with an exception. If the program ends normally, all these warnings are reported, unless documents are compared and an input failed: then none is; and all inputs were read or one is reported. -/
theorem C125_standard_error (lib : Texts.Lib) (prog : Bytes) (e : Surround) (args : List Bytes) (hj : ∀ name, (e.world.junk name).1.length = 45) :
    (∀ x, Params.read (fun f => (e.world.files f).isSome) args = .throw x →
      Texts.standardError lib prog e args = prog ++ b!": " ++ (Spec.Notices.complaint x).takeWhile (· ≠ 0) ++ b!"\n") ∧
    (∀ r, Params.read (fun f => (e.world.files f).isSome) args = .stop r → Texts.standardError lib prog e args = match r with
        | .tooMany => prog ++ b!": more than 3 files to compare\n"
        | .notEnough => prog ++ b!": not enough files to compare\n"
        | .usage | .version => []) ∧
    ∀ s, Asks e args s →
      ∃ (good : List Good) (rest : List (Bytes × Source)) (first : Bytes) (shown : List (Bytes × Exn)) (notices : List Notice) (last : Bytes),
        getInputs s = good.map (·.1) ++ rest ∧ (∀ g ∈ good, Holds e.world s g.1 g.2.1 g.2.2) ∧
        Texts.standardError lib prog e args = first ++ notices.flatMap (Notice.text prog) ++ last ∧
        (first = [] ∨ ∃ x, rest.head? = some x ∧
          ((∃ st, reads e.world s x = .ret none st ∧ first = prog ++ b!": " ++ x.1 ++ b!" " ++ lib.eofType ++ b!" (" ++ lib.eofWhat ++ b!") error while reading\n") ∨
           (∃ ex n, reads e.world s x = .throw ex ∧ first = n.text prog ∧ n.severity = b!"Error" ∧ n.WellShaped ∧ About n x.1 ex))) ∧
        shown <+: warningsOf good ∧ notices.length = shown.length ∧ (∀ p ∈ notices.zip shown, p.1.severity = b!"Warning" ∧ p.1.WellShaped ∧ About p.1 p.2.1 p.2.2) ∧
        (last = [] ∨ (program e args).2 = .main .uncaught ∧ ∃ n name ex, last = Notice.opening prog n ++ (if lib.inOrder then b!"\n" else []) ∧ About n name ex ∧ ex.hist.toString = [] ∧
          Numeral n.line ∧ Numeral n.col ∧
          ((n.severity = b!"Error" ∧ first = [] ∧ notices = [] ∧ ∃ x, rest.head? = some x ∧ name = x.1 ∧ reads e.world s x = .throw ex) ∨
           (n.severity = b!"Warning" ∧ (warningsOf good)[shown.length]? = some (name, ex)))) ∧
        ((program e args).2 = .main (.exit 0) → (first = [] → rest = []) ∧ shown = if first ≠ [] ∧ (s.diffMode || s.diffCmd.isSome) = true then [] else warningsOf good) := by
  refine ⟨fun x hx => ?_, fun r hr => ?_, fun s hs => ?_⟩
  · unfold Texts.standardError
    have : (program e args).1.tape = [.report (.usage x), .usage] := by unfold program; rw [hx]; rfl
    rw [this, hx]
    have ht : Texts.errorText x = Spec.Notices.complaint x := by cases x <;> simp [Texts.errorText, Spec.Notices.complaint]
    simp [Texts.complaint, Texts.toErr, Texts.report, Texts.cString, ht]
  · unfold Texts.standardError
    have : (program e args).1.tape.flatMap (Texts.toErr lib prog) = [] := by
      unfold program
      rw [hr]
      cases r <;> rfl
    rw [this, hr]
    cases r <;> first | rfl | exact List.append_nil _
  · obtain ⟨good, rest, fl, ws, lst, h1, h2, h3, h4, h5, h6, h7, h8⟩ := tells_choose e s ⟨[], false, false, false⟩ rfl
    rw [List.nil_append] at h5 h6 h8
    have hleg : ∀ w ∈ warningsOf good, Legible w.2.hist := by
      intro w hw
      obtain ⟨g, hg, hw⟩ := List.mem_flatMap.mp hw
      obtain ⟨x, hx, rfl⟩ := List.mem_map.mp hw
      obtain ⟨st, hst, he⟩ := h2 g hg
      exact (read_legible _ _ _ (hj _) _).2 _ _ hst x (by rw [he]; exact hx)
    obtain ⟨shown, notices, g1, g2, g3, g4, g5⟩ := notices_of lib prog ws (warningsOf good) hleg h5
    have herr : Texts.standardError lib prog e args = fl.flatMap (Texts.report lib prog) ++ notices.flatMap (Notice.text prog) ++ lst.flatMap (Texts.report lib prog) := by
      unfold Texts.standardError
      rw [told_err, program_go hs]
      dsimp only
      rw [h3, List.flatMap_append, List.flatMap_append, g5, show Params.read (fun f => (e.world.files f).isSome) args = .go s from hs]
      rfl
    have hnot : notices.length = ws.length := by rw [g3, g2]
    refine ⟨good, rest, fl.flatMap (Texts.report lib prog), shown, notices, lst.flatMap (Texts.report lib prog), h1, h2, herr, ?_, g1, g3, g4, ?_, fun h0 => ?_⟩
    · rcases h4 with rfl | ⟨x, f, hx, hf, rfl⟩
      · exact Or.inl rfl
      · right
        refine ⟨x, hx, ?_⟩
        cases hf with
        | nothing st hst => exact Or.inl ⟨st, hst, by simp [Texts.report]⟩
        | wrong ex line col what context tildes hst hd =>
          right
          obtain ⟨k1, k2⟩ := notice_of (lib := lib) (severity := b!"Error") (name := x.1) ((read_legible _ _ _ (hj _) _).1 _ hst) hd
          exact ⟨ex, noticeOf lib b!"Error" x.1 line col what context tildes, hst, by simp [Texts.report, Texts.displayed, Texts.heading, noticeOf, Notice.text, Notice.opening, List.append_assoc], rfl, k1, k2⟩
    · rcases h8 with rfl | ⟨h8, h9⟩
      · exact .inl rfl
      · have hend : (program e args).2 = .main .uncaught := by rw [program_go hs]; simp only [h8]; rfl
        rcases h9 with ⟨rfl, rfl, x, hx, hl⟩ | ⟨name, ex, hw, hd, rfl⟩
        · cases hl with
          | none => exact .inl rfl
          | cut ex hr hd =>
            refine .inr ⟨hend, cutNotice lib b!"Error" x.1 ex, x.1, ex, by simp [Texts.report, Texts.cutOff, Texts.heading, cutNotice, Notice.opening, List.append_assoc], (cut_about lib _ _ hd).1,
              (cut_about lib b!"Error" x.1 hd).2, numeral _, numeral _, .inl ⟨rfl, rfl, List.eq_nil_of_length_eq_zero hnot, x, hx, rfl, hr⟩⟩
        · exact .inr ⟨hend, cutNotice lib b!"Warning" name ex, name, ex, by simp [Texts.report, Texts.cutOff, Texts.heading, cutNotice, Notice.opening, List.append_assoc], (cut_about lib _ _ hd).1,
            (cut_about lib b!"Warning" name hd).2, numeral _, numeral _, .inr ⟨rfl, by rw [g2]; exact hw⟩⟩
    · have hfl : fl.flatMap (Texts.report lib prog) = [] ↔ fl = [] := by
        rcases h4 with rfl | ⟨x, f, _, _, rfl⟩
        · simp
        · simpa using report_nonempty lib prog f
      have hret : (Program.choose e s ⟨[], false, false, false⟩).2 = .main .returned := by
        rw [program_go hs] at h0
        dsimp only at h0
        split at h0
        · assumption
        · exact absurd h0 (choose_no_exit e s _ 0)
      obtain ⟨r1, r2⟩ := h6 hret
      refine ⟨fun h => r1 (hfl.mp h), ?_⟩
      simp only [ne_eq, hfl]
      by_cases hc : ¬ fl = [] ∧ (s.diffMode || s.diffCmd.isSome) = true
      · rw [if_pos hc]
        have hws := (h7 (by rw [hc.2]; rfl) hc.1).1
        subst hws
        exact List.eq_nil_of_length_eq_zero g2
      · rw [if_neg hc]
        have r2 := r2 (by
          by_cases hf : fl = []
          · exact Or.inr hf
          · left
            cases hb : (s.diffMode || s.diffCmd.isSome) with
            | false => rfl
            | true => exact absurd ⟨hf, hb⟩ hc)
        have hlen : ws.length = (warningsOf good).length := by
          have := congrArg List.length r2
          simpa [noted] using this
        exact g1.eq_of_length (by rw [g2, hlen])

/-- An error and a warning, as they appear: the inputs are `[1]`, `{"k":1,"k":2}` and `[nul]`. -/
example : (∀ name, ((terminal false).world.junk name).1.length = 45) ∧
    decide (Texts.standardError ⟨fun _ => b!"T", b!"E", b!"eof", true⟩ b!"p" (terminal false) [b!"-W", b!"a", b!"c", b!"b"] =
      b!"Error: p: b [T] at line 1, col 5 (invalid value) while reading\n[nul]\n~~~~^\n" ++
      b!"Warning: p: c [T] at line 1, col 11 (Unexpected double key k for object) while reading\n{\"k\":1,\"k\":\n~~~~~~~~~~^\n") = true :=
  ⟨fun _ => rfl, by decide +kernel⟩

/-- A report that is cut off: the input is an opening brace, a `5` between line feeds and a closing brace. -/
example : decide (Texts.standardError ⟨fun _ => b!"T", b!"E", b!"eof", true⟩ b!"p"
      { terminal false with world := { (terminal false).world with files := fun f => if f = b!"x" then some b!"{\n5\n}" else none } } [b!"x"] =
      b!"Error: p: x [T] at line 2, col 0 (expected string key for object) while reading\n\n") = true := by decide +kernel

end Verif.Props
