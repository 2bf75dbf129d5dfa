import Verif.Model.Texts
import Verif.Props.TempFiles
/-! # C123, C124: standard output and standard error -/
namespace Verif.Props
open Verif.Model Verif.Model.Params Verif.Model.Main Verif.Model.Program Verif.Spec.Process Verif.Lemmas.Program

/-! ## Lemmas -/

/-- Nothing was reported. -/
def Silent (t : List Happening) : Prop := ∀ r, Happening.report r ∉ t

theorem report_nonempty (lib : Texts.Lib) (prog : Bytes) (r : Report) : Texts.report lib prog r ≠ [] := by
  cases r <;> simp [Texts.report, Texts.displayed]

theorem silent_iff (lib : Texts.Lib) (prog : Bytes) (t : List Happening) : t.flatMap (Texts.toErr lib prog) = [] ↔ Silent t := by
  rw [List.flatMap_eq_nil_iff]
  constructor
  · intro h r hr
    exact report_nonempty lib prog r (h _ hr)
  · intro h x hx
    cases x with
    | report r => exact absurd hx (h r)
    | _ => rfl

theorem silent_append {a b : List Happening} : Silent (a ++ b) ↔ Silent a ∧ Silent b := by
  simp only [Silent, List.mem_append, not_or]
  exact ⟨fun h => ⟨fun r => (h r).1, fun r => (h r).2⟩, fun h r => ⟨h.1 r, h.2 r⟩⟩

/-- What `readOneFile` does, and what the input holds then. -/
theorem readOne_cases (e : Surround) (s : Settings) (x : Bytes × Source) :
    (∃ v ws, Holds e.world s x v ws ∧ readOne e s x = ([], .doc v (ws.map (x.1, ·)))) ∨
    ((∀ v ws, ¬ Holds e.world s x v ws) ∧ ∃ r, readOne e s x = ([.report r], .none)) ∨
    ((∀ v ws, ¬ Holds e.world s x v ws) ∧ ∃ en, en ≠ .returned ∧ (∀ n, en ≠ .exit n) ∧ ∃ rs : List Report, readOne e s x = (rs.map .report, .crash en)) := by
  rcases readOneFile_cases e.world s x with ⟨v, ws, h⟩ | ⟨r, h⟩ | ⟨h1, -, en, h2, h3, rs, h4, -⟩
  · exact .inl ⟨v, ws, h, readOne_holds h⟩
  · refine .inr (.inl ⟨fun v ws hh => ?_, r, ?_⟩)
    · have := readOneFile_fails h {}
      rw [readOneFile_holds hh] at this
      cases this
    · unfold readOne
      rw [readOneFile_fails h]
      rfl
  · refine .inr (.inr ⟨h1, en, h2, h3, rs, ?_⟩)
    unfold readOne
    rw [h4]
    rfl

theorem showWarnings_count : ∀ (warns : List (Bytes × Exn)) (f : Effects), (showWarnings warns f).2 = .returned →
    (showWarnings warns f).1.err.length = f.err.length + warns.length
  | [], f, _ => rfl
  | (name, x) :: warns, f, h => by
    unfold showWarnings at h ⊢
    cases hd : displayException x with
    | shown line col what context tildes =>
      simp only [hd] at h ⊢
      rw [showWarnings_count warns _ h]
      simp; omega
    | lengthError => simp only [hd] at h; cases h
    | ub => simp only [hd] at h; cases h

theorem warn_silent {warns : List (Bytes × Exn)} {p : Proc} (h : (warn warns p).2 = .main .returned) (hs : Silent (warn warns p).1.tape) :
    warns = [] ∧ (warn warns p).1 = p := by
  have hc := showWarnings_count warns {} (Fin.main.inj h)
  have ht : (warn warns p).1.tape = p.tape ++ (showWarnings warns {}).1.err.map .report := rfl
  rw [ht, silent_append] at hs
  have he : (showWarnings warns {}).1.err = [] := by
    cases hh : (showWarnings warns {}).1.err with
    | nil => rfl
    | cons r rs => exact absurd (by rw [hh]; exact List.mem_cons_self ..) (hs.2 r)
  rw [he] at hc
  have hw : warns = [] := by simpa using hc.symm
  subst hw
  exact ⟨rfl, does_nil p⟩

theorem warn_nil (p : Proc) : warn [] p = (p, .main .returned) := by
  show (p.does [], _) = _
  rw [does_nil]
  rfl

theorem warn_prefix (warns : List (Bytes × Exn)) (p : Proc) : ∃ rs : List Report, (warn warns p).1.tape = p.tape ++ rs.map .report := ⟨_, rfl⟩

theorem silent_no_report {t : List Happening} {r : Report} (h : Silent (t ++ [.report r])) : False := (silent_append.mp h).2 r (List.mem_singleton.mpr rfl)

/-- An input and the document it holds. -/
abbrev Read := (Bytes × Source) × Json

/-- The inputs hold these documents, and there is nothing to warn about. -/
def Flawless (w : World) (s : Settings) (inputs : List (Bytes × Source)) (docs : List Read) : Prop :=
  docs.map (·.1) = inputs ∧ ∀ d ∈ docs, Holds w s d.1 d.2 []

theorem flawless_cons {w : World} {s : Settings} {x : Bytes × Source} {xs : List (Bytes × Source)} {docs : List Read} {v : Json} (hv : Holds w s x v []) (h : Flawless w s xs docs) :
    Flawless w s (x :: xs) ((x, v) :: docs) :=
  ⟨by simp [h.1], by
    intro d hd
    rcases List.mem_cons.mp hd with rfl | hd
    · exact hv
    · exact h.2 d hd⟩

variable {e : Surround} {s : Settings}

/-- What is printed of a document. -/
def printed (e : Surround) (s : Settings) (v : Json) : Bytes := Output.display (e.world.fmt s) s.compressMode v

theorem warns_nil {warns : List (Bytes × Exn)} {ws : List Exn} {n : Bytes} (h : warns ++ ws.map (n, ·) = []) : warns = [] ∧ ws = [] := by
  simpa using h

theorem silent_stdout : ∀ (xs : List (Bytes × Source)) (i : Nat) (warns : List (Bytes × Exn)) (p : Proc), (Program.runStdout e s i xs warns p).2 = .main .returned →
    Silent (Program.runStdout e s i xs warns p).1.tape →
    warns = [] ∧ ∃ docs, Flawless e.world s xs docs ∧ (Program.runStdout e s i xs warns p).1.tape = p.tape ++ docs.map fun d => .output (printed e s d.2)
  | [], i, warns, p, h, hs => by
    rw [Program.runStdout] at h hs ⊢
    obtain ⟨h1, h2⟩ := warn_silent h hs
    exact ⟨h1, [], ⟨rfl, by simp⟩, by rw [h2]; simp⟩
  | x :: xs, i, warns, p, h, hs => by
    rw [Program.runStdout] at h hs ⊢
    cases hr : reading e i p with
    | none => rw [hr] at h; cases h
    | some q =>
      have hq := (reading_tape hr).1
      rw [hr] at h hs
      rcases readOne_cases e s x with ⟨v, ws, h1, h2⟩ | ⟨-, r, h2⟩ | ⟨-, en, h1, -, rs, h2⟩
      · rw [h2] at h hs ⊢
        dsimp only at h hs ⊢
        obtain ⟨h3, docs, h4, h5⟩ := silent_stdout xs (i + 1) _ _ h hs
        obtain ⟨rfl, rfl⟩ := warns_nil h3
        refine ⟨rfl, (x, v) :: docs, flawless_cons h1 h4, ?_⟩
        rw [h5]
        simp [Proc.does, hq, printed]
      · rw [h2] at hs
        dsimp only at hs
        obtain ⟨rs, ht⟩ := warn_prefix warns (q.does [.report r])
        rw [ht, silent_append] at hs
        exact (silent_no_report hs.1).elim
      · rw [h2] at h
        exact absurd (Fin.main.inj h) h1

theorem silent_browse : ∀ (xs : List (Bytes × Source)) (i : Nat) (warns : List (Bytes × Exn)) (p : Proc), (Program.browse e s i xs warns p).2 = .main .returned →
    Silent (Program.browse e s i xs warns p).1.tape →
    warns = [] ∧ ∃ docs, Flawless e.world s xs docs ∧ (Program.browse e s i xs warns p).1.tape = p.tape ++ (docs.map fun d => .view [(d.1.1, d.2)]) ++ [.leave]
  | [], i, warns, p, h, hs => by
    rw [Program.browse] at h hs ⊢
    obtain ⟨h1, h2⟩ := warn_silent h hs
    exact ⟨h1, [], ⟨rfl, by simp⟩, by rw [h2]; simp [closeView, Proc.does]⟩
  | x :: xs, i, warns, p, h, hs => by
    rw [Program.browse] at h hs ⊢
    cases hr : reading e i p with
    | none => rw [hr] at h; cases h
    | some q =>
      have hq := (reading_tape hr).1
      rw [hr] at h hs
      rcases readOne_cases e s x with ⟨v, ws, h1, h2⟩ | ⟨-, r, h2⟩ | ⟨-, en, h1, -, rs, h2⟩
      · rw [h2] at h hs ⊢
        dsimp only at h hs ⊢
        have hv : (runView e [(x.1, v)] (q.does [])).1.tape = q.tape ++ [.view [(x.1, v)]] := by simp [runView, Proc.does]
        cases hw : runView e [(x.1, v)] (q.does []) with
        | mk p' en =>
        rw [hw] at h hs hv
        cases en with
        | left =>
          dsimp only at h hs ⊢
          obtain ⟨h3, docs, h4, h5⟩ := silent_browse xs (i + 1) _ _ h hs
          obtain ⟨rfl, rfl⟩ := warns_nil h3
          refine ⟨rfl, (x, v) :: docs, flawless_cons h1 h4, ?_⟩
          rw [h5, hv]
          simp [hq]
        | crash => cases h
        | waits => cases h
      · rw [h2] at hs
        dsimp only at hs
        obtain ⟨rs, ht⟩ := warn_prefix warns (closeView (q.does [.report r]))
        rw [ht, silent_append] at hs
        have : (closeView (q.does [.report r])).tape = (q.tape ++ [.report r]) ++ [.leave] := rfl
        rw [this, silent_append] at hs
        exact (silent_no_report hs.1.1).elim
      · rw [h2] at h
        exact absurd (Fin.main.inj h) h1

theorem silent_compare (docs : List (Bytes × Json)) (warns : List (Bytes × Exn)) (p : Proc) (h : (compareView e s docs warns p).2 = .main .returned)
    (hs : Silent (compareView e s docs warns p).1.tape) : warns = [] ∧ (compareView e s docs warns p).1.tape = p.tape ++ [.enter, .view docs, .leave] := by
  unfold compareView at h hs ⊢
  cases ho : openView e p with
  | none => rw [ho] at h; cases h
  | some q =>
    have hq : q.tape = p.tape ++ [.enter] := by
      unfold openView at ho
      split at ho
      · have := Option.some.inj ho; rw [← this]; rfl
      · cases ho
    rw [ho] at h hs
    dsimp only at h hs ⊢
    match docs, h, hs with
    | [a, b], h, hs =>
      dsimp only at h hs ⊢
      cases hd : Diff.diff (e.world.fmt s) a.2 b.2 with
      | none => rw [hd] at h; cases h
      | some _ =>
        rw [hd] at h hs
        dsimp only at h hs ⊢
        have hv : (runView e [a, b] q).1.tape = q.tape ++ [.view [a, b]] := rfl
        cases hw : runView e [a, b] q with
        | mk p' en =>
        rw [hw] at h hs hv
        cases en with
        | left =>
          dsimp only at h hs ⊢
          obtain ⟨h1, h2⟩ := warn_silent h hs
          refine ⟨h1, ?_⟩
          rw [h2, show (closeView p').tape = p'.tape ++ [.leave] from rfl, hv, hq]
          simp
        | crash => cases h
        | waits => cases h
    | [], h, hs => cases h
    | [_], h, hs => cases h
    | [_, _, _], h, hs => cases h
    | _ :: _ :: _ :: _ :: _, h, hs => cases h

theorem silent_diff : ∀ (xs : List (Bytes × Source)) (i : Nat) (before : List (Bytes × Json)) (warns : List (Bytes × Exn)) (p : Proc),
    (Program.runDiff e s i xs before warns p).2 = .main .returned → Silent (Program.runDiff e s i xs before warns p).1.tape →
    warns = [] ∧ ∃ docs, Flawless e.world s xs docs ∧
      (Program.runDiff e s i xs before warns p).1.tape = p.tape ++ [.enter, .view (before ++ docs.map fun d => (d.1.1, d.2)), .leave]
  | [], i, before, warns, p, h, hs => by
    rw [Program.runDiff] at h hs ⊢
    obtain ⟨h1, h2⟩ := silent_compare before warns p h hs
    exact ⟨h1, [], ⟨rfl, by simp⟩, by rw [h2]; simp⟩
  | x :: xs, i, before, warns, p, h, hs => by
    rw [Program.runDiff] at h hs ⊢
    cases hr : reading e i p with
    | none => rw [hr] at h; cases h
    | some q =>
      have hq := (reading_tape hr).1
      rw [hr] at h hs
      rcases readOne_cases e s x with ⟨v, ws, h1, h2⟩ | ⟨-, r, h2⟩ | ⟨-, en, h1, -, rs, h2⟩
      · rw [h2] at h hs ⊢
        dsimp only at h hs ⊢
        obtain ⟨h3, docs, h4, h5⟩ := silent_diff xs (i + 1) _ _ _ h hs
        obtain ⟨rfl, rfl⟩ := warns_nil h3
        refine ⟨rfl, (x, v) :: docs, flawless_cons h1 h4, ?_⟩
        rw [h5]
        simp [Proc.does, hq]
      · rw [h2] at hs
        exact (silent_no_report hs).elim
      · rw [h2] at h
        exact absurd (Fin.main.inj h) h1

/-- The external command is started, unless `fork` fails. -/
def started (e : Surround) (t : List Happening) : Prop := ∃ argv, (t = [.ran argv] ∧ e.world.child argv ≠ .noFork) ∨ (t = [] ∧ e.world.child argv = .noFork)

theorem silent_command (cmd files : List Bytes) (p : Proc) (h : (Program.runCommand e cmd files p).2 = .main .returned) :
    ∃ t, started e t ∧ (Program.runCommand e cmd files p).1.tape = p.tape ++ t := by
  unfold Program.runCommand at h ⊢
  cases hc : DiffCmd.computeArgv (cmd.foldl DiffCmd.add DiffCmd.new) files with
  | none => rw [hc] at h; cases h
  | some a =>
    obtain ⟨argv, k⟩ := a
    rw [hc] at h
    dsimp only at h ⊢
    cases hw : e.world.child argv with
    | noFork => exact ⟨[], ⟨argv, .inr ⟨rfl, hw⟩⟩, by simp⟩
    | noExec b => exact ⟨[.ran argv], ⟨argv, .inl ⟨rfl, by rw [hw]; simp⟩⟩, rfl⟩
    | exits n => exact ⟨[.ran argv], ⟨argv, .inl ⟨rfl, by rw [hw]; simp⟩⟩, rfl⟩
    | killed n => exact ⟨[.ran argv], ⟨argv, .inl ⟨rfl, by rw [hw]; simp⟩⟩, rfl⟩

theorem silent_prepare (cmd : List Bytes) : ∀ (xs : List (Bytes × Source)) (i : Nat) (files : List Bytes) (warns : List (Bytes × Exn)) (p : Proc),
    (Program.prepare e s cmd i xs files warns p).1.2 = .main .returned → Silent (Program.prepare e s cmd i xs files warns p).1.1.tape →
    warns = [] ∧ ∃ docs t, Flawless e.world s xs docs ∧ started e t ∧
      (Program.prepare e s cmd i xs files warns p).1.1.tape = p.tape ++ (docs.map fun d => .wrote (DiffCmd.tempName d.1.1) (printed e s d.2)) ++ t ∧
      (Program.prepare e s cmd i xs files warns p).2 = files ++ docs.map fun d => DiffCmd.tempName d.1.1
  | [], i, files, warns, p, h, hs => by
    rw [Program.prepare] at h hs ⊢
    cases hw : warn warns p with
    | mk q en =>
      have hq : (warn warns p).1.tape = q.tape := by rw [hw]
      have hen : (warn warns p).2 = en := by rw [hw]
      obtain ⟨rs, ht⟩ := warn_prefix warns p
      rw [hw] at h hs
      have hret : en = .main .returned := by
        cases en with
        | main z => cases z <;> first | rfl | exact h
        | _ => exact h
      subst hret
      dsimp only at h hs ⊢
      obtain ⟨t, h1, h2⟩ := silent_command cmd files q h
      rw [h2, silent_append, ← hq] at hs
      obtain ⟨h3, h4⟩ := warn_silent hen hs.1
      refine ⟨h3, [], t, ⟨rfl, by simp⟩, h1, ?_, by simp⟩
      rw [h2, ← hq, h4]
      simp
  | x :: xs, i, files, warns, p, h, hs => by
    rw [Program.prepare] at h hs ⊢
    cases hr : reading e i p with
    | none => rw [hr] at h; cases h
    | some q =>
      have hq := (reading_tape hr).1
      rw [hr] at h hs
      rcases readOne_cases e s x with ⟨v, ws, h1, h2⟩ | ⟨-, r, h2⟩ | ⟨-, en, h1, -, rs, h2⟩
      · rw [h2] at h hs ⊢
        dsimp only at h hs ⊢
        by_cases hc : e.world.canCreate (DiffCmd.tempName x.1) = true
        · rw [if_pos hc] at h hs ⊢
          obtain ⟨h3, docs, t, h4, h5, h6, h7⟩ := silent_prepare cmd xs (i + 1) _ _ _ h hs
          obtain ⟨rfl, rfl⟩ := warns_nil h3
          refine ⟨rfl, (x, v) :: docs, t, flawless_cons h1 h4, h5, ?_, ?_⟩
          · rw [h6]
            simp [Proc.does, hq, printed]
          · rw [h7]
            simp
        · rw [if_neg hc] at h
          cases h
      · rw [h2] at hs
        exact (silent_no_report hs).elim
      · rw [h2] at h
        exact absurd (Fin.main.inj h) h1

theorem silent_external (cmd : List Bytes) (p : Proc) (h : (Program.runExternalDiff e s cmd p).2 = .main .returned)
    (hs : Silent (Program.runExternalDiff e s cmd p).1.tape) :
    ∃ docs t, Flawless e.world s (getInputs s) docs ∧ started e t ∧ (Program.runExternalDiff e s cmd p).1.tape =
      p.tape ++ (docs.map fun d => .wrote (DiffCmd.tempName d.1.1) (printed e s d.2)) ++ t ++ docs.map fun d => .removed (DiffCmd.tempName d.1.1) := by
  unfold Program.runExternalDiff at h hs ⊢
  have key := silent_prepare (e := e) (s := s) cmd (getInputs s) 0 [] [] p
  cases hp : Program.prepare e s cmd 0 (getInputs s) [] [] p with
  | mk r files =>
    obtain ⟨q, en⟩ := r
    rw [hp] at h hs key
    have hret : en = .main .returned := by
      cases en with
      | main z => cases z <;> first | rfl | exact h
      | _ => exact h
    subst hret
    dsimp only at h hs key ⊢
    have hq : Silent q.tape := (silent_append.mp (show Silent (q.tape ++ files.map .removed) from hs)).1
    obtain ⟨-, docs, t, h1, h2, h3, h4⟩ := key rfl hq
    refine ⟨docs, t, h1, h2, ?_⟩
    show q.tape ++ files.map .removed = _
    rw [h3, h4]
    simp

/-- Nothing of this goes to standard output. -/
def Mute (prog : Bytes) (t : List Happening) : Prop := t.flatMap (Texts.toOut prog) = []

theorem out_reports (prog : Bytes) (rs : List Report) : (rs.map Happening.report).flatMap (Texts.toOut prog) = [] := by
  rw [List.flatMap_eq_nil_iff]
  intro x hx
  obtain ⟨r, -, rfl⟩ := List.mem_map.mp hx
  rfl

theorem out_does (prog : Bytes) (p : Proc) (h : List Happening) : (p.does h).tape.flatMap (Texts.toOut prog) = p.tape.flatMap (Texts.toOut prog) ++ h.flatMap (Texts.toOut prog) := by
  simp [Proc.does]

theorem out_warn (prog : Bytes) (warns : List (Bytes × Exn)) (p : Proc) : (warn warns p).1.tape.flatMap (Texts.toOut prog) = p.tape.flatMap (Texts.toOut prog) := by
  obtain ⟨rs, h⟩ := warn_prefix warns p
  rw [h, List.flatMap_append, out_reports]
  simp

theorem out_close (prog : Bytes) (p : Proc) : (closeView p).tape.flatMap (Texts.toOut prog) = p.tape.flatMap (Texts.toOut prog) := by
  simp [closeView, Proc.does, Texts.toOut]

theorem out_stdout (prog : Bytes) : ∀ (xs : List (Bytes × Source)) (i : Nat) (warns : List (Bytes × Exn)) (p : Proc), p.handled = false →
    ∃ (good : List Good) (rest : List (Bytes × Source)), xs = good.map (·.1) ++ rest ∧ (∀ g ∈ good, Holds e.world s g.1 g.2.1 g.2.2) ∧
      (∀ x ∈ rest.head?, e.signal (i + good.length) = true ∨ ∀ v ws, ¬ Holds e.world s x v ws) ∧
      (Program.runStdout e s i xs warns p).1.tape.flatMap (Texts.toOut prog) = p.tape.flatMap (Texts.toOut prog) ++ good.flatMap fun g => printed e s g.2.1
  | [], i, warns, p, _ => ⟨[], [], rfl, by simp, by simp, by rw [Program.runStdout, out_warn]; simp⟩
  | x :: xs, i, warns, p, hp => by
    rw [Program.runStdout]
    cases hr : reading e i p with
    | none =>
      refine ⟨[], x :: xs, rfl, by simp, ?_, by simp⟩
      intro y _
      left
      unfold reading at hr
      split at hr
      · assumption
      · cases hr
    | some q =>
      obtain ⟨hq, hh, -⟩ := reading_tape hr
      dsimp only
      rcases readOne_cases e s x with ⟨v, ws, h1, h2⟩ | ⟨h1, r, h2⟩ | ⟨h1, en, -, -, rs, h2⟩
      · rw [h2]
        dsimp only
        obtain ⟨good, rest, g1, g2, g3, g4⟩ := out_stdout prog xs (i + 1) (warns ++ ws.map (x.1, ·))
          ((q.does []).does [.output (Output.display (e.world.fmt s) s.compressMode v)]) (hh.trans hp)
        refine ⟨(x, v, ws) :: good, rest, by simp [g1], ?_, ?_, ?_⟩
        · intro g hg
          rcases List.mem_cons.mp hg with rfl | hg
          · exact h1
          · exact g2 g hg
        · intro y hy
          have := g3 y hy
          rwa [show i + 1 + good.length = i + ((x, v, ws) :: good).length by simp; omega] at this
        · rw [g4, out_does, does_nil, hq]
          simp [Texts.toOut, printed]
      · rw [h2]
        refine ⟨[], x :: xs, rfl, by simp, ?_, ?_⟩
        · intro y hy
          simp at hy
          subst hy
          exact .inr h1
        · dsimp only
          rw [out_warn, out_does, hq]
          simp [Texts.toOut]
      · rw [h2]
        refine ⟨[], x :: xs, rfl, by simp, ?_, ?_⟩
        · intro y hy
          simp at hy
          subst hy
          exact .inr h1
        · dsimp only
          rw [out_does, hq, out_reports]
          rfl

theorem out_browse (prog : Bytes) : ∀ (xs : List (Bytes × Source)) (i : Nat) (warns : List (Bytes × Exn)) (p : Proc), Mute prog p.tape →
    Mute prog (Program.browse e s i xs warns p).1.tape
  | [], i, warns, p, hp => by rw [Program.browse]; unfold Mute; rw [out_warn, out_close]; exact hp
  | x :: xs, i, warns, p, hp => by
    rw [Program.browse]
    cases hr : reading e i p with
    | none => exact hp
    | some q =>
      have hq : Mute prog q.tape := by rw [(reading_tape hr).1]; exact hp
      dsimp only
      rcases readOne_cases e s x with ⟨v, ws, h1, h2⟩ | ⟨h1, r, h2⟩ | ⟨h1, en, -, -, rs, h2⟩
      · rw [h2]
        dsimp only
        have hv : Mute prog (runView e [(x.1, v)] (q.does [])).1.tape := by
          show (q.tape ++ [] ++ [Happening.view [(x.1, v)]]).flatMap (Texts.toOut prog) = []
          rw [List.append_nil, List.flatMap_append, show q.tape.flatMap (Texts.toOut prog) = [] from hq]
          rfl
        cases hw : runView e [(x.1, v)] (q.does []) with
        | mk p' en =>
        rw [hw] at hv
        cases en with
        | left => exact out_browse prog xs (i + 1) _ _ hv
        | crash => exact hv
        | waits => exact hv
      · rw [h2]
        dsimp only
        unfold Mute
        rw [out_warn, out_close, out_does, show q.tape.flatMap (Texts.toOut prog) = [] from hq]
        rfl
      · rw [h2]
        dsimp only
        unfold Mute
        rw [out_does, show q.tape.flatMap (Texts.toOut prog) = [] from hq, out_reports]
        rfl

theorem open_mute {prog : Bytes} {p q : Proc} (h : openView e p = some q) (hp : Mute prog p.tape) : Mute prog q.tape := by
  unfold openView at h
  split at h
  · rw [← Option.some.inj h]
    show (p.tape ++ [Happening.enter]).flatMap _ = []
    rw [List.flatMap_append, show p.tape.flatMap (Texts.toOut prog) = [] from hp]
    rfl
  · cases h

theorem out_compare (prog : Bytes) (docs : List (Bytes × Json)) (warns : List (Bytes × Exn)) (p : Proc) (hp : Mute prog p.tape) :
    Mute prog (compareView e s docs warns p).1.tape := by
  unfold compareView
  cases ho : openView e p with
  | none => exact hp
  | some q =>
    have hq := open_mute ho hp
    dsimp only
    match docs with
    | [a, b] =>
      dsimp only
      cases hd : Diff.diff (e.world.fmt s) a.2 b.2 with
      | none => exact hq
      | some _ =>
        dsimp only
        have hv : Mute prog (runView e [a, b] q).1.tape := by
          show (q.tape ++ [Happening.view [a, b]]).flatMap (Texts.toOut prog) = []
          rw [List.flatMap_append, show q.tape.flatMap (Texts.toOut prog) = [] from hq]
          rfl
        cases hw : runView e [a, b] q with
        | mk p' en =>
        rw [hw] at hv
        cases en with
        | left => dsimp only; unfold Mute; rw [out_warn, out_close]; exact hv
        | crash => exact hv
        | waits => exact hv
    | [] => exact hq
    | [_] => exact hq
    | [_, _, _] => exact hq
    | _ :: _ :: _ :: _ :: _ => exact hq

theorem out_diff (prog : Bytes) : ∀ (xs : List (Bytes × Source)) (i : Nat) (docs : List (Bytes × Json)) (warns : List (Bytes × Exn)) (p : Proc), Mute prog p.tape →
    Mute prog (Program.runDiff e s i xs docs warns p).1.tape
  | [], i, docs, warns, p, hp => by rw [Program.runDiff]; exact out_compare prog docs warns p hp
  | x :: xs, i, docs, warns, p, hp => by
    rw [Program.runDiff]
    cases hr : reading e i p with
    | none => exact hp
    | some q =>
      have hq : Mute prog q.tape := by rw [(reading_tape hr).1]; exact hp
      dsimp only
      rcases readOne_cases e s x with ⟨v, ws, h1, h2⟩ | ⟨h1, r, h2⟩ | ⟨h1, en, -, -, rs, h2⟩
      · rw [h2]
        dsimp only
        rw [does_nil]
        exact out_diff prog xs (i + 1) _ _ _ hq
      · rw [h2]
        dsimp only
        unfold Mute
        rw [out_does, show q.tape.flatMap (Texts.toOut prog) = [] from hq]
        rfl
      · rw [h2]
        dsimp only
        unfold Mute
        rw [out_does, show q.tape.flatMap (Texts.toOut prog) = [] from hq, out_reports]
        rfl

theorem out_command (prog : Bytes) (cmd files : List Bytes) (p : Proc) (hp : Mute prog p.tape) : Mute prog (Program.runCommand e cmd files p).1.tape := by
  unfold Program.runCommand
  cases hc : DiffCmd.computeArgv (cmd.foldl DiffCmd.add DiffCmd.new) files with
  | none => exact hp
  | some a =>
    obtain ⟨argv, k⟩ := a
    dsimp only
    have : Mute prog (p.does [.ran argv]).tape := by
      unfold Mute
      rw [out_does, show p.tape.flatMap (Texts.toOut prog) = [] from hp]
      rfl
    cases e.world.child argv <;> first | exact hp | exact this

theorem out_prepare (prog : Bytes) (cmd : List Bytes) : ∀ (xs : List (Bytes × Source)) (i : Nat) (files : List Bytes) (warns : List (Bytes × Exn)) (p : Proc), Mute prog p.tape →
    Mute prog (Program.prepare e s cmd i xs files warns p).1.1.tape
  | [], i, files, warns, p, hp => by
    rw [Program.prepare]
    have hw : Mute prog (warn warns p).1.tape := by unfold Mute; rw [out_warn]; exact hp
    cases h : warn warns p with
    | mk q en =>
      rw [h] at hw
      cases en with
      | main z => cases z <;> first | exact hw | exact out_command prog cmd files q hw
      | _ => exact hw
  | x :: xs, i, files, warns, p, hp => by
    rw [Program.prepare]
    cases hr : reading e i p with
    | none => exact hp
    | some q =>
      have hq : Mute prog q.tape := by rw [(reading_tape hr).1]; exact hp
      dsimp only
      rcases readOne_cases e s x with ⟨v, ws, h1, h2⟩ | ⟨h1, r, h2⟩ | ⟨h1, en, -, -, rs, h2⟩
      · rw [h2]
        dsimp only
        rw [does_nil]
        by_cases hc : e.world.canCreate (DiffCmd.tempName x.1) = true
        · rw [if_pos hc]
          refine out_prepare prog cmd xs (i + 1) _ _ _ ?_
          unfold Mute
          rw [out_does, show q.tape.flatMap (Texts.toOut prog) = [] from hq]
          rfl
        · rw [if_neg hc]
          exact hq
      · rw [h2]
        dsimp only
        unfold Mute
        rw [out_does, show q.tape.flatMap (Texts.toOut prog) = [] from hq]
        rfl
      · rw [h2]
        dsimp only
        unfold Mute
        rw [out_does, show q.tape.flatMap (Texts.toOut prog) = [] from hq, out_reports]
        rfl

theorem out_external (prog : Bytes) (cmd : List Bytes) (p : Proc) (hp : Mute prog p.tape) : Mute prog (Program.runExternalDiff e s cmd p).1.tape := by
  unfold Program.runExternalDiff
  have h := out_prepare (e := e) (s := s) prog cmd (getInputs s) 0 [] [] p hp
  cases hc : Program.prepare e s cmd 0 (getInputs s) [] [] p with
  | mk r files =>
    obtain ⟨q, en⟩ := r
    rw [hc] at h
    cases en with
    | main z =>
      cases z with
      | returned =>
        show (q.tape ++ files.map Happening.removed).flatMap (Texts.toOut prog) = []
        rw [List.flatMap_append, show q.tape.flatMap (Texts.toOut prog) = [] from h, List.nil_append, List.flatMap_eq_nil_iff]
        intro x hx
        obtain ⟨r, -, rfl⟩ := List.mem_map.mp hx
        rfl
      | _ => exact h
    | _ => exact h

/-! ## C123 -/

/-- **C123 is false as stated**: the help is printed on standard output when a word of the command line is wrong, and also - with the exit status of a success - when `--diff` is
given too few files. -/
theorem C123_output_false (prog : Bytes) (e : Surround) :
    (Texts.standardOutput prog e [b!"-x"] = Texts.usage prog ∧ (program e [b!"-x"]).2 = .main (.exit 1)) ∧
    (Texts.standardOutput prog e [b!"--diff"] = Texts.usage prog ∧ (program e [b!"--diff"]).2 = .main (.exit 0)) :=
  ⟨⟨List.append_nil _, rfl⟩, List.append_nil _, rfl⟩

/-- **C123, exactly what standard output holds**, whatever the surroundings and however the program ends. If the command line is wrong, or `--diff` has too few or too many
files: the help. If the version is asked for: the version. Otherwise, when documents are browsed or compared: nothing. Otherwise the documents of the inputs one after the other, up to
the first input that cannot be read or during which a signal arrives, and nothing else. -/
theorem C123_output_partial (prog : Bytes) (e : Surround) (args : List Bytes) :
    (∀ x, Params.read (fun f => (e.world.files f).isSome) args = .throw x → Texts.standardOutput prog e args = Texts.usage prog) ∧
    (∀ r, Params.read (fun f => (e.world.files f).isSome) args = .stop r →
      Texts.standardOutput prog e args = if r = .version then Texts.version else Texts.usage prog) ∧
    ∀ s, Asks e args s →
      (¬ Redirected e.world s → Texts.standardOutput prog e args = []) ∧
      (Redirected e.world s → ∃ (good : List Good) (rest : List (Bytes × Source)), getInputs s = good.map (·.1) ++ rest ∧
        (∀ g ∈ good, Holds e.world s g.1 g.2.1 g.2.2) ∧ (∀ x ∈ rest.head?, e.signal good.length = true ∨ ∀ v ws, ¬ Holds e.world s x v ws) ∧
        Texts.standardOutput prog e args = good.flatMap fun g => Output.display (e.world.fmt s) s.compressMode g.2.1) := by
  refine ⟨fun x h => ?_, fun r h => ?_, fun s h => ?_⟩
  · unfold Texts.standardOutput program
    rw [h]
    exact List.append_nil _
  · unfold Texts.standardOutput program
    rw [h]
    cases r <;> exact List.append_nil _
  · unfold Texts.standardOutput
    rw [program_tape h]
    unfold Program.choose Redirected
    constructor
    · intro hr
      cases hd : s.diffCmd with
      | some cmd => exact out_external prog cmd _ rfl
      | none =>
        dsimp only
        by_cases hm : s.diffMode = true
        · rw [if_pos hm]
          exact out_diff prog _ _ _ _ _ rfl
        · rw [if_neg hm]
          have hb : (!s.compressMode && e.world.tty) = true := by
            cases h1 : s.compressMode <;> cases h2 : e.world.tty <;> simp_all
          rw [if_pos hb]
          unfold Program.run
          cases ho : openView e ⟨[], false, false, false⟩ with
          | none => rfl
          | some q => exact out_browse prog _ _ _ q (open_mute ho rfl)
    · rintro ⟨h1, h2, h3⟩
      rw [h1]
      dsimp only
      rw [if_neg (by simp [h2]), if_neg (by rcases h3 with h | h <;> simp [h])]
      obtain ⟨good, rest, g1, g2, g3, g4⟩ := out_stdout (e := e) (s := s) prog (getInputs s) 0 [] ⟨[], false, false, false⟩ rfl
      exact ⟨good, rest, g1, g2, by simpa using g3, g4⟩

/-- A file is printed, then a broken one is met. -/
example : Texts.standardOutput b!"p" (terminal false) [b!"-W", b!"--compress", b!"a", b!"b"] = b!"[1]" := by decide +kernel

/-! ## C124 -/

theorem warn_no_exit (warns : List (Bytes × Exn)) (p : Proc) (n : Nat) : (warn warns p).2 ≠ .main (.exit n) := fun h => showWarnings_not_exit warns {} n (Fin.main.inj h)

theorem stdout_no_exit (n : Nat) : ∀ (xs : List (Bytes × Source)) (i : Nat) (warns : List (Bytes × Exn)) (p : Proc), (Program.runStdout e s i xs warns p).2 ≠ .main (.exit n)
  | [], i, warns, p => by rw [Program.runStdout]; exact warn_no_exit _ _ _
  | x :: xs, i, warns, p => by
    rw [Program.runStdout]
    cases hr : reading e i p with
    | none => exact fun h => by cases h
    | some q =>
      dsimp only
      rcases readOne_cases e s x with ⟨v, ws, h1, h2⟩ | ⟨h1, r, h2⟩ | ⟨h1, en, -, h3, rs, h2⟩
      · rw [h2]; exact stdout_no_exit n xs (i + 1) _ _
      · rw [h2]; exact warn_no_exit _ _ _
      · rw [h2]; exact fun h => h3 n (Fin.main.inj h)

theorem browse_no_exit (n : Nat) : ∀ (xs : List (Bytes × Source)) (i : Nat) (warns : List (Bytes × Exn)) (p : Proc), (Program.browse e s i xs warns p).2 ≠ .main (.exit n)
  | [], i, warns, p => by rw [Program.browse]; exact warn_no_exit _ _ _
  | x :: xs, i, warns, p => by
    rw [Program.browse]
    cases hr : reading e i p with
    | none => exact fun h => by cases h
    | some q =>
      dsimp only
      rcases readOne_cases e s x with ⟨v, ws, h1, h2⟩ | ⟨h1, r, h2⟩ | ⟨h1, en, -, h3, rs, h2⟩
      · rw [h2]
        dsimp only
        cases runView e [(x.1, v)] (q.does []) with
        | mk p' en =>
          cases en with
          | left => exact browse_no_exit n xs (i + 1) _ _
          | crash => exact fun h => by cases h
          | waits => exact fun h => by cases h
      · rw [h2]; exact warn_no_exit _ _ _
      · rw [h2]; exact fun h => h3 n (Fin.main.inj h)

theorem compare_no_exit (docs : List (Bytes × Json)) (warns : List (Bytes × Exn)) (p : Proc) (n : Nat) : (compareView e s docs warns p).2 ≠ .main (.exit n) := by
  unfold compareView
  cases openView e p with
  | none => exact fun h => by cases h
  | some q =>
    dsimp only
    match docs with
    | [a, b] =>
      dsimp only
      cases Diff.diff (e.world.fmt s) a.2 b.2 with
      | none => exact fun h => by cases h
      | some _ =>
        dsimp only
        cases runView e [a, b] q with
        | mk p' en =>
          cases en with
          | left => exact warn_no_exit _ _ _
          | crash => exact fun h => by cases h
          | waits => exact fun h => by cases h
    | [] => exact fun h => by cases h
    | [_] => exact fun h => by cases h
    | [_, _, _] => exact fun h => by cases h
    | _ :: _ :: _ :: _ :: _ => exact fun h => by cases h

theorem diff_no_exit (n : Nat) : ∀ (xs : List (Bytes × Source)) (i : Nat) (docs : List (Bytes × Json)) (warns : List (Bytes × Exn)) (p : Proc),
    (Program.runDiff e s i xs docs warns p).2 ≠ .main (.exit n)
  | [], i, docs, warns, p => by rw [Program.runDiff]; exact compare_no_exit _ _ _ _
  | x :: xs, i, docs, warns, p => by
    rw [Program.runDiff]
    cases hr : reading e i p with
    | none => exact fun h => by cases h
    | some q =>
      dsimp only
      rcases readOne_cases e s x with ⟨v, ws, h1, h2⟩ | ⟨h1, r, h2⟩ | ⟨h1, en, -, h3, rs, h2⟩
      · rw [h2]; exact diff_no_exit n xs (i + 1) _ _ _
      · rw [h2]; exact fun h => by cases h
      · rw [h2]; exact fun h => h3 n (Fin.main.inj h)

theorem choose_no_exit (e : Surround) (s : Settings) (p : Proc) (n : Nat) : (Program.choose e s p).2 ≠ .main (.exit n) := by
  unfold Program.choose
  cases s.diffCmd with
  | some cmd =>
    dsimp only
    unfold Program.runExternalDiff
    have h := prepare_not_exit e s cmd (getInputs s) 0 [] [] p n
    cases hc : Program.prepare e s cmd 0 (getInputs s) [] [] p with
    | mk r files =>
      obtain ⟨q, en⟩ := r
      rw [hc] at h
      cases en with
      | main z => cases z <;> first | exact h | exact fun h => by cases h
      | _ => exact h
  | none =>
    dsimp only
    split
    · exact diff_no_exit n _ _ _ _ _
    · split
      · unfold Program.run
        cases openView e p with
        | none => exact fun h => by cases h
        | some q => exact browse_no_exit n _ _ _ _
      · exact stdout_no_exit n _ _ _ _

/-- **C124.** If the program ends with status 0 and has written nothing on standard error, then either the help or the version was asked for and is all that was done; or every input
holds a document about which there is nothing to warn, and these documents - all of them, in the order of the inputs - were printed and nothing else; or were shown, one after the other;
or were compared side by side; or were written to the temporary files of the external command, which was started (unless `fork` failed) and whose files were removed. -/
theorem C124_silence (lib : Texts.Lib) (prog : Bytes) (e : Surround) (args : List Bytes) (h0 : (program e args).2 = .main (.exit 0)) (hs : Texts.standardError lib prog e args = []) :
    (Params.read (fun f => (e.world.files f).isSome) args = .stop .usage ∧ (program e args).1.tape = [.usage]) ∨
    (Params.read (fun f => (e.world.files f).isSome) args = .stop .version ∧ (program e args).1.tape = [.version]) ∨
    ∃ (s : Settings) (docs : List Read), Asks e args s ∧ Flawless e.world s (getInputs s) docs ∧
      (Redirected e.world s → (program e args).1.tape = docs.map fun d => .output (Output.display (e.world.fmt s) s.compressMode d.2)) ∧
      (Browsing e.world s → (program e args).1.tape = [.enter] ++ (docs.map fun d => .view [(d.1.1, d.2)]) ++ [.leave]) ∧
      (Comparing s → (program e args).1.tape = [.enter, .view (docs.map fun d => (d.1.1, d.2)), .leave]) ∧
      (∀ cmd, s.diffCmd = some cmd → ∃ t, started e t ∧ (program e args).1.tape =
        (docs.map fun d => .wrote (DiffCmd.tempName d.1.1) (Output.display (e.world.fmt s) s.compressMode d.2)) ++ t ++ docs.map fun d => .removed (DiffCmd.tempName d.1.1)) := by
  unfold Texts.standardError at hs
  obtain ⟨hs1, hs2⟩ := List.append_eq_nil_iff.mp hs
  rw [silent_iff] at hs2
  cases hp : Params.read (fun f => (e.world.files f).isSome) args with
  | throw x =>
    unfold program at h0
    rw [hp] at h0
    cases h0
  | stop r =>
    rw [hp] at hs1
    cases r with
    | usage => exact .inl ⟨rfl, by unfold program; rw [hp]; rfl⟩
    | version => exact .inr (.inl ⟨rfl, by unfold program; rw [hp]; rfl⟩)
    | tooMany => simp [Texts.complaint] at hs1
    | notEnough => simp [Texts.complaint] at hs1
  | go s =>
    refine .inr (.inr ⟨s, ?_⟩)
    have ha : Asks e args s := hp
    rw [program_tape ha] at hs2 ⊢
    have hret : (Program.choose e s ⟨[], false, false, false⟩).2 = .main .returned := by
      rw [program_go ha] at h0
      dsimp only at h0
      by_cases hh : (Program.choose e s ⟨[], false, false, false⟩).2 = .main .returned
      · exact hh
      · rw [if_neg hh] at h0
        exact absurd h0 (choose_no_exit e s _ 0)
    unfold Program.choose at hret hs2 ⊢
    cases hd : s.diffCmd with
    | some cmd =>
      rw [hd] at hret hs2
      dsimp only at hret hs2 ⊢
      obtain ⟨docs, t, h1, h2, h3⟩ := silent_external cmd _ hret hs2
      refine ⟨docs, hp, h1, fun h => ?_, fun h => ?_, fun h => ?_, fun c _ => ⟨t, h2, ?_⟩⟩
      · rw [h.1] at hd; cases hd
      · rw [h.1] at hd; cases hd
      · rw [h.1] at hd; cases hd
      · rw [h3]; rfl
    | none =>
      rw [hd] at hret hs2
      dsimp only at hret hs2 ⊢
      by_cases hm : s.diffMode = true
      · rw [if_pos hm] at hret hs2 ⊢
        obtain ⟨-, docs, h1, h2⟩ := silent_diff _ _ _ _ _ hret hs2
        refine ⟨docs, hp, h1, fun h => ?_, fun h => ?_, fun h => ?_, fun c hc => by cases hc⟩
        · rw [h.2.1] at hm; cases hm
        · rw [h.2.1] at hm; cases hm
        · rw [h2]; rfl
      · rw [if_neg hm] at hret hs2 ⊢
        by_cases hb : (!s.compressMode && e.world.tty) = true
        · rw [if_pos hb] at hret hs2 ⊢
          unfold Program.run at hret hs2 ⊢
          cases ho : openView e ⟨[], false, false, false⟩ with
          | none => rw [ho] at hret; cases hret
          | some q =>
            have hq : q.tape = [.enter] := by
              unfold openView at ho
              split at ho
              · rw [← Option.some.inj ho]; rfl
              · cases ho
            rw [ho] at hret hs2
            dsimp only at hret hs2 ⊢
            obtain ⟨-, docs, h1, h2⟩ := silent_browse _ _ _ _ hret hs2
            refine ⟨docs, hp, h1, fun h => ?_, fun h => ?_, fun h => ?_, fun c hc => by cases hc⟩
            · rcases h.2.2 with h | h <;> simp [h] at hb
            · rw [h2, hq]
            · rw [h.2] at hm; exact absurd rfl hm
        · rw [if_neg hb] at hret hs2 ⊢
          obtain ⟨-, docs, h1, h2⟩ := silent_stdout _ _ _ _ hret hs2
          refine ⟨docs, hp, h1, fun h => ?_, fun h => ?_, fun h => ?_, fun c hc => by cases hc⟩
          · rw [h2]; rfl
          · rw [h.2.2.1, h.2.2.2] at hb; exact absurd rfl hb
          · rw [h.2] at hm; exact absurd rfl hm

theorem stdout_flawless (hn : ∀ i, e.signal i = false) : ∀ (docs : List Read), (∀ d ∈ docs, Holds e.world s d.1 d.2 []) → ∀ (i : Nat) (p : Proc),
    Program.runStdout e s i (docs.map (·.1)) [] p = (p.does (docs.map fun d => .output (printed e s d.2)), .main .returned)
  | [], _, i, p => by rw [List.map_nil, Program.runStdout, warn_nil]; simp [does_nil]
  | d :: docs, h, i, p => by
    rw [List.map_cons, Program.runStdout, reading_unsignalled (hn i), readOne_holds (h d (List.mem_cons_self ..))]
    dsimp only
    rw [List.map_nil, List.append_nil, stdout_flawless hn docs (fun d' hd => h d' (List.mem_cons_of_mem _ hd))]
    simp [Proc.does, printed]

theorem browse_flawless (hc : Calm e) : ∀ (docs : List Read), (∀ d ∈ docs, Holds e.world s d.1 d.2 []) → ∀ (i : Nat) (p : Proc),
    (Program.browse e s i (docs.map (·.1)) [] p).1.tape = p.tape ++ (docs.map fun d => .view [(d.1.1, d.2)]) ++ [.leave] ∧
      (Program.browse e s i (docs.map (·.1)) [] p).2 = .main .returned
  | [], _, i, p => by rw [List.map_nil, Program.browse, warn_nil]; simp [closeView, Proc.does]
  | d :: docs, h, i, p => by
    rw [List.map_cons, Program.browse, reading_unsignalled (hc.1 i), readOne_holds (h d (List.mem_cons_self ..))]
    dsimp only
    rw [does_nil, List.map_nil, List.append_nil]
    have hv : runView e [(d.1.1, d.2)] p = ((runView e [(d.1.1, d.2)] p).1, .left) := by
      unfold runView
      dsimp only
      rw [hc.2.2]
    rw [hv]
    dsimp only
    obtain ⟨h1, h2⟩ := browse_flawless hc docs (fun d' hd => h d' (List.mem_cons_of_mem _ hd)) (i + 1) (runView e [(d.1.1, d.2)] p).1
    refine ⟨?_, h2⟩
    rw [h1]
    simp [runView, Proc.does]

/-- **C124, conversely**: if every input holds a document about which there is nothing to warn, the program ends with status 0 and is silent, provided no signal arrives and, if the
documents are shown, there is a terminal and the user leaves each view. -/
theorem C124_silence_converse (lib : Texts.Lib) (prog : Bytes) (e : Surround) (args : List Bytes) (s : Settings) (docs : List Read) (h : Asks e args s)
    (hd : Flawless e.world s (getInputs s) docs) (hm : (Redirected e.world s ∧ ∀ i, e.signal i = false) ∨ (Browsing e.world s ∧ Calm e)) :
    (program e args).2 = .main (.exit 0) ∧ Texts.standardError lib prog e args = [] := by
  have key : ∀ t, Silent t → (Program.choose e s ⟨[], false, false, false⟩).1.tape = t → (Program.choose e s ⟨[], false, false, false⟩).2 = .main .returned →
      (program e args).2 = .main (.exit 0) ∧ Texts.standardError lib prog e args = [] := by
    intro t h1 h2 h3
    constructor
    · rw [program_go h, h3]; rfl
    · unfold Texts.standardError
      rw [program_tape h, show Params.read (fun f => (e.world.files f).isSome) args = .go s from h, (silent_iff lib prog _).mpr (by rw [h2]; exact h1)]
      rfl
  rcases hm with ⟨⟨h1, h2, h3⟩, hn⟩ | ⟨hb, hc⟩
  · have hch : Program.choose e s ⟨[], false, false, false⟩ = Program.runStdout e s 0 (getInputs s) [] ⟨[], false, false, false⟩ := by
      unfold Program.choose
      rw [h1]
      dsimp only
      rw [if_neg (by simp [h2]), if_neg (by rcases h3 with h | h <;> simp [h])]
    rw [← hd.1, stdout_flawless hn docs hd.2] at hch
    refine key _ ?_ (by rw [hch]) (by rw [hch])
    intro r hr
    obtain ⟨x, -, hx⟩ := List.mem_map.mp hr
    cases hx
  · have hch := choose_browse hb ⟨[], false, false, false⟩
    unfold Program.run at hch
    rw [openView_calm hc, ← hd.1] at hch
    dsimp only at hch
    obtain ⟨h1, h2⟩ := browse_flawless hc docs hd.2 0 { (Proc.does ⟨[], false, false, false⟩ [.enter]) with handled := true, running := true }
    refine key _ ?_ (by rw [hch, h1]) (by rw [hch, h2])
    intro r hr
    simp only [Proc.does, List.nil_append, List.cons_append, List.mem_cons, List.mem_append, List.mem_map, List.not_mem_nil, or_false] at hr
    rcases hr with hr | ⟨x, -, hx⟩ | hr
    · cases hr
    · cases hx
    · cases hr

/-- A silent run that prints a document and one that shows it; a run with status 0 that is not silent. -/
example (lib : Texts.Lib) : (program (terminal false) [b!"a"]).2 = .main (.exit 0) ∧ Texts.standardError lib b!"p" (terminal false) [b!"a"] = [] ∧
    (program (terminal true) [b!"a"]).2 = .main (.exit 0) ∧ Texts.standardError lib b!"p" (terminal true) [b!"a"] = [] := by
  simp only [Texts.standardError, List.append_eq_nil_iff, silent_iff]
  refine ⟨by decide +kernel, ⟨rfl, ?_⟩, by decide +kernel, rfl, ?_⟩
  all_goals
    intro r hr
    revert hr
    exact fun hr => by
      have : ∀ h ∈ (program (terminal false) [b!"a"]).1.tape ++ (program (terminal true) [b!"a"]).1.tape, (match h with | .report _ => true | _ => false) = false := by decide +kernel
      have := this (.report r) (List.mem_append.mpr (by first | exact .inl hr | exact .inr hr))
      cases this

end Verif.Props
