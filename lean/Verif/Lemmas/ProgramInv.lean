import Verif.Lemmas.Program
/-!
# When the terminal is taken, and what is reported then
-/
namespace Verif.Lemmas.Program
open Verif.Model Verif.Model.Params Verif.Model.Main Verif.Model.Program Verif.Spec.Process

theorem taken_snoc (t : List Happening) (h : Happening) :
    taken (t ++ [h]) = match h with | .enter => true | .leave => false | _ => taken t := by
  cases h <;> simp [taken]

theorem at_snoc (t : List Happening) (h x : Happening) (b : Bool) : At (t ++ [h]) x b ↔ At t x b ∨ (x = h ∧ taken t = b) := by
  constructor
  · rintro ⟨before, after, he, hb⟩
    rcases List.eq_nil_or_concat after with rfl | ⟨after', y, rfl⟩
    · obtain ⟨h1, h2⟩ := List.append_inj' he rfl
      subst h1
      exact .inr ⟨(List.cons.inj h2).1.symm, hb⟩
    · refine .inl ⟨before, after', ?_, hb⟩
      have : t ++ [h] = (before ++ x :: after') ++ [y] := by rw [he]; simp
      exact (List.append_inj' this rfl).1
  · rintro (⟨before, after, rfl, hb⟩ | ⟨rfl, hb⟩)
    · exact ⟨before, after ++ [h], by simp, hb⟩
    · exact ⟨t, [], rfl, hb⟩

/-- What is kept: the terminal is taken and given back in turn, and reports made while it is taken are about inputs that could not be read, when one document after the
other is shown (`b`). -/
structure Inv (b : Bool) (t : List Happening) : Prop where
  orderly : Orderly t
  told : ∀ r, At t (.report r) true → b = true ∧ Failure r

theorem inv_nil (b : Bool) : Inv b [] := by
  have h : ∀ x c, ¬ At [] x c := by
    rintro x c ⟨before, after, he, _⟩
    cases before <;> cases he
  exact ⟨⟨h _ _, h _ _, fun _ => h _ _⟩, fun _ hr => (h _ _ hr).elim⟩

theorem inv_snoc {b : Bool} {t : List Happening} (hi : Inv b t) (h : Happening) (h1 : h = .enter → taken t = false) (h2 : h = .leave → taken t = true)
    (h3 : ∀ docs, h = .view docs → taken t = true) (h4 : ∀ r, h = .report r → taken t = true → b = true ∧ Failure r) : Inv b (t ++ [h]) := by
  refine ⟨⟨?_, ?_, ?_⟩, ?_⟩
  · rw [at_snoc]
    rintro (hx | ⟨rfl, hx⟩)
    · exact hi.orderly.1 hx
    · rw [h1 rfl] at hx; cases hx
  · rw [at_snoc]
    rintro (hx | ⟨rfl, hx⟩)
    · exact hi.orderly.2.1 hx
    · rw [h2 rfl] at hx; cases hx
  · intro docs
    rw [at_snoc]
    rintro (hx | ⟨rfl, hx⟩)
    · exact hi.orderly.2.2 docs hx
    · rw [h3 docs rfl] at hx; cases hx
  · intro r
    rw [at_snoc]
    rintro (hx | ⟨rfl, hx⟩)
    · exact hi.told r hx
    · exact h4 r rfl hx

theorem inv_reports {b : Bool} : ∀ (rs : List Report) {t : List Happening}, Inv b t → (taken t = true → b = true ∧ ∀ r ∈ rs, Failure r) →
    Inv b (t ++ rs.map .report) ∧ taken (t ++ rs.map .report) = taken t
  | [], t, hi, _ => by simpa using hi
  | r :: rs, t, hi, hr => by
    have h1 : Inv b (t ++ [.report r]) := inv_snoc hi _ (by simp) (by simp) (by simp) (by
      rintro r' h ht
      cases h
      exact ⟨(hr ht).1, (hr ht).2 _ (List.mem_cons_self ..)⟩)
    have h2 : taken (t ++ [.report r]) = taken t := by rw [taken_snoc]
    have := inv_reports rs h1 (by rw [h2]; exact fun ht => ⟨(hr ht).1, fun r' hr' => (hr ht).2 r' (List.mem_cons_of_mem _ hr')⟩)
    rw [h2] at this
    simpa using this

variable {e : Surround} {s : Settings}

/-- What `readOneFile` reports are inputs that could not be read. -/
theorem readOne_reports (x : Bytes × Source) {h : List Happening} {g : Got} (hr : readOne e s x = (h, g)) :
    ∃ rs : List Report, h = rs.map .report ∧ ∀ r ∈ rs, Failure r := by
  unfold readOne at hr
  obtain ⟨rfl, -⟩ := Prod.mk.inj hr
  refine ⟨_, rfl, ?_⟩
  unfold readOneFile
  split <;> try simp [Failure]
  split <;> simp [Failure]

/-- A process that has ended in one of these ways has not crashed. -/
def Regular : Fin → Prop
  | .main .returned => True
  | .main (.exit _) => True
  | .killed => True
  | _ => False

/-- How the functions end: the terminal is free unless the program has crashed or waits. -/
def Ends (b : Bool) (r : Proc × Fin) : Prop := Inv b r.1.tape ∧ (Regular r.2 → taken r.1.tape = false)

theorem warn_ends {b : Bool} (warns : List (Bytes × Exn)) (p : Proc) (hi : Inv b p.tape) (ht : taken p.tape = false) : Ends b (warn warns p) := by
  obtain ⟨h1, h2⟩ := inv_reports (showWarnings warns {}).1.err hi (by rw [ht]; intro h; cases h)
  exact ⟨h1, fun _ => h2.trans ht⟩

theorem reading_tape {i : Nat} {p q : Proc} (h : reading e i p = some q) : q.tape = p.tape ∧ q.handled = p.handled ∧ q.running = p.running := by
  unfold reading at h
  split at h
  · split at h
    · have := Option.some.inj h
      subst this
      split <;> exact ⟨rfl, rfl, rfl⟩
    · cases h
  · have := Option.some.inj h
    subst this
    exact ⟨rfl, rfl, rfl⟩

theorem reading_handled {i : Nat} {p : Proc} (h : reading e i p = none) : p.handled = false := by
  unfold reading at h
  split at h
  · split at h
    · cases h
    · simpa using ‹¬ p.handled = true›
  · cases h

theorem close_ends {p : Proc} {b : Bool} (hi : Inv b p.tape) (ht : taken p.tape = true) : Inv b (closeView p).tape ∧ taken (closeView p).tape = false :=
  ⟨inv_snoc hi _ (by simp) (fun _ => ht) (by simp) (by simp), by rw [show (closeView p).tape = p.tape ++ [.leave] from rfl, taken_snoc]⟩

theorem does_reports {b : Bool} {p : Proc} (hi : Inv b p.tape) {h : List Happening} (hr : ∃ rs : List Report, h = rs.map .report ∧ ∀ r ∈ rs, Failure r)
    (hb : b = true ∨ taken p.tape = false) : Inv b (p.does h).tape ∧ taken (p.does h).tape = taken p.tape := by
  obtain ⟨rs, rfl, hf⟩ := hr
  refine inv_reports rs hi fun ht => ?_
  rcases hb with hb | hb
  · exact ⟨hb, hf⟩
  · rw [hb] at ht; cases ht

theorem browse_ends (hcr : ∀ x f, ∀ en, (readOneFile e.world s x f).2 = .crash en → ¬ Regular (.main en)) :
    ∀ (xs : List (Bytes × Source)) (i : Nat) (warns : List (Bytes × Exn)) (p : Proc), Inv true p.tape → taken p.tape = true → p.handled = true →
    Ends true (browse e s i xs warns p)
  | [], i, warns, p, hi, ht, _ => by
    obtain ⟨h1, h2⟩ := close_ends hi ht
    exact warn_ends warns _ h1 h2
  | x :: xs, i, warns, p, hi, ht, hh => by
    rw [browse]
    cases hq : reading e i p with
    | none => rw [reading_handled hq] at hh; cases hh
    | some q =>
      obtain ⟨q1, q2, _⟩ := reading_tape hq
      rw [← q1] at hi ht
      cases hr : readOne e s x with
      | mk h g =>
      obtain ⟨h1, h2⟩ := does_reports hi (readOne_reports x hr) (.inl rfl)
      rw [ht] at h2
      cases g with
      | none =>
        obtain ⟨h3, h4⟩ := close_ends h1 h2
        exact warn_ends warns _ h3 h4
      | crash r =>
        refine ⟨h1, fun hreg => ?_⟩
        refine (hcr x {} r ?_ hreg).elim
        unfold readOne at hr
        exact (Prod.mk.inj hr).2
      | doc v new =>
        dsimp only [runView]
        have h3 : Inv true ((q.does h).tape ++ [.view [(x.1, v)]]) := inv_snoc h1 _ (by simp) (by simp) (fun _ _ => h2) (by simp)
        have h4 : taken ((q.does h).tape ++ [.view [(x.1, v)]]) = true := by rw [taken_snoc]; exact h2
        cases e.session (shown (q.does h).tape) false [(x.1, v)] with
        | left => exact browse_ends hcr xs (i + 1) _ _ h3 h4 (q2.trans hh)
        | crash => exact ⟨h3, fun hreg => hreg.elim⟩
        | waits => exact ⟨h3, fun hreg => hreg.elim⟩

theorem open_ends {b : Bool} {p q : Proc} (hi : Inv b p.tape) (ht : taken p.tape = false) (h : openView e p = some q) :
    Inv b q.tape ∧ taken q.tape = true ∧ q.handled = true := by
  unfold openView at h
  split at h
  · have := Option.some.inj h
    subst this
    exact ⟨inv_snoc hi _ (fun _ => ht) (by simp) (by simp) (by simp), by show taken (p.tape ++ [.enter]) = true; rw [taken_snoc], rfl⟩
  · cases h

theorem compareView_ends {b : Bool} (docs : List (Bytes × Json)) (warns : List (Bytes × Exn)) (p : Proc) (hi : Inv b p.tape) (ht : taken p.tape = false) :
    Ends b (compareView e s docs warns p) := by
  unfold compareView
  cases ho : openView e p with
  | none => exact ⟨hi, fun h => h.elim⟩
  | some q =>
    obtain ⟨h1, h2, _⟩ := open_ends hi ht ho
    have bad : ∀ en : Main.Ending, en = .ub ∨ en = .uncaught → Ends b (q, .main en) := by
      rintro en (rfl | rfl) <;> exact ⟨h1, fun h => h.elim⟩
    match docs with
    | [] => exact bad _ (.inl rfl)
    | [_] => exact bad _ (.inl rfl)
    | [_, _, _] => exact bad _ (.inr rfl)
    | _ :: _ :: _ :: _ :: _ => exact bad _ (.inl rfl)
    | [x, y] =>
      dsimp only
      cases Diff.diff (e.world.fmt s) x.2 y.2 with
      | none => exact bad _ (.inl rfl)
      | some _ =>
        dsimp only [runView]
        have h3 : Inv b (q.tape ++ [.view [x, y]]) := inv_snoc h1 _ (by simp) (by simp) (fun _ _ => h2) (by simp)
        have h4 : taken (q.tape ++ [.view [x, y]]) = true := by rw [taken_snoc]; exact h2
        cases e.session (shown q.tape) false [x, y] with
        | left =>
          obtain ⟨h5, h6⟩ := close_ends (p := { q.does [.view [x, y]] with breakLoop := false }) h3 h4
          exact warn_ends warns _ h5 h6
        | crash => exact ⟨h3, fun hreg => hreg.elim⟩
        | waits => exact ⟨h3, fun hreg => hreg.elim⟩

theorem runDiff_ends {b : Bool} : ∀ (xs : List (Bytes × Source)) (i : Nat) (docs : List (Bytes × Json)) (warns : List (Bytes × Exn)) (p : Proc),
    Inv b p.tape → taken p.tape = false → Ends b (Program.runDiff e s i xs docs warns p)
  | [], i, docs, warns, p, hi, ht => compareView_ends docs warns p hi ht
  | x :: xs, i, docs, warns, p, hi, ht => by
    rw [Program.runDiff]
    cases hq : reading e i p with
    | none => exact ⟨hi, fun _ => ht⟩
    | some q =>
      obtain ⟨q1, q2, _⟩ := reading_tape hq
      rw [← q1] at hi ht
      cases hr : readOne e s x with
      | mk h g =>
      obtain ⟨h1, h2⟩ := does_reports hi (readOne_reports x hr) (.inr ht)
      rw [ht] at h2
      cases g with
      | none => exact ⟨h1, fun _ => h2⟩
      | crash r => exact ⟨h1, fun _ => h2⟩
      | doc v new => exact runDiff_ends xs (i + 1) _ _ _ h1 h2

/-- The happenings that have nothing to do with the terminal. -/
def Plain : Happening → Prop
  | .enter => False
  | .leave => False
  | .view _ => False
  | .report _ => False
  | _ => True

theorem does_plain {b : Bool} {p : Proc} (hi : Inv b p.tape) (ht : taken p.tape = false) : ∀ (hs : List Happening), (∀ h ∈ hs, Plain h) →
    Inv b (p.does hs).tape ∧ taken (p.does hs).tape = false := by
  intro hs
  show (∀ h ∈ hs, Plain h) → Inv b (p.tape ++ hs) ∧ taken (p.tape ++ hs) = false
  generalize p.tape = t at hi ht
  induction hs generalizing t with
  | nil => intro _; rw [List.append_nil]; exact ⟨hi, ht⟩
  | cons h hs ih =>
    intro hp
    rw [List.append_cons]
    have h0 := hp h (List.mem_cons_self ..)
    refine ih _ (inv_snoc hi h ?_ ?_ ?_ ?_) ?_ fun x hx => hp x (List.mem_cons_of_mem _ hx)
    · rintro rfl; exact h0.elim
    · rintro rfl; exact h0.elim
    · rintro d rfl; exact h0.elim
    · rintro d rfl; exact h0.elim
    · rw [taken_snoc]
      cases h <;> first | exact h0.elim | exact ht

theorem runStdout_ends {b : Bool} : ∀ (xs : List (Bytes × Source)) (i : Nat) (warns : List (Bytes × Exn)) (p : Proc),
    Inv b p.tape → taken p.tape = false → Ends b (Program.runStdout e s i xs warns p)
  | [], i, warns, p, hi, ht => warn_ends warns p hi ht
  | x :: xs, i, warns, p, hi, ht => by
    rw [Program.runStdout]
    cases hq : reading e i p with
    | none => exact ⟨hi, fun _ => ht⟩
    | some q =>
      obtain ⟨q1, q2, _⟩ := reading_tape hq
      rw [← q1] at hi ht
      cases hr : readOne e s x with
      | mk h g =>
      obtain ⟨h1, h2⟩ := does_reports hi (readOne_reports x hr) (.inr ht)
      rw [ht] at h2
      cases g with
      | none => exact warn_ends warns _ h1 h2
      | crash r => exact ⟨h1, fun _ => h2⟩
      | doc v new =>
        obtain ⟨h3, h4⟩ := does_plain h1 h2 [.output (Output.display (e.world.fmt s) s.compressMode v)] (by simp [Plain])
        exact runStdout_ends xs (i + 1) _ _ h3 h4

theorem prepare_ends {b : Bool} (cmd : List Bytes) : ∀ (xs : List (Bytes × Source)) (i : Nat) (files : List Bytes) (warns : List (Bytes × Exn)) (p : Proc),
    Inv b p.tape → taken p.tape = false → Inv b (prepare e s cmd i xs files warns p).1.1.tape ∧ taken (prepare e s cmd i xs files warns p).1.1.tape = false
  | [], i, files, warns, p, hi, ht => by
    rw [prepare]
    obtain ⟨h1, h2⟩ := inv_reports (showWarnings warns {}).1.err hi (by rw [ht]; intro h; cases h)
    rw [ht] at h2
    have hw : warn warns p = (p.does ((showWarnings warns {}).1.err.map .report), .main (showWarnings warns {}).2) := rfl
    rw [hw]
    cases (showWarnings warns {}).2 with
    | returned =>
      dsimp only
      unfold Program.runCommand
      cases DiffCmd.computeArgv (List.foldl DiffCmd.add DiffCmd.new cmd) files with
      | none => exact ⟨h1, h2⟩
      | some r =>
        obtain ⟨argv, _⟩ := r
        dsimp only
        have h3 := does_plain (p := p.does ((showWarnings warns {}).1.err.map .report)) h1 h2 [.ran argv] (by simp [Plain])
        cases e.world.child argv <;> first | exact h3 | exact ⟨h1, h2⟩
    | _ => exact ⟨h1, h2⟩
  | x :: xs, i, files, warns, p, hi, ht => by
    rw [prepare]
    cases hq : reading e i p with
    | none => exact ⟨hi, ht⟩
    | some q =>
      obtain ⟨q1, q2, _⟩ := reading_tape hq
      rw [← q1] at hi ht
      cases hr : readOne e s x with
      | mk h g =>
      obtain ⟨h1, h2⟩ := does_reports hi (readOne_reports x hr) (.inr ht)
      rw [ht] at h2
      cases g with
      | none => exact ⟨h1, h2⟩
      | crash r => exact ⟨h1, h2⟩
      | doc v new =>
        dsimp only
        split
        · obtain ⟨h3, h4⟩ := does_plain h1 h2 [.wrote (DiffCmd.tempName x.1) (Output.display (e.world.fmt s) s.compressMode v)] (by simp [Plain])
          exact prepare_ends cmd xs (i + 1) _ _ _ h3 h4
        · exact ⟨h1, h2⟩

theorem runExternalDiff_ends {b : Bool} (cmd : List Bytes) (p : Proc) (hi : Inv b p.tape) (ht : taken p.tape = false) :
    Ends b (Program.runExternalDiff e s cmd p) := by
  obtain ⟨h1, h2⟩ := prepare_ends (e := e) (s := s) cmd (getInputs s) 0 [] [] p hi ht
  unfold Program.runExternalDiff
  cases hp : prepare e s cmd 0 (getInputs s) [] [] p with
  | mk r files =>
  obtain ⟨q, fin⟩ := r
  rw [hp] at h1 h2
  split
  next q' files' heq =>
    injection heq with ha hb
    injection ha with ha _
    subst ha hb
    obtain ⟨h3, h4⟩ := does_plain h1 h2 (files.map .removed) (by simp [Plain])
    exact ⟨h3, fun _ => h4⟩
  next r' files' hne heq =>
    injection heq with ha hb
    subst ha
    exact ⟨h1, fun _ => h2⟩

/-- The happenings of a run, and how it ends. `b`: one document after the other is shown. -/
theorem choose_ends (hcr : ∀ x f, ∀ en, (readOneFile e.world s x f).2 = .crash en → ¬ Regular (.main en)) (p : Proc)
    (hi : ∀ b, Inv b p.tape) (ht : taken p.tape = false) :
    Ends (s.diffCmd.isNone && !s.diffMode && !s.compressMode && e.world.tty) (Program.choose e s p) := by
  unfold Program.choose
  cases s.diffCmd with
  | some cmd => exact runExternalDiff_ends cmd p (hi _) ht
  | none =>
    dsimp only
    by_cases h1 : s.diffMode = true
    · rw [if_pos h1]
      exact runDiff_ends _ _ _ _ _ (hi _) ht
    · rw [if_neg h1]
      by_cases h2 : (!s.compressMode && e.world.tty) = true
      · rw [if_pos h2]
        have hb : (Option.isNone (none : Option (List Bytes)) && !s.diffMode && !s.compressMode && e.world.tty) = true := by
          simp only [Bool.and_eq_true] at h2
          simp [h1, h2.1, h2.2]
        rw [hb, Program.run]
        cases ho : openView e p with
        | none => exact ⟨hi true, fun h => h.elim⟩
        | some q =>
          obtain ⟨h3, h4, h5⟩ := open_ends (hi true) ht ho
          exact browse_ends hcr _ _ _ q h3 h4 h5
      · rw [if_neg h2]
        exact runStdout_ends _ _ _ _ (hi _) ht

end Verif.Lemmas.Program
