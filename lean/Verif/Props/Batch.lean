import Verif.Spec.Batch
import Verif.Props.Accepted
import Verif.Props.Refused
import Verif.Props.History
import Verif.Props.Layout
import Verif.Props.Silence
/-! # C128: the program as a filter, exactly -/
namespace Verif.Props
open Verif.Model Verif.Model.Params Verif.Model.Main Verif.Model.Program Verif.Spec Verif.Spec.Process Verif.Lemmas Verif.Lemmas.Program

/-- The line breaks of the text do not make the history empty. -/
def Quietly (t : Bytes) : Prop := QuietBreaks t ∧ WholeWindows t

theorem display_print (fmt : Bytes → Bytes) (compress : Bool) (v : Json) : Output.display fmt compress v = Batch.print fmt compress v := by
  unfold Batch.print
  cases compress with
  | true => rw [display_rend]; simp [rend, Output.getIndent, Output.endl]
  | false => simpa using (C23_exactly_partial fmt v).1

theorem display_sayable (e : Exn) : if Batch.unsayable e.kind then displayException e = .ub else
    (e.hist.toString ≠ [] → ∃ line col what context tildes, displayException e = .shown line col what context tildes) ∧ (e.hist.toString = [] → displayException e = .lengthError) := by
  unfold displayException
  have key : ∀ what, (e.hist.toString ≠ [] → ∃ line col w context tildes,
      (if e.hist.toString.length = 0 then Display.lengthError else .shown e.hist.currentLine e.hist.totalSize what e.hist.toString (e.hist.toString.length - 1)) = .shown line col w context tildes) ∧
      (e.hist.toString = [] → (if e.hist.toString.length = 0 then Display.lengthError else .shown e.hist.currentLine e.hist.totalSize what e.hist.toString (e.hist.toString.length - 1)) = .lengthError) := by
    intro what
    refine ⟨fun h => ?_, fun h => by rw [h]; rfl⟩
    rw [if_neg (by simpa using h)]
    exact ⟨_, _, _, _, _, rfl⟩
  cases hk : e.kind with
  | unexpected c =>
    by_cases hc : c ≤ 9
    · rw [show message (.unexpected c) = some _ from if_pos hc, show Batch.unsayable (.unexpected c) = false by simpa [Batch.unsayable] using hc, if_neg (by simp)]
      exact key _
    · rw [show message (.unexpected c) = none from if_neg hc, show Batch.unsayable (.unexpected c) = true by simpa [Batch.unsayable] using hc, if_pos rfl]
  | escaped c => simp [message, Batch.unsayable]
  | _ => simp only [message, Batch.unsayable, Bool.false_eq_true, if_false]; exact key _

/-- All these exceptions have a line to show. -/
def AllShow (ws : List (Bytes × Exn)) : Prop := ∀ w ∈ ws, w.2.hist.toString ≠ []

theorem showWarnings_ends : ∀ (ws : List (Bytes × Exn)) (f : Effects),
    (∃ rs, (showWarnings ws f).1 = { f with err := f.err ++ rs }) ∧
    ((showWarnings ws f).2 = (if (ws.map fun w => w.2.kind).any Batch.unsayable then .ub else .returned) ∨ ¬ AllShow ws ∧ (showWarnings ws f).2 = .uncaught)
  | [], f => ⟨⟨[], by simp [showWarnings]⟩, .inl rfl⟩
  | (name, e) :: ws, f => by
    have hd := display_sayable e
    unfold showWarnings
    cases hu : Batch.unsayable e.kind with
    | true =>
      rw [hu, if_pos rfl] at hd
      rw [hd]
      exact ⟨⟨[], by simp⟩, .inl (by simp [hu])⟩
    | false =>
      rw [hu, if_neg (by simp)] at hd
      by_cases hh : e.hist.toString = []
      · rw [hd.2 hh]
        exact ⟨⟨_, rfl⟩, .inr ⟨fun ha => ha (name, e) (by simp) hh, rfl⟩⟩
      · obtain ⟨a, b, c, d, g, h⟩ := hd.1 hh
        rw [h]
        dsimp only
        obtain ⟨⟨rs, h1⟩, h2⟩ := showWarnings_ends ws { f with err := f.err ++ [.warning name a b c d g] }
        refine ⟨⟨.warning name a b c d g :: rs, by rw [h1]; simp only [List.append_assoc, List.singleton_append]⟩, ?_⟩
        rcases h2 with h2 | ⟨h2, h3⟩
        · left; rw [h2, List.map_cons, List.any_cons, hu, Bool.false_or]
        · exact .inr ⟨fun ha => h2 fun w hw => ha w (by simp [hw]), h3⟩

theorem warn_ends (ws : List (Bytes × Exn)) (p : Proc) :
    Batch.deeds (warn ws p).1.tape = Batch.deeds p.tape ∧
    ((warn ws p).2 = .main (if (ws.map fun w => w.2.kind).any Batch.unsayable then .ub else .returned) ∨ ¬ AllShow ws ∧ (warn ws p).2 = .main .uncaught) := by
  obtain ⟨⟨rs, h1⟩, h2⟩ := showWarnings_ends ws {}
  unfold warn
  dsimp only
  refine ⟨?_, ?_⟩
  · rw [h1]
    simp [Proc.does, Batch.deeds, List.filter_append, List.filter_map, Function.comp_def]
  · rcases h2 with h2 | ⟨h2, h3⟩
    · left; rw [h2]
    · right; exact ⟨h2, by rw [h3]⟩

/-- What a text that is read quietly shows in its errors and warnings. -/
theorem quiet_shows {strict ascii sort : Bool} {surr : Nat → Option Bytes} {junk : List Byte} {n : Nat} (hj : junk.length = 45) {input : Bytes} (hq : Quietly input) :
    (∀ e, Model.read (envOf strict ascii sort surr) (St.init junk n input) = .throw e → e.hist.toString ≠ []) ∧
    (∀ r s', Model.read (envOf strict ascii sort surr) (St.init junk n input) = .ret r s' → ∀ m ∈ s'.warns, m.hist.toString ≠ []) := by
  have h := read_hist (recordsRel input hq.1 hq.2) (envOf strict ascii sort surr) junk n ⟨false, Records.init junk n hj⟩
  have hne : ∀ {jp : Bool} {hist : LHist} {t : Bytes}, Records jp hist t → lineText t ≠ [] → hist.toString ≠ [] := by
    intro jp hist t h1 h3
    rw [h1.text]
    intro h0
    have h4 := congrArg List.length h0
    have h5 : 0 < (lineText t).length := List.length_pos_iff.mpr h3
    simp only [lastN, List.length_drop, List.length_nil, keep] at h4
    split at h4 <;> omega
  constructor
  · intro e he
    rw [he] at h
    obtain ⟨t, ⟨jp, h1⟩, _, h3⟩ := h
    exact hne h1 h3
  · intro r s' hr m hm
    rw [hr] at h
    obtain ⟨t, ⟨jp, h1⟩, _, h3⟩ := h.warns m hm
    exact hne h1 h3

/-- The settings of the reader. -/
def modeOf (e : Surround) (s : Settings) : Accepted.Mode := ⟨s.strict, s.ignoreUnicode, s.sorted, e.world.surr⟩

/-- What becomes of one input. -/
def Becomes (e : Surround) (s : Settings) (x : Bytes × Source) : Prop :=
  (∃ (w t rest : Bytes) (v : Json) (st : St), textOf e.world s x.2 = w ++ t ++ rest ∧ Blank w ∧ Accepted.Value (modeOf e s) t rest v (st.warns.map Exn.kind) ∧ readOne e s x = ([], .doc v (st.warns.map (x.1, ·))) ∧
    (Quietly (textOf e.world s x.2) → ∀ m ∈ st.warns, m.hist.toString ≠ [])) ∨
  (Refused.Nothing (modeOf e s) (textOf e.world s x.2) ∧ readOne e s x = ([.report (.eof x.1)], .none)) ∨
  (∃ r, Refused.StopsValue (modeOf e s) (textOf e.world s x.2) r ∧
    ((∃ f, Batch.fatal (.mistake r) = some (.main f) ∧ f ≠ .returned ∧ readOne e s x = ([], .crash f)) ∨
     Batch.fatal (.mistake r) = none ∧ ((∃ rep, readOne e s x = ([.report rep], .none)) ∨ ¬ Quietly (textOf e.world s x.2) ∧ ∃ rep, readOne e s x = ([.report rep], .crash .uncaught))))

theorem outcome_all {e : Surround} (s : Settings) (hj : ∀ name, (e.world.junk name).1.length = 45) (x : Bytes × Source) : Becomes e s x := by
  unfold Becomes
  have h126 := C126_accepted_exactly s.strict s.ignoreUnicode s.sorted e.world.surr (e.world.junk x.1).1 (e.world.junk x.1).2 (textOf e.world s x.2)
  obtain ⟨h127, h127', -⟩ := C127_refused_exactly s.strict s.ignoreUnicode s.sorted e.world.surr (e.world.junk x.1).1 (e.world.junk x.1).2 (textOf e.world s x.2)
  have hq := quiet_shows (strict := s.strict) (ascii := s.ignoreUnicode) (sort := s.sorted) (surr := e.world.surr) (n := (e.world.junk x.1).2) (hj x.1) (input := textOf e.world s x.2)
  have hone : readOne e s x = (match Model.read (envOf s.strict s.ignoreUnicode s.sorted e.world.surr) (St.init (e.world.junk x.1).1 (e.world.junk x.1).2 (textOf e.world s x.2)) with
      | .ret (some v) st => ([], .doc v (st.warns.map (x.1, ·)))
      | .ret none _ => ([.report (.eof x.1)], .none)
      | .throw ex =>
        match displayException ex with
        | .shown line col what context tildes => ([.report (.error x.1 line col what context tildes)], .none)
        | .lengthError => ([.report (.cutError x.1 ex.hist.currentLine ex.hist.totalSize ((message ex.kind).getD []))], .crash .uncaught)
        | .ub => ([], .crash .ub)
      | .uncaught _ => ([], .crash .uncaught)
      | .ub _ => ([], .crash .ub)
      | .fuel => ([], .crash .hangs)) := by
    unfold readOne readOneFile readFile
    rw [contents_text]
    simp only [envOf]
    generalize hr : Model.read _ _ = r
    cases r with
    | ret a st => cases a <;> simp
    | throw ex => dsimp only; cases displayException ex <;> simp
    | _ => rfl
  cases hr : Model.read (envOf s.strict s.ignoreUnicode s.sorted e.world.surr) (St.init (e.world.junk x.1).1 (e.world.junk x.1).2 (textOf e.world s x.2)) with
  | ret a st =>
    rw [hr] at hone
    cases a with
    | some v =>
      obtain ⟨w, t, ht, hw, hv⟩ := (h126 v st.rest (st.warns.map Exn.kind)).mp ⟨st, hr, rfl, rfl⟩
      exact .inl ⟨w, t, st.rest, v, st, ht, hw, hv, hone, fun h => (hq h).2 _ _ hr⟩
    | none => exact .inr (.inl ⟨h127'.mp ⟨st, hr⟩, hone⟩)
  | throw ex =>
    rw [hr] at hone
    dsimp only at hone
    have hd := display_sayable ex
    refine .inr (.inr ⟨.error ex.kind, (h127 (.error ex.kind)).mp ⟨ex.hist, hr⟩, ?_⟩)
    cases hu : Batch.unsayable ex.kind with
    | true =>
      rw [hu, if_pos rfl] at hd
      rw [hd] at hone
      exact .inl ⟨.ub, by simp [Batch.fatal, hu], by simp, hone⟩
    | false =>
      rw [hu, if_neg (by simp)] at hd
      refine .inr ⟨by simp [Batch.fatal, hu], ?_⟩
      by_cases hh : ex.hist.toString = []
      · rw [hd.2 hh] at hone
        exact .inr ⟨fun hqx => (hq hqx).1 ex hr hh, _, hone⟩
      · obtain ⟨a, b, c, d, g, h⟩ := hd.1 hh
        rw [h] at hone
        exact .inl ⟨_, hone⟩
  | uncaught u =>
    rw [hr] at hone
    exact .inr (.inr ⟨.uncaught u, (h127 (.uncaught u)).mp hr, .inl ⟨.uncaught, rfl, by simp, hone⟩⟩)
  | ub u =>
    rw [hr] at hone
    exact .inr (.inr ⟨.undefined u, (h127 (.undefined u)).mp hr, .inl ⟨.ub, rfl, by simp, hone⟩⟩)
  | fuel => exact absurd hr (C01_read_terminates _ _ _ _).1

/-- The end of a function as the end of the program. -/
def ended (f : Fin) : Fin := if f = .main .returned then .main (.exit 0) else f

/-- The process `r` has done what the course says since `p`; or a report had no line to show, and it has done a beginning of it. -/
def Follows (p : Proc) (r : Proc × Fin) (course : List Happening × Fin) (awkward : Prop) : Prop :=
  Batch.deeds r.1.tape = Batch.deeds p.tape ++ course.1 ∧ ended r.2 = course.2 ∨
  awkward ∧ r.2 = .main .uncaught ∧ ∃ d, d <+: course.1 ∧ Batch.deeds r.1.tape = Batch.deeds p.tape ++ d

theorem Follows.weaken {p : Proc} {r : Proc × Fin} {c : List Happening × Fin} {a b : Prop} (h : Follows p r c a) (hab : a → b) : Follows p r c b :=
  h.imp id fun h => ⟨hab h.1, h.2⟩

theorem deeds_does (p : Proc) (h : List Happening) : Batch.deeds (p.does h).tape = Batch.deeds p.tape ++ Batch.deeds h := by simp [Proc.does, Batch.deeds]

/-- Something is done first. -/
theorem Follows.after {p : Proc} {h : List Happening} {r : Proc × Fin} {c : List Happening × Fin} {a : Prop} (hf : Follows (p.does h) r c a) : Follows p r (Batch.deeds h ++ c.1, c.2) a := by
  rcases hf with ⟨h1, h2⟩ | ⟨h1, h2, d, hd, h3⟩
  · exact .inl ⟨by rw [h1, deeds_does, List.append_assoc], h2⟩
  · exact .inr ⟨h1, h2, _, (List.prefix_append_right_inj _).mpr hd, by rw [h3, deeds_does, List.append_assoc]⟩

/-- Some warning, or the error of an input, has no line to show. -/
def Awkward (e : Surround) (s : Settings) (warns : List (Bytes × Exn)) (xs : List (Bytes × Source)) : Prop := ¬ AllShow warns ∨ ∃ x ∈ xs, ¬ Quietly (textOf e.world s x.2)

theorem Awkward.step {e : Surround} {s : Settings} {warns : List (Bytes × Exn)} {x : Bytes × Source} {xs : List (Bytes × Source)} {st : St}
    (hq : Quietly (textOf e.world s x.2) → ∀ m ∈ st.warns, m.hist.toString ≠ []) (h : Awkward e s (warns ++ st.warns.map (x.1, ·)) xs) : Awkward e s warns (x :: xs) := by
  rcases h with h | ⟨y, hy, h5⟩
  · by_cases ha : AllShow warns
    · right
      refine ⟨x, List.mem_cons_self, fun hqx => h fun w hw => ?_⟩
      rcases List.mem_append.mp hw with hw | hw
      · exact ha w hw
      · obtain ⟨m, hm, rfl⟩ := List.mem_map.mp hw
        exact hq hqx m hm
    · exact .inl ha
  · exact .inr ⟨y, List.mem_cons_of_mem _ hy, h5⟩

theorem warn_follows (warns : List (Bytes × Exn)) (p : Proc) : Follows p (warn warns p) ([], Batch.farewell (warns.map fun w => w.2.kind)) (¬ AllShow warns) := by
  obtain ⟨h1, h2⟩ := warn_ends warns p
  rcases h2 with h2 | ⟨h2, h3⟩
  · refine .inl ⟨by rw [h1, List.append_nil], ?_⟩
    rw [h2]
    unfold Batch.farewell ended
    split <;> simp
  · exact .inr ⟨h2, h3, [], List.nil_prefix, by rw [h1, List.append_nil]⟩

/-- The inputs from number `i` on, with the signals that arrive. -/
def inputsAt (e : Surround) (s : Settings) (i : Nat) (xs : List (Bytes × Source)) : List (Bool × Bytes) := (xs.zipIdx i).map fun x => (e.signal x.2, textOf e.world s x.1.2)

theorem inputsAt_cons (e : Surround) (s : Settings) (i : Nat) (x : Bytes × Source) (xs : List (Bytes × Source)) :
    inputsAt e s i (x :: xs) = (e.signal i, textOf e.world s x.2) :: inputsAt e s (i + 1) xs := by simp [inputsAt, List.zipIdx_cons]

theorem reading_unhandled {e : Surround} {i : Nat} (h : e.signal i = true) {p : Proc} (hp : p.handled = false) : reading e i p = none := by
  unfold reading
  rw [if_pos h, if_neg (by simp [hp])]

theorem kinds_append (warns : List (Bytes × Exn)) (name : Bytes) (new : List Exn) (ws : List ExnKind) :
    ((warns ++ new.map (name, ·)).map fun w => w.2.kind) ++ ws = (warns.map fun w => w.2.kind) ++ (new.map Exn.kind ++ ws) := by simp [Function.comp_def]

theorem filter_all {e : Surround} {s : Settings} (hj : ∀ name, (e.world.junk name).1.length = 45) : ∀ (xs : List (Bytes × Source)) (i : Nat)
    (warns : List (Bytes × Exn)) (p : Proc), p.handled = false → ∃ docs ws en, Batch.Runs (modeOf e s) (inputsAt e s i xs) docs ws en ∧
      Follows p (Program.runStdout e s i xs warns p) (Batch.filtering (e.world.fmt s) s.compressMode docs ((warns.map fun w => w.2.kind) ++ ws) en) (Awkward e s warns xs) ∧
      Batch.deeds (Program.runStdout e s i xs warns p).1.tape = Batch.deeds p.tape ++ docs.map fun v => .output (Batch.print (e.world.fmt s) s.compressMode v)
  | [], i, warns, p, hp => by
    refine ⟨[], [], .complete, .complete, ?_⟩
    rw [Program.runStdout, List.append_nil]
    exact ⟨(warn_follows warns p).weaken .inl, by rw [(warn_ends warns p).1]; simp⟩
  | x :: xs, i, warns, p, hp => by
    rw [inputsAt_cons]
    cases hs : e.signal i with
    | true =>
      refine ⟨[], [], .signal, .signal, ?_⟩
      rw [Program.runStdout, reading_unhandled hs hp]
      exact ⟨.inl ⟨by simp [Batch.filtering], rfl⟩, by simp⟩
    | false =>
      rw [Program.runStdout, reading_unsignalled hs]
      dsimp only
      rcases outcome_all s hj x with ⟨w, t, rest, v, st, ht, hw, hv, hone, hq⟩ | ⟨hno, hone⟩ | ⟨r, hst, ⟨f, hfa, hne, hone⟩ | ⟨hfa, ⟨rep, hone⟩ | ⟨hq, rep, hone⟩⟩⟩
      · rw [hone]
        dsimp only
        obtain ⟨docs, ws, en, h1, h2, h4⟩ := filter_all hj xs (i + 1) (warns ++ st.warns.map (x.1, ·)) ((p.does []).does [.output (Output.display (e.world.fmt s) s.compressMode v)]) hp
        refine ⟨v :: docs, st.warns.map Exn.kind ++ ws, en, by rw [ht]; exact .document hw hv h1, ?_⟩
        rw [kinds_append] at h2
        have h3 := (h2.after.after).weaken (Awkward.step hq)
        rw [display_print] at h3 h4 ⊢
        exact ⟨h3, by rw [h4, deeds_does, deeds_does]; simp [Batch.deeds]⟩
      · rw [hone]
        dsimp only
        exact ⟨[], [], .empty, .empty hno, by rw [List.append_nil]; exact ((warn_follows warns _).after).weaken .inl, by rw [(warn_ends warns _).1, deeds_does]; simp [Batch.deeds]⟩
      · rw [hone]
        exact ⟨[], [], .mistake r, .mistake hst, .inl ⟨by simp [does_nil, Batch.filtering], by simp [Batch.filtering, hfa, ended, hne]⟩, by simp [does_nil]⟩
      · rw [hone]
        dsimp only
        refine ⟨[], [], .mistake r, .mistake hst, ?_⟩
        rw [Batch.filtering, hfa, List.append_nil]
        exact ⟨((warn_follows warns _).after).weaken .inl, by rw [(warn_ends warns _).1, deeds_does]; simp [Batch.deeds]⟩
      · rw [hone]
        exact ⟨[], [], .mistake r, .mistake hst, .inr ⟨.inr ⟨x, List.mem_cons_self, hq⟩, rfl, [], List.nil_prefix, by simp only [deeds_does]; simp [Batch.deeds]⟩, by simp only [deeds_does]; simp [Batch.deeds]⟩

/-- `Batch.externally` when some files are written already. -/
def externallyMore (creatable : Bytes → Bool) (child : List DiffCmd.Cell → Child) (cmd : List Bytes) (fmt : Bytes → Bytes) (compress : Bool) (old : List Bytes) (docs : List (Bytes × Json))
    (warnings : List ExnKind) (en : Batch.End) : List Happening × Fin :=
  let files := docs.map fun d => DiffCmd.tempName d.1
  let written := (docs.takeWhile fun d => creatable (DiffCmd.tempName d.1)).map fun d => Happening.wrote (DiffCmd.tempName d.1) (Batch.print fmt compress d.2)
  if ∃ f ∈ files, creatable f = false then (written, .main .hangs)
  else match Batch.fatal en with
    | some f => (written, f)
    | none =>
      if en ≠ .complete then (written ++ (old ++ files).map .removed, .main (.exit 0))
      else if warnings.any Batch.unsayable then (written, .main .ub)
      else
        let argv := (expand cmd (old ++ files)).map DiffCmd.Cell.text ++ [.null]
        match child argv with
        | .noFork => (written ++ (old ++ files).map .removed, .main (.exit 0))
        | .exits _ => (written ++ [.ran argv] ++ (old ++ files).map .removed, .main (.exit 0))
        | .noExec true => (written ++ [.ran argv] ++ (old ++ files).map .removed, .main (.exit 0))
        | .noExec false => (written ++ [.ran argv], .main .hangs)
        | .killed _ => (written ++ [.ran argv], .main .hangs)

theorem externallyMore_nil (creatable : Bytes → Bool) (child : List DiffCmd.Cell → Child) (cmd : List Bytes) (fmt : Bytes → Bytes) (compress : Bool) (docs : List (Bytes × Json))
    (warnings : List ExnKind) (en : Batch.End) : externallyMore creatable child cmd fmt compress [] docs warnings en = Batch.externally creatable child cmd fmt compress docs warnings en := rfl

theorem externallyMore_cons (creatable : Bytes → Bool) (child : List DiffCmd.Cell → Child) (cmd : List Bytes) (fmt : Bytes → Bytes) (compress : Bool) (old : List Bytes) (d : Bytes × Json)
    (docs : List (Bytes × Json)) (warnings : List ExnKind) (en : Batch.End) (hc : creatable (DiffCmd.tempName d.1) = true) :
    externallyMore creatable child cmd fmt compress old (d :: docs) warnings en = ([Happening.wrote (DiffCmd.tempName d.1) (Batch.print fmt compress d.2)] ++
      (externallyMore creatable child cmd fmt compress (old ++ [DiffCmd.tempName d.1]) docs warnings en).1, (externallyMore creatable child cmd fmt compress (old ++ [DiffCmd.tempName d.1]) docs warnings en).2) := by
  unfold externallyMore
  have h1 : (∃ f, f ∈ DiffCmd.tempName d.1 :: docs.map (fun d => DiffCmd.tempName d.1) ∧ creatable f = false) ↔ ∃ f ∈ docs.map fun d => DiffCmd.tempName d.1, creatable f = false := by simp [hc]
  simp only [List.takeWhile_cons, hc, if_true, List.map_cons, List.append_assoc, List.singleton_append]
  by_cases h2 : ∃ f ∈ docs.map fun d => DiffCmd.tempName d.1, creatable f = false
  · rw [if_pos (h1.mpr h2), if_pos h2]
  · rw [if_neg (fun h => h2 (h1.mp h)), if_neg h2]
    cases Batch.fatal en with
    | some f => rfl
    | none =>
      dsimp only
      by_cases h3 : en ≠ .complete
      · rw [if_pos h3, if_pos h3]; rfl
      · rw [if_neg h3, if_neg h3]
        by_cases h4 : warnings.any Batch.unsayable = true
        · rw [if_pos h4, if_pos h4]
        · rw [if_neg h4, if_neg h4]
          split <;> rfl

theorem externallyMore_stuck (creatable : Bytes → Bool) (child : List DiffCmd.Cell → Child) (cmd : List Bytes) (fmt : Bytes → Bytes) (compress : Bool) (old : List Bytes) (d : Bytes × Json)
    (docs : List (Bytes × Json)) (warnings : List ExnKind) (en : Batch.End) (hc : creatable (DiffCmd.tempName d.1) = false) :
    externallyMore creatable child cmd fmt compress old (d :: docs) warnings en = ([], .main .hangs) := by
  unfold externallyMore
  rw [if_pos ⟨_, by simp, hc⟩]
  simp [List.takeWhile_cons, hc]

/-- `src/main.cpp:125-130`: the files are removed. -/
def tidied (r : (Proc × Fin) × List Bytes) : Proc × Fin :=
  match r with
  | ((p, .main .returned), files) => (p.does (files.map .removed), .main .returned)
  | (r, _) => r

theorem tidied_other {p : Proc} {f : Fin} (files : List Bytes) (h : f ≠ .main .returned) : tidied ((p, f), files) = (p, f) := by
  unfold tidied
  split
  · rename_i h1; cases h1; exact absurd rfl h
  · rename_i h1; cases h1; rfl

theorem deeds_removed (files : List Bytes) : Batch.deeds (files.map Happening.removed) = files.map Happening.removed := by simp [Batch.deeds]

theorem external_follows {e : Surround} {s : Settings} {cmd : List Bytes} (h0 : ∀ a ∈ cmd, 0 ∉ a) (hj : ∀ name, (e.world.junk name).1.length = 45) : ∀ (xs : List (Bytes × Source)) (i : Nat)
    (names : List Bytes) (warns : List (Bytes × Exn)) (p : Proc), p.handled = false → ∃ docs ws en, Batch.Runs (modeOf e s) (inputsAt e s i xs) docs ws en ∧
      Follows p (tidied (prepare e s cmd i xs (names.map DiffCmd.tempName) warns p))
        (externallyMore e.world.canCreate e.world.child cmd (e.world.fmt s) s.compressMode (names.map DiffCmd.tempName) ((xs.map (·.1)).zip docs) ((warns.map fun w => w.2.kind) ++ ws) en) (Awkward e s warns xs)
  | [], i, names, warns, p, hp => by
    refine ⟨[], [], .complete, .complete, ?_⟩
    rw [prepare, List.append_nil]
    obtain ⟨h1, h2⟩ := warn_ends warns p
    generalize hw : warn warns p = r at h1 h2
    obtain ⟨q, fin⟩ := r
    dsimp only at h1 h2
    unfold externallyMore
    simp only [List.map_nil, List.zip_nil_left, List.takeWhile_nil, List.not_mem_nil, false_and, exists_false, if_false, Batch.fatal, ne_eq, not_true_eq_false, List.append_nil, List.nil_append]
    rcases h2 with h2 | ⟨h2, h3⟩
    · rw [h2]
      by_cases hu : (warns.map fun w => w.2.kind).any Batch.unsayable = true
      · rw [if_pos hu, if_pos hu]
        exact .inl ⟨by rw [tidied_other _ (by simp), h1]; simp, by rw [tidied_other _ (by simp)]; rfl⟩
      · rw [if_neg hu, if_neg hu]
        dsimp only
        obtain ⟨d', hav, _⟩ := C51_arguments cmd (names.map DiffCmd.tempName) h0 (by intro f hf; obtain ⟨g, _, rfl⟩ := List.mem_map.mp hf; exact tempName_no_null _)
        unfold Program.runCommand
        rw [hav]
        dsimp only
        left
        cases hcc : e.world.child ((expand cmd (names.map DiffCmd.tempName)).map DiffCmd.Cell.text ++ [.null]) with
        | noFork => exact ⟨by simp only [tidied, deeds_does, deeds_removed, h1], rfl⟩
        | exits n => exact ⟨by simp only [tidied, wait, deeds_does, deeds_removed, h1]; simp [Batch.deeds], rfl⟩
        | killed n => exact ⟨by simp only [tidied, wait, deeds_does, h1]; simp [Batch.deeds], rfl⟩
        | noExec b => cases b with
          | true => exact ⟨by simp only [tidied, wait, deeds_does, deeds_removed, h1]; simp [Batch.deeds], rfl⟩
          | false => exact ⟨by simp only [tidied, wait, deeds_does, h1]; simp [Batch.deeds], rfl⟩
    · rw [h3]
      exact .inr ⟨.inl h2, by rw [tidied_other _ (by simp)], [], List.nil_prefix, by rw [tidied_other _ (by simp), h1, List.append_nil]⟩
  | x :: xs, i, names, warns, p, hp => by
    rw [inputsAt_cons]
    cases hs : e.signal i with
    | true =>
      refine ⟨[], [], .signal, .signal, .inl ?_⟩
      rw [prepare, reading_unhandled hs hp]
      dsimp only
      rw [tidied_other _ (by simp)]
      exact ⟨by simp [externallyMore, Batch.fatal], rfl⟩
    | false =>
      rw [prepare, reading_unsignalled hs]
      dsimp only
      rcases outcome_all s hj x with ⟨w, t, rest, v, st, ht, hw, hv, hone, hq⟩ | ⟨hno, hone⟩ | ⟨r, hst, ⟨f, hfa, hne, hone⟩ | ⟨hfa, ⟨rep, hone⟩ | ⟨hq, rep, hone⟩⟩⟩
      · rw [hone]
        dsimp only
        obtain ⟨docs, ws, en, h1, h2⟩ := external_follows h0 hj xs (i + 1) (names ++ [x.1]) (warns ++ st.warns.map (x.1, ·))
          ((p.does []).does [.wrote (DiffCmd.tempName x.1) (Output.display (e.world.fmt s) s.compressMode v)]) hp
        refine ⟨v :: docs, st.warns.map Exn.kind ++ ws, en, by rw [ht]; exact .document hw hv h1, ?_⟩
        rw [List.map_cons, List.zip_cons_cons]
        by_cases hc : e.world.canCreate (DiffCmd.tempName x.1) = true
        · rw [if_pos hc, externallyMore_cons _ _ _ _ _ _ _ _ _ _ hc]
          rw [kinds_append, List.map_append, List.map_singleton] at h2
          have h3 := (h2.after.after).weaken (Awkward.step hq)
          rw [display_print] at h3 ⊢
          exact h3
        · rw [if_neg hc, externallyMore_stuck _ _ _ _ _ _ _ _ _ _ (by simpa using hc), tidied_other _ (by simp)]
          exact .inl ⟨by simp [does_nil], rfl⟩
      · rw [hone]
        dsimp only
        refine ⟨[], [], .empty, .empty hno, .inl ⟨?_, rfl⟩⟩
        simp only [tidied, deeds_does, deeds_removed]
        simp [externallyMore, Batch.fatal, Batch.deeds]
      · rw [hone]
        dsimp only
        rw [tidied_other _ (by simpa using hne)]
        refine ⟨[], [], .mistake r, .mistake hst, .inl ⟨by simp [does_nil, externallyMore, hfa], by simp [externallyMore, hfa, ended, hne]⟩⟩
      · rw [hone]
        dsimp only
        refine ⟨[], [], .mistake r, .mistake hst, .inl ⟨?_, by simp [tidied, ended, externallyMore, hfa]⟩⟩
        simp only [tidied, deeds_does, deeds_removed]
        simp [externallyMore, hfa, Batch.deeds]
      · rw [hone]
        dsimp only
        rw [tidied_other _ (by simp)]
        exact ⟨[], [], .mistake r, .mistake hst, .inr ⟨.inr ⟨x, List.mem_cons_self, hq⟩, rfl, [], List.nil_prefix, by simp only [deeds_does]; simp [Batch.deeds]⟩⟩

/-- `Batch.browsing` in the middle. -/
def browsingMore (session : List (List (Bytes × Json)) → Bool → List (Bytes × Json) → ViewEnd) (before docs : List (Bytes × Json)) (warnings : List ExnKind) (en : Batch.End) : List Happening × Fin :=
  match Batch.visits session before docs with
  | (views, some f) => (views, f)
  | (views, none) =>
    match Batch.fatal en with
    | some f => (views, f)
    | none => (views ++ [.leave], Batch.farewell warnings)

theorem browsingMore_cons (session : List (List (Bytes × Json)) → Bool → List (Bytes × Json) → ViewEnd) (before : List (Bytes × Json)) (d : Bytes × Json) (docs : List (Bytes × Json)) (warnings : List ExnKind)
    (en : Batch.End) : browsingMore session before (d :: docs) warnings en = match session (before.map fun b => [b]) false [d] with
      | .left => ([Happening.view [d]] ++ (browsingMore session (before ++ [d]) docs warnings en).1, (browsingMore session (before ++ [d]) docs warnings en).2)
      | .crash => ([.view [d]], .viewCrash)
      | .waits => ([.view [d]], .waits) := by
  unfold browsingMore
  rw [Batch.visits]
  cases session (before.map fun b => [b]) false [d] with
  | crash => rfl
  | waits => rfl
  | left =>
    dsimp only
    generalize Batch.visits session (before ++ [d]) docs = r
    obtain ⟨vs, o⟩ := r
    cases o with
    | some f => rfl
    | none => dsimp only; cases Batch.fatal en <;> rfl

/-- The inputs when signals do not end the program. -/
def calmly (e : Surround) (s : Settings) (xs : List (Bytes × Source)) : List (Bool × Bytes) := xs.map fun x => (false, textOf e.world s x.2)

theorem reading_handled {e : Surround} (i : Nat) {p : Proc} (hp : p.handled = true) : ∃ b, reading e i p = some { p with breakLoop := b } := by
  unfold reading
  split
  · split
    · exact ⟨true, rfl⟩
    · exact ⟨p.breakLoop, rfl⟩
  · exact ⟨p.breakLoop, rfl⟩

theorem shown_append (a b : List Happening) : shown (a ++ b) = shown a ++ shown b := by
  induction a with
  | nil => rfl
  | cons h a ih => cases h <;> simp [shown, ih]

theorem browse_follows {e : Surround} {s : Settings} (hj : ∀ name, (e.world.junk name).1.length = 45) : ∀ (xs : List (Bytes × Source)) (i : Nat) (before : List (Bytes × Json))
    (warns : List (Bytes × Exn)) (p : Proc), p.handled = true → shown p.tape = before.map (fun b => [b]) → ∃ docs ws en, Batch.Runs (modeOf e s) (calmly e s xs) docs ws en ∧
      Follows p (browse e s i xs warns p) (browsingMore e.session before ((xs.map (·.1)).zip docs) ((warns.map fun w => w.2.kind) ++ ws) en) (Awkward e s warns xs)
  | [], i, before, warns, p, hp, hb => by
    refine ⟨[], [], .complete, .complete, ?_⟩
    rw [browse, List.append_nil]
    exact ((warn_follows warns (closeView p)).weaken .inl : Follows (p.does [.leave]) _ _ _).after
  | x :: xs, i, before, warns, p, hp, hb => by
    rw [show calmly e s (x :: xs) = (false, textOf e.world s x.2) :: calmly e s xs from rfl]
    obtain ⟨b, hr⟩ := reading_handled (e := e) i hp
    rw [browse, hr]
    dsimp only
    generalize hp' : ({ p with breakLoop := b } : Proc) = p'
    have htape : p'.tape = p.tape := by rw [← hp']
    have hback : ∀ {r : Proc × Fin} {c : List Happening × Fin} {a : Prop}, Follows p' r c a → Follows p r c a := by
      intro r c a h
      unfold Follows at h ⊢
      rw [htape] at h
      exact h
    apply Exists.imp fun docs => Exists.imp fun ws => Exists.imp fun en => And.imp_right hback
    have hh : p'.handled = true := by rw [← hp']; exact hp
    rw [← htape] at hb
    clear hback htape hp' hr hp
    rcases outcome_all s hj x with ⟨w, t, rest, v, st, ht, hw, hv, hone, hq⟩ | ⟨hno, hone⟩ | ⟨r, hst, ⟨f, hfa, hne, hone⟩ | ⟨hfa, ⟨rep, hone⟩ | ⟨hq, rep, hone⟩⟩⟩
    · rw [hone]
      dsimp only [runView]
      rw [does_nil, hb]
      obtain ⟨docs, ws, en, h1, h2⟩ := browse_follows hj xs (i + 1) (before ++ [(x.1, v)]) (warns ++ st.warns.map (x.1, ·)) { p'.does [.view [(x.1, v)]] with breakLoop := false } hh
        (by simp [Proc.does, shown_append, hb, shown])
      refine ⟨v :: docs, st.warns.map Exn.kind ++ ws, en, by rw [ht]; exact .document hw hv h1, ?_⟩
      rw [List.map_cons, List.zip_cons_cons, browsingMore_cons]
      cases e.session (before.map fun b => [b]) false [(x.1, v)] with
      | left =>
        dsimp only
        rw [kinds_append] at h2
        exact (h2.weaken (Awkward.step hq) : Follows (p'.does [.view [(x.1, v)]]) _ _ _).after
      | crash => exact .inl ⟨deeds_does _ _, rfl⟩
      | waits => exact .inl ⟨deeds_does _ _, rfl⟩
    · rw [hone]
      dsimp only
      refine ⟨[], [], .empty, .empty hno, ?_⟩
      rw [List.append_nil]
      exact (((warn_follows warns (closeView (p'.does _))).weaken .inl : Follows ((p'.does _).does [.leave]) _ _ _).after).after
    · rw [hone]
      exact ⟨[], [], .mistake r, .mistake hst, .inl ⟨by simp [does_nil, browsingMore, Batch.visits, hfa], by simp [browsingMore, Batch.visits, hfa, ended, hne]⟩⟩
    · rw [hone]
      dsimp only
      refine ⟨[], [], .mistake r, .mistake hst, ?_⟩
      rw [List.append_nil, List.zip_nil_right, browsingMore, Batch.visits]
      dsimp only
      rw [hfa]
      exact (((warn_follows warns (closeView (p'.does _))).weaken .inl : Follows ((p'.does _).does [.leave]) _ _ _).after).after
    · rw [hone]
      exact ⟨[], [], .mistake r, .mistake hst, .inr ⟨.inr ⟨x, List.mem_cons_self, hq⟩, rfl, [], List.nil_prefix, by simp only [deeds_does]; simp [Batch.deeds]⟩⟩

theorem compare_follows {e : Surround} {s : Settings} (hj : ∀ name, (e.world.junk name).1.length = 45) : ∀ (xs : List (Bytes × Source)) (i : Nat) (before : List (Bytes × Json))
    (warns : List (Bytes × Exn)) (p : Proc), p.handled = false → shown p.tape = [] → (before.length + xs.length = 2 ∨ before.length + xs.length = 3) →
    ∃ docs ws en, Batch.Runs (modeOf e s) (inputsAt e s i xs) docs ws en ∧
      Follows p (Program.runDiff e s i xs before warns p)
        (Batch.comparing ((e.stdinTty && e.world.tty) || e.devTty) e.session (fun a b => (Diff.diff (e.world.fmt s) a b).isNone) (before ++ (xs.map (·.1)).zip docs) ((warns.map fun w => w.2.kind) ++ ws) en)
        (Awkward e s warns xs)
  | [], i, before, warns, p, hp, hs, hl => by
    refine ⟨[], [], .complete, .complete, ?_⟩
    rw [Program.runDiff, List.map_nil, List.zip_nil_left, List.append_nil, List.append_nil]
    unfold compareView openView Batch.comparing
    simp only [Batch.fatal, ne_eq, not_true_eq_false, if_false]
    by_cases ht : ((e.stdinTty && e.world.tty) || e.devTty) = true
    · rw [if_pos ht, if_neg (by simp [ht])]
      dsimp only
      simp only [List.length_nil, Nat.add_zero] at hl
      match before, hl with
      | [a, b], _ =>
        dsimp only
        by_cases hd : Diff.diff (e.world.fmt s) a.2 b.2 = none
        · simp only [hd, Option.isNone_none, if_true]
          exact .inl ⟨deeds_does _ _, rfl⟩
        · obtain ⟨tbl, hd⟩ := Option.ne_none_iff_exists'.mp hd
          simp only [hd, Option.isNone_some, Bool.false_eq_true, if_false, runView]
          have hsh : shown (p.does [.enter]).tape = [] := by simp [Proc.does, shown_append, hs, shown]
          rw [hsh]
          cases e.session [] false [a, b] with
          | left => exact ((((warn_follows warns (closeView _)).weaken .inl : Follows (((p.does [.enter]).does [.view [a, b]]).does [.leave]) _ _ _).after).after).after
          | crash => exact .inl ⟨by simp [Proc.does, Batch.deeds], rfl⟩
          | waits => exact .inl ⟨by simp [Proc.does, Batch.deeds], rfl⟩
      | [a, b, c], _ => exact .inl ⟨deeds_does _ _, rfl⟩
    · rw [if_neg ht, if_pos (by simpa using ht)]
      exact .inl ⟨by simp, rfl⟩
  | x :: xs, i, before, warns, p, hp, hsh, hl => by
    rw [inputsAt_cons]
    cases hs : e.signal i with
    | true =>
      refine ⟨[], [], .signal, .signal, .inl ?_⟩
      rw [Program.runDiff, reading_unhandled hs hp]
      exact ⟨by simp [Batch.comparing, Batch.fatal], rfl⟩
    | false =>
      rw [Program.runDiff, reading_unsignalled hs]
      dsimp only
      rcases outcome_all s hj x with ⟨w, t, rest, v, st, ht, hw, hv, hone, hq⟩ | ⟨hno, hone⟩ | ⟨r, hst, ⟨f, hfa, hne, hone⟩ | ⟨hfa, ⟨rep, hone⟩ | ⟨hq, rep, hone⟩⟩⟩
      · rw [hone]
        dsimp only
        obtain ⟨docs, ws, en, h1, h2⟩ := compare_follows hj xs (i + 1) (before ++ [(x.1, v)]) (warns ++ st.warns.map (x.1, ·)) (p.does []) hp (by rw [does_nil]; exact hsh)
          (by simp only [List.length_append, List.length_cons, List.length_nil] at hl ⊢; omega)
        refine ⟨v :: docs, st.warns.map Exn.kind ++ ws, en, by rw [ht]; exact .document hw hv h1, ?_⟩
        rw [kinds_append, List.append_assoc] at h2
        exact (h2.after).weaken (Awkward.step hq)
      · rw [hone]
        exact ⟨[], [], .empty, .empty hno, .inl ⟨by rw [deeds_does]; simp [Batch.comparing, Batch.fatal, Batch.deeds], rfl⟩⟩
      · rw [hone]
        exact ⟨[], [], .mistake r, .mistake hst, .inl ⟨by simp [does_nil, Batch.comparing, hfa], by simp [Batch.comparing, hfa, ended, hne]⟩⟩
      · rw [hone]
        exact ⟨[], [], .mistake r, .mistake hst, .inl ⟨by rw [deeds_does]; simp [Batch.comparing, hfa, Batch.deeds], by simp [Batch.comparing, hfa, ended]⟩⟩
      · rw [hone]
        exact ⟨[], [], .mistake r, .mistake hst, .inr ⟨.inr ⟨x, List.mem_cons_self, hq⟩, rfl, [], List.nil_prefix, by simp only [deeds_does]; simp [Batch.deeds]⟩⟩

/-- A run through the inputs has one result. -/
theorem runs_unique {m : Accepted.Mode} {xs : List (Bool × Bytes)} {o o' : List Json} {w w' : List ExnKind} {en en' : Batch.End} (h : Batch.Runs m xs o w en)
    (h' : Batch.Runs m xs o' w' en') : o' = o ∧ w' = w ∧ en' = en := by
  have u126 := fun input v rest ws => C126_accepted_exactly m.strict m.ascii m.sort m.half [] 0 input v rest ws
  have u127 := fun input => (C127_refused_exactly m.strict m.ascii m.sort m.half [] 0 input).2.2.2
  induction h generalizing o' w' en' with
  | complete => cases h'; exact ⟨rfl, rfl, rfl⟩
  | @document w t rest v ws inputs out ws1 en hw hv hr ih =>
    generalize hx : (false, w ++ t ++ rest) :: inputs = l at h'
    cases h' with
    | complete => cases hx
    | @document w2 t2 rest2 v2 ws2 _ out2 ws3 en2 hw2 hv2 hr2 =>
      simp only [List.cons.injEq, Prod.mk.injEq, true_and] at hx
      obtain ⟨hx, hi⟩ := hx
      obtain ⟨s1, a1, b1, c1⟩ := (u126 _ v rest ws).mpr ⟨w, t, rfl, hw, hv⟩
      obtain ⟨s2, a2, b2, c2⟩ := (u126 _ v2 rest2 ws2).mpr ⟨w2, t2, rfl, hw2, hv2⟩
      rw [hx, a2] at a1
      cases a1
      rw [← hi] at hr2
      obtain ⟨e1, e2, e3⟩ := ih hr2
      exact ⟨by rw [e1], by rw [e2, ← c1, ← c2], e3⟩
    | mistake hs => simp only [List.cons.injEq, Prod.mk.injEq, true_and] at hx; exact absurd hs (((u127 _).2.2 w t rest v ws hx.1.symm hw hv).2 _)
    | empty hs => simp only [List.cons.injEq, Prod.mk.injEq, true_and] at hx; exact absurd hs ((u127 _).2.2 w t rest v ws hx.1.symm hw hv).1
    | signal => cases hx
  | @mistake x r inputs hs =>
    generalize hx : (false, x) :: inputs = l at h'
    cases h' with
    | complete => cases hx
    | document hw hv _ => cases hx; exact absurd hs (((u127 _).2.2 _ _ _ _ _ rfl hw hv).2 _)
    | mistake hs' => cases hx; exact ⟨rfl, rfl, by rw [(u127 _).1 _ _ hs hs']⟩
    | empty hs' => cases hx; exact absurd hs' ((u127 _).2.1 _ hs)
    | signal => cases hx
  | @empty x inputs hs =>
    generalize hx : (false, x) :: inputs = l at h'
    cases h' with
    | complete => cases hx
    | document hw hv _ => cases hx; exact absurd hs ((u127 _).2.2 _ _ _ _ _ rfl hw hv).1
    | mistake hs' => cases hx; exact absurd hs ((u127 _).2.1 _ hs')
    | empty _ => cases hx; exact ⟨rfl, rfl, rfl⟩
    | signal => cases hx
  | signal => cases h'; exact ⟨rfl, rfl, rfl⟩

/-- What the run through these inputs gives: something, and only that. -/
def Reads (m : Accepted.Mode) (inputs : List (Bool × Bytes)) (docs : List Json) (warnings : List ExnKind) (en : Batch.End) : Prop :=
  Batch.Runs m inputs docs warnings en ∧ ∀ docs' warnings' en', Batch.Runs m inputs docs' warnings' en' → docs' = docs ∧ warnings' = warnings ∧ en' = en

/-- The program does what this course says. The only exception: in an input with a line break in an awkward place, the report of an error or warning may have no line to show; then the program ends with an
exception, having done a beginning of the course. -/
def Takes (e : Surround) (args : List Bytes) (s : Settings) (course : List Happening × Fin) : Prop :=
  Batch.deeds (program e args).1.tape = course.1 ∧ (program e args).2 = course.2 ∨
  (program e args).2 = .main .uncaught ∧ Batch.deeds (program e args).1.tape <+: course.1 ∧ ∃ x ∈ getInputs s, ¬ (QuietBreaks (textOf e.world s x.2) ∧ WholeWindows (textOf e.world s x.2))

theorem takes_of {e : Surround} {args : List Bytes} {s : Settings} (h : Asks e args s) {course : List Happening × Fin}
    (hf : Follows ⟨[], false, false, false⟩ (Program.choose e s ⟨[], false, false, false⟩) course (Awkward e s [] (getInputs s))) : Takes e args s course := by
  unfold Takes
  rw [program_go h]
  rcases hf with ⟨h1, h2⟩ | ⟨h1, h2, d, hd, h3⟩
  · exact .inl ⟨h1, h2⟩
  · right
    refine ⟨by rw [h2]; rfl, ?_, ?_⟩
    · rw [h3]; exact hd
    · rcases h1 with h1 | h1
      · exact absurd (fun w hw => by cases hw) h1
      · exact h1

/-- **C128.** With the output redirected (or `--compress`), the program is a filter: for every command line it accepts, all inputs and signals, there is exactly one result of the
run through the inputs according to `Spec.Batch`, that is to the productions of the accepted and refused texts; standard output holds the documents of that run, laid out as it says there, and the program
ends as it says there, except that the report of an error or warning may have no line to show. -/
theorem C128_filter (prog : Bytes) (e : Surround) (args : List Bytes) (s : Settings) (h : Asks e args s) (hr : Redirected e.world s) (hj : ∀ name, (e.world.junk name).1.length = 45) :
    ∃ docs ws en, Reads (modeOf e s) ((getInputs s).zipIdx.map fun x => (e.signal x.2, textOf e.world s x.1.2)) docs ws en ∧
      Texts.standardOutput prog e args = docs.flatMap (Batch.print (e.world.fmt s) s.compressMode) ∧
      Takes e args s (Batch.filtering (e.world.fmt s) s.compressMode docs ws en) := by
  obtain ⟨docs, ws, en, h1, h2, h3⟩ := filter_all (s := s) hj (getInputs s) 0 [] ⟨[], false, false, false⟩ rfl
  have hc : Program.choose e s ⟨[], false, false, false⟩ = Program.runStdout e s 0 (getInputs s) [] ⟨[], false, false, false⟩ := by
    unfold Program.choose
    rw [hr.1]
    dsimp only
    rw [if_neg (by simp [hr.2.1]), if_neg (by rcases hr.2.2 with h | h <;> simp [h])]
  refine ⟨docs, ws, en, ⟨h1, fun o' w' e' h' => runs_unique h1 h'⟩, ?_, takes_of h (by rw [hc]; exact h2)⟩
  unfold Texts.standardOutput
  rw [program_go h, hc]
  dsimp only
  have key : ∀ tape : List Happening, tape.flatMap (Texts.toOut prog) = (Batch.deeds tape).flatMap (Texts.toOut prog) := by
    intro tape
    induction tape with
    | nil => rfl
    | cons a tape ih => cases a <;> simp [Batch.deeds, Texts.toOut, ih] <;> rfl
  rw [key, h3, List.flatMap_append, List.flatMap_map]
  rfl

theorem command_words {canOpen : Bytes → Bool} : ∀ (args : List Bytes) (l l' : Local), readArgs canOpen l args = .go l' → ∀ c, l'.set.diffCmd = some c → ∀ a ∈ c,
    a ∈ args ∨ ∃ c0, l.set.diffCmd = some c0 ∧ a ∈ c0
  | [], l, l', h, c, hc, a, ha => by
    cases h
    exact .inr ⟨c, hc, ha⟩
  | x :: args, l, l', h, c, hc, a, ha => by
    rw [readArgs] at h
    cases hx : readArg canOpen l x with
    | stop r => rw [hx] at h; cases h
    | throw r => rw [hx] at h; cases h
    | go m =>
      rw [hx] at h
      rcases command_words args m l' h c hc a ha with h1 | ⟨c0, h1, h2⟩
      · exact .inl (List.mem_cons_of_mem _ h1)
      · have hm : (m.set.diffCmd = l.set.diffCmd ∨ m.set.diffCmd = some []) ∨ m.set.diffCmd = l.set.diffCmd.map (· ++ [x]) := by
          unfold readArg at hx
          by_cases hi : (!l.input && !l.inDiff) = true
          · rw [if_pos hi] at hx
            by_cases h11 : x = b!"--"
            · rw [if_pos h11] at hx; cases hx; simp
            rw [if_neg h11] at hx
            by_cases h12 : x = b!"-W"
            · rw [if_pos h12] at hx; cases hx; simp
            rw [if_neg h12] at hx
            by_cases h13 : x = b!"--ascii"
            · rw [if_pos h13] at hx; cases hx; simp
            rw [if_neg h13] at hx
            by_cases h14 : x = b!"--color"
            · rw [if_pos h14] at hx; cases hx; simp
            rw [if_neg h14] at hx
            by_cases h15 : x = b!"--diff"
            · rw [if_pos h15] at hx; cases hx; simp
            rw [if_neg h15] at hx
            by_cases h16 : x = b!"--compress"
            · rw [if_pos h16] at hx; cases hx; simp
            rw [if_neg h16] at hx
            by_cases h17 : x = b!"--help" ∨ x = b!"-h"
            · rw [if_pos h17] at hx; cases hx
            rw [if_neg h17] at hx
            by_cases h18 : x = b!"--version" ∨ x = b!"-v"
            · rw [if_pos h18] at hx; cases hx
            rw [if_neg h18] at hx
            by_cases h19 : x = b!"--keep-order"
            · rw [if_pos h19] at hx; cases hx; simp
            rw [if_neg h19] at hx
            by_cases h30 : x = b!"--diff-cmd"
            · rw [if_pos h30] at hx
              by_cases h31 : l.set.diffCmd.isSome = true
              · rw [if_pos h31] at hx; cases hx
              · rw [if_neg h31] at hx; cases hx; simp
            rw [if_neg h30] at hx
            by_cases h32 : b!"--color=".isPrefixOf x = true
            · rw [if_pos h32] at hx
              dsimp only at hx
              by_cases h33 : x.drop 8 = b!"always"
              · rw [if_pos h33] at hx; cases hx; simp
              rw [if_neg h33] at hx
              by_cases h34 : x.drop 8 = b!"never"
              · rw [if_pos h34] at hx; cases hx; simp
              rw [if_neg h34] at hx
              cases hx
            rw [if_neg h32] at hx
            by_cases h35 : b!"-".isPrefixOf x = true
            · rw [if_pos h35] at hx; cases hx
            rw [if_neg h35] at hx
            by_cases h36 : (!canOpen x) = true
            · rw [if_pos h36] at hx; cases hx
            rw [if_neg h36] at hx
            by_cases h37 : FifoMap.contains l.set.inputs x = true
            · rw [if_pos h37] at hx; cases hx
            rw [if_neg h37] at hx
            cases hx
            simp
          · rw [if_neg hi] at hx
            by_cases hd : l.inDiff = true
            · rw [if_pos hd] at hx
              by_cases hq : x = b!";"
              · rw [if_pos hq] at hx; cases hx; simp
              · rw [if_neg hq] at hx; cases hx; simp
            · rw [if_neg hd] at hx
              cases hx
              simp
        rcases hm with (hm | hm) | hm
        · exact .inr ⟨c0, by rw [← hm, h1], h2⟩
        · rw [h1] at hm; cases hm; cases h2
        · rw [h1] at hm
          cases hl : l.set.diffCmd with
          | none => rw [hl] at hm; cases hm
          | some c1 =>
            rw [hl] at hm
            cases hm
            rcases List.mem_append.mp h2 with h2 | h2
            · exact .inr ⟨c1, rfl, h2⟩
            · exact .inl (by simp only [List.mem_singleton] at h2; rw [h2]; exact List.mem_cons_self)

/-- **C129.** With `--diff-cmd`, for every command line that is accepted, all inputs, signals, and whatever becomes of the temporary files and of the command: which files are written, with which contents, whether the
command is run, with which arguments, which files are removed and how the program ends is exactly as `Spec.Batch.externally` says, given the documents of the inputs. -/
theorem C129_external (e : Surround) (args : List Bytes) (s : Settings) (h : Asks e args s) (h0 : ∀ a ∈ args, 0 ∉ a) (cmd : List Bytes) (hc : s.diffCmd = some cmd)
    (hj : ∀ name, (e.world.junk name).1.length = 45) :
    ∃ docs ws en, Reads (modeOf e s) ((getInputs s).zipIdx.map fun x => (e.signal x.2, textOf e.world s x.1.2)) docs ws en ∧
      Takes e args s (Batch.externally e.world.canCreate e.world.child cmd (e.world.fmt s) s.compressMode (((getInputs s).map (·.1)).zip docs) ws en) := by
  have hcmd : ∀ a ∈ cmd, 0 ∉ a := by
    intro a ha
    have h' : Params.read (fun f => (e.world.files f).isSome) args = .go s := h
    unfold Params.read at h'
    cases hl : readArgs (fun f => (e.world.files f).isSome) initial args with
    | stop r => rw [hl] at h'; cases h'
    | throw r => rw [hl] at h'; cases h'
    | go l =>
      have hs : l.set = s := by
        rw [hl] at h'
        dsimp only at h'
        repeat' split at h'
        all_goals first | cases h' | rfl
        all_goals rfl
      rcases command_words args initial l hl cmd (by rw [hs, hc]) a ha with h1 | ⟨c0, h1, _⟩
      · exact h0 a h1
      · cases h1
  obtain ⟨docs, ws, en, h1, h2⟩ := external_follows (s := s) hcmd hj (getInputs s) 0 [] [] ⟨[], false, false, false⟩ rfl
  refine ⟨docs, ws, en, ⟨h1, fun o' w' e' h' => runs_unique h1 h'⟩, takes_of h ?_⟩
  have hch : Program.choose e s ⟨[], false, false, false⟩ = tidied (prepare e s cmd 0 (getInputs s) [] [] ⟨[], false, false, false⟩) := by
    unfold Program.choose
    rw [hc]
    rfl
  rw [hch]
  exact h2

/-- **C130.** On a terminal, for every command line without comparison that is accepted, all inputs, signals and sessions: when the terminal is taken, which documents are shown in which order, whether the terminal
is given back, and how the program ends is exactly as `Spec.Batch.browsing` says; signals that arrive while an input is read change nothing. -/
theorem C130_browsing (e : Surround) (args : List Bytes) (s : Settings) (h : Asks e args s) (hb : Browsing e.world s) (hj : ∀ name, (e.world.junk name).1.length = 45) :
    ∃ docs ws en, Reads (modeOf e s) ((getInputs s).map fun x => (false, textOf e.world s x.2)) docs ws en ∧
      Takes e args s (Batch.browsing (e.stdinTty || e.devTty) e.session (((getInputs s).map (·.1)).zip docs) ws en) := by
  have hch : Program.choose e s ⟨[], false, false, false⟩ = Program.run e s ⟨[], false, false, false⟩ := by
    unfold Program.choose
    rw [hb.1]
    dsimp only
    rw [if_neg (by simp [hb.2.1]), if_pos (by simp [hb.2.2])]
  obtain ⟨docs, ws, en, h1, h2⟩ := browse_follows (s := s) hj (getInputs s) 0 [] [] ⟨[.enter], true, true, false⟩ rfl rfl
  refine ⟨docs, ws, en, ⟨h1, fun o' w' e' h' => runs_unique h1 h'⟩, takes_of h ?_⟩
  rw [hch]
  unfold Program.run openView Batch.browsing
  rw [hb.2.2.1, Bool.and_true]
  by_cases ht : (e.stdinTty || e.devTty) = true
  · rw [if_pos ht, if_neg (by simp [ht])]
    have h3 := Follows.after (p := ⟨[], true, true, false⟩) (h := [.enter]) h2
    dsimp only
    unfold browsingMore at h3
    generalize Batch.visits e.session [] _ = r at h3 ⊢
    obtain ⟨vs, o⟩ := r
    cases o with
    | some f => exact h3
    | none =>
      dsimp only at h3 ⊢
      cases hfa : Batch.fatal en with
      | some f => rw [hfa] at h3; exact h3
      | none => rw [hfa] at h3; exact h3
  · rw [if_neg ht, if_pos (by simpa using ht)]
    exact .inl ⟨rfl, rfl⟩

/-- **C131.** With `--diff`, for every command line that is accepted, all inputs, signals and sessions: whether the terminal is taken, what is shown, whether the terminal is given back and how the program ends is
exactly as `Spec.Batch.comparing` says; `clash` is that the comparison divides by zero (see C28 for what that means). -/
theorem C131_comparing (e : Surround) (args : List Bytes) (s : Settings) (h : Asks e args s) (hb : Comparing s) (hj : ∀ name, (e.world.junk name).1.length = 45) :
    ∃ docs ws en, Reads (modeOf e s) ((getInputs s).zipIdx.map fun x => (e.signal x.2, textOf e.world s x.1.2)) docs ws en ∧
      Takes e args s (Batch.comparing ((e.stdinTty && e.world.tty) || e.devTty) e.session (fun a b => (Diff.diff (e.world.fmt s) a b).isNone) (((getInputs s).map (·.1)).zip docs) ws en) := by
  have hlen : (getInputs s).length = 2 ∨ (getInputs s).length = 3 := by
    have h' : Params.read (fun f => (e.world.files f).isSome) args = .go s := h
    unfold Params.read at h'
    cases hl : readArgs (fun f => (e.world.files f).isSome) initial args with
    | stop r => rw [hl] at h'; cases h'
    | throw r => rw [hl] at h'; cases h'
    | go l =>
      rw [hl] at h'
      dsimp only at h'
      by_cases hd : l.set.diffMode = true
      · rw [if_pos hd] at h'
        by_cases h3 : l.set.inputs.length > 3
        · rw [if_pos h3] at h'; cases h'
        · rw [if_neg h3] at h'
          by_cases h2 : l.set.inputs.length < 2
          · rw [if_pos h2] at h'; cases h'
          · rw [if_neg h2] at h'
            cases h'
            unfold getInputs
            rw [if_pos (by intro h0; rw [h0] at h2; simp at h2)]
            omega
      · rw [if_neg hd] at h'
        cases h'
        exact absurd hb.2 hd
  have hch : Program.choose e s ⟨[], false, false, false⟩ = Program.runDiff e s 0 (getInputs s) [] [] ⟨[], false, false, false⟩ := by
    unfold Program.choose
    rw [hb.1]
    dsimp only
    rw [if_pos hb.2]
  obtain ⟨docs, ws, en, h1, h2⟩ := compare_follows (s := s) hj (getInputs s) 0 [] [] ⟨[], false, false, false⟩ rfl rfl (by simpa using hlen)
  exact ⟨docs, ws, en, ⟨h1, fun o' w' e' h' => runs_unique h1 h'⟩, takes_of h (by rw [hch]; exact h2)⟩

theorem accepted_of {m : Accepted.Mode} {t : Bytes} {v : Json} {ks : List ExnKind}
    (h : ∃ st, Model.read (envOf m.strict m.ascii m.sort m.half) (St.init [] 0 t) = .ret (some v) st ∧ (decide (st.rest = []) && decide (st.warns.map Exn.kind = ks)) = true) :
    ∃ w u, t = w ++ u ++ [] ∧ Blank w ∧ Accepted.Value m u [] v ks := by
  obtain ⟨st, h1, h2⟩ := h
  simp only [Bool.and_eq_true, decide_eq_true_iff] at h2
  exact (C126_accepted_exactly m.strict m.ascii m.sort m.half [] 0 t v [] ks).mp ⟨st, h1, h2.1, h2.2⟩

/-- A run through three inputs: two documents, a warning about the key of the second, and a mistake in the third. -/
theorem runs_sample : Batch.Runs ⟨false, false, true, fun _ => none⟩ [(false, b!"[1]"), (false, b!"{\"k\":1,\"k\":2}"), (false, b!"[nul]")] [.arr [.int 1], .obj [(b!"k", .int 2)]]
    [.doubleKey b!"k"] (.mistake (.error .format)) := by
  obtain ⟨w1, u1, e1, b1, v1⟩ := accepted_of (m := ⟨false, false, true, fun _ => none⟩) (t := b!"[1]") (v := .arr [.int 1]) (ks := []) (returns_sound (by decide +kernel))
  obtain ⟨w2, u2, e2, b2, v2⟩ := accepted_of (m := ⟨false, false, true, fun _ => none⟩) (t := b!"{\"k\":1,\"k\":2}") (v := .obj [(b!"k", .int 2)]) (ks := [.doubleKey b!"k"]) (returns_sound (by decide +kernel))
  obtain ⟨ex, h1, h2⟩ := throws_sound (o := Model.read (envOf false false true) (St.init [] 0 b!"[nul]")) (p := fun x => decide (x.kind = .format)) (by decide +kernel)
  have h3 := ((C127_refused_exactly false false true (fun _ => none) [] 0 b!"[nul]").1 (.error .format)).mp ⟨ex.hist, by rw [h1, ← of_decide_eq_true h2]⟩
  have := Batch.Runs.document b1 v1 (.document b2 v2 (.mistake (inputs := []) h3))
  rw [← e1, ← e2] at this
  exact this

/-- The first two of them. -/
theorem runs_two : Batch.Runs ⟨false, false, true, fun _ => none⟩ [(false, b!"[1]"), (false, b!"{\"k\":1,\"k\":2}")] [.arr [.int 1], .obj [(b!"k", .int 2)]] [.doubleKey b!"k"] .complete := by
  obtain ⟨w1, u1, e1, b1, v1⟩ := accepted_of (m := ⟨false, false, true, fun _ => none⟩) (t := b!"[1]") (v := .arr [.int 1]) (ks := []) (returns_sound (by decide +kernel))
  obtain ⟨w2, u2, e2, b2, v2⟩ := accepted_of (m := ⟨false, false, true, fun _ => none⟩) (t := b!"{\"k\":1,\"k\":2}") (v := .obj [(b!"k", .int 2)]) (ks := [.doubleKey b!"k"]) (returns_sound (by decide +kernel))
  have := Batch.Runs.document b1 v1 (.document b2 v2 .complete)
  rw [← e1, ← e2] at this
  exact this

/-- The hypotheses of C128 are met by the inputs `[1]`, `{"k":1,"k":2}` and `[nul]`, read with `-W`: two documents are printed, and the mistake in the third input ends the run with status 0. -/
example : ∃ s, Asks (terminal false) [b!"-W", b!"a", b!"c", b!"b"] s ∧ Redirected (terminal false).world s ∧ (∀ name, ((terminal false).world.junk name).1.length = 45) ∧
    Batch.Runs (modeOf (terminal false) s) ((getInputs s).zipIdx.map fun x => ((terminal false).signal x.2, textOf (terminal false).world s x.1.2)) [.arr [.int 1], .obj [(b!"k", .int 2)]] [.doubleKey b!"k"]
      (.mistake (.error .format)) ∧
    (Batch.filtering ((terminal false).world.fmt s) s.compressMode [.arr [.int 1], .obj [(b!"k", .int 2)]] [.doubleKey b!"k"] (.mistake (.error .format))).2 = .main (.exit 0) ∧
    [Json.arr [.int 1], .obj [(b!"k", .int 2)]].flatMap (Batch.print ((terminal false).world.fmt s) s.compressMode) = b!"[\n    1\n]\n{\n    \"k\":2\n}\n" :=
  ⟨_, rfl, ⟨rfl, rfl, .inl rfl⟩, fun _ => rfl, runs_sample, rfl, by decide +kernel⟩

/-- The hypotheses of C129 are met by two inputs: the files are written, the command is run with their names, and they are removed; with the third input, the command is not run; if the second file cannot be created,
the program hangs with the first one written. -/
example : ∃ s, Asks (terminal true) [b!"-W", b!"--diff-cmd", b!"diff", b!"{}", b!";", b!"a", b!"c"] s ∧ s.diffCmd = some [b!"diff", b!"{}"] ∧ (∀ name, ((terminal true).world.junk name).1.length = 45) ∧
    (∀ x ∈ [b!"-W", b!"--diff-cmd", b!"diff", b!"{}", b!";", b!"a", b!"c"], 0 ∉ x) ∧
    Batch.Runs (modeOf (terminal true) s) ((getInputs s).zipIdx.map fun x => ((terminal true).signal x.2, textOf (terminal true).world s x.1.2)) [.arr [.int 1], .obj [(b!"k", .int 2)]] [.doubleKey b!"k"] .complete ∧
    (Batch.externally (terminal true).world.canCreate (terminal true).world.child [b!"diff", b!"{}"] ((terminal true).world.fmt s) s.compressMode [(b!"a", .arr [.int 1]), (b!"c", .obj [(b!"k", .int 2)])]
      [.doubleKey b!"k"] .complete).1.length = 5 ∧
    (Batch.externally (terminal true).world.canCreate (terminal true).world.child [b!"diff", b!"{}"] ((terminal true).world.fmt s) s.compressMode [(b!"a", .arr [.int 1]), (b!"c", .obj [(b!"k", .int 2)])]
      [.doubleKey b!"k"] (.mistake (.error .format))).1.length = 4 ∧
    (Batch.externally (fun f => f ≠ DiffCmd.tempName b!"c") (terminal true).world.child [b!"diff", b!"{}"] ((terminal true).world.fmt s) s.compressMode [(b!"a", .arr [.int 1]), (b!"c", .obj [(b!"k", .int 2)])]
      [.doubleKey b!"k"] .complete).2 = .main .hangs := by
  refine ⟨_, rfl, rfl, fun _ => rfl, by decide, runs_two, ?_, ?_, ?_⟩
  · decide +kernel
  · decide +kernel
  · decide +kernel

/-- The hypotheses of C130 are met by the three inputs: two documents are shown, and the terminal is given back. -/
example : ∃ s, Asks (terminal true) [b!"-W", b!"a", b!"c", b!"b"] s ∧ Browsing (terminal true).world s ∧ (∀ name, ((terminal true).world.junk name).1.length = 45) ∧
    Batch.Runs (modeOf (terminal true) s) ((getInputs s).map fun x => (false, textOf (terminal true).world s x.2)) [.arr [.int 1], .obj [(b!"k", .int 2)]] [.doubleKey b!"k"] (.mistake (.error .format)) ∧
    Batch.browsing true (terminal true).session [(b!"a", .arr [.int 1]), (b!"c", .obj [(b!"k", .int 2)])] [.doubleKey b!"k"] (.mistake (.error .format)) =
      ([.enter, .view [(b!"a", .arr [.int 1])], .view [(b!"c", .obj [(b!"k", .int 2)])], .leave], .main (.exit 0)) :=
  ⟨_, rfl, ⟨rfl, rfl, rfl, rfl⟩, fun _ => rfl, runs_sample, rfl⟩

/-- The hypotheses of C131 are met by two inputs, which are shown side by side. -/
example : ∃ s, Asks (terminal true) [b!"-W", b!"--diff", b!"a", b!"c"] s ∧ Comparing s ∧ (∀ name, ((terminal true).world.junk name).1.length = 45) ∧
    Batch.Runs (modeOf (terminal true) s) ((getInputs s).zipIdx.map fun x => ((terminal true).signal x.2, textOf (terminal true).world s x.1.2)) [.arr [.int 1], .obj [(b!"k", .int 2)]] [.doubleKey b!"k"] .complete ∧
    (Diff.diff ((terminal true).world.fmt s) (.arr [.int 1]) (.obj [(b!"k", .int 2)])).isNone = false ∧
    ∀ clash : Json → Json → Bool, clash (.arr [.int 1]) (.obj [(b!"k", .int 2)]) = false →
      Batch.comparing true (terminal true).session clash [(b!"a", .arr [.int 1]), (b!"c", .obj [(b!"k", .int 2)])] [.doubleKey b!"k"] .complete =
        ([.enter, .view [(b!"a", .arr [.int 1]), (b!"c", .obj [(b!"k", .int 2)])], .leave], .main (.exit 0)) := by
  refine ⟨_, rfl, ⟨rfl, rfl⟩, fun _ => rfl, runs_two, ?_, ?_⟩
  · decide +kernel
  · intro clash hc
    simp [Batch.comparing, Batch.fatal, hc, Batch.farewell, Batch.unsayable, terminal]

end Verif.Props
