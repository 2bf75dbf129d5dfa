import Verif.Props.Program
import Verif.Props.Double
/-!
# C118: the program as a formatter, from the command line to the output
-/
namespace Verif.Props
open Verif.Model Verif.Model.Params Verif.Model.Main Verif.Model.Program Verif.Spec Verif.Spec.CommandLine Verif.Spec.Process Verif.Lemmas.Program Verif.Model.Output

/-- The options that do not ask for a comparison. -/
def plainOptions : List Bytes := [b!"-W", b!"--ascii", b!"--color", b!"--color=always", b!"--color=never", b!"--compress", b!"--keep-order"]

/-- The three ways to give the program one text: a file, standard input, or the command line. -/
inductive Given (e : Surround) (opts : List Bytes) (text : Bytes) : List Bytes → Prop
  | file (f : Bytes) : b!"-".isPrefixOf f = false → e.world.files f = some text → Given e opts text (opts ++ [f])
  | stdin : e.world.stdin = text → Given e opts text opts
  | line : Given e opts text (opts ++ [b!"--", text])

/-- The program is asked to format: the output is no terminal (or `--compress` is given), no signal arrives, fractional numbers are written with a point. -/
structure Formatting (e : Surround) (opts : List Bytes) : Prop where
  plain : ∀ o ∈ opts, o ∈ plainOptions
  redirected : e.world.tty = false ∨ b!"--compress" ∈ opts
  quiet : ∀ i, e.signal i = false
  point : e.world.point = b!"." ∨ b!"--ascii" ∈ opts

/-- The words of a line of options. -/
theorem singles_map (opts : List Bytes) : singles (opts.map .single) = opts := by
  induction opts with
  | nil => rfl
  | cons o opts ih => simp only [List.map_cons]; rw [show Word.single o :: opts.map .single = [.single o] ++ opts.map .single from rfl,
      Verif.Lemmas.singles_append, ih]; rfl

theorem commands_map (opts : List Bytes) : commands (opts.map .single) = [] := by
  simp [commands]

theorem texts_map (opts : List Bytes) : CommandLine.texts (opts.map .single) = [] := by
  simp [CommandLine.texts]

theorem args_map (opts : List Bytes) : (opts.map Word.single).flatMap Word.args = opts := by
  induction opts with
  | nil => rfl
  | cons o opts ih => simp [Word.args, ih]

theorem plain_files {opts : List Bytes} (h : ∀ o ∈ opts, o ∈ plainOptions) : files (opts.map .single) = [] := by
  rw [files, singles_map, List.filter_eq_nil_iff]
  intro o ho
  have := h o ho
  simp only [plainOptions, List.mem_cons, List.not_mem_nil, or_false] at this
  rcases this with rfl | rfl | rfl | rfl | rfl | rfl | rfl <;> decide

theorem proper_map : ∀ {opts : List Bytes}, (∀ o ∈ opts, o ≠ b!"--" ∧ o ≠ b!"--diff-cmd") → Proper (opts.map .single)
  | [], _ => trivial
  | o :: opts, h => ⟨(h o (by simp)).1, (h o (by simp)).2, proper_map fun x hx => h x (by simp [hx])⟩

theorem closed_map (opts : List Bytes) : Closed (opts.map .single) := by
  intro w hw
  obtain ⟨o, _, rfl⟩ := List.mem_map.mp hw
  trivial

/-- The settings with which one text is formatted. -/
structure Sets (opts : List Bytes) (s : Settings) : Prop where
  strict : s.strict = decide (b!"-W" ∉ opts)
  ascii : s.ignoreUnicode = decide (b!"--ascii" ∈ opts)
  sorted : s.sorted = decide (b!"--keep-order" ∉ opts)
  compress : s.compressMode = decide (b!"--compress" ∈ opts)
  diff : s.diffMode = false
  cmd : s.diffCmd = none

open Verif.Lemmas in
theorem given_settings {e : Surround} {opts args : List Bytes} {text : Bytes} (hf : ∀ o ∈ opts, o ∈ plainOptions) (hg : Given e opts text args) :
    ∃ s x, Asks e args s ∧ Sets opts s ∧ getInputs s = [x] ∧ textOf e.world s x.2 = text := by
  have hp : ∀ o ∈ opts, o ≠ b!"--" ∧ o ≠ b!"--diff-cmd" := by
    intro o ho
    have := hf o ho
    simp only [plainOptions, List.mem_cons, List.not_mem_nil, or_false] at this
    rcases this with rfl | rfl | rfl | rfl | rfl | rfl | rfl <;> decide
  have hfl : ∀ o ∈ opts, o ∈ flags := by
    intro o ho
    have := hf o ho
    simp only [plainOptions, flags, List.mem_cons, List.not_mem_nil, or_false] at this ⊢
    rcases this with rfl | rfl | rfl | rfl | rfl | rfl | rfl <;> simp
  have hnd : b!"--diff" ∉ opts := fun h => absurd (hf _ h) (by decide)
  have hgo : ∀ (ws : List Word), CommandLine.Good (fun f => (e.world.files f).isSome) ws → singles ws = opts ∨ (∃ f, singles ws = opts ++ [f] ∧ b!"-".isPrefixOf f = false) →
      Params.read (fun f => (e.world.files f).isSome) (ws.flatMap Word.args) = .go (meaning ws) ∧
      (commands ws = [] → Sets opts (meaning ws)) := by
    intro ws h1 h2
    have key : ∀ o : Bytes, b!"-".isPrefixOf o = true → (o ∈ singles ws ↔ o ∈ opts) := by
      intro o ho
      rcases h2 with h2 | ⟨f, h2, h3⟩
      · rw [h2]
      · rw [h2]
        constructor
        · intro h
          rcases List.mem_append.mp h with h | h
          · exact h
          · rw [List.mem_singleton.mp h, h3] at ho
            cases ho
        · intro h
          exact List.mem_append_left _ h
    constructor
    · rw [read_good h1, if_neg]
      rw [key _ (by decide)]
      exact hnd
    · intro h3
      exact ⟨by simp only [meaning, key b!"-W" (by decide)], by simp only [meaning, key b!"--ascii" (by decide)],
        by simp only [meaning, key b!"--keep-order" (by decide)], by simp only [meaning, key b!"--compress" (by decide)],
        by simp only [meaning, key b!"--diff" (by decide)]; simpa using hnd, by simp only [meaning, h3]; rfl⟩
  cases hg with
  | file f h1 h2 =>
    have e1 : singles (opts.map .single ++ [.single f]) = opts ++ [f] := by rw [singles_append, singles_map]; rfl
    have e2 : commands (opts.map .single ++ [.single f]) = [] := by rw [commands_append, commands_map]; rfl
    have e3 : files (opts.map .single ++ [.single f]) = [f] := by
      rw [files_append, plain_files hf]
      simp [files, singles, h1]
    have e4 : CommandLine.texts (opts.map .single ++ [.single f]) = [] := by rw [texts_append, texts_map]; rfl
    have hn : f ≠ b!"--" ∧ f ≠ b!"--diff-cmd" := by
      constructor <;> (rintro rfl; revert h1; decide)
    have hgd : CommandLine.Good (fun f => (e.world.files f).isSome) (opts.map .single ++ [.single f]) := by
      refine ⟨(proper_append (closed_map opts)).mpr ⟨proper_map hp, hn.1, hn.2, trivial⟩, ?_, ?_, ?_, ?_⟩
      · intro a ha
        rw [e1] at ha
        rcases List.mem_append.mp ha with ha | ha
        · exact .inl (hfl a ha)
        · rw [List.mem_singleton.mp ha]; exact .inr h1
      · rw [e3]
        intro g hg
        rw [List.mem_singleton.mp hg]
        rw [h2]
        rfl
      · rw [e3]; simp
      · rw [e2]; simp
    obtain ⟨g1, g2⟩ := hgo _ hgd (.inr ⟨f, e1, h1⟩)
    have hin : inputsOf (opts.map .single ++ [.single f]) = [(f, .file f)] := by rw [inputsOf, if_pos e4, e3]; rfl
    refine ⟨_, (f, .file f), ?_, g2 e2, ?_, ?_⟩
    · have : (opts.map Word.single ++ [Word.single f]).flatMap Word.args = opts ++ [f] := by rw [List.flatMap_append, args_map]; rfl
      rw [Asks, ← this]
      exact g1
    · rw [getInputs]
      show (if inputsOf _ ≠ [] then inputsOf _ else _) = _
      rw [hin, if_pos (by simp)]
    · show (e.world.files f).getD [] = text
      rw [h2]
      rfl
  | stdin h1 =>
    have hgd : CommandLine.Good (fun f => (e.world.files f).isSome) (opts.map .single) := by
      refine ⟨proper_map hp, ?_, ?_, ?_, ?_⟩
      · intro a ha
        rw [singles_map] at ha
        exact .inl (hfl a ha)
      · rw [plain_files hf]; simp
      · rw [plain_files hf]; simp
      · rw [commands_map]; simp
    obtain ⟨g1, g2⟩ := hgo _ hgd (.inl (singles_map opts))
    have hin : inputsOf (opts.map .single) = [] := by rw [inputsOf, if_pos (texts_map opts), plain_files hf]; rfl
    refine ⟨_, (b!"STDIN", .stdin), ?_, g2 (commands_map opts), ?_, h1⟩
    · rw [Asks]
      rw [args_map] at g1
      exact g1
    · rw [getInputs]
      show (if inputsOf _ ≠ [] then inputsOf _ else _) = _
      rw [hin, if_neg (by simp)]
  | line =>
    have e1 : singles (opts.map .single ++ [.text [text]]) = opts := by rw [singles_append, singles_map]; simp [singles]
    have e2 : commands (opts.map .single ++ [.text [text]]) = [] := by rw [commands_append, commands_map]; rfl
    have e3 : files (opts.map .single ++ [.text [text]]) = [] := by rw [files_append, plain_files hf]; rfl
    have e4 : CommandLine.texts (opts.map .single ++ [.text [text]]) = [[text]] := by rw [texts_append, texts_map]; rfl
    have hgd : CommandLine.Good (fun f => (e.world.files f).isSome) (opts.map .single ++ [.text [text]]) := by
      refine ⟨(proper_append (closed_map opts)).mpr ⟨proper_map hp, rfl⟩, ?_, ?_, ?_, ?_⟩
      · intro a ha
        rw [e1] at ha
        exact .inl (hfl a ha)
      · rw [e3]; simp
      · rw [e3]; simp
      · rw [e2]; simp
    obtain ⟨g1, g2⟩ := hgo _ hgd (.inl e1)
    have hin : inputsOf (opts.map .single ++ [.text [text]]) = [(b!"ARGS", .text)] := by
      rw [inputsOf, if_neg (by rw [e4]; simp), e3]; rfl
    refine ⟨_, (b!"ARGS", .text), ?_, g2 e2, ?_, ?_⟩
    · have : (opts.map Word.single ++ [Word.text [text]]).flatMap Word.args = opts ++ [b!"--", text] := by rw [List.flatMap_append, args_map]; rfl
      rw [Asks, ← this]
      exact g1
    · rw [getInputs]
      show (if inputsOf _ ≠ [] then inputsOf _ else _) = _
      rw [hin, if_pos (by simp)]
    · show joined ((CommandLine.texts _).head?.getD []) = text
      rw [e4]
      rfl

/-- One text that is read strictly without warnings is printed, and that is all that happens. -/
theorem formats {e : Surround} {opts args : List Bytes} {text : Bytes} (hf : Formatting e opts) (hg : Given e opts text args) (v : Json)
    (hr : ∀ junk n, ∃ st, Model.read (envOf true (decide (b!"--ascii" ∈ opts)) (decide (b!"--keep-order" ∉ opts)) e.world.surr) (St.init junk n text) = .ret (some v) st) :
    (program e args).1.tape = [.output (display (Double.fmt b!".") (decide (b!"--compress" ∈ opts)) v)] ∧ (program e args).2 = .main (.exit 0) := by
  obtain ⟨s, x, h1, h2, h3, h4⟩ := given_settings hf.plain hg
  have hh : Holds e.world s x v [] := by
    obtain ⟨st, hst⟩ := hr (e.world.junk x.1).1 (e.world.junk x.1).2
    obtain ⟨k1, k2⟩ := C05_strict_conservative _ _ _ _ _ _ _ _ hst
    refine ⟨st, ?_, k1⟩
    rw [h4, h2.ascii, h2.sorted]
    cases s.strict
    · exact k2
    · exact hst
  have hfmt : e.world.fmt s = Double.fmt b!"." := by
    unfold World.fmt Double.pointInUse
    rw [h2.ascii]
    rcases hf.point with h | h
    · rw [h]; split <;> rfl
    · rw [if_pos (by simpa using h)]
  have hch : Program.choose e s ⟨[], false, false, false⟩ = Program.runStdout e s 0 [x] [] ⟨[], false, false, false⟩ := by
    unfold Program.choose
    rw [h2.cmd]
    dsimp only
    rw [h2.diff, h3, if_neg (by simp), if_neg]
    rw [h2.compress]
    rcases hf.redirected with h | h
    · simp [h]
    · simp [h]
  have hrun : Program.runStdout e s 0 [x] [] ⟨[], false, false, false⟩ =
      (⟨[.output (display (Double.fmt b!".") (decide (b!"--compress" ∈ opts)) v)], false, false, false⟩, .main .returned) := by
    rw [Program.runStdout, reading_unsignalled (hf.quiet 0), readOne_holds hh]
    dsimp only
    rw [Program.runStdout, hfmt, h2.compress]
    rfl
  rw [program_go h1, hch, hrun]
  exact ⟨rfl, rfl⟩

/-- **C118.** A text with a document that can be printed (see C21), given to the program in any way, is formatted: one text is written, and nothing else
happens. What is written is a standard JSON text with the same value. Formatting that again, with or without `--compress`, in other surroundings and given in another
way, writes the same as formatting the first text would. -/
theorem C118_formatting (e : Surround) (opts args : List Bytes) (d : Doc) (w rest : Bytes) (ascii sort : Bool) (ha : ascii = decide (b!"--ascii" ∈ opts))
    (hs : sort = decide (b!"--keep-order" ∉ opts)) (hf : Formatting e opts)
    (hwf : d.WF ascii) (hfit : d.Fits) (hdist : d.Distinct ascii) (hw : Blank w) (hr : Blank rest ∨ d.IsContainer)
    (hv : Printable ascii sort (Double.fmt b!".") (d.value ascii sort)) (hc : Clean (Double.fmt b!".") (d.value ascii sort))
    (hg : Given e opts (w ++ d.text ++ rest) args) :
    ∃ t, (program e args).1.tape = [.output t] ∧ (program e args).2 = .main (.exit 0) ∧
      (∃ (d' : Doc) (w' : Bytes), t = d'.text ++ w' ∧ d'.Standard ∧ d'.WF ascii ∧ d'.Distinct ascii ∧ Space w' ∧
        d'.value ascii sort = reprint (Double.fmt b!".") (d.value ascii sort)) ∧
      ∀ (e1 e2 : Surround) (opts' args1 args2 : List Bytes), ascii = decide (b!"--ascii" ∈ opts') → sort = decide (b!"--keep-order" ∉ opts') →
        Formatting e1 opts' → Formatting e2 opts' → Given e1 opts' t args1 → Given e2 opts' (w ++ d.text ++ rest) args2 →
        ∃ t', (program e1 args1).1.tape = [.output t'] ∧ (program e1 args1).2 = .main (.exit 0) ∧ (program e2 args2).1.tape = [.output t'] := by
  have first : ∀ (surr : Nat → Option Bytes) (junk : List Byte) (n : Nat), ∃ st,
      Model.read (envOf true ascii sort surr) (St.init junk n (w ++ d.text ++ rest)) = .ret (some (d.value ascii sort)) st := fun surr junk n =>
    let ⟨st, h, _⟩ := C02_documents_are_read ascii sort surr junk n d w rest hwf hfit hdist hw hr
    ⟨st, h⟩
  obtain ⟨p1, p2⟩ := formats hf hg (d.value ascii sort) (fun junk n => by rw [← ha, ← hs]; exact first _ junk n)
  refine ⟨_, p1, p2, C59_standard_output_partial (Double.fmt b!".") ascii sort _ _ hv hc, ?_⟩
  intro e1 e2 opts' args1 args2 ha' hs' f1 f2 g1 g2
  obtain ⟨q1, q2⟩ := formats f1 g1 (reprint (Double.fmt b!".") (d.value ascii sort)) (fun junk n => by
    rw [← ha', ← hs']
    obtain ⟨st, h, _⟩ := C21_round_trip_partial (Double.fmt b!".") ascii sort (decide (b!"--compress" ∈ opts)) e1.world.surr junk n _ hv
    exact ⟨st, h⟩)
  obtain ⟨r1, r2⟩ := formats f2 g2 (d.value ascii sort) (fun junk n => by rw [← ha', ← hs']; exact first _ junk n)
  refine ⟨_, q1, q2, ?_⟩
  rw [r1]
  rw [show display (Double.fmt b!".") (decide (b!"--compress" ∈ opts')) (reprint (Double.fmt b!".") (d.value ascii sort)) =
      display (Double.fmt b!".") (decide (b!"--compress" ∈ opts')) (d.value ascii sort) from
    reprint_write ascii sort _ (printable_stable ascii sort) _ _ 0 false hv]

/-- `{"b": [1, -20, true], "a" : 1.5, "c":{ } }` -/
def dataExample : Doc :=
  .obj (.more [] [.raw 98] [] [32] (.arr (.more [] (.int false b!"1") [] (.more [32] (.int true b!"20") [] (.one [32] .true []))))
    [] (.more [32] [.raw 97] [32] [32] (.frac false b!"1" b!"5") [] (.one [32] [.raw 99] [] [] (.obj0 [32]) [32])))

/-- The file `a` has that text. -/
def dataWorld : Surround := { terminal false with world := { exampleWorld with tty := false, files := fun f => if f = b!"a" then some (dataExample.text ++ [10]) else none } }

/-- The theorem applies to `--compress --keep-order a`. -/
example : (Formatting dataWorld [b!"--compress", b!"--keep-order"] ∧ Given dataWorld [b!"--compress", b!"--keep-order"] ([] ++ dataExample.text ++ [10]) [b!"--compress", b!"--keep-order", b!"a"]) ∧
    (dataExample.WF false ∧ dataExample.Fits ∧ dataExample.Distinct false) ∧
    Printable false false (Double.fmt b!".") (dataExample.value false false) ∧ Clean (Double.fmt b!".") (dataExample.value false false) := by
  refine ⟨⟨⟨by decide, .inr (by decide), fun _ => rfl, .inl (by decide)⟩, .file b!"a" (by decide) (by decide +kernel)⟩, ?_, ?_, ?_⟩
  · refine ⟨?_, ?_, ?_⟩
    · simp [dataExample, Doc.WF, Items.WF, Members.WF, strWF, StrItem.WF, Digits, Blank]
    · simp [dataExample, Doc.Fits, Items.Fits, Members.Fits, FitsLong, intValue, decimal]
    · simp [dataExample, Doc.Distinct, Items.Distinct, Members.Distinct, Members.keys, strValue, StrItem.value]
  · have h : dataExample.value false false = .obj [(b!"b", .arr [.int 1, .int (-20), .bool true]), (b!"a", .dbl b!"1.5"), (b!"c", .obj [])] := by decide
    rw [h]
    refine ⟨by decide, by simp, selfReading_raw _ _ (by decide), by simp,
      ⟨⟨by decide, by decide, by decide⟩, ⟨by decide, by decide, by decide⟩, trivial, trivial⟩, selfReading_raw _ _ (by decide), by simp, ?_, selfReading_raw _ _ (by decide), by simp, ⟨by decide, by simp, trivial⟩, trivial⟩
    exact ⟨false, b!"1", b!"500000", by simp [Digits], by simp [Digits], by decide +kernel⟩
  · have h : dataExample.value false false = .obj [(b!"b", .arr [.int 1, .int (-20), .bool true]), (b!"a", .dbl b!"1.5"), (b!"c", .obj [])] := by decide
    have hf : Double.fmt b!"." b!"1.5" = b!"1.500000" := by decide +kernel
    rw [h]
    simp [Clean, CleanItems, CleanEntries, NoControl, NoLeadingZero, hf]

/-- What is written in the example, by evaluation. -/
example : (match (program dataWorld [b!"--compress", b!"a"]).1.tape with
    | [.output t] => decide (t = b!"{\"a\":1.500000,\"b\":[1,-20,true],\"c\":{}}\n" ∨ t = b!"{\"a\":1.500000,\"b\":[1,-20,true],\"c\":{}}")
    | _ => false) = true := by decide +kernel

end Verif.Props
