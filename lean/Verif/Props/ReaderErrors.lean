import Verif.Lemmas.ReaderCause
import Verif.Props.ReaderGrammar
/-!
# Properties C10, C15, C58, C59: literals, unknown escapes, and how reading can crash
-/
namespace Verif.Props
open Verif.Model Verif.Spec Verif.Lemmas

theorem toLower_cases {x y : Byte} (h : toLower x = y) : x = y ∨ x + 32 = y := by
  unfold toLower at h; split at h <;> omega

theorem bool_step (env : Env) {fl x y : Byte} (rest : Bytes) (hist : LHist) (warns : List Exn) (l r : Bytes) (hx : toLower x = y)
    (hy : isBoolLetter y = true) (hl : ¬ ((l.length ≥ 5 ∧ fl = 102) ∨ (l.length ≥ 4 ∧ fl = 116))) :
    boolLoop env fl (x :: rest) hist warns l r = boolLoop env fl rest (hist.put x) warns (l ++ [y]) (r ++ [x]) := by
  rw [boolLoop, hx, if_pos hy, if_neg hl]

/-- All letters of a boolean literal were read. -/
theorem bool_word (env : Env) (b : Bool) (word rest : Bytes) (hw : word.map toLower = if b then b!"true" else b!"false") (hist : LHist) (warns : List Exn) :
    ∃ h, tokenLoop env (word ++ rest) hist warns =
      boolLoop env (if b then 116 else 102) rest h warns (if b then b!"true" else b!"false") word := by
  cases b
  · rcases word with _ | ⟨x1, _ | ⟨x2, _ | ⟨x3, _ | ⟨x4, _ | ⟨x5, _ | ⟨x6, l⟩⟩⟩⟩⟩⟩ <;> simp at hw
    obtain ⟨h1, h2, h3, h4, h5⟩ := hw
    have hc := toLower_cases h1
    refine ⟨((((hist.put x1).put x2).put x3).put x4).put x5, ?_⟩
    simp only [List.cons_append, List.nil_append, tokenLoop]
    rw [if_neg (by omega), if_pos (by omega)]
    simp only [consumeBool]
    rw [h1, bool_step env _ _ _ _ _ h2 (by decide) (by simp), bool_step env _ _ _ _ _ h3 (by decide) (by simp),
      bool_step env _ _ _ _ _ h4 (by decide) (by simp), bool_step env _ _ _ _ _ h5 (by decide) (by simp)]
    rfl
  · rcases word with _ | ⟨x1, _ | ⟨x2, _ | ⟨x3, _ | ⟨x4, _ | ⟨x5, l⟩⟩⟩⟩⟩ <;> simp at hw
    obtain ⟨h1, h2, h3, h4⟩ := hw
    have hc := toLower_cases h1
    refine ⟨(((hist.put x1).put x2).put x3).put x4, ?_⟩
    simp only [List.cons_append, List.nil_append, tokenLoop]
    rw [if_neg (by omega), if_pos (by omega)]
    simp only [consumeBool]
    rw [h1, bool_step env _ _ _ _ _ h2 (by decide) (by simp), bool_step env _ _ _ _ _ h3 (by decide) (by simp),
      bool_step env _ _ _ _ _ h4 (by decide) (by simp)]
    rfl

/-- The root is read from the first token. -/
theorem read_token (env : Env) (junk : List Byte) (n : Nat) (x : Bytes) :
    (∀ v s, tokenLoop env x (LHist.init junk n) [] = .ret (.val v) s → Model.read env (St.init junk n x) = .ret (some v) s) ∧
    (∀ e, tokenLoop env x (LHist.init junk n) [] = .throw e → Model.read env (St.init junk n x) = .throw e) ∧
    (∀ s, tokenLoop env x (LHist.init junk n) [] = .ret .nothing s → Model.read env (St.init junk n x) = .ret none s) := by
  unfold Model.read
  rw [readNext_succ]
  have : consumeToken env (St.init junk n x) = tokenLoop env x (LHist.init junk n) [] := rfl
  rw [this]
  refine ⟨?_, ?_, ?_⟩ <;> intros <;> simp_all [Out.bind]

/-- **C15.** For every spelling of `true` and `false` in mixed letter case, when the next byte is not one of the letters
`aelrsu`: the lower-case spelling is read silently; any other one is rejected in strict mode, and read with exactly one message
under `-W`. If the next byte is one of these letters the literal is rejected. For `null` the same holds whatever follows.
(Reading stops directly after the literal in each case.) -/
theorem C15_literals (ascii sort : Bool) (surr : Nat → Option Bytes) (junk : List Byte) (n : Nat) (w word rest : Bytes) (hw : Blank w) :
    (∀ b : Bool, word.map toLower = (if b then b!"true" else b!"false") →
      ((∀ c r, rest = c :: r → toLower c ∉ b!"aelrsu") →
        (word = (if b then b!"true" else b!"false") → ∀ strict, ∃ s',
          Model.read (envOf strict ascii sort surr) (St.init junk n (w ++ word ++ rest)) = .ret (some (.bool b)) s' ∧ s'.warns = [] ∧ s'.rest = rest) ∧
        (word ≠ (if b then b!"true" else b!"false") →
          (∃ h, Model.read (envOf true ascii sort surr) (St.init junk n (w ++ word ++ rest)) = .throw ⟨.format, h⟩) ∧
          (∃ s' h, Model.read (envOf false ascii sort surr) (St.init junk n (w ++ word ++ rest)) = .ret (some (.bool b)) s' ∧
            s'.warns = [⟨.format, h⟩] ∧ s'.rest = rest))) ∧
      (∀ c r, rest = c :: r → toLower c ∈ b!"aelrsu" → ∀ strict, ∃ h,
        Model.read (envOf strict ascii sort surr) (St.init junk n (w ++ word ++ rest)) = .throw ⟨.format, h⟩)) ∧
    (word.map toLower = b!"null" →
      (word = b!"null" → ∀ strict, ∃ s',
        Model.read (envOf strict ascii sort surr) (St.init junk n (w ++ word ++ rest)) = .ret (some .null) s' ∧ s'.warns = [] ∧ s'.rest = rest) ∧
      (word ≠ b!"null" →
        (∃ h, Model.read (envOf true ascii sort surr) (St.init junk n (w ++ word ++ rest)) = .throw ⟨.format, h⟩) ∧
        (∃ s' h, Model.read (envOf false ascii sort surr) (St.init junk n (w ++ word ++ rest)) = .ret (some .null) s' ∧
          s'.warns = [⟨.format, h⟩] ∧ s'.rest = rest))) := by
  have hletter : ∀ c, (isBoolLetter c = true ↔ c ∈ b!"aelrsu") := by
    intro c; unfold isBoolLetter; simp [or_assoc]
  constructor
  · intro b hb
    have htok : ∀ strict, ∃ h, tokenLoop (envOf strict ascii sort surr) (w ++ word ++ rest) (LHist.init junk n) [] =
        boolLoop (envOf strict ascii sort surr) (if b then 116 else 102) rest h [] (if b then b!"true" else b!"false") word := by
      intro strict
      obtain ⟨h, e⟩ := bool_word (envOf strict ascii sort surr) b word rest hb (w.foldl LHist.put (LHist.init junk n)) []
      exact ⟨h, by rw [List.append_assoc, skip_blank hw, e]⟩
    constructor
    · intro hf
      have hend : ∀ strict h, ∃ s c, s.warns = [] ∧ (s.unget c).rest = rest ∧ boolLoop (envOf strict ascii sort surr) (if b then 116 else 102) rest h [] (if b then b!"true" else b!"false") word =
          boolEnd (envOf strict ascii sort surr) s c (if b then b!"true" else b!"false") word := by
        intro strict h
        cases rest with
        | nil => exact ⟨_, _, rfl, rfl, by rw [boolLoop]⟩
        | cons c r =>
          refine ⟨⟨r, true, h.put c, []⟩, c, rfl, rfl, ?_⟩
          rw [boolLoop, if_neg (by rw [hletter]; exact hf c r rfl)]
      have hlit : ¬ ((if b then b!"true" else b!"false") ≠ b!"true" ∧ (if b then b!"true" else b!"false") ≠ b!"false") := by cases b <;> simp
      have hval : decide ((if b then b!"true" else b!"false") = b!"true") = b := by cases b <;> simp
      constructor
      · intro hword strict
        obtain ⟨h, e⟩ := htok strict
        obtain ⟨s, c, hs, hr, e'⟩ := hend strict h
        have he : boolEnd (envOf strict ascii sort surr) s c (if b then b!"true" else b!"false") word =
            .ret (.val (.bool b)) (St.unget { s with hist := s.hist.popBack } c) := by
          rw [hword, boolEnd_exact]
        refine ⟨_, (read_token _ _ _ _).1 _ _ (e.trans (e'.trans he)), ?_⟩
        simp only [St.unget] at hr ⊢
        split at hr <;> rename_i hg <;> simp [hg, hs, hr]
      · intro hword
        have hneq : (if b then b!"true" else b!"false") ≠ word := fun h => hword h.symm
        constructor
        · obtain ⟨h, e⟩ := htok true
          obtain ⟨s, c, hs, hr, e'⟩ := hend true h
          refine ⟨s.hist, (read_token _ _ _ _).2.1 _ (e.trans (e'.trans ?_))⟩
          unfold boolEnd
          rw [if_neg hlit, if_neg (by simp [envOf]), if_pos (by exact ⟨hneq, rfl⟩)]
        · obtain ⟨h, e⟩ := htok false
          obtain ⟨s, c, hs, hr, e'⟩ := hend false h
          have he : boolEnd (envOf false ascii sort surr) s c (if b then b!"true" else b!"false") word =
              .ret (.val (.bool b)) (St.unget ⟨s.rest, s.good, s.hist.popBack, s.warns ++ [⟨.format, s.hist⟩]⟩ c) := by
            unfold boolEnd
            rw [if_neg hlit, if_neg (by simp [envOf]), if_neg (by simp [envOf, Env.strictAnd])]
            simp only [hval, hneq, ne_eq, not_false_eq_true, if_true]
          refine ⟨_, s.hist, (read_token _ _ _ _).1 _ _ (e.trans (e'.trans he)), ?_⟩
          simp only [St.unget] at hr ⊢
          split at hr <;> rename_i hg <;> simp [hg, hs, hr]
    · intro c r hrest hc strict
      obtain ⟨h, e⟩ := htok strict
      refine ⟨h.put c, (read_token _ _ _ _).2.1 _ (e.trans ?_)⟩
      rw [hrest, boolLoop, if_pos ((hletter _).mpr hc), if_pos (by cases b <;> simp)]
  · intro hb
    rcases word with _ | ⟨x1, _ | ⟨x2, _ | ⟨x3, _ | ⟨x4, _ | ⟨x5, l⟩⟩⟩⟩⟩ <;> simp at hb
    obtain ⟨h1, h2, h3, h4⟩ := hb
    have hc1 := toLower_cases h1; have hc2 := toLower_cases h2; have hc3 := toLower_cases h3; have hc4 := toLower_cases h4
    obtain ⟨hist, hp⟩ := putN_some ((w.foldl LHist.put (LHist.init junk n)).put x1) [x2, x3, x4, 0] 3 (by simp)
      (by simp; omega)
    have htok : ∀ strict, tokenLoop (envOf strict ascii sort surr) (w ++ [x1, x2, x3, x4] ++ rest) (LHist.init junk n) [] =
        if [x1, x2, x3, x4] = b!"null" then .ret (.val .null) ⟨rest, true, hist, []⟩
        else if strict then .throw ⟨.format, hist⟩
        else .ret (.val .null) ⟨rest, true, hist, [⟨.format, hist⟩]⟩ := by
      intro strict
      rw [List.append_assoc, skip_blank hw]
      simp only [List.cons_append, List.nil_append, tokenLoop]
      rw [if_neg (by omega), if_neg (by omega), if_pos (by omega)]
      simp only [consumeNull, hp, h2, h3, h4, if_true, envOf, List.nil_append]
      by_cases hx : [x1, x2, x3, x4] = b!"null"
      · rw [if_pos hx, if_pos hx.symm]
      · rw [if_neg hx, if_neg (fun h => hx h.symm)]
    constructor
    · intro hword strict
      refine ⟨_, (read_token _ _ _ _).1 _ _ ((htok strict).trans (if_pos hword)), rfl, rfl⟩
    · intro hword
      refine ⟨⟨hist, (read_token _ _ _ _).2.1 _ ?_⟩, ⟨rest, true, hist, [⟨.format, hist⟩]⟩, hist, (read_token _ _ _ _).1 _ _ ((htok false).trans ?_), rfl, rfl⟩
      · rw [htok true, if_neg hword, if_pos rfl]
      · rw [if_neg hword, if_neg (by simp)]

example : (b!"fAlSe").map toLower = b!"false" ∧ b!"fAlSe" ≠ b!"false" ∧ (b!"NULL").map toLower = b!"null" ∧ toLower (c%',') ∉ b!"aelrsu" := by decide

/-- **C58.** A backslash followed by a byte that is none of `" \ / b f n r t u`: rejected in strict mode; under `-W` both
characters are kept and exactly one message is added, wherever in a string literal this happens. -/
theorem C58_unknown_escapes (ascii sort : Bool) (surr : Nat → Option Bytes) (junk : List Byte) (n : Nat) (w rest : Bytes) (pre post : List StrItem) (c : Byte)
    (hw : Blank w) (hpre : strWF ascii pre) (hpost : strWF ascii post) (hc : c ∉ b!"\"\\/bfnrtu") :
    (∃ h, Model.read (envOf true ascii sort surr) (St.init junk n (w ++ [34] ++ pre.flatMap StrItem.text ++ [92, c] ++ rest)) =
      .throw ⟨.escaped c, h⟩) ∧
    (∃ s' h, Model.read (envOf false ascii sort surr)
        (St.init junk n (w ++ [34] ++ pre.flatMap StrItem.text ++ [92, c] ++ post.flatMap StrItem.text ++ [34] ++ rest)) =
      .ret (some (.str (strValue ascii pre ++ [92, c] ++ strValue ascii post))) s' ∧ s'.warns = [⟨.escaped c, h⟩] ∧ s'.rest = rest) := by
  simp at hc
  have htok : ∀ strict r, ∃ hA : LHist, tokenLoop (envOf strict ascii sort surr) (w ++ (34 :: (pre.flatMap StrItem.text ++ (92 :: c :: r)))) (LHist.init junk n) [] =
      if strict then .throw ⟨.escaped c, (hA.put 92).put c⟩
      else stringLoop (envOf strict ascii sort surr) r ((hA.put 92).put c) [⟨.escaped c, (hA.put 92).put c⟩] (strValue ascii pre ++ [92, c]) := by
    intro strict r
    obtain ⟨hA, e1⟩ := stringLoop_items (envOf strict ascii sort surr) pre hpre (92 :: c :: r)
      ((w.foldl LHist.put (LHist.init junk n)).put 34) [] []
    refine ⟨hA, ?_⟩
    rw [skip_blank hw, tokenLoop, if_pos rfl]
    simp only [consumeString]
    rw [e1, stringLoop.eq_def]
    dsimp only
    rw [if_neg (by decide), if_pos rfl, if_neg (by omega), if_neg (by omega), if_neg (by omega)]
    cases strict <;> simp [envOf, Env.strictAnd, Env.ascii]
  constructor
  · obtain ⟨hA, e⟩ := htok true rest
    refine ⟨_, (read_token _ _ _ _).2.1 _ (Eq.trans ?_ (e.trans (if_pos rfl)))⟩
    simp
  · obtain ⟨hA, e⟩ := htok false (post.flatMap StrItem.text ++ (34 :: rest))
    obtain ⟨hB, e2⟩ := stringLoop_items (envOf false ascii sort surr) post hpost (34 :: rest) ((hA.put 92).put c)
      [⟨.escaped c, (hA.put 92).put c⟩] (strValue ascii pre ++ [92, c])
    refine ⟨⟨rest, true, hB.put 34, [⟨.escaped c, (hA.put 92).put c⟩]⟩, (hA.put 92).put c, (read_token _ _ _ _).1 _ _ ?_, rfl, rfl⟩
    have : w ++ [34] ++ pre.flatMap StrItem.text ++ [92, c] ++ post.flatMap StrItem.text ++ [34] ++ rest =
      w ++ (34 :: (pre.flatMap StrItem.text ++ (92 :: c :: (post.flatMap StrItem.text ++ (34 :: rest))))) := by simp
    rw [this, e, if_neg (by simp), e2, stringLoop.eq_def]
    simp [envOf, Env.ascii]

example : c%'x' ∉ b!"\"\\/bfnrtu" ∧ strWF false [.raw 97] := by
  refine ⟨by decide, ?_⟩
  intro i hi; simp at hi; subst hi; simp [StrItem.WF]

/-- **C10 does not hold**: a missing value is undefined behaviour (a null pointer is dereferenced), also when the document is
merely truncated after a colon; a sign alone and an integer that is too large end with an exception nobody catches; a line feed
inside a `\u` escape makes the error history read outside its buffer. -/
theorem C10_no_crash_false (strict sort : Bool) (surr : Nat → Option Bytes) (junk : List Byte) (n : Nat) :
    Model.read (envOf strict false sort surr) (St.init junk n b!"{\"a\":}") = .ub .nullChild ∧
    Model.read (envOf strict false sort surr) (St.init junk n b!"{\"a\":") = .ub .nullChild ∧
    Model.read (envOf strict false sort surr) (St.init junk n b!"-") = .uncaught .invalidArgument ∧
    Model.read (envOf strict false sort surr) (St.init junk n b!"[9223372036854775808]") = .uncaught .outOfRange ∧
    Model.read (envOf strict false sort surr) (St.init junk n b!"\"\\u1\n23\"") = .ub .historyOutOfBounds := by
  refine ⟨?_, ?_, ?_, ?_, ?_⟩ <;> cases strict <;> cases sort <;> rfl

/-- **C10, the part that holds.** Each crash has its cause in the input: an uncaught `invalid_argument` needs a `-` or `.`; an
uncaught `out_of_range` needs 19 digits in a row; an uncaught `range_error` needs a `\u` escape of a surrogate;
undefined behaviour in the history needs a line feed directly inside a `\u` escape, or two of them in the three bytes after an `n`;
undefined behaviour by a missing value needs a colon with no complete value behind it; the null-configuration crash does not
happen with a configuration. On every other input `read()` returns or throws a `JsonException`. Missing: the inputs with such
causes (for them the property is false, see `C10_no_crash_false`). -/
theorem C10_no_crash_partial (strict ascii sort : Bool) (surr : Nat → Option Bytes) (junk : List Byte) (n : Nat) (input : Bytes) :
    (Model.read (envOf strict ascii sort surr) (St.init junk n input) = .uncaught .invalidArgument → c%'-' ∈ input ∨ c%'.' ∈ input) ∧
    (Model.read (envOf strict ascii sort surr) (St.init junk n input) = .uncaught .outOfRange →
      ∃ ds, ds <:+: input ∧ 19 ≤ ds.length ∧ Digits ds) ∧
    (Model.read (envOf strict ascii sort surr) (St.init junk n input) = .uncaught .rangeError →
      ∃ h1 h2 h3 h4 cp, [c%'\\', c%'u', h1, h2, h3, h4] <:+: input ∧ hexValue h1 h2 h3 h4 = some cp ∧ 0xD800 ≤ cp ∧ cp ≤ 0xDFFF) ∧
    (Model.read (envOf strict ascii sort surr) (St.init junk n input) = .ub .historyOutOfBounds →
      (∃ w, b!"\\u" ++ w ++ b!"\n" <:+: input ∧ w.length ≤ 2) ∨
      (∃ d w1 w2, (d = c%'n' ∨ d = c%'N') ∧ [d] ++ w1 ++ b!"\n" ++ w2 ++ b!"\n" <:+: input ∧ w1.length + w2.length ≤ 1)) ∧
    (Model.read (envOf strict ascii sort surr) (St.init junk n input) = .ub .nullChild →
      ∃ u v, input = u ++ b!":" ++ v ∧ NoValue v) ∧
    Model.read (envOf strict ascii sort surr) (St.init junk n input) ≠ .ub .nullParams ∧
    (c%'-' ∉ input → c%'.' ∉ input → c%'\n' ∉ input → c%'\\' ∉ input →
      (∀ u v, input = u ++ b!":" ++ v → ¬ NoValue v) →
      (∀ ds, ds <:+: input → Digits ds → ds.length < 19) →
      (∃ r s', Model.read (envOf strict ascii sort surr) (St.init junk n input) = .ret r s') ∨
      (∃ e, Model.read (envOf strict ascii sort surr) (St.init junk n input) = .throw e)) := by
  have h := read_cause (env := envOf strict ascii sort surr) junk n input
  have hf := (C01_read_terminates (envOf strict ascii sort surr) junk n input).1
  have hdig : ∀ ds : Bytes, 19 ≤ ds.length → (∀ d ∈ ds, 48 ≤ d ∧ d ≤ 57) → Digits ds := by
    intro ds hl hd
    refine ⟨?_, hd⟩
    rintro rfl
    simp at hl
  have hmiss : MissingValue input → ∃ u v, input = u ++ b!":" ++ v ∧ NoValue v := by
    rintro ⟨u, v, e, h⟩
    exact ⟨u, v, by simpa using e, h⟩
  refine ⟨?_, ?_, ?_, ?_, ?_, ?_, ?_⟩
  · intro e; rw [e] at h
    rcases h with h | h
    · simp at h
    · exact h
  · intro e; rw [e] at h
    rcases h with h | ⟨ds, h1, h2, h3⟩
    · simp at h
    · exact ⟨ds, h1, h2, hdig ds h2 h3⟩
  · intro e; rw [e] at h
    rcases h with h | h
    · simp at h
    · exact h
  · intro e; rw [e] at h
    rcases h with h | h
    · simp at h
    · exact h
  · intro e; rw [e] at h
    rcases h with h | h
    · exact hmiss h.2
    · exact h.elim
  · intro e; rw [e] at h
    rcases h with h | h
    · simp at h
    · simp [Cause, envOf] at h
  · intro h1 h2 h3 h5 h4 h6
    cases hr : Model.read (envOf strict ascii sort surr) (St.init junk n input) with
    | ret r s => exact Or.inl ⟨r, s, rfl⟩
    | throw e => exact Or.inr ⟨e, rfl⟩
    | fuel => exact absurd hr hf
    | uncaught u =>
      rw [hr] at h
      exfalso
      rcases h with h | h
      · simp at h
      cases u with
      | invalidArgument => rcases h with h | h <;> contradiction
      | outOfRange =>
        obtain ⟨ds, g1, g2, g3⟩ := h
        have := h6 ds g1 (hdig ds g2 g3)
        omega
      | rangeError =>
        obtain ⟨a, b, c, d, cp, g1, _⟩ := h
        exact h5 (g1.subset (by simp))
    | ub u =>
      rw [hr] at h
      exfalso
      rcases h with ⟨_, h⟩ | h
      · obtain ⟨u, v, e, hv⟩ := hmiss h
        exact h4 u v e hv
      cases u with
      | historyOutOfBounds =>
        rcases h with ⟨w, g, _⟩ | ⟨d, w1, w2, _, g, _⟩
        · exact h5 (g.subset (by simp))
        · exact h3 (g.subset (by simp))
      | nullChild => exact h
      | nullParams => simp [Cause, envOf] at h

example : ∃ e, Model.read (envOf true false true) (St.init [] 0 b!"[1 true, nul") = .throw e ∧ (decide (e.kind = .unexpected 93)) = true :=
  throws_sound (by decide +kernel)

end Verif.Props
