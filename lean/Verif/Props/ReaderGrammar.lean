import Verif.Lemmas.GrammarPrefix
import Verif.Lemmas.Eval
import Verif.Props.ReaderTree
/-!
# Properties C02, C06, C07, C09, C11, C12, C13, C14, C15: what JSON texts are read as

`Doc` (in `Spec/Grammar.lean`) is the concrete syntax of JSON: `d.text` is the text, `d.value` what it denotes.
-/
namespace Verif.Props
open Verif.Model Verif.Spec Verif.Lemmas

theorem read_of_item {env : Env} {f : Nat} {s : St} (hs : Exhausted s) {v : Json} {s' : St} (h : item env f s = .ret v s') :
    Model.read env s = .ret (some v) s' := by
  have := (readNext_item env f s).1 v s' h
  rw [read_eq env s hs (f + 1) (by rw [this]; simp), this]

theorem read_of_rejects {env : Env} {f : Nat} {s : St} (hs : Exhausted s) {p : Prop} (h : Rejects env.strictOr p (item env f s)) :
    Rejects env.strictOr p (Model.read env s) := by
  have := readNext_rejects env h
  rw [read_eq env s hs (f + 1) this.ne_fuel]
  exact this

theorem follow_of {d : Doc} {rest : Bytes} (h : Blank rest ∨ d.IsContainer) : Follow d rest := by
  rcases h with h | h
  · exact follow_blank d h
  · cases d <;> first | trivial | exact h.elim

/-- **C02.** Every well-formed document (any nesting, any blanks around any token) whose integers fit 64 bits and whose
objects repeat no key is read, in strict mode, as the document it denotes, without any message; reading stops directly after
it. After a container anything may follow, after another value only blanks. -/
theorem C02_documents_are_read (ascii sort : Bool) (surr : Nat → Option Bytes) (junk : List Byte) (n : Nat) (d : Doc) (w rest : Bytes)
    (hwf : d.WF ascii) (hfit : d.Fits) (hdist : d.Distinct ascii) (hw : Blank w) (hr : Blank rest ∨ d.IsContainer) :
    ∃ s', Model.read (envOf true ascii sort surr) (St.init junk n (w ++ d.text ++ rest)) = .ret (some (d.value ascii sort)) s' ∧
      s'.warns = [] ∧ s'.rest = rest := by
  have hok : okD (envOf true ascii sort surr).ascii (envOf true ascii sort surr).strictOr d := (okD_iff _ _ d).mpr ⟨hfit, fun _ => hdist⟩
  obtain ⟨f, g, h, ws, hg, hws, e⟩ := readsD (envOf true ascii sort surr) d hwf hok w rest (LHist.init junk n) [] hw (follow_of hr)
  have hread := read_of_item (init_exhausted junk n (w ++ d.text ++ rest)) e
  refine ⟨_, hread, (C05_strict_conservative ascii sort surr junk n _ _ _ hread).1, rfl⟩

/-- `{"b": [1, -20, true], "a" : "x\"é", "c":{ } }` with a surrounding blank. -/
def docExample : Doc :=
  .obj (.more [] [.raw 98] [] [32] (.arr (.more [] (.int false b!"1") [] (.more [32] (.int true b!"20") [] (.one [32] .true []))))
    [] (.more [32] [.raw 97] [32] [32] (.str [.raw 120, .esc 34, .uni 48 48 69 57]) [] (.one [32] [.raw 99] [] [] (.obj0 [32]) [32])))

example : docExample.WF false ∧ docExample.Fits ∧ docExample.Distinct false := by
  refine ⟨?_, ?_, ?_⟩
  · simp [docExample, Doc.WF, Members.WF, Items.WF, strWF, StrItem.WF, Blank, Digits]
    exact ⟨0xE9, by decide, by decide⟩
  · simp [docExample, Doc.Fits, Members.Fits, Items.Fits, FitsLong, intValue, decimal]
  · simp [docExample, Doc.Distinct, Members.Distinct, Items.Distinct, Members.keys, strValue, StrItem.value]
example : docExample.text = b!"{\"b\": [1, -20, true], \"a\" : \"x\\\"\\u00E9\", \"c\":{ } }" := by decide
example : docExample.value false false = .obj [(b!"b", .arr [.int 1, .int (-20), .bool true]), (b!"a", .str [120, 34, 0xC3, 0xA9]), (b!"c", .obj [])] := by
  decide
example : ∃ s', Model.read (envOf true false true) (St.init [] 3 (docExample.text ++ b!"]x")) =
    .ret (some (.obj [(b!"a", .str [120, 34, 0xC3, 0xA9]), (b!"b", .arr [.int 1, .int (-20), .bool true]), (b!"c", .obj [])])) s' ∧
      decide (s'.rest = b!"]x") = true :=
  returns_sound (by decide +kernel)

/-- **C06.** Under `-W` repeated keys are no error: the document is read as what it denotes, the last member with a key
counts (`Doc.value` uses `lastWins`), and there is exactly one message per repeated key occurrence, each a duplicate-key
message. In strict mode a document with a repeated key in some object (all integers fitting) is rejected with a duplicate-key
exception. -/
theorem C06_duplicate_keys (ascii sort : Bool) (surr : Nat → Option Bytes) (junk : List Byte) (n : Nat) (d : Doc) (w rest : Bytes)
    (hwf : d.WF ascii) (hfit : d.Fits) (hw : Blank w) (hr : Blank rest ∨ d.IsContainer) :
    (∃ s', Model.read (envOf false ascii sort surr) (St.init junk n (w ++ d.text ++ rest)) = .ret (some (d.value ascii sort)) s' ∧
      s'.warns.length = d.dups ascii ∧ ∀ e ∈ s'.warns, ∃ k, e.kind = .doubleKey k) ∧
    (¬ d.Distinct ascii → ∃ k h, Model.read (envOf true ascii sort surr) (St.init junk n (w ++ d.text ++ rest)) =
      .throw ⟨.doubleKey k, h⟩) := by
  constructor
  · have hok : okD (envOf false ascii sort surr).ascii (envOf false ascii sort surr).strictOr d := (okD_iff _ _ d).mpr ⟨hfit, fun h => by simp [envOf, Env.strictOr] at h⟩
    obtain ⟨f, g, h, ws, hg, hws, e⟩ := readsD (envOf false ascii sort surr) d hwf hok w rest (LHist.init junk n) [] hw (follow_of hr)
    exact ⟨_, read_of_item (init_exhausted junk n (w ++ d.text ++ rest)) e, hws.1, hws.2⟩
  · intro hd
    have hok : ¬ okD (envOf true ascii sort surr).ascii (envOf true ascii sort surr).strictOr d :=
      fun h => hd (((okD_iff _ _ d).mp h).2 rfl)
    obtain ⟨f, h⟩ := failsD (envOf true ascii sort surr) d hwf hok w rest (LHist.init junk n) [] hw (follow_of hr)
    rcases read_of_rejects (init_exhausted junk n (w ++ d.text ++ rest)) h with ⟨_, h⟩ | ⟨_, k, h, e⟩
    · exact absurd hfit h
    · exact ⟨k, h, e⟩

/-- `[{"k":1,"l":2,"k":3}]`: one repetition; the last value counts. -/
def dupExample : Doc :=
  .arr (.one [] (.obj (.more [] [.raw 107] [] [] (.int false b!"1") [] (.more [] [.raw 108] [] [] (.int false b!"2") []
    (.one [] [.raw 107] [] [] (.int false b!"3") [])))) [])
example : dupExample.WF false ∧ dupExample.Fits ∧ ¬ dupExample.Distinct false := by
  refine ⟨?_, ?_, ?_⟩
  · simp [dupExample, Doc.WF, Members.WF, Items.WF, strWF, StrItem.WF, Blank, Digits]
  · simp [dupExample, Doc.Fits, Members.Fits, Items.Fits, FitsLong, intValue, decimal]
  · simp [dupExample, Doc.Distinct, Members.Distinct, Items.Distinct, Members.keys, strValue, StrItem.value]
example : dupExample.dups false = 1 ∧ dupExample.value false false = .arr [.obj [(b!"l", .int 2), (b!"k", .int 3)]] := by decide +kernel

/-- **C07.** (1) An integer literal is delivered exactly: as an `int` if it fits 32 bits, as a `long long` if it fits 64 bits;
otherwise no root is delivered. (2) A document with an integer that does not fit 64 bits, at any depth, never delivers a
root. (That integers inside documents are delivered exactly too is part of C02 and C06.) -/
theorem C07_integers_exact (strict ascii sort : Bool) (surr : Nat → Option Bytes) (junk : List Byte) (n : Nat) (w rest : Bytes)
    (hw : Blank w) :
    (∀ neg ds, Digits ds → Blank rest →
      (-2147483648 ≤ intValue neg ds ∧ intValue neg ds ≤ 2147483647 →
        ∃ s', Model.read (envOf strict ascii sort surr) (St.init junk n (w ++ intText neg ds ++ rest)) = .ret (some (.int (intValue neg ds))) s') ∧
      (¬ (-2147483648 ≤ intValue neg ds ∧ intValue neg ds ≤ 2147483647) →
        (-9223372036854775808 ≤ intValue neg ds ∧ intValue neg ds ≤ 9223372036854775807) →
        ∃ s', Model.read (envOf strict ascii sort surr) (St.init junk n (w ++ intText neg ds ++ rest)) = .ret (some (.long (intValue neg ds))) s') ∧
      (¬ (-9223372036854775808 ≤ intValue neg ds ∧ intValue neg ds ≤ 9223372036854775807) →
        Model.read (envOf strict ascii sort surr) (St.init junk n (w ++ intText neg ds ++ rest)) = .uncaught .outOfRange)) ∧
    (∀ d : Doc, d.WF ascii → ¬ d.Fits → (Blank rest ∨ d.IsContainer) → ∀ r s',
      Model.read (envOf strict ascii sort surr) (St.init junk n (w ++ d.text ++ rest)) ≠ .ret r s') := by
  constructor
  · intro neg ds hds hb
    have ok : FitsLong (intValue neg ds) → ∃ s', Model.read (envOf strict ascii sort surr) (St.init junk n (w ++ intText neg ds ++ rest)) =
        .ret (some (intJson (intValue neg ds))) s' := by
      intro hfit
      obtain ⟨f, g, h, ws, hg, hws, e⟩ := readsD (envOf strict ascii sort surr) (.int neg ds) hds hfit w rest (LHist.init junk n) [] hw (follow_blank _ hb)
      exact ⟨_, read_of_item (init_exhausted junk n _) e⟩
    refine ⟨fun h => ?_, fun h h' => ?_, fun h => ?_⟩
    · obtain ⟨s', e⟩ := ok ⟨by omega, by omega⟩
      exact ⟨s', by rw [e, intJson, if_pos h]⟩
    · obtain ⟨s', e⟩ := ok h'
      exact ⟨s', by rw [e, intJson, if_neg h]⟩
    · obtain ⟨f, hr⟩ := failsD (envOf strict ascii sort surr) (.int neg ds) hds h w rest (LHist.init junk n) [] hw (follow_blank _ hb)
      have hit : item (envOf strict ascii sort surr) f ⟨w ++ Doc.text (.int neg ds) ++ rest, true, LHist.init junk n, []⟩ = .uncaught .outOfRange := by
        unfold item
        rw [consumeToken_good, List.append_assoc, skip_blank hw]
        have hf : NumFollow rest := follow_blank (.int neg ds) hb
        have := (int_tok (envOf strict ascii sort surr) neg ds hds rest hf (w.foldl LHist.put (LHist.init junk n)) []).2 h
        rw [show Doc.text (.int neg ds) = intText neg ds from rfl, this]
        rfl
      have h1 := (readNext_item (envOf strict ascii sort surr) f _).2.2 _ hit
      exact (read_eq _ (St.init junk n (w ++ intText neg ds ++ rest)) (init_exhausted junk n _) (f + 1) (by
        intro h2; exact absurd (h1.symm.trans h2) (by simp))).trans h1
  · intro d hwf hnf hr r s' h
    have hok : ¬ okD (envOf strict ascii sort surr).ascii (envOf strict ascii sort surr).strictOr d :=
      fun h => hnf ((okD_iff _ _ d).mp h).1
    obtain ⟨f, hj⟩ := failsD (envOf strict ascii sort surr) d hwf hok w rest (LHist.init junk n) [] hw (follow_of hr)
    rcases read_of_rejects (init_exhausted junk n (w ++ d.text ++ rest)) hj with ⟨e, _⟩ | ⟨_, k, h', e⟩ <;>
      rw [e] at h <;> simp at h

example : Digits b!"2147483648" ∧ ¬ (-2147483648 ≤ intValue false b!"2147483648" ∧ intValue false b!"2147483648" ≤ 2147483647) ∧
    intValue true b!"2147483648" = -2147483648 := by
  refine ⟨⟨by decide, by decide⟩, by decide, by decide⟩
example : ¬ (Doc.arr (.one [] (.int false b!"9223372036854775808") [])).Fits ∧ (Doc.arr (.one [] (.int false b!"9223372036854775808") [])).WF false := by
  simp [Doc.Fits, Items.Fits, FitsLong, intValue, decimal, Doc.WF, Items.WF, Blank, Digits]

/-- **C09.** No proper prefix of a well-formed container document is accepted, in any setting: whatever the outcome is, no
root is delivered. -/
theorem C09_truncation_rejected (strict ascii sort : Bool) (surr : Nat → Option Bytes) (junk : List Byte) (n : Nat) (d : Doc) (w p : Bytes)
    (hwf : d.WF ascii) (hc : d.IsContainer) (hw : Blank w) (hp : p <+: w ++ d.text) (hne : p ≠ w ++ d.text) (v : Json) (s' : St) :
    Model.read (envOf strict ascii sort surr) (St.init junk n p) ≠ .ret (some v) s' := by
  intro h
  have key : ∀ w p, Blank w → p <+: d.text → p ≠ d.text →
      Model.read (envOf strict ascii sort surr) (St.init junk n (w ++ p)) ≠ .ret (some v) s' := by
    intro w p hw hp hne h
    unfold Model.read at h
    obtain ⟨f, hf⟩ : ∃ f, 2 * (St.init junk n (w ++ p)).rest.length + 4 = f + 1 := ⟨_, rfl⟩
    rw [hf, readNext_succ] at h
    have := (preD (envOf strict ascii sort surr) d hwf w p (LHist.init junk n) [] f hw hp hne).2 hc
    unfold item at this
    unfold St.init at h
    revert h this
    cases consumeToken (envOf strict ascii sort surr) ⟨w ++ p, true, LHist.init junk n, []⟩ with
    | ret t s1 =>
      simp only [Out.bind]
      cases t with
      | val v => intro _ h; exact h
      | nothing => simp
      | punct c =>
        simp only [arrItem]
        by_cases h1 : c = 91
        · have h0 : ¬ c = 123 := by omega
          simp only [if_pos h1, if_neg h0]
          cases readArray (envOf strict ascii sort surr) f s1 with
          | ret a b => intro _ h; exact h
          | _ => simp
        · by_cases h2 : c = 123
          · simp only [if_pos h2, if_neg h1]
            cases objectLoop (envOf strict ascii sort surr) f none s1 with
            | ret a b => intro _ h; exact h
            | _ => simp
          · simp [if_neg h2, if_neg h1]
    | _ => simp [Out.bind]
  rcases prefix_split hp with ⟨hp', _⟩ | ⟨q, rfl, hp'⟩
  · refine key p [] (blank_prefix hw hp') List.nil_prefix (fun h => ?_) (by rwa [List.append_nil])
    cases d <;> simp [Doc.text] at h <;> exact hc.elim
  · exact key w q hw hp' (fun h => hne (by rw [h])) h

example : docExample.IsContainer := trivial

/-- **C11.** A string literal is read as its text with `\\`, `\"`, `\/` replaced by the character, `\uXXXX` by UTF-8, and
`\b \f \n \r \t` kept as two characters, in every setting without `--ascii`, whatever follows it, without a message. -/
theorem C11_string_value (strict sort : Bool) (surr : Nat → Option Bytes) (junk : List Byte) (n : Nat) (items : List StrItem)
    (w rest : Bytes) (hwf : strWF false items) (hw : Blank w) :
    ∃ s', Model.read (envOf strict false sort surr) (St.init junk n (w ++ strText items ++ rest)) =
      .ret (some (.str (items.flatMap fun
        | .raw c => [c]
        | .esc c => [c]
        | .ctl c => [c%'\\', c]
        | .uni h1 h2 h3 h4 => utf8 ((hexValue h1 h2 h3 h4).getD 0)))) s' ∧ s'.warns = [] ∧ s'.rest = rest := by
  obtain ⟨f, g, h, ws, hg, hws, e⟩ := readsD (envOf strict false sort surr) (.str items) hwf trivial w rest (LHist.init junk n) [] hw trivial
  have hval : (Doc.str items).value false sort = .str (items.flatMap fun
        | .raw c => [c]
        | .esc c => [c]
        | .ctl c => [c%'\\', c]
        | .uni h1 h2 h3 h4 => utf8 ((hexValue h1 h2 h3 h4).getD 0)) := by
    simp only [Doc.value, strValue]
    congr 2
  rw [← hval]
  have : ws = [] := List.eq_nil_of_length_eq_zero hws.1
  subst this
  exact ⟨_, read_of_item (init_exhausted junk n _) e, rfl, rfl⟩

example : strWF false [.raw 97, .esc 92, .ctl 110, .uni 50 48 97 67] ∧
    strText [.raw 97, .esc 92, .ctl 110, .uni 50 48 97 67] = b!"\"a\\\\\\n\\u20aC\"" ∧
    strValue false [.raw 97, .esc 92, .ctl 110, .uni 50 48 97 67] = b!"a\\\\n" ++ [0xE2, 0x82, 0xAC] := by
  refine ⟨?_, by decide, by decide⟩
  intro i hi
  simp at hi
  rcases hi with rfl | rfl | rfl | rfl
  · simp [StrItem.WF]
  · simp [StrItem.WF]
  · simp [StrItem.WF]
  · exact ⟨0x20AC, by decide, by decide⟩

theorem utf8_decode (n : Nat) (hn : n < 65536) (hs : ¬ (0xD800 ≤ n ∧ n ≤ 0xDFFF)) (rest : Bytes) :
    utf8Decode (utf8 n ++ rest) = some (n, rest) := by
  have h := toBytes_utf8 (fun _ => none) n hn hs
  have hsur : isSurrogate n = false := by unfold isSurrogate; simp; omega
  unfold toBytes at h
  by_cases h1 : n < 128
  · rw [if_pos h1] at h
    simp only [Option.some.injEq] at h
    rw [← h]
    simp [utf8Decode, h1]
  rw [if_neg h1] at h
  by_cases h2 : n < 2048
  · rw [if_pos h2] at h
    simp only [Option.some.injEq] at h
    rw [← h]
    simp only [List.cons_append, List.nil_append, utf8Decode]
    rw [if_neg (by omega), if_pos (by omega), if_pos (by omega)]
    simp; omega
  · rw [if_neg h2, hsur] at h
    simp only [Bool.false_eq_true, if_false, Option.some.injEq] at h
    rw [← h]
    simp only [List.cons_append, List.nil_append, utf8Decode]
    rw [if_neg (by omega), if_neg (by omega), if_pos (by omega), if_pos (by omega)]
    simp; omega

/-- Reading stops at a bad `\u` escape, wherever it is in the string. -/
theorem bad_escape_read (strict sort : Bool) (surr : Nat → Option Bytes) (junk : List Byte) (n : Nat) (pre : List StrItem)
    (h1 h2 h3 h4 : Byte) (w rest : Bytes) (hwf : strWF false pre) (hw : Blank w) (hbad : hexValue h1 h2 h3 h4 = none) :
    (10 ∉ [h1, h2, h3, h4] → ∃ c h, c ∈ [h1, h2, h3, h4] ∧ hexDigit c = none ∧
      Model.read (envOf strict false sort surr) (St.init junk n (w ++ [34] ++ pre.flatMap StrItem.text ++ [92, 117, h1, h2, h3, h4] ++ rest)) =
        .throw ⟨.hexValue c, h⟩) ∧
    (∀ r s', Model.read (envOf strict false sort surr) (St.init junk n (w ++ [34] ++ pre.flatMap StrItem.text ++ [92, 117, h1, h2, h3, h4] ++ rest)) ≠ .ret r s') := by
  have e0 : w ++ [34] ++ pre.flatMap StrItem.text ++ [92, 117, h1, h2, h3, h4] ++ rest =
    w ++ (34 :: (pre.flatMap StrItem.text ++ (92 :: 117 :: h1 :: h2 :: h3 :: h4 :: rest))) := by simp
  rw [e0]
  obtain ⟨hA, e1⟩ := stringLoop_items (envOf strict false sort surr) pre hwf (92 :: 117 :: h1 :: h2 :: h3 :: h4 :: rest)
    ((w.foldl LHist.put (LHist.init junk n)).put 34) [] []
  obtain ⟨c, hc1, hc2, hc3⟩ := hexWord_bad hbad
  have htok : ∀ hist acc, stringLoop (envOf strict false sort surr) (92 :: 117 :: h1 :: h2 :: h3 :: h4 :: rest) hist [] acc =
      match ((hist.put 92).put 117).putN [h1, h2, h3, h4] 4 with
      | none => .ub .historyOutOfBounds
      | some hist => .throw ⟨.hexValue c, hist⟩ := by
    intro hist acc
    rw [stringLoop.eq_def]
    dsimp only
    rw [if_neg (by decide), if_pos rfl, if_neg (by decide), if_pos rfl, if_neg (by simp [envOf, Env.ascii]), hc1]
    cases ((hist.put 92).put 117).putN [h1, h2, h3, h4] 4 <;> rfl
  have htl : tokenLoop (envOf strict false sort surr) (w ++ (34 :: (pre.flatMap StrItem.text ++ (92 :: 117 :: h1 :: h2 :: h3 :: h4 :: rest))))
      (LHist.init junk n) [] = stringLoop (envOf strict false sort surr) (92 :: 117 :: h1 :: h2 :: h3 :: h4 :: rest) hA [] ([] ++ strValue false pre) := by
    rw [skip_blank hw, tokenLoop, if_pos rfl]
    simp only [consumeString]
    exact e1
  have hread : ∀ x, Model.read (envOf strict false sort surr) (St.init junk n x) =
      (tokenLoop (envOf strict false sort surr) x (LHist.init junk n) []).bind fun tok s =>
      match tok with
      | .val v => .ret (some v) s
      | .punct c =>
        if c = 123 then (objectLoop (envOf strict false sort surr) (2 * x.length + 3) none s).bind fun v s => .ret (some v) s
        else if c = 91 then (readArray (envOf strict false sort surr) (2 * x.length + 3) s).bind fun v s => .ret (some v) s
        else .ret none s
      | .nothing => .ret none s := by
    intro x
    unfold Model.read
    rw [show 2 * (St.init junk n x).rest.length + 4 = (2 * x.length + 3) + 1 from rfl, readNext_succ]
    rfl
  rw [hread, htl, htok]
  constructor
  · intro hn
    obtain ⟨h', e⟩ := putN_some ((hA.put 92).put 117) [h1, h2, h3, h4] 4 (by simp) (by
      intro x hx hx10
      rw [List.take_of_length_le (by simp)] at hx
      exact hn (hx10 ▸ hx))
    rw [e]
    exact ⟨c, h', hc2, hc3, rfl⟩
  · intro r s'
    cases ((hA.put 92).put 117).putN [h1, h2, h3, h4] 4 <;> simp [Out.bind]

/-- **C12.** (1) Four hexadecimal digits (either case) denoting a scalar value `n`: the literal `"\uXXXX"` is read as bytes
that an RFC 3629 decoder decodes to exactly `n`, so different code points give different strings. (2) If one of the
four is no hexadecimal digit no root is delivered, wherever in a string the escape is; the exception names such a character
(unless a line feed is among the four, see C20). -/
theorem C12_unicode_escapes (strict sort : Bool) (surr : Nat → Option Bytes) (junk : List Byte) (n : Nat) (h1 h2 h3 h4 : Byte) :
    (∀ cp rest, hexValue h1 h2 h3 h4 = some cp → ¬ (0xD800 ≤ cp ∧ cp ≤ 0xDFFF) →
      ∃ bs s', Model.read (envOf strict false sort surr) (St.init junk n ([34, 92, 117, h1, h2, h3, h4, 34] ++ rest)) = .ret (some (.str bs)) s' ∧
        ∀ more, utf8Decode (bs ++ more) = some (cp, more)) ∧
    (∀ pre w rest, strWF false pre → Blank w → hexValue h1 h2 h3 h4 = none →
      (10 ∉ [h1, h2, h3, h4] → ∃ c h, c ∈ [h1, h2, h3, h4] ∧ hexDigit c = none ∧
        Model.read (envOf strict false sort surr) (St.init junk n (w ++ [34] ++ pre.flatMap StrItem.text ++ [92, 117, h1, h2, h3, h4] ++ rest)) =
          .throw ⟨.hexValue c, h⟩) ∧
      (∀ r s', Model.read (envOf strict false sort surr) (St.init junk n (w ++ [34] ++ pre.flatMap StrItem.text ++ [92, 117, h1, h2, h3, h4] ++ rest)) ≠ .ret r s')) := by
  constructor
  · intro cp rest hv hs
    obtain ⟨s', e, _⟩ := C11_string_value strict sort surr junk n [.uni h1 h2 h3 h4] [] rest
      (by intro i hi; simp at hi; subst hi; exact ⟨cp, hv, Or.inr hs⟩) (by simp [Blank])
    refine ⟨_, s', ?_, fun more => utf8_decode cp (hexWord_value hv).2 hs more⟩
    simp only [List.flatMap_cons, List.flatMap_nil, hv, Option.getD_some, List.append_nil] at e
    rw [← e]
    simp [strText, StrItem.text]
  · intro pre w rest hwf hw hbad
    exact bad_escape_read strict sort surr junk n pre h1 h2 h3 h4 w rest hwf hw hbad

example : hexValue 50 48 97 67 = some 0x20AC ∧ hexValue 103 48 97 67 = none := by decide

theorem ascii_item (env : Env) (ha : env.ascii = true) (i : StrItem) (hi : i.WF true ∨ i = .ctl 117) (rest : Bytes) (hist : LHist) (warns : List Exn) (acc : Bytes) :
    ∃ hist', stringLoop env (i.text ++ rest) hist warns acc = stringLoop env rest hist' warns (acc ++ i.value true) := by
  rcases hi with hi | rfl
  · rw [← ha] at hi ⊢; exact stringLoop_item env i hi rest hist warns acc
  · refine ⟨(hist.put 92).put 117, ?_⟩
    show stringLoop env (92 :: 117 :: rest) hist warns acc = _
    rw [stringLoop.eq_def]
    dsimp only
    rw [if_neg (by decide), if_pos rfl, if_neg (by decide), if_pos rfl, if_pos ha]
    rfl

/-- **C13.** With `--ascii` a string literal is read as its text with `\\`, `\"`, `\/` replaced and everything else kept: a
`\u` stays as these two characters, and the bytes after it need not be hexadecimal digits. (Items here: any byte, the
escapes `\" \\ \/`, and `\b \f \n \r \t \u` followed by anything.) -/
theorem C13_ascii_keeps_unicode (strict sort : Bool) (surr : Nat → Option Bytes) (junk : List Byte) (n : Nat) (items : List StrItem)
    (w rest : Bytes) (hwf : ∀ i ∈ items, (i.WF true ∧ ∀ h1 h2 h3 h4, i ≠ .uni h1 h2 h3 h4) ∨ i = .ctl (c%'u')) (hw : Blank w) :
    ∃ s', Model.read (envOf strict true sort surr) (St.init junk n (w ++ strText items ++ rest)) =
      .ret (some (.str (items.flatMap fun
        | .esc c => [c]
        | i => i.text))) s' ∧ s'.warns = [] ∧ s'.rest = rest := by
  have key : ∀ (l : List StrItem) hist acc, (∀ i ∈ l, i.WF true ∨ i = .ctl 117) → ∃ hist', stringLoop (envOf strict true sort surr)
      (l.flatMap StrItem.text ++ (34 :: rest)) hist [] acc = stringLoop (envOf strict true sort surr) (34 :: rest) hist' [] (acc ++ strValue true l) := by
    intro l
    induction l with
    | nil => intro hist acc _; exact ⟨hist, by simp [strValue]⟩
    | cons i l ih =>
      intro hist acc hl
      obtain ⟨h1, e1⟩ := ascii_item (envOf strict true sort surr) rfl i (hl i (by simp)) (l.flatMap StrItem.text ++ (34 :: rest)) hist [] acc
      obtain ⟨h2, e2⟩ := ih h1 (acc ++ i.value true) (fun j hj => hl j (by simp [hj]))
      refine ⟨h2, ?_⟩
      rw [List.flatMap_cons, List.append_assoc, e1, e2]
      simp [strValue, List.append_assoc]
  have hval : strValue true items = items.flatMap fun
        | .esc c => [c]
        | i => i.text := by
    unfold strValue
    congr 1
    funext i
    cases i <;> rfl
  have e0 : w ++ strText items ++ rest = w ++ (34 :: (items.flatMap StrItem.text ++ (34 :: rest))) := by simp [strText]
  obtain ⟨hA, e⟩ := key items ((w.foldl LHist.put (LHist.init junk n)).put 34) [] (fun i hi => (hwf i hi).imp (fun h => h.1) id)
  have htok : tokenLoop (envOf strict true sort surr) (w ++ strText items ++ rest) (LHist.init junk n) [] =
      .ret (.val (.str (strValue true items))) ⟨rest, true, hA.put 34, []⟩ := by
    rw [e0, skip_blank hw, tokenLoop, if_pos rfl]
    simp only [consumeString]
    rw [e, stringLoop.eq_def]
    simp
  have : item (envOf strict true sort surr) 0 (St.init junk n (w ++ strText items ++ rest)) =
      .ret (.str (strValue true items)) ⟨rest, true, hA.put 34, []⟩ := by
    unfold item St.init
    rw [consumeToken_good, htok]; rfl
  rw [← hval]
  exact ⟨_, read_of_item (init_exhausted junk n _) this, rfl, rfl⟩

/-- `"\uZ1\/"` -/
example : (∀ i ∈ [StrItem.ctl 117, .raw 90, .raw 49, .esc 47], (i.WF true ∧ ∀ h1 h2 h3 h4, i ≠ .uni h1 h2 h3 h4) ∨ i = .ctl (c%'u')) ∧
    strText [StrItem.ctl 117, .raw 90, .raw 49, .esc 47] = b!"\"\\uZ1\\/\"" := by
  refine ⟨?_, by decide⟩
  intro i hi
  simp at hi
  rcases hi with rfl | rfl | rfl | rfl <;> simp [StrItem.WF]

/-- **C14 does not hold**: `"\\n"` (a backslash and the letter n) and `"\n"` (a line feed) are read as the same string. -/
theorem C14_strings_distinct_false :
    ∃ i1 i2 : List StrItem, strWF false i1 ∧ strWF false i2 ∧ strDenotes i1 ≠ strDenotes i2 ∧
      ∀ strict sort surr junk n, ∃ v s1 s2,
        Model.read (envOf strict false sort surr) (St.init junk n (strText i1)) = .ret (some v) s1 ∧
        Model.read (envOf strict false sort surr) (St.init junk n (strText i2)) = .ret (some v) s2 := by
  have w1 : strWF false [.esc 92, .raw 110] := by
    intro i hi; simp at hi; rcases hi with rfl | rfl <;> simp [StrItem.WF]
  have w2 : strWF false [.ctl 110] := by intro i hi; simp at hi; subst hi; simp [StrItem.WF]
  refine ⟨[.esc 92, .raw 110], [.ctl 110], w1, w2, by decide, fun strict sort surr junk n => ?_⟩
  obtain ⟨s1, e1, _⟩ := C11_string_value strict sort surr junk n [.esc 92, .raw 110] [] [] w1 (by simp [Blank])
  obtain ⟨s2, e2, _⟩ := C11_string_value strict sort surr junk n [.ctl 110] [] [] w2 (by simp [Blank])
  exact ⟨_, s1, s2, by simpa using e1, by simpa using e2⟩

/-- Reading the two-character escapes of a value. -/
def unctl : Bytes → Bytes
  | [] => []
  | [c] => [c]
  | 92 :: c :: r => ctlChar c :: unctl r
  | c :: d :: r => c :: unctl (d :: r)

theorem unctl_cons (c : Byte) (hc : c ≠ 92) (r : Bytes) : unctl (c :: r) = c :: unctl r := by
  cases r with
  | nil => simp [unctl]
  | cons d r =>
    rw [unctl]
    intro h; exact absurd h hc

theorem unctl_append (l : Bytes) (hl : 92 ∉ l) (r : Bytes) : unctl (l ++ r) = l ++ unctl r := by
  induction l with
  | nil => rfl
  | cons c l ih =>
    simp at hl
    rw [List.cons_append, unctl_cons c (by omega), ih (by simpa using hl.2), List.cons_append]

/-- No item is a backslash written `\\` or `\u005c`. -/
def NoBackslash (items : List StrItem) : Prop :=
  ∀ i ∈ items, i ≠ .esc (c%'\\') ∧ ∀ h1 h2 h3 h4, i = .uni h1 h2 h3 h4 → hexValue h1 h2 h3 h4 ≠ some 0x5C

theorem utf8_no_backslash (n : Nat) (hn : n < 65536) (hs : ¬ (0xD800 ≤ n ∧ n ≤ 0xDFFF)) (h : n ≠ 92) : 92 ∉ utf8 n := by
  have ht := toBytes_utf8 (fun _ => none) n hn hs
  have hsur : isSurrogate n = false := by unfold isSurrogate; simp; omega
  unfold toBytes at ht
  by_cases h1 : n < 128
  · rw [if_pos h1] at ht
    simp only [Option.some.injEq] at ht
    rw [← ht]; simp; omega
  rw [if_neg h1] at ht
  by_cases h2 : n < 2048
  · rw [if_pos h2] at ht
    simp only [Option.some.injEq] at ht
    rw [← ht]; simp; omega
  · rw [if_neg h2, hsur] at ht
    simp only [Bool.false_eq_true, if_false, Option.some.injEq] at ht
    rw [← ht]; simp; omega

theorem unctl_value (items : List StrItem) (hwf : strWF false items) (hb : NoBackslash items) :
    unctl (strValue false items) = strDenotes items := by
  induction items with
  | nil => rfl
  | cons i items ih =>
    have ih := ih (fun j hj => hwf j (by simp [hj])) (fun j hj => hb j (by simp [hj]))
    have hi := hwf i (by simp)
    obtain ⟨hb1, hb2⟩ := hb i (by simp)
    have e1 : strValue false (i :: items) = i.value false ++ strValue false items := rfl
    have e2 : strDenotes (i :: items) = i.denotes ++ strDenotes items := rfl
    rw [e1, e2, ← ih]
    cases i with
    | raw c => exact unctl_append [c] (by simp; exact fun h => hi.2 h.symm) _
    | esc c => exact unctl_append [c] (by simp; exact fun h => hb1 (by rw [h])) _
    | ctl c => rfl
    | uni h1 h2 h3 h4 =>
      obtain ⟨n, hn, hs⟩ := hi
      have hs : ¬ (0xD800 ≤ n ∧ n ≤ 0xDFFF) := by simpa using hs
      simp only [StrItem.value, StrItem.denotes, Bool.false_eq_true, if_false, hn, Option.getD_some]
      exact unctl_append _ (utf8_no_backslash n (hexWord_value hn).2 hs (fun h => hb2 _ _ _ _ rfl (by rw [hn, h]))) _

/-- **C14, the part that holds.** Two literals in which no character is written `\\` or `\u005c` and that denote different
JSON strings are read as different strings. Missing: literals with an escaped backslash (for them the property is false, see
`C14_strings_distinct_false`). -/
theorem C14_strings_distinct_partial (strict sort : Bool) (surr : Nat → Option Bytes) (junk : List Byte) (n : Nat) (i1 i2 : List StrItem)
    (h1 : strWF false i1) (h2 : strWF false i2) (b1 : NoBackslash i1) (b2 : NoBackslash i2) (hd : strDenotes i1 ≠ strDenotes i2) :
    ∃ v1 v2 s1 s2, Model.read (envOf strict false sort surr) (St.init junk n (strText i1)) = .ret (some (.str v1)) s1 ∧
      Model.read (envOf strict false sort surr) (St.init junk n (strText i2)) = .ret (some (.str v2)) s2 ∧ v1 ≠ v2 := by
  have key : ∀ i, strWF false i → ∃ s, Model.read (envOf strict false sort surr) (St.init junk n (strText i)) = .ret (some (.str (strValue false i))) s := by
    intro i hi
    obtain ⟨f, g, h, ws, hg, hws, e⟩ := readsD (envOf strict false sort surr) (.str i) hi trivial [] [] (LHist.init junk n) [] (by simp [Blank]) trivial
    simp only [List.nil_append, List.append_nil] at e
    exact ⟨_, read_of_item (init_exhausted junk n _) e⟩
  obtain ⟨s1, e1⟩ := key i1 h1
  obtain ⟨s2, e2⟩ := key i2 h2
  refine ⟨_, _, s1, s2, e1, e2, fun h => hd ?_⟩
  rw [← unctl_value i1 h1 b1, ← unctl_value i2 h2 b2, h]

example : NoBackslash [.ctl 110] ∧ NoBackslash [.raw 110, .uni 48 48 52 49] ∧ strDenotes [.ctl 110] ≠ strDenotes [.raw 110, .uni 48 48 52 49] := by
  refine ⟨?_, ?_, by decide⟩
  · intro i hi; simp at hi; subst hi; simp
  · intro i hi
    simp at hi
    rcases hi with rfl | rfl
    · simp
    · refine ⟨by simp, ?_⟩
      intro a b c d h
      simp at h
      obtain ⟨rfl, rfl, rfl, rfl⟩ := h
      decide

/-- The literal with every escaped control character, like `\n`, written as an escaped backslash and the letter. -/
def spelledOut (items : List StrItem) : List StrItem :=
  items.flatMap fun i => match i with
    | .ctl c => [.esc (c%'\\'), .raw c]
    | i => [i]

theorem spelledOut_denotes (items : List StrItem) : strDenotes (spelledOut items) = strValue false items := by
  induction items with
  | nil => rfl
  | cons i items ih =>
    have e1 : strValue false (i :: items) = i.value false ++ strValue false items := rfl
    rw [e1, ← ih]
    cases i <;> simp [spelledOut, strDenotes, StrItem.denotes, StrItem.value]

/-- **C14, exactly.** Two literals are read as the same string if and only if they denote the same JSON string after every escaped control character, like
`\n`, is written as an escaped backslash and the letter. -/
theorem C14_exactly_partial (strict sort : Bool) (surr : Nat → Option Bytes) (junk : List Byte) (n : Nat) (i1 i2 : List StrItem)
    (h1 : strWF false i1) (h2 : strWF false i2) :
    (∃ v s1 s2, Model.read (envOf strict false sort surr) (St.init junk n (strText i1)) = .ret (some v) s1 ∧
      Model.read (envOf strict false sort surr) (St.init junk n (strText i2)) = .ret (some v) s2) ↔
    strDenotes (spelledOut i1) = strDenotes (spelledOut i2) := by
  obtain ⟨s1, e1, _⟩ := C11_string_value strict sort surr junk n i1 [] [] h1 (by simp [Blank])
  obtain ⟨s2, e2, _⟩ := C11_string_value strict sort surr junk n i2 [] [] h2 (by simp [Blank])
  simp only [List.nil_append, List.append_nil] at e1 e2
  have q : ∀ i : List StrItem, i.flatMap (fun x => match x with
      | .raw c => [c]
      | .esc c => [c]
      | .ctl c => [92, c]
      | .uni h1 h2 h3 h4 => utf8 ((hexValue h1 h2 h3 h4).getD 0)) = strValue false i := by
    intro i
    unfold strValue
    congr 1
  rw [q] at e1 e2
  rw [e1, e2, spelledOut_denotes, spelledOut_denotes]
  constructor
  · rintro ⟨v, t1, t2, k1, k2⟩
    simp only [Out.ret.injEq, Option.some.injEq] at k1 k2
    have := k1.1.trans k2.1.symm
    simpa using this
  · intro h
    rw [h]
    exact ⟨_, s1, s2, rfl, rfl⟩

/-- A line feed written as an escape, and a backslash and the letter n. -/
example : strDenotes (spelledOut [.ctl (c%'n')]) = strDenotes (spelledOut [.esc (c%'\\'), .raw (c%'n')]) ∧
    strDenotes (spelledOut [.ctl (c%'n')]) ≠ strDenotes (spelledOut [.ctl (c%'t')]) := by decide

end Verif.Props
