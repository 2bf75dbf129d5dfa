import Verif.Lemmas.ReaderBasic
import Verif.Spec.Grammar
/-!
# Lemmas: the tokens of JSON texts
-/
namespace Verif.Lemmas
open Verif.Model Verif.Spec

/-! ### History -/

theorem findNl_none (mem : List Byte) (count : Nat) (hc : count ≤ mem.length) (h : ∀ c ∈ mem.take count, c ≠ 10) :
    LHist.findNl mem count = some none := by
  induction mem generalizing count with
  | nil => simp at hc; subst hc; rfl
  | cons c mem ih =>
    cases count with
    | zero => rfl
    | succ count =>
      simp at hc
      simp only [LHist.findNl]
      rw [if_neg (h c (by simp)), ih count hc (fun d hd => h d (by simp [hd]))]

theorem putN_some (hist : LHist) (mem : List Byte) (count : Nat) (hc : count ≤ mem.length) (h : ∀ c ∈ mem.take count, c ≠ 10) :
    ∃ hist', hist.putN mem count = some hist' := by
  unfold LHist.putN LHist.putNAux
  dsimp only
  rw [findNl_none mem count hc h]
  exact ⟨_, rfl⟩

/-! ### Blanks -/

theorem blank_char {c : Byte} (h : c ≤ 32 ∨ 127 ≤ c) (env : Env) (rest : Bytes) (hist : LHist) (warns : List Exn) :
    tokenLoop env (c :: rest) hist warns = tokenLoop env rest (hist.put c) warns := by
  have hd : isDigit c = false := by unfold isDigit; simp; omega
  have hp : isPunct c = false := by unfold isPunct; simp; omega
  have hi : ignoreChar c = true := by unfold ignoreChar; simp; omega
  simp only [tokenLoop]
  rw [if_neg (by omega), if_neg (by omega), if_neg (by omega), if_neg (by rw [hd]; simp; omega), if_neg (by rw [hp]; simp), if_pos hi]

theorem skip_blank {w : Bytes} (hw : Blank w) (env : Env) (rest : Bytes) (hist : LHist) (warns : List Exn) :
    tokenLoop env (w ++ rest) hist warns = tokenLoop env rest (w.foldl LHist.put hist) warns := by
  induction w generalizing hist with
  | nil => rfl
  | cons c w ih =>
    rw [List.cons_append, blank_char (hw c (by simp)), ih (fun d hd => hw d (by simp [hd]))]
    rfl

theorem blank_prefix {w p : Bytes} (hw : Blank w) (h : p <+: w) : Blank p := fun c hc => hw c (h.subset hc)

theorem blank_eof {w : Bytes} (hw : Blank w) (env : Env) (hist : LHist) (warns : List Exn) :
    tokenLoop env w hist warns = .ret .nothing ⟨[], false, (w.foldl LHist.put hist).put 0xFF, warns⟩ := by
  have := skip_blank hw env [] hist warns
  rw [List.append_nil] at this
  rw [this, tokenLoop]

/-! ### One-character tokens -/

theorem punct_tok {c : Byte} (hc : isPunct c = true) (env : Env) (rest : Bytes) (hist : LHist) (warns : List Exn) :
    tokenLoop env (c :: rest) hist warns = .ret (.punct c) ⟨rest, true, hist.put c, warns⟩ := by
  have h : c = 123 ∨ c = 91 ∨ c = 125 ∨ c = 93 ∨ c = 58 ∨ c = 44 := by
    unfold isPunct at hc; simp at hc; omega
  simp only [tokenLoop]
  have hd : isDigit c = false := by unfold isDigit; simp; omega
  rw [if_neg (by omega), if_neg (by omega), if_neg (by omega), if_neg (by rw [hd]; simp; omega), if_pos hc]

/-! ### Hexadecimal digits and UTF-8 -/

theorem hexByte_eq (c : Byte) : hexByte c = hexDigit c := by
  by_cases h : c < 103
  · have : ∀ c, c < 103 → hexByte c = hexDigit c := by decide +kernel
    exact this c h
  · have h1 : hexByte c = none := by
      unfold hexByte
      rw [if_neg (by omega), if_neg (by omega), if_neg (by omega)]
    have hn : ∀ l : List Byte, (∀ d ∈ l, d < 103) → l.idxOf? c = none := by
      intro l hl
      rw [List.idxOf?_eq_none_iff]
      intro hm
      exact h (hl c hm)
    unfold hexDigit
    rw [hn _ (by decide), hn _ (by decide), h1]

theorem hexDigit_lt {c : Byte} {n : Nat} (h : hexDigit c = some n) : n < 16 ∧ c ≠ 10 ∧ c ≠ 34 ∧ c ≠ 92 := by
  rw [← hexByte_eq] at h
  unfold hexByte at h
  split at h
  · simp at h; omega
  · split at h
    · simp at h; omega
    · split at h
      · simp at h; omega
      · simp at h

theorem hexValue_some {h1 h2 h3 h4 : Byte} {n : Nat} (h : hexValue h1 h2 h3 h4 = some n) :
    ∃ a b c d, hexDigit h1 = some a ∧ hexDigit h2 = some b ∧ hexDigit h3 = some c ∧ hexDigit h4 = some d ∧
      n = a * 4096 + b * 256 + c * 16 + d := by
  unfold hexValue at h
  split at h
  · rename_i a b c d e1 e2 e3 e4
    simp at h
    exact ⟨a, b, c, d, e1, e2, e3, e4, h.symm⟩
  · simp at h

theorem hexWord_value {h1 h2 h3 h4 : Byte} {n : Nat} (h : hexValue h1 h2 h3 h4 = some n) :
    hexWord 0 [h1, h2, h3, h4] = .inr n ∧ n < 65536 := by
  obtain ⟨a, b, c, d, e1, e2, e3, e4, rfl⟩ := hexValue_some h
  have := hexDigit_lt e1; have := hexDigit_lt e2; have := hexDigit_lt e3; have := hexDigit_lt e4
  simp only [hexWord, hexByte_eq, e1, e2, e3, e4]
  refine ⟨?_, by omega⟩
  congr 1
  omega

theorem hexWord_bad {h1 h2 h3 h4 : Byte} (h : hexValue h1 h2 h3 h4 = none) :
    ∃ c, hexWord 0 [h1, h2, h3, h4] = .inl c ∧ c ∈ [h1, h2, h3, h4] ∧ hexDigit c = none := by
  unfold hexValue at h
  simp only [hexWord, hexByte_eq]
  cases e1 : hexDigit h1 with
  | none => exact ⟨h1, rfl, by simp, e1⟩
  | some a =>
    cases e2 : hexDigit h2 with
    | none => exact ⟨h2, rfl, by simp, e2⟩
    | some b =>
      cases e3 : hexDigit h3 with
      | none => exact ⟨h3, rfl, by simp, e3⟩
      | some c =>
        cases e4 : hexDigit h4 with
        | none => exact ⟨h4, rfl, by simp, e4⟩
        | some d => rw [e1, e2, e3, e4] at h; simp at h

theorem toBytes_utf8 (surr : Nat → Option Bytes) (n : Nat) (hn : n < 65536) (hs : ¬ (0xD800 ≤ n ∧ n ≤ 0xDFFF)) :
    toBytes surr n = some (utf8 n) := by
  have hv : Nat.isValidChar n := by unfold Nat.isValidChar; omega
  have hc : (Char.ofNat n).val.toNat = n := by
    have : (Char.ofNat n).toNat = n := by
      rw [Char.ofNat, dif_pos hv]
      rfl
    exact this
  unfold toBytes utf8 String.utf8EncodeChar
  simp only [hc]
  have hsur : isSurrogate n = false := by unfold isSurrogate; simp; omega
  by_cases h1 : n < 128
  · simp only [if_pos h1, if_pos (show n ≤ 127 by omega)]
    simp; omega
  by_cases h2 : n < 2048
  · simp only [if_neg h1, if_neg (show ¬ n ≤ 127 by omega), if_pos h2, if_pos (show n ≤ 2047 by omega)]
    simp; omega
  · simp only [if_neg h1, if_neg (show ¬ n ≤ 127 by omega), if_neg h2, if_neg (show ¬ n ≤ 2047 by omega), hsur,
      Bool.false_eq_true, if_false, if_pos (show n ≤ 65535 by omega)]
    simp; omega

/-! ### Strings -/

theorem stringLoop_item (env : Env) (i : StrItem) (hi : i.WF env.ascii) (rest : Bytes) (hist : LHist) (warns : List Exn) (acc : Bytes) :
    ∃ hist', stringLoop env (i.text ++ rest) hist warns acc = stringLoop env rest hist' warns (acc ++ i.value env.ascii) := by
  cases i with
  | raw c =>
    obtain ⟨h1, h2⟩ := hi
    refine ⟨hist.put c, ?_⟩
    show stringLoop env (c :: rest) hist warns acc = _
    rw [stringLoop.eq_def]
    dsimp only
    rw [if_neg h1, if_neg h2]; rfl
  | esc c =>
    have h : c = 34 ∨ c = 92 ∨ c = 47 := by simpa [StrItem.WF] using hi
    refine ⟨(hist.put 92).put c, ?_⟩
    show stringLoop env (92 :: c :: rest) hist warns acc = _
    rw [stringLoop.eq_def]
    dsimp only
    rw [if_neg (by decide), if_pos rfl, if_pos (by omega)]; rfl
  | ctl c =>
    have h : c = 98 ∨ c = 102 ∨ c = 110 ∨ c = 114 ∨ c = 116 := by simpa [StrItem.WF] using hi
    refine ⟨(hist.put 92).put c, ?_⟩
    show stringLoop env (92 :: c :: rest) hist warns acc = _
    rw [stringLoop.eq_def]
    dsimp only
    rw [if_neg (by decide), if_pos rfl, if_neg (by omega), if_neg (by omega), if_pos (by omega)]; rfl
  | uni h1 h2 h3 h4 =>
    obtain ⟨n, hn, hs⟩ := hi
    obtain ⟨a, b, c, d, e1, e2, e3, e4, _⟩ := hexValue_some hn
    have f1 := hexDigit_lt e1; have f2 := hexDigit_lt e2; have f3 := hexDigit_lt e3; have f4 := hexDigit_lt e4
    show ∃ hist', stringLoop env (92 :: 117 :: h1 :: h2 :: h3 :: h4 :: rest) hist warns acc = _
    by_cases ha : env.ascii = true
    · rw [stringLoop.eq_def]
      dsimp only
      rw [if_neg (by decide), if_pos rfl, if_neg (by decide), if_pos rfl, if_pos ha]
      have step : ∀ x r h a, x ≠ 34 → x ≠ 92 → stringLoop env (x :: r) h warns a = stringLoop env r (h.put x) warns (a ++ [x]) := by
        intro x r h a hx1 hx2
        rw [stringLoop.eq_def]
        dsimp only
        rw [if_neg hx1, if_neg hx2]
      rw [step _ _ _ _ f1.2.2.1 f1.2.2.2, step _ _ _ _ f2.2.2.1 f2.2.2.2, step _ _ _ _ f3.2.2.1 f3.2.2.2, step _ _ _ _ f4.2.2.1 f4.2.2.2]
      exact ⟨_, by simp only [StrItem.value, ha, if_true, List.append_assoc, List.cons_append, List.nil_append]; rfl⟩
    · have hs : ¬ (0xD800 ≤ n ∧ n ≤ 0xDFFF) := by
        rcases hs with hs | hs
        · exact absurd hs ha
        · exact hs
      obtain ⟨w1, w2⟩ := hexWord_value hn
      obtain ⟨hist', hp⟩ := putN_some ((hist.put 92).put 117) [h1, h2, h3, h4] 4 (by simp)
        (by simp; exact ⟨f1.2.1, f2.2.1, f3.2.1, f4.2.1⟩)
      refine ⟨hist', ?_⟩
      rw [stringLoop.eq_def]
      dsimp only
      rw [if_neg (by decide), if_pos rfl, if_neg (by decide), if_pos rfl, if_neg ha, hp]
      dsimp only
      rw [w1]
      dsimp only
      rw [toBytes_utf8 _ n w2 hs]
      simp only [StrItem.value, hn, ha, if_false, Option.getD_some]
      simp

theorem stringLoop_items (env : Env) (items : List StrItem) (hi : strWF env.ascii items) (rest : Bytes) (hist : LHist)
    (warns : List Exn) (acc : Bytes) :
    ∃ hist', stringLoop env (items.flatMap StrItem.text ++ rest) hist warns acc =
      stringLoop env rest hist' warns (acc ++ strValue env.ascii items) := by
  induction items generalizing hist acc with
  | nil => exact ⟨hist, by simp [strValue]⟩
  | cons i items ih =>
    obtain ⟨h1, e1⟩ := stringLoop_item env i (hi i (by simp)) (items.flatMap StrItem.text ++ rest) hist warns acc
    obtain ⟨h2, e2⟩ := ih (fun j hj => hi j (by simp [hj])) h1 (acc ++ i.value env.ascii)
    refine ⟨h2, ?_⟩
    rw [List.flatMap_cons, List.append_assoc, e1, e2]
    simp [strValue, List.append_assoc]

theorem string_tok (env : Env) (items : List StrItem) (hi : strWF env.ascii items) (rest : Bytes) (hist : LHist)
    (warns : List Exn) :
    ∃ hist', tokenLoop env (strText items ++ rest) hist warns =
      .ret (.val (.str (strValue env.ascii items))) ⟨rest, true, hist', warns⟩ := by
  obtain ⟨h1, e1⟩ := stringLoop_items env items hi (34 :: rest) (hist.put 34) warns []
  have : strText items ++ rest = 34 :: (items.flatMap StrItem.text ++ (34 :: rest)) := by simp [strText]
  rw [this, tokenLoop]
  rw [if_pos rfl]
  simp only [consumeString]
  rw [e1, stringLoop.eq_def]
  dsimp only
  rw [if_pos rfl]
  exact ⟨_, rfl⟩

/-! ### Numbers -/

theorem decValue_eq (ds : Bytes) : decValue ds = decimal ds := by
  have gen : ∀ n, ds.foldl (fun n d => n * 10 + (d - 48)) n = n * 10 ^ ds.length + decimal ds := by
    induction ds with
    | nil => intro n; simp [decimal]
    | cons d ds ih =>
      intro n
      rw [List.foldl_cons, ih, decimal, List.length_cons, Nat.pow_succ]
      rw [Nat.add_mul, Nat.mul_assoc, Nat.mul_comm 10]
      omega
  unfold decValue
  rw [gen 0]; simp

theorem isDigit_iff (c : Byte) : isDigit c = true ↔ 48 ≤ c ∧ c ≤ 57 := by
  unfold isDigit; simp

theorem numberLoop_digits (ds : Bytes) (hd : ∀ d ∈ ds, 48 ≤ d ∧ d ≤ 57) (rest : Bytes) (hist : LHist) (warns : List Exn)
    (dbl : Bool) (text : Bytes) :
    numberLoop (ds ++ rest) hist warns dbl text = numberLoop rest (ds.foldl LHist.put hist) warns dbl (text ++ ds) := by
  induction ds generalizing hist text with
  | nil => simp
  | cons d ds ih =>
    rw [List.cons_append, numberLoop]
    rw [if_pos ((isDigit_iff d).mpr (hd d (by simp))), ih (fun x hx => hd x (by simp [hx]))]
    simp

/-- The byte after a number: no digit, no dot. -/
def NumFollow (rest : Bytes) : Prop := ∀ c r, rest = c :: r → isDigit c = false ∧ c ≠ 46

/-- A number ends before `rest`. -/
theorem numberLoop_end {rest : Bytes} (hf : NumFollow rest) (hist : LHist) (warns : List Exn) (dbl : Bool) (text : Bytes) :
    ∃ g h, (g = true ∨ rest = []) ∧ (rest = [] → g = false) ∧ numberLoop rest hist warns dbl text =
      (if dbl then .ret (.val (.dbl text)) ⟨rest, g, h, warns⟩ else match intResult text with
        | .inl u => .uncaught u
        | .inr v => .ret (.val v) ⟨rest, g, h, warns⟩ : Out Tok) := by
  cases rest with
  | nil =>
    refine ⟨false, (hist.put 0xFF).popBack, Or.inr rfl, fun _ => rfl, ?_⟩
    simp only [numberLoop, numberEnd, St.unget]
    rfl
  | cons c r =>
    obtain ⟨h1, h2⟩ := hf c r rfl
    refine ⟨true, (hist.put c).popBack, Or.inl rfl, by simp, ?_⟩
    simp only [numberLoop]
    rw [if_neg (by rw [h1]; simp), if_neg (by simp [h2])]
    simp only [numberEnd, St.unget, if_true]
    rfl

theorem takeWhile_digits {ds : Bytes} (hd : ∀ d ∈ ds, 48 ≤ d ∧ d ≤ 57) : ds.takeWhile isDigit = ds := by
  induction ds with
  | nil => rfl
  | cons d ds ih =>
    rw [List.takeWhile_cons, if_pos ((isDigit_iff d).mpr (hd d (by simp))), ih (fun x hx => hd x (by simp [hx]))]

theorem strtol_int (neg : Bool) (ds : Bytes) (hd : Digits ds) : strtol (intText neg ds) = some (intValue neg ds) := by
  obtain ⟨hne, hd⟩ := hd
  cases neg
  · cases ds with
    | nil => exact absurd rfl hne
    | cons d ds =>
      simp only [intText, intValue, if_false, List.nil_append, strtol, Bool.false_eq_true]
      rw [if_neg (by have := hd d (by simp); omega), takeWhile_digits hd, decValue_eq]
      simp
  · simp only [intText, intValue, if_true, List.cons_append, List.nil_append, strtol]
    rw [takeWhile_digits hd, decValue_eq]
    cases ds with
    | nil => exact absurd rfl hne
    | cons d ds => simp

theorem intResult_int (neg : Bool) (ds : Bytes) (hd : Digits ds) :
    (FitsLong (intValue neg ds) → intResult (intText neg ds) = .inr (intJson (intValue neg ds))) ∧
    (¬ FitsLong (intValue neg ds) → intResult (intText neg ds) = .inl .outOfRange) := by
  unfold intResult
  rw [strtol_int neg ds hd]
  dsimp only
  unfold FitsLong intJson
  constructor
  · intro h
    split
    · rfl
    · rfl
  · intro h
    rw [if_neg (by omega), if_neg h]

/-- First character of a number and the rest. -/
theorem intText_cons (neg : Bool) (ds : Bytes) (hd : Digits ds) :
    ∃ c r, intText neg ds = c :: r ∧ (isDigit c = true ∨ c = 46 ∨ c = 45) ∧ ∀ d ∈ r, 48 ≤ d ∧ d ≤ 57 := by
  obtain ⟨hne, hd⟩ := hd
  cases neg
  · cases ds with
    | nil => exact absurd rfl hne
    | cons d ds =>
      exact ⟨d, ds, rfl, Or.inl ((isDigit_iff d).mpr (hd d (by simp))), fun x hx => hd x (by simp [hx])⟩
  · exact ⟨45, ds, rfl, Or.inr (Or.inr rfl), hd⟩

theorem number_start (env : Env) {c : Byte} (hc : isDigit c = true ∨ c = 46 ∨ c = 45) (rest : Bytes) (hist : LHist) (warns : List Exn) :
    tokenLoop env (c :: rest) hist warns = numberLoop rest (hist.put c) warns false [c] := by
  have hr : (48 ≤ c ∧ c ≤ 57) ∨ c = 46 ∨ c = 45 := by rw [isDigit_iff] at hc; exact hc
  simp only [tokenLoop]
  rw [if_neg (by omega), if_neg (by omega), if_neg (by omega), if_pos hc]
  rfl

theorem int_tok (env : Env) (neg : Bool) (ds : Bytes) (hd : Digits ds) (rest : Bytes) (hf : NumFollow rest) (hist : LHist)
    (warns : List Exn) :
    (FitsLong (intValue neg ds) → ∃ g h, (g = true ∨ rest = []) ∧ (rest = [] → g = false) ∧ tokenLoop env (intText neg ds ++ rest) hist warns =
      .ret (.val (intJson (intValue neg ds))) ⟨rest, g, h, warns⟩) ∧
    (¬ FitsLong (intValue neg ds) → tokenLoop env (intText neg ds ++ rest) hist warns = .uncaught .outOfRange) := by
  obtain ⟨c, r, e, hc, hr⟩ := intText_cons neg ds hd
  obtain ⟨i1, i2⟩ := intResult_int neg ds hd
  rw [e, List.cons_append, number_start env hc, numberLoop_digits r hr, List.singleton_append, ← e]
  obtain ⟨g, h, hg, hg', e'⟩ := numberLoop_end hf (List.foldl LHist.put (hist.put c) r) warns false (intText neg ds)
  rw [e']
  simp only [Bool.false_eq_true, if_false]
  constructor
  · intro hl
    rw [i1 hl]
    exact ⟨g, h, hg, hg', rfl⟩
  · intro hl
    rw [i2 hl]

theorem frac_tok (env : Env) (neg : Bool) (ds fs : Bytes) (hd : Digits ds) (hfs : Digits fs) (rest : Bytes) (hf : NumFollow rest)
    (hist : LHist) (warns : List Exn) :
    ∃ g h, (g = true ∨ rest = []) ∧ (rest = [] → g = false) ∧ tokenLoop env (intText neg ds ++ [46] ++ fs ++ rest) hist warns =
      .ret (.val (.dbl (intText neg ds ++ [46] ++ fs))) ⟨rest, g, h, warns⟩ := by
  obtain ⟨c, r, e, hc, hr⟩ := intText_cons neg ds hd
  have e2 : intText neg ds ++ [46] ++ fs ++ rest = c :: (r ++ (46 :: (fs ++ rest))) := by simp [e]
  rw [e2, number_start env hc, numberLoop_digits r hr, List.singleton_append, ← e, numberLoop]
  rw [if_neg (by simp [isDigit]), if_pos (by simp), numberLoop_digits fs hfs.2]
  obtain ⟨g, h, hg, hg', e'⟩ := numberLoop_end hf (List.foldl LHist.put ((List.foldl LHist.put (hist.put c) r).put 46) fs) warns true (intText neg ds ++ [46] ++ fs)
  rw [e']
  exact ⟨g, h, hg, hg', rfl⟩

/-! ### Literals -/

/-- The byte after `true` / `false`: no letter of a boolean literal. -/
def BoolFollow (rest : Bytes) : Prop := ∀ c r, rest = c :: r → isBoolLetter (toLower c) = false

theorem boolEnd_exact (env : Env) (s : St) (c : Byte) (b : Bool) :
    boolEnd env s c (if b then b!"true" else b!"false") (if b then b!"true" else b!"false") =
      .ret (.val (.bool b)) (St.unget { s with hist := s.hist.popBack } c) := by
  cases b <;> simp [boolEnd]

theorem bool_tok (env : Env) (b : Bool) (rest : Bytes) (hf : BoolFollow rest) (hist : LHist) (warns : List Exn) :
    ∃ g h, (g = true ∨ rest = []) ∧ (rest = [] → g = false) ∧ tokenLoop env ((if b then b!"true" else b!"false") ++ rest) hist warns =
      .ret (.val (.bool b)) ⟨rest, g, h, warns⟩ := by
  have key : ∀ hist', ∃ g h, (g = true ∨ rest = []) ∧ (rest = [] → g = false) ∧
      ∀ fl, boolLoop env fl rest hist' warns (if b then b!"true" else b!"false") (if b then b!"true" else b!"false") =
      .ret (.val (.bool b)) ⟨rest, g, h, warns⟩ := by
    intro hist'
    cases rest with
    | nil =>
      exact ⟨false, _, Or.inr rfl, fun _ => rfl, fun fl => by rw [boolLoop, boolEnd_exact]; rfl⟩
    | cons c r =>
      exact ⟨true, _, Or.inl rfl, by simp, fun fl => by
        rw [boolLoop, if_neg (by rw [hf c r rfl]; simp), boolEnd_exact]; rfl⟩
  cases b
  · obtain ⟨g, h, hg, hg', e⟩ := key (((((hist.put 102).put 97).put 108).put 115).put 101)
    exact ⟨g, h, hg, hg', by rw [← e 102]; rfl⟩
  · obtain ⟨g, h, hg, hg', e⟩ := key ((((hist.put 116).put 114).put 117).put 101)
    exact ⟨g, h, hg, hg', by rw [← e 116]; rfl⟩

theorem null_tok (env : Env) (rest : Bytes) (hist : LHist) (warns : List Exn) :
    ∃ h, tokenLoop env (b!"null" ++ rest) hist warns = .ret (.val .null) ⟨rest, true, h, warns⟩ := by
  obtain ⟨h, hp⟩ := putN_some (hist.put 110) [117, 108, 108, 0] 3 (by simp) (by simp)
  refine ⟨h, ?_⟩
  simp only [List.cons_append, List.nil_append, tokenLoop]
  rw [if_neg (by decide), if_neg (by decide), if_pos (by decide)]
  simp only [consumeNull]
  rw [hp]
  rfl

end Verif.Lemmas
