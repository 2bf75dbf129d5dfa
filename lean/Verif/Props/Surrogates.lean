import Verif.Props.ReaderGrammar
import Verif.Spec.Surrogates
/-! # C121: characters beyond U+FFFF -/
namespace Verif.Props
open Verif.Model Verif.Spec Verif.Lemmas

/-- One half of a pair: the library is asked. -/
theorem half_item (strict sort : Bool) (surr : Nat → Option Bytes) {i : StrItem} {n : Nat} (hi : i.Half n) (rest : Bytes) (hist : LHist) (acc : Bytes) :
    ∃ hist', stringLoop (envOf strict false sort surr) (i.text ++ rest) hist [] acc =
      match surr n with
      | some bs => stringLoop (envOf strict false sort surr) rest hist' [] (acc ++ bs)
      | none => .uncaught .rangeError := by
  obtain ⟨h1, h2, h3, h4, rfl, hn, hs⟩ := hi
  have hs : 0xD800 ≤ n ∧ n ≤ 0xDFFF := by unfold High Low at hs; omega
  obtain ⟨a, b, c, d, e1, e2, e3, e4, _⟩ := hexValue_some hn
  have f1 := hexDigit_lt e1; have f2 := hexDigit_lt e2; have f3 := hexDigit_lt e3; have f4 := hexDigit_lt e4
  obtain ⟨w1, w2⟩ := hexWord_value hn
  obtain ⟨hist', hp⟩ := putN_some ((hist.put 92).put 117) [h1, h2, h3, h4] 4 (by simp) (by
    intro x hx
    simp at hx
    omega)
  refine ⟨hist', ?_⟩
  show stringLoop (envOf strict false sort surr) (92 :: 117 :: h1 :: h2 :: h3 :: h4 :: rest) hist [] acc = _
  rw [stringLoop.eq_def]
  dsimp only
  rw [if_neg (by decide), if_pos rfl, if_neg (by decide), if_pos rfl, if_neg (by simp [envOf, Env.ascii]), hp]
  dsimp only
  rw [w1]
  have ht : toBytes (envOf strict false sort surr).surr n = surr n := by
    unfold toBytes isSurrogate
    rw [if_neg (by omega), if_neg (by omega), if_pos (by simp [hs])]
    rfl
  dsimp only
  rw [ht]
  cases surr n <;> rfl

theorem items_read (strict sort : Bool) (surr : Nat → Option Bytes) (rest : Bytes) : ∀ (items : List (StrItem × Bytes)) (hist : LHist) (acc : Bytes),
    (∀ x ∈ items, x.1.ReadsAs surr x.2) → ∃ hist', stringLoop (envOf strict false sort surr) ((items.map Prod.fst).flatMap StrItem.text ++ rest) hist [] acc =
      stringLoop (envOf strict false sort surr) rest hist' [] (acc ++ items.flatMap Prod.snd) := by
  intro items
  induction items with
  | nil => intro hist acc _; exact ⟨hist, by simp⟩
  | cons x l ih =>
    intro hist acc hl
    obtain ⟨hA, eA⟩ : ∃ hist', stringLoop (envOf strict false sort surr) (x.1.text ++ ((l.map Prod.fst).flatMap StrItem.text ++ rest)) hist [] acc =
        stringLoop (envOf strict false sort surr) ((l.map Prod.fst).flatMap StrItem.text ++ rest) hist' [] (acc ++ x.2) := by
      rcases hl x (by simp) with ⟨hw, hv⟩ | ⟨n, hh, hv⟩
      · rw [hv]; exact stringLoop_item (envOf strict false sort surr) x.1 hw _ hist [] acc
      · obtain ⟨h', e⟩ := half_item strict sort surr hh ((l.map Prod.fst).flatMap StrItem.text ++ rest) hist acc
        rw [hv] at e
        exact ⟨h', e⟩
    obtain ⟨hB, eB⟩ := ih hA (acc ++ x.2) (fun j hj => hl j (by simp [hj]))
    refine ⟨hB, ?_⟩
    rw [List.map_cons, List.flatMap_cons, List.append_assoc, eA, eB]
    simp [List.append_assoc]

/-- A string whose items are read one by one, the halves of pairs as the library has them. -/
theorem halves_read (strict sort : Bool) (surr : Nat → Option Bytes) (junk : List Byte) (n : Nat) (items : List (StrItem × Bytes)) (w rest : Bytes)
    (hr : ∀ x ∈ items, x.1.ReadsAs surr x.2) (hw : Blank w) :
    ∃ s', Model.read (envOf strict false sort surr) (St.init junk n (w ++ strText (items.map Prod.fst) ++ rest)) =
      .ret (some (.str (items.flatMap Prod.snd))) s' ∧ s'.warns = [] ∧ s'.rest = rest := by
  have e0 : w ++ strText (items.map Prod.fst) ++ rest = w ++ (34 :: ((items.map Prod.fst).flatMap StrItem.text ++ (34 :: rest))) := by simp [strText]
  obtain ⟨hA, e⟩ := items_read strict sort surr (34 :: rest) items ((w.foldl LHist.put (LHist.init junk n)).put 34) [] hr
  have htok : tokenLoop (envOf strict false sort surr) (w ++ strText (items.map Prod.fst) ++ rest) (LHist.init junk n) [] =
      .ret (.val (.str (items.flatMap Prod.snd))) ⟨rest, true, hA.put 34, []⟩ := by
    rw [e0, skip_blank hw, tokenLoop, if_pos rfl]
    simp only [consumeString]
    rw [e, stringLoop.eq_def]
    simp
  have : item (envOf strict false sort surr) 0 (St.init junk n (w ++ strText (items.map Prod.fst) ++ rest)) =
      .ret (.str (items.flatMap Prod.snd)) ⟨rest, true, hA.put 34, []⟩ := by
    unfold item St.init
    rw [consumeToken_good, htok]; rfl
  exact ⟨_, read_of_item (init_exhausted junk n _) this, rfl, rfl⟩

/-- A string with a half of a pair that the library refuses. -/
theorem halves_refused (strict sort : Bool) (surr : Nat → Option Bytes) (junk : List Byte) (n : Nat) (pre : List (StrItem × Bytes)) (i : StrItem) (cp : Nat)
    (w rest : Bytes) (hr : ∀ x ∈ pre, x.1.ReadsAs surr x.2) (hi : i.Half cp) (hs : surr cp = none) (hw : Blank w) :
    Model.read (envOf strict false sort surr) (St.init junk n (w ++ [34] ++ (pre.map Prod.fst).flatMap StrItem.text ++ i.text ++ rest)) =
      .uncaught .rangeError := by
  have e0 : w ++ [34] ++ (pre.map Prod.fst).flatMap StrItem.text ++ i.text ++ rest =
    w ++ (34 :: ((pre.map Prod.fst).flatMap StrItem.text ++ (i.text ++ rest))) := by simp
  rw [e0]
  obtain ⟨hA, e1⟩ := items_read strict sort surr (i.text ++ rest) pre ((w.foldl LHist.put (LHist.init junk n)).put 34) [] hr
  obtain ⟨hB, e2⟩ := half_item strict sort surr hi rest hA ([] ++ pre.flatMap Prod.snd)
  rw [hs] at e2
  have htl : tokenLoop (envOf strict false sort surr) (w ++ (34 :: ((pre.map Prod.fst).flatMap StrItem.text ++ (i.text ++ rest))))
      (LHist.init junk n) [] = .uncaught .rangeError := by
    rw [skip_blank hw, tokenLoop, if_pos rfl]
    simp only [consumeString]
    rw [e1, e2]
  generalize hx : w ++ (34 :: ((pre.map Prod.fst).flatMap StrItem.text ++ (i.text ++ rest))) = x at htl
  unfold Model.read
  rw [show 2 * (St.init junk n x).rest.length + 4 = (2 * x.length + 3) + 1 from rfl, readNext_succ]
  show (tokenLoop (envOf strict false sort surr) x (LHist.init junk n) []).bind _ = _
  rw [htl]
  rfl

/-- `\ud800` … written out. -/
theorem half_d800 : StrItem.Half (.uni 100 56 48 48) 0xD800 := ⟨_, _, _, _, rfl, by decide, .inl (by unfold High; omega)⟩
theorem half_d801 : StrItem.Half (.uni 100 56 48 49) 0xD801 := ⟨_, _, _, _, rfl, by decide, .inl (by unfold High; omega)⟩
theorem half_dc00 : StrItem.Half (.uni 100 99 48 48) 0xDC00 := ⟨_, _, _, _, rfl, by decide, .inr (by unfold Low; omega)⟩
theorem half_dc40 : StrItem.Half (.uni 100 99 52 48) 0xDC40 := ⟨_, _, _, _, rfl, by decide, .inr (by unfold Low; omega)⟩

/-- If a pair is read as a string, both halves have been turned into bytes. -/
theorem pair_bytes (surr : Nat → Option Bytes) {i j : StrItem} {hi lo : Nat} (h1 : i.Half hi) (h2 : j.Half lo) {v : Bytes} {s' : St}
    (h : Model.read (envOf false false false surr) (St.init [] 0 (strText [i, j])) = .ret (some (.str v)) s') :
    ∃ a b, surr hi = some a ∧ surr lo = some b ∧ v = a ++ b := by
  have hb : Blank ([] : Bytes) := by intro c hc; cases hc
  cases ha : surr hi with
  | none =>
    have := halves_refused false false surr [] 0 [] i hi [] (j.text ++ [34]) (by simp) h1 ha hb
    have e : ([] : Bytes) ++ [34] ++ (([] : List (StrItem × Bytes)).map Prod.fst).flatMap StrItem.text ++ i.text ++ (j.text ++ [34]) = strText [i, j] := by simp [strText]
    rw [e, h] at this
    cases this
  | some a =>
    cases hb' : surr lo with
    | none =>
      have := halves_refused false false surr [] 0 [(i, a)] j lo [] [34] (by intro x hx; simp at hx; subst hx; exact .inr ⟨hi, h1, ha⟩) h2 hb' hb
      have e : ([] : Bytes) ++ [34] ++ (([(i, a)] : List (StrItem × Bytes)).map Prod.fst).flatMap StrItem.text ++ j.text ++ [34] = strText [i, j] := by simp [strText]
      rw [e, h] at this
      cases this
    | some b =>
      obtain ⟨s2, e2, _⟩ := halves_read false false surr [] 0 [(i, a), (j, b)] [] [] (by
        intro x hx; simp at hx; rcases hx with rfl | rfl
        · exact .inr ⟨hi, h1, ha⟩
        · exact .inr ⟨lo, h2, hb'⟩) hb
      have e : ([] : Bytes) ++ strText (([(i, a), (j, b)] : List (StrItem × Bytes)).map Prod.fst) ++ [] = strText [i, j] := by simp
      rw [e, h] at e2
      simp at e2
      exact ⟨a, b, rfl, rfl, e2.1⟩

/-- **C121 does not hold**, whatever the library does with the halves: the third of the four bytes needs both. -/
theorem C121_pairs_false : ∀ surr : Nat → Option Bytes, ¬ ∀ (i j : StrItem) (hi lo : Nat), i.Half hi → High hi → j.Half lo → Low lo →
    ∃ s', Model.read (envOf false false false surr) (St.init [] 0 (strText [i, j])) = .ret (some (.str (utf8 (character hi lo)))) s' := by
  intro surr h
  obtain ⟨_, e1⟩ := h _ _ _ _ half_d800 (by unfold High; omega) half_dc00 (by unfold Low; omega)
  obtain ⟨_, e2⟩ := h _ _ _ _ half_d800 (by unfold High; omega) half_dc40 (by unfold Low; omega)
  obtain ⟨_, e3⟩ := h _ _ _ _ half_d801 (by unfold High; omega) half_dc00 (by unfold Low; omega)
  obtain ⟨a, b, ha, hb, p1⟩ := pair_bytes surr half_d800 half_dc00 e1
  obtain ⟨a', b', ha', hb', p2⟩ := pair_bytes surr half_d800 half_dc40 e2
  obtain ⟨a'', b'', ha'', hb'', p3⟩ := pair_bytes surr half_d801 half_dc00 e3
  rw [ha] at ha'; rw [hb] at hb''
  obtain rfl := Option.some.inj ha'
  obtain rfl := Option.some.inj hb''
  have v1 : utf8 (character 0xD800 0xDC00) = [0xF0, 0x90, 0x80, 0x80] := by decide
  have v2 : utf8 (character 0xD800 0xDC40) = [0xF0, 0x90, 0x81, 0x80] := by decide
  have v3 : utf8 (character 0xD801 0xDC00) = [0xF0, 0x90, 0x90, 0x80] := by decide
  rw [v1] at p1; rw [v2] at p2; rw [v3] at p3
  by_cases hl : 3 ≤ a.length
  · have q1 := congrArg (·[2]?) p1
    have q2 := congrArg (·[2]?) p2
    simp only [List.getElem?_append_left (show 2 < a.length by omega)] at q1 q2
    rw [← q1] at q2
    simp at q2
  · have l1 := congrArg List.length p1
    have l3 := congrArg List.length p3
    simp only [List.length_append, List.length_cons, List.length_nil] at l1 l3
    have hlen : a.length = a''.length := by omega
    have q1 := congrArg (·[2]?) p1
    have q3 := congrArg (·[2]?) p3
    simp only [List.getElem?_append_right (show a.length ≤ 2 by omega), List.getElem?_append_right (show a''.length ≤ 2 by omega), ← hlen] at q1 q3
    rw [← q1] at q3
    simp at q3

/-- **C121, what is true.** The two halves of a pair are read each for itself, as the library has it (`surr`; the standard leaves it open): a string literal with halves
among its items is read, without message, as what its items are read as one by one; and if the library refuses a half, the exception leaves the parser uncaught, wherever
in the string the half is. -/
theorem C121_pairs_partial (strict sort : Bool) (surr : Nat → Option Bytes) (junk : List Byte) (n : Nat) (w rest : Bytes) (hw : Blank w) :
    (∀ items : List (StrItem × Bytes), (∀ x ∈ items, x.1.ReadsAs surr x.2) →
      ∃ s', Model.read (envOf strict false sort surr) (St.init junk n (w ++ strText (items.map Prod.fst) ++ rest)) =
        .ret (some (.str (items.flatMap Prod.snd))) s' ∧ s'.warns = [] ∧ s'.rest = rest) ∧
    (∀ (pre : List (StrItem × Bytes)) (i : StrItem) (half : Nat), (∀ x ∈ pre, x.1.ReadsAs surr x.2) → i.Half half → surr half = none →
      Model.read (envOf strict false sort surr) (St.init junk n (w ++ [34] ++ (pre.map Prod.fst).flatMap StrItem.text ++ i.text ++ rest)) =
        .uncaught .rangeError) :=
  ⟨fun items hr => halves_read strict sort surr junk n items w rest hr hw, fun pre i half hr hi hs => halves_refused strict sort surr junk n pre i half w rest hr hi hs hw⟩

/-- `"a\ud83d\ude00"` with a library that encodes halves as if they were characters: the six bytes of two halves, not the four of the character. -/
example : (StrItem.ReadsAs (fun n => some [0xE0 + n / 4096, 0x80 + n / 64 % 64, 0x80 + n % 64]) (.uni 100 56 51 100) [0xED, 0xA0, 0xBD] ∧
    StrItem.ReadsAs (fun n => some [0xE0 + n / 4096, 0x80 + n / 64 % 64, 0x80 + n % 64]) (.uni 100 101 48 48) [0xED, 0xB8, 0x80] ∧
    StrItem.ReadsAs (fun _ => none) (.raw 97) [97]) ∧ StrItem.Half (.uni 100 56 51 100) 0xD83D ∧ character 0xD83D 0xDE00 = 0x1F600 ∧
    utf8 0x1F600 = [0xF0, 0x9F, 0x98, 0x80] := by
  refine ⟨⟨.inr ⟨0xD83D, ⟨_, _, _, _, rfl, by decide, .inl (by unfold High; omega)⟩, rfl⟩, .inr ⟨0xDE00, ⟨_, _, _, _, rfl, by decide, .inr (by unfold Low; omega)⟩, rfl⟩,
    .inl ⟨by simp [StrItem.WF], rfl⟩⟩, ⟨_, _, _, _, rfl, by decide, .inl (by unfold High; omega)⟩, by decide, by decide⟩

end Verif.Props
