import Verif.Lemmas.Search
/-! # C32, C33, C34, C55: search lines -/
namespace Verif.Props
open Verif.Model Verif.Model.Search Verif.Spec Verif.Lemmas

/-! ## C34: the line -/

/-- **C34 does not hold**: when no type flag is given the type asked for is whatever the memory holds (`junk`), so the same line finds
different things: `5` finds the number 5 or not. -/
theorem C34_line_false (rx : Rx) :
    ∃ junk junk' : Int, ∃ p p', parse rx junk b!"5" = some p ∧ parse rx junk' b!"5" = some p' ∧
      «match» rx p b!"5" (.value (.int 5)) = true ∧ «match» rx p' b!"5" (.value (.int 5)) = false :=
  ⟨0, 1, _, _, rfl, rfl, rfl, rfl⟩

/-- **C34, the part that holds.** A line is blanks, the pattern (where `\/` stands for a slash and other backslashes for themselves),
and either nothing, a lone backslash that is dropped, or a slash and flags. Then the pattern is the value of the pattern (in lower case
if there is a flag `i`), and each flag is set iff it is given; the type asked for is that of the last of the flags `b n s o`, if any.
Every line without zero bytes is of this form. Missing: without one of these four flags the type asked for is undetermined (it is not
initialised). -/
theorem C34_line_partial (rx : Rx) (junk : Int) (w : Bytes) (items : List PatItem) (hw : Blanks w) (hi : patWF items) :
    (∀ t, t = [] ∨ t = b!"\\" →
      parse rx junk (w ++ patText items ++ t) = some ⟨patValue items, false, false, false, false, junk⟩) ∧
    (∀ flags, 0 ∉ flags →
      parse rx junk (w ++ patText items ++ b!"/" ++ flags) =
        let v := if c%'i' ∈ flags then lower (patValue items) else patValue items
        if c%'e' ∈ flags ∧ rx.valid v (decide (c%'i' ∈ flags)) = false then none
        else some ⟨v, decide (c%'i' ∈ flags), decide (c%'w' ∈ flags), decide (c%'f' ∈ flags), decide (c%'e' ∈ flags),
          ((kindFlags flags).map fun k => match k with | .bool => 1 | .number => 2 | .string => 3 | .key => 4).getD junk⟩) := by
  have ht : ∀ t : Bytes, (items ≠ [] ∨ ∀ c ∈ t.head?, c ≠ c%' ' ∧ c ≠ c%'\t') → trim (w ++ patText items ++ t) = patText items ++ t := by
    intro t hh
    rw [List.append_assoc, trim_blanks _ _ hw]
    apply trim_id
    cases items with
    | nil => rcases hh with hh | hh; exact absurd rfl hh; exact hh
    | cons i items =>
      have h1 := hi.2 i (by simp)
      have h2 := hi.1 i (by simp)
      cases i with
      | plain c =>
        intro x hx
        simp [patText, PatItem.text] at hx
        subst hx
        exact ⟨fun h => h1.1 (by rw [h]), fun h => h1.2 (by rw [h])⟩
      | slash => intro x hx; simp [patText, PatItem.text] at hx; omega
      | kept c => intro x hx; simp [patText, PatItem.text] at hx; omega
  constructor
  · intro t h
    rw [parse, ht t (by rcases h with rfl | rfl <;> simp), split_items items hi.1]
    rcases h with rfl | rfl <;> simp [split]
  · intro flags h0
    rw [parse, List.append_assoc _ b!"/" flags, ht _ (by right; simp), split_items items hi.1]
    have e : split false ([47] ++ flags) = ([], some flags) := by simp [split]
    simp only [e]
    rw [evalFlags_spec flags h0]
    simp only [Bool.false_or, List.append_nil, Bool.and_eq_true, decide_eq_true_eq, Bool.not_eq_true', lower_eq]
    congr 3

/-- Every line has the form described in `C34_line_partial`. -/
theorem C34_line_complete (line : Bytes) (h0 : 0 ∉ line) :
    ∃ w items t, line = w ++ patText items ++ t ∧ Blanks w ∧ patWF items ∧
      (t = [] ∨ t = b!"\\" ∨ ∃ flags, t = b!"/" ++ flags ∧ 0 ∉ flags) := by
  obtain ⟨w, h1, h2, h3⟩ := blanks_split line
  have h4 : 0 ∉ trim line := by rw [h1] at h0; simp at h0; exact h0.2
  obtain ⟨items, t, e1, e2, e3⟩ := items_exist _ (trim line) (Nat.le_refl _) h4
  refine ⟨w, items, t, ?_, h2, ⟨e2, ?_⟩, ?_⟩
  · rw [List.append_assoc, ← e1]; exact h1
  · intro i hi
    cases items with
    | nil => simp at hi
    | cons j items =>
      simp at hi
      subst hi
      have : ∀ c, j = .plain c → c ∈ (trim line).head? := by rintro c rfl; rw [e1]; simp [patText, PatItem.text]
      exact ⟨fun h => (h3 _ (this _ h)).1 rfl, fun h => (h3 _ (this _ h)).2 rfl⟩
  · rcases e3 with h | h | ⟨flags, rfl⟩
    · exact .inl h
    · exact .inr (.inl h)
    · refine .inr (.inr ⟨flags, rfl, fun h => h4 ?_⟩)
      rw [e1]; simp [h]

/-- ` a\/b\n/is` looks for the strings with `a/b\n`, in any case. -/
example : patWF [.plain (c%'a'), .slash, .plain (c%'b'), .kept (c%'n')] ∧
    b!" a\\/b\\n/is" = b!" " ++ patText [.plain (c%'a'), .slash, .plain (c%'b'), .kept (c%'n')] ++ b!"/" ++ b!"is" :=
  ⟨by simp [patWF, PatItem.WF], rfl⟩

/-! ## C32: plain search -/

/-- **C32 does not hold**: a pattern with a tab is not found in the same text; an empty text is not found by the empty pattern. -/
theorem C32_contains_false (rx : Rx) (e : Elem) :
    (∃ p, parse rx 0 b!"a\tb" = some p ∧ p.pattern = b!"a\tb" ∧ «match» rx p b!"a\tb" e = false) ∧
    (∃ p, parse rx 0 b!"" = some p ∧ p.pattern = [] ∧ «match» rx p [] e = false) := by
  refine ⟨⟨_, rfl, rfl, ?_⟩, ⟨_, rfl, rfl, ?_⟩⟩
  · have h : typeOk 0 e = true := by rw [typeOk_iff]; intro k hk; cases k <;> simp [kindNum] at hk
    show (if !typeOk 0 e then false else _) = false
    rw [h]; rfl
  · have h : typeOk 0 e = true := by rw [typeOk_iff]; intro k hk; cases k <;> simp [kindNum] at hk
    show (if !typeOk 0 e then false else _) = false
    rw [h]; rfl

theorem parse_line (rx : Rx) (junk : Int) (items : List PatItem) (hi : patWF items) (flags : Bytes) (h0 : 0 ∉ flags) (he : c%'e' ∉ flags) :
    parse rx junk (patText items ++ b!"/" ++ flags) = some ⟨if c%'i' ∈ flags then lower (patValue items) else patValue items,
      decide (c%'i' ∈ flags), decide (c%'w' ∈ flags), decide (c%'f' ∈ flags), false, ((kindFlags flags).map kindNum).getD junk⟩ := by
  have h := (C34_line_partial rx junk [] items (by simp [Blanks]) hi).2 flags h0
  simp only [List.nil_append, he, false_and, if_false, decide_false] at h
  rw [h]
  congr 2

theorem type_wanted (flags : Bytes) (junk : Int) (hj : kindFlags flags = none → junk ∉ [1, 2, 3, 4]) (e : Elem) :
    typeOk (((kindFlags flags).map kindNum).getD junk) e = true ↔ ∀ k, kindFlags flags = some k → kindOf e = some k := by
  rw [typeOk_iff]
  cases hk : kindFlags flags with
  | none =>
    have := hj hk
    simp at this
    simp
    intro k hk
    cases k <;> simp [kindNum] at hk <;> omega
  | some k =>
    constructor
    · intro h k' hk'; cases hk'; exact h k rfl
    · intro h k' hk'
      have : k = k' := by cases k <;> cases k' <;> simp [kindNum] at hk' <;> rfl
      exact h k' (by rw [this])

theorem seen_eq (flags text : Bytes) :
    seen (decide (c%'i' ∈ flags)) text = if c%'i' ∈ flags then lower (untab text) else untab text := by
  by_cases h : c%'i' ∈ flags <;> simp [h, seen]

/-- **C32, the part that holds.** For a line `PATTERN/FLAGS` without the flags `w` and `e`, a non-empty text of an element matches iff the
element has the type asked for (if any) and the text contains the pattern (flag `f`: is the pattern), up to case with flag `i`, and reading
the tabs of the text as blanks. The line without `/FLAGS` is the case without flags. Missing: the tabs of the text (not those of the
pattern) are read as blanks; the empty text is never found; without type flag the result depends on uninitialised memory (`hj`). -/
theorem C32_contains_partial (rx : Rx) (junk : Int) (items : List PatItem) (hi : patWF items) (flags : Bytes) (h0 : 0 ∉ flags)
    (he : c%'e' ∉ flags) (hw : c%'w' ∉ flags) (hj : kindFlags flags = none → junk ∉ [1, 2, 3, 4]) :
    (∃ p, parse rx junk (patText items ++ b!"/" ++ flags) = some p ∧ ∀ (text : Bytes) (e : Elem), text ≠ [] →
      let fold := fun s => if c%'i' ∈ flags then lower s else s
      («match» rx p text e = true ↔ (∀ k, kindFlags flags = some k → kindOf e = some k) ∧
        if c%'f' ∈ flags then fold (patValue items) = fold (untab text) else fold (patValue items) <:+: fold (untab text))) ∧
    (flags = [] → parse rx junk (patText items) = parse rx junk (patText items ++ b!"/")) := by
  constructor
  · refine ⟨_, parse_line rx junk items hi flags h0 he, fun text e ht => ?_⟩
    unfold «match»
    simp only
    generalize hv : (if c%'i' ∈ flags then lower (patValue items) else patValue items) = v
    rw [← type_wanted flags junk hj e]
    have hs := seen_eq flags text
    generalize hu : (if c%'i' ∈ flags then lower (untab text) else untab text) = u at hs ⊢
    have hl : u.length = text.length := by rw [← hs, seen_length]
    by_cases hty : typeOk (((kindFlags flags).map kindNum).getD junk) e = true
    · simp only [hty, hw, Bool.not_true, decide_false, Bool.false_and, Bool.false_eq_true, if_false, true_and]
      by_cases hf : c%'f' ∈ flags
      · simp only [hf, if_true, decide_true, Bool.true_and, Bool.or_eq_true, decide_eq_true_eq]
        split
        · next hne =>
          simp only [Bool.false_eq_true, false_iff]
          intro h
          rw [h] at hne
          omega
        · next hne =>
          rw [search_iff, hs]
          constructor
          · rintro ⟨-, h⟩
            exact h.eq_of_length (by omega)
          · intro h
            exact ⟨ht, h ▸ List.infix_refl _⟩
      · simp only [hf, if_false, decide_false, Bool.false_and, Bool.false_or, decide_eq_true_eq]
        split
        · next hne =>
          simp only [Bool.false_eq_true, false_iff]
          intro h
          have := h.length_le
          omega
        · next hne => rw [search_iff, hs]; exact ⟨fun h => h.2, fun h => ⟨ht, h⟩⟩
    · simp [hty]
  · rintro rfl
    have h1 := (C34_line_partial rx junk [] items (by simp [Blanks]) hi).1 [] (.inl rfl)
    have h2 := (C34_line_partial rx junk [] items (by simp [Blanks]) hi).2 [] (by simp)
    simp only [List.nil_append, List.append_nil] at h1 h2
    rw [h1, h2]
    simp [kindFlags]

/-- `Foo/is` and the text `a foo`: the hypotheses are met and it is found. -/
example (rx : Rx) : c%'e' ∉ b!"is" ∧ c%'w' ∉ b!"is" ∧ kindFlags b!"is" = some .string ∧
    ∃ p, parse rx 7 b!"Foo/is" = some p ∧ «match» rx p b!"a foo" (.value (.str b!"a foo")) = true ∧
      «match» rx p b!"a foo" (.entry b!"a foo" .null) = false :=
  ⟨by decide, by decide, by decide, _, rfl, rfl, rfl⟩

/-! ## C33: whole words -/

/-- **C33 does not hold**: the first and the last word of a longer text are not found. -/
theorem C33_words_false (rx : Rx) :
    ∃ p, parse rx 0 b!"foo/w" = some p ∧ WordIn b!"foo" b!"foo bar" ∧ «match» rx p b!"foo bar" (.value (.str b!"foo bar")) = false ∧
      WordIn b!"foo" b!"bar foo" ∧ «match» rx p b!"bar foo" (.value (.str b!"bar foo")) = false :=
  ⟨_, rfl, ⟨[], b!" bar", rfl, .inl rfl, .inr ⟨b!"bar", rfl⟩⟩, rfl, ⟨b!"bar ", [], rfl, .inr ⟨b!"bar", rfl⟩, .inl rfl⟩, rfl⟩

/-- **C33, the part that holds.** With flag `w` (and possibly `i` and a type), a text is found if and only if (it has the type asked for and) it is the pattern, or has it as a word
that is neither the first nor the last. So what is found has the pattern as a whole word, and a whole word is found unless it is the first or the last one of a longer text (then it is found
only if it is also somewhere in between). -/
theorem C33_words_partial (rx : Rx) (junk : Int) (items : List PatItem) (hi : patWF items) (flags : Bytes) (h0 : 0 ∉ flags)
    (he : c%'e' ∉ flags) (hw : c%'w' ∈ flags) (hf : c%'f' ∉ flags) (hj : kindFlags flags = none → junk ∉ [1, 2, 3, 4]) :
    ∃ p, parse rx junk (patText items ++ b!"/" ++ flags) = some p ∧ ∀ (text : Bytes) (e : Elem), text ≠ [] →
      let fold := fun s => if c%'i' ∈ flags then lower s else s
      let word := fold (patValue items)
      let seen := fold (untab text)
      («match» rx p text e = true ↔ (∀ k, kindFlags flags = some k → kindOf e = some k) ∧ (word = seen ∨ b!" " ++ word ++ b!" " <:+: seen)) ∧
      («match» rx p text e = true → WordIn word seen) ∧
      ((∀ k, kindFlags flags = some k → kindOf e = some k) → ∀ l r, seen = l ++ word ++ r → (∃ l', l = l' ++ [c%' ']) → (∃ r', r = c%' ' :: r') →
        «match» rx p text e = true) := by
  refine ⟨_, parse_line rx junk items hi flags h0 he, fun text e ht => ?_⟩
  intro fold word seen
  have key : «match» rx ⟨word, decide (c%'i' ∈ flags), true, false, false, ((kindFlags flags).map kindNum).getD junk⟩ text e = true ↔
      (∀ k, kindFlags flags = some k → kindOf e = some k) ∧ (word = seen ∨ b!" " ++ word ++ b!" " <:+: seen) := by
    unfold «match»
    simp only
    rw [← type_wanted flags junk hj e]
    have hs : _ = seen := seen_eq flags text
    generalize seen = u at hs ⊢
    generalize word = v
    have hl : u.length = text.length := by rw [← hs, seen_length]
    by_cases hty : typeOk (((kindFlags flags).map kindNum).getD junk) e = true
    · simp only [hty, Bool.not_true, Bool.false_and, Bool.false_or, Bool.false_eq_true, if_false, true_and, Bool.true_and, decide_eq_true_eq]
      by_cases hlen : v.length > text.length
      · simp only [hlen, if_true, Bool.false_eq_true, false_iff]
        rintro (h | h)
        · rw [h] at hlen; omega
        · have := h.length_le
          simp at this
          omega
      · rw [if_neg hlen]
        by_cases hgt : text.length > v.length
        · rw [if_pos hgt, search_iff, hs]
          constructor
          · rintro ⟨-, h⟩
            exact .inr h
          · rintro (h | h)
            · rw [h] at hgt; omega
            · exact ⟨ht, h⟩
        · rw [if_neg hgt, search_iff, hs]
          constructor
          · rintro ⟨-, h⟩
            exact .inl (h.eq_of_length (by omega))
          · rintro (h | h)
            · exact ⟨ht, h ▸ List.infix_refl _⟩
            · have := h.length_le
              simp at this
              omega
    · simp [hty]
  have hpat : (⟨word, decide (c%'i' ∈ flags), decide (c%'w' ∈ flags), decide (c%'f' ∈ flags), false, ((kindFlags flags).map kindNum).getD junk⟩ : Pattern) =
      ⟨word, decide (c%'i' ∈ flags), true, false, false, ((kindFlags flags).map kindNum).getD junk⟩ := by simp [hw, hf]
  rw [← hpat] at key
  refine ⟨key, fun h => ?_, fun hk l r h1 ⟨l', h2⟩ ⟨r', h3⟩ => key.mpr ⟨hk, .inr ⟨l', r', ?_⟩⟩⟩
  · rcases (key.mp h).2 with h | ⟨l, r, h⟩
    · exact ⟨[], [], by simp [h], .inl rfl, .inl rfl⟩
    · refine ⟨l ++ [32], 32 :: r, ?_, .inr ⟨l, rfl⟩, .inr ⟨r, rfl⟩⟩
      rw [← h]
      simp
  · rw [h1, h2, h3]
    simp

example (rx : Rx) : ∃ p, parse rx 0 b!"foo/w" = some p ∧ «match» rx p b!"a\tfoo b" (.value (.str b!"a foo b")) = true ∧
    «match» rx p b!"a foot b" (.value (.str b!"a foot b")) = false := ⟨_, rfl, rfl, rfl⟩

/-! ## C55: `\uXXXX` in the search text -/

/-- **C55 does not hold**: the character after an escape is lost, and an escape at the end of the text makes the function read behind the
buffer. -/
theorem C55_unicode_false (surr : Nat → Option Bytes) :
    extractUnicode surr b!"\\u0041b" = .ok b!"A" ∧ extractUnicode surr b!"\\u0041" = .overrun := ⟨rfl, rfl⟩

theorem extract_raw (surr : Nat → Option Bytes) (c : Byte) (s : Bytes) (h : startsEscape (c :: s) = false) :
    extractUnicode surr (c :: s) = (extractUnicode surr s).prepend [c] := by
  rw [extractUnicode]
  rintro a b c' d rest rfl h2
  subst h2
  simp [startsEscape] at h

/-- **C55, the part that holds.** Read the text as characters and escapes `\uXXXX` (hexadecimal, no surrogates), each followed by one
character more. The result is the text with every escape replaced by the UTF-8 encoding of its character, and the character after the
escape lost; so a text is converted as wanted iff it has no escape. Missing: the character after an escape is lost, and an escape
at the end of the text is an overrun (`C55_unicode_false`). -/
theorem C55_unicode_partial (surr : Nat → Option Bytes) (items : List UniItem) (h : uniWF items) :
    extractUnicode surr (items.flatMap UniItem.text) = .ok (items.flatMap UniItem.lossy) ∧
    (extractUnicode surr (items.flatMap UniItem.text) = .ok (items.flatMap UniItem.value) ↔ ∀ i ∈ items, ∃ c, i = .raw c) := by
  have main : extractUnicode surr (items.flatMap UniItem.text) = .ok (items.flatMap UniItem.lossy) := by
    induction items with
    | nil => rfl
    | cons i items ih =>
      cases i with
      | raw c =>
        show extractUnicode surr (c :: items.flatMap UniItem.text) = _
        rw [extract_raw surr c _ h.1, ih h.2]
        rfl
      | uni h1 h2 h3 h4 after =>
        obtain ⟨⟨n, hn, hs⟩, hr⟩ := h
        obtain ⟨e1, e2⟩ := hexWord_value hn
        show extractUnicode surr (92 :: 117 :: h1 :: h2 :: h3 :: h4 :: after :: items.flatMap UniItem.text) = _
        rw [extractUnicode]
        simp only [e1, toBytes_utf8 surr n e2 hs, ih hr]
        simp [Extract.prepend, UniItem.lossy, hn]
  refine ⟨main, ?_⟩
  rw [main, Extract.ok.injEq]
  clear main h
  constructor
  · intro h
    have hl : (items.flatMap UniItem.lossy).length = (items.flatMap UniItem.value).length := by rw [h]
    clear h
    have key : ∀ items : List UniItem, (items.flatMap UniItem.lossy).length ≤ (items.flatMap UniItem.value).length ∧
        ((items.flatMap UniItem.lossy).length = (items.flatMap UniItem.value).length → ∀ i ∈ items, ∃ c, i = .raw c) := by
      intro items
      induction items with
      | nil => simp
      | cons i items ih =>
        cases i with
        | raw c =>
          simp only [List.flatMap_cons, List.length_append, UniItem.lossy, UniItem.value]
          refine ⟨by omega, fun hh i hi => ?_⟩
          rcases List.mem_cons.mp hi with rfl | hi
          · exact ⟨c, rfl⟩
          · exact ih.2 (by omega) i hi
        | uni h1 h2 h3 h4 after =>
          simp only [List.flatMap_cons, List.length_append, UniItem.lossy, UniItem.value, List.length_singleton]
          exact ⟨by omega, fun hh => by omega⟩
    exact (key items).2 hl
  · intro h
    induction items with
    | nil => rfl
    | cons i items ih =>
      obtain ⟨c, rfl⟩ := h i (by simp)
      simp [UniItem.lossy, UniItem.value, ih fun i hi => h i (by simp [hi])]

/-- `é\u00e9xa\u20acy` -/
example : uniWF [.raw 195, .raw 169, .uni (c%'0') (c%'0') (c%'e') (c%'9') (c%'x'), .raw (c%'a'), .uni (c%'2') (c%'0') (c%'a') (c%'c') (c%'y')] :=
  ⟨rfl, rfl, ⟨0xe9, by decide, by decide⟩, rfl, ⟨0x20ac, by decide, by decide⟩, trivial⟩

end Verif.Props
