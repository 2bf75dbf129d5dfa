import Verif.Spec.Unescape
import Verif.Spec.Keys
import Verif.Props.SearchInput
/-! # C55, C60 exactly: every line typed at the prompt -/
namespace Verif.Props
open Verif.Model Verif.Model.Search Verif.Spec Verif.Spec.Unescape Verif.Lemmas

theorem bytesOf_toBytes (surr : Nat → Option Bytes) {n : Nat} (h : n < 65536) : toBytes surr n = bytesOf surr n := by
  unfold bytesOf
  by_cases hs : 0xD800 ≤ n ∧ n ≤ 0xDFFF
  · rw [if_pos hs]
    unfold toBytes isSurrogate
    rw [if_neg (by omega), if_neg (by omega), if_pos (by simp; exact hs)]
  · rw [if_neg hs]
    exact toBytes_utf8 surr n h hs

theorem prepend_append (a b : Bytes) (x : Extract) : (x.prepend b).prepend a = x.prepend (a ++ b) := by
  cases x <;> simp [Extract.prepend]

theorem prepend_nil (x : Extract) : x.prepend [] = x := by cases x <;> rfl

/-- What comes before does not change how the rest is read. -/
theorem reads_extract {surr : Nat → Option Bytes} {s v r : Bytes} (h : Reads surr s v r) : extractUnicode surr s = (extractUnicode surr r).prepend v := by
  induction h with
  | here s => rw [prepend_nil]
  | @raw c s v r h0 _ ih => rw [extract_raw surr c s h0, ih, prepend_append]; rfl
  | @escape h1 h2 h3 h4 after n bs s v r hv hb _ ih =>
    obtain ⟨e1, e2⟩ := hexWord_value hv
    show extractUnicode surr (92 :: 117 :: h1 :: h2 :: h3 :: h4 :: after :: s) = _
    rw [extractUnicode]
    simp only [e1, bytesOf_toBytes surr e2, hb, ih]
    rw [prepend_append]

theorem hexWord_none {h1 h2 h3 h4 : Byte} (h : hexValue h1 h2 h3 h4 = none) :
    ∃ x, [h1, h2, h3, h4].find? (fun h => hexDigit h = none) = some x ∧ hexWord 0 [h1, h2, h3, h4] = .inl x := by
  simp only [hexWord, hexByte_eq]
  unfold hexValue at h
  cases e1 : hexDigit h1 with
  | none => exact ⟨h1, by simp [e1], by simp⟩
  | some a =>
    cases e2 : hexDigit h2 with
    | none => exact ⟨h2, by simp [e1, e2], by simp⟩
    | some b =>
      cases e3 : hexDigit h3 with
      | none => exact ⟨h3, by simp [e1, e2, e3], by simp⟩
      | some c =>
        cases e4 : hexDigit h4 with
        | none => exact ⟨h4, by simp [e1, e2, e3, e4], by simp⟩
        | some d => rw [e1, e2, e3, e4] at h; cases h

theorem find_none {h1 h2 h3 h4 x : Byte} (h : [h1, h2, h3, h4].find? (fun h => hexDigit h = none) = some x) : hexValue h1 h2 h3 h4 = none := by
  refine Classical.byContradiction fun hne => ?_
  obtain ⟨n, hn⟩ := Option.ne_none_iff_exists'.mp hne
  obtain ⟨a, b, c, d, e1, e2, e3, e4, -⟩ := hexValue_some hn
  simp [e1, e2, e3, e4] at h

theorem whole_extract {surr : Nat → Option Bytes} {s v : Bytes} (h : Whole surr s v) : extractUnicode surr s = .ok v := by
  rw [reads_extract h]; simp [extractUnicode, Extract.prepend]

theorem ends_extract {surr : Nat → Option Bytes} {s : Bytes} (h : EndsInEscape surr s) : extractUnicode surr s = .overrun := by
  obtain ⟨v, h1, h2, h3, h4, n, bs, hr, hv, hb⟩ := h
  obtain ⟨e1, e2⟩ := hexWord_value hv
  rw [reads_extract hr]
  show (extractUnicode surr (92 :: 117 :: h1 :: h2 :: h3 :: h4 :: [])).prepend v = _
  rw [extractUnicode]
  simp only [e1, bytesOf_toBytes surr e2, hb]
  rfl

theorem refuses_extract {surr : Nat → Option Bytes} {s : Bytes} (h : Refuses surr s) : extractUnicode surr s = .throws none := by
  obtain ⟨v, h1, h2, h3, h4, n, rest, hr, hv, hb⟩ := h
  obtain ⟨e1, e2⟩ := hexWord_value hv
  rw [reads_extract hr]
  show (extractUnicode surr (92 :: 117 :: h1 :: h2 :: h3 :: h4 :: rest)).prepend v = _
  rw [extractUnicode]
  simp only [e1, bytesOf_toBytes surr e2, hb]
  rfl

theorem noDigit_extract {surr : Nat → Option Bytes} {s : Bytes} {x : Byte} (h : NoDigit surr s x) : extractUnicode surr s = .throws (some x) := by
  obtain ⟨v, h1, h2, h3, h4, rest, hr, hx⟩ := h
  obtain ⟨y, hy, e1⟩ := hexWord_none (find_none hx)
  rw [hx] at hy
  cases hy
  rw [reads_extract hr]
  show (extractUnicode surr (92 :: 117 :: h1 :: h2 :: h3 :: h4 :: rest)).prepend v = _
  rw [extractUnicode]
  simp only [e1]
  rfl

theorem startsEscape_true {s : Bytes} (h : startsEscape s = true) : ∃ h1 h2 h3 h4 rest, s = b!"\\u" ++ [h1, h2, h3, h4] ++ rest := by
  unfold startsEscape at h
  split at h
  · exact ⟨_, _, _, _, _, rfl⟩
  · cases h

/-- Every text is of one of these forms. -/
theorem unescape_cases (surr : Nat → Option Bytes) : ∀ (k : Nat) (s : Bytes), s.length ≤ k → (∃ v, Whole surr s v) ∨ EndsInEscape surr s ∨ Refuses surr s ∨ ∃ x, NoDigit surr s x
  | _, [], _ => .inl ⟨[], .here []⟩
  | 0, _ :: _, h => by simp at h
  | k + 1, c :: s, hk => by
    have hlen : s.length ≤ k := by simpa using hk
    cases hs : startsEscape (c :: s) with
    | false =>
      rcases unescape_cases surr k s hlen with ⟨v, h⟩ | ⟨v, h1, h2, h3, h4, n, bs, hr, h⟩ | ⟨v, h1, h2, h3, h4, n, rest, hr, h⟩ | ⟨x, v, h1, h2, h3, h4, rest, hr, h⟩
      · exact .inl ⟨_, .raw hs h⟩
      · exact .inr (.inl ⟨_, h1, h2, h3, h4, n, bs, .raw hs hr, h⟩)
      · exact .inr (.inr (.inl ⟨_, h1, h2, h3, h4, n, rest, .raw hs hr, h⟩))
      · exact .inr (.inr (.inr ⟨x, _, h1, h2, h3, h4, rest, .raw hs hr, h⟩))
    | true =>
      obtain ⟨h1, h2, h3, h4, rest, he⟩ := startsEscape_true hs
      rw [he]
      cases hv : hexValue h1 h2 h3 h4 with
      | none =>
        obtain ⟨x, hx, -⟩ := hexWord_none hv
        exact .inr (.inr (.inr ⟨x, [], h1, h2, h3, h4, rest, .here _, hx⟩))
      | some n =>
        cases hb : bytesOf surr n with
        | none => exact .inr (.inr (.inl ⟨[], h1, h2, h3, h4, n, rest, .here _, hv, hb⟩))
        | some bs =>
          cases rest with
          | nil => exact .inr (.inl ⟨[], h1, h2, h3, h4, n, bs, .here _, hv, hb⟩)
          | cons after t =>
            have ht : t.length ≤ k := by
              have := congrArg List.length he
              simp at this
              omega
            rcases unescape_cases surr k t ht with ⟨v, h⟩ | ⟨v, g1, g2, g3, g4, m, cs, hr, h⟩ | ⟨v, g1, g2, g3, g4, m, rest, hr, h⟩ | ⟨x, v, g1, g2, g3, g4, rest, hr, h⟩
            · exact .inl ⟨_, .escape hv hb h⟩
            · exact .inr (.inl ⟨_, g1, g2, g3, g4, m, cs, .escape hv hb hr, h⟩)
            · exact .inr (.inr (.inl ⟨_, g1, g2, g3, g4, m, rest, .escape hv hb hr, h⟩))
            · exact .inr (.inr (.inr ⟨x, _, g1, g2, g3, g4, rest, .escape hv hb hr, h⟩))

/-- **C55, exactly.** What becomes of every search text: it is converted (each escape to its character, the character after it lost); or it ends with an escape, and memory behind it is
read; or the first escape that cannot be read is one of a surrogate the library refuses, or has a character that is no hexadecimal digit, and there is an exception (that
names the first such character). These are all the cases, and they exclude each other. -/
theorem C55_exactly_partial (surr : Nat → Option Bytes) (s : Bytes) :
    (∀ v, extractUnicode surr s = .ok v ↔ Whole surr s v) ∧
    (extractUnicode surr s = .overrun ↔ EndsInEscape surr s) ∧
    (extractUnicode surr s = .throws none ↔ Refuses surr s) ∧
    (∀ x, extractUnicode surr s = .throws (some x) ↔ NoDigit surr s x) := by
  have hc := unescape_cases surr s.length s (Nat.le_refl _)
  refine ⟨fun v => ⟨fun h => ?_, whole_extract⟩, ⟨fun h => ?_, ends_extract⟩, ⟨fun h => ?_, refuses_extract⟩, fun x => ⟨fun h => ?_, noDigit_extract⟩⟩
  all_goals
    rcases hc with ⟨w, hc⟩ | hc | hc | ⟨y, hc⟩
    · first
        | (rw [whole_extract hc] at h; cases h; done)
        | (rw [whole_extract hc] at h; cases h; exact hc)
    · first
        | exact hc
        | (rw [ends_extract hc] at h; cases h)
    · first
        | exact hc
        | (rw [refuses_extract hc] at h; cases h)
    · first
        | (rw [noDigit_extract hc] at h; cases h; done)
        | (rw [noDigit_extract hc] at h; cases h; exact hc)

/-- The four cases. -/
example : Whole (fun _ => none) b!"a\\u0041bc" b!"aAc" ∧ EndsInEscape (fun _ => none) b!"a\\u0041" ∧ Refuses (fun _ => none) b!"\\ud800" ∧
    NoDigit (fun _ => none) b!"\\u00zyx" c%'z' :=
  ⟨(C55_exactly_partial _ _).1 _ |>.mp (by decide +kernel), (C55_exactly_partial _ _).2.1.mp (by decide +kernel), (C55_exactly_partial _ _).2.2.1.mp (by decide +kernel),
    (C55_exactly_partial _ _).2.2.2 _ |>.mp (by decide +kernel)⟩

/-! ## C60 -/

theorem typeLine_letters : ∀ (before : List Nat) (l more : List Nat), Keys.Letters before → typeLine l (before ++ more) = typeLine (Keys.editedFrom l before) more
  | [], l, more, _ => rfl
  | c :: before, l, more, h => by
    obtain ⟨h1, h2, h3⟩ := h c (by simp)
    rw [List.cons_append, typeLine, if_neg (by simp [h1, h2]), Keys.editedFrom]
    by_cases hb : c = 8 ∨ c = 127
    · rw [if_pos hb, if_pos hb]
      exact typeLine_letters before _ more fun d hd => h d (by simp [hd])
    · rw [if_neg hb, if_neg h3, if_neg hb]
      exact typeLine_letters before _ more fun d hd => h d (by simp [hd])

theorem wcstombs_iff (enc : Nat → Option Bytes) : ∀ (line : List Nat) (room : Nat) (b : Bytes), wcstombs enc room line = some b ↔
    (∃ parts : List Bytes, (line.takeWhile (· ≠ 0)).map enc = parts.map some ∧ b = parts.flatten) ∧ b.length < room
  | line, 0, b => by
    constructor
    · intro h
      cases line <;> cases h
    · rintro ⟨-, h⟩; omega
  | [], room + 1, b => by
    rw [wcstombs]
    constructor
    · intro h; cases h; exact ⟨⟨[], rfl, rfl⟩, by simp⟩
    · rintro ⟨⟨parts, h, rfl⟩, -⟩
      cases parts with
      | nil => rfl
      | cons _ _ => cases h
  | c :: cs, room + 1, b => by
    rw [wcstombs]
    by_cases hc : c = 0
    · subst hc
      rw [if_pos rfl]
      constructor
      · intro h; cases h; exact ⟨⟨[], by simp, rfl⟩, by simp⟩
      · rintro ⟨⟨parts, h, rfl⟩, -⟩
        cases parts with
        | nil => rfl
        | cons _ _ => simp at h
    · rw [if_neg hc, List.takeWhile_cons_of_pos (by simpa using hc)]
      cases he : enc c with
      | none =>
        constructor
        · intro h; cases h
        · rintro ⟨⟨parts, h, -⟩, -⟩
          cases parts with
          | nil => cases h
          | cons _ _ => simp [he] at h
      | some bs =>
        dsimp only
        by_cases hl : bs.length > room + 1
        · rw [if_pos hl]
          constructor
          · intro h; cases h
          · rintro ⟨⟨parts, h, rfl⟩, hlt⟩
            cases parts with
            | nil => cases h
            | cons p ps =>
              simp only [List.map_cons, he, List.cons.injEq, Option.some.injEq] at h
              obtain ⟨rfl, -⟩ := h
              simp at hlt
              omega
        · rw [if_neg hl, Option.map_eq_some_iff]
          constructor
          · rintro ⟨b', hb', rfl⟩
            obtain ⟨⟨parts, h, rfl⟩, hlt⟩ := (wcstombs_iff enc cs _ b').mp hb'
            exact ⟨⟨bs :: parts, by simp only [List.map_cons, he, h], by simp⟩, by simp only [List.length_append]; omega⟩
          · rintro ⟨⟨parts, h, rfl⟩, hlt⟩
            cases parts with
            | nil => cases h
            | cons p ps =>
              simp only [List.map_cons, he, List.cons.injEq, Option.some.injEq] at h
              obtain ⟨rfl, h⟩ := h
              simp only [List.flatten_cons, List.length_append] at hlt
              exact ⟨ps.flatten, (wcstombs_iff enc cs _ _).mpr ⟨⟨ps, h, rfl⟩, by omega⟩, by simp⟩

/-- The text that is looked for: the encoded line as it is with `--ascii`, with its escapes read without. -/
def TextOf (surr enc : Nat → Option Bytes) (ascii : Bool) (line : List Nat) (str : Bytes) : Prop :=
  ∃ bytes, Encoded enc line bytes ∧ if ascii then str = bytes else Whole surr bytes str

/-- An escape of the encoded line makes an exception. -/
def Stumbles (surr enc : Nat → Option Bytes) (ascii : Bool) (line : List Nat) : Prop :=
  ∃ bytes, Encoded enc line bytes ∧ ascii = false ∧ (Refuses surr bytes ∨ ∃ x, NoDigit surr bytes x)

/-- **C60, exactly.** For every sequence of keys and every locale: without Enter and Escape the prompt stays open. With the first of these keys, and the line that is left of
the keys before it: the search is made for the text of that line (with Enter), or cancelled (with Escape), exactly if the line has a text (`TextOf`) and, with Enter, its
regular expression is valid. The program ends with an exception exactly if an escape of the line cannot be read, or with Enter the regular expression is invalid; and it reads
memory that is not its own exactly in the other cases: the line is not encoded (as the empty one), or ends with an escape. -/
theorem C60_exactly_partial (rx : Rx) (junk : Int) (surr enc : Nat → Option Bytes) (ascii : Bool) :
    (∀ keys, Keys.Letters keys → inputSearch rx junk surr enc ascii keys = none) ∧
    ∀ before more key, Keys.Letters before → key = c%'\n' ∨ key = c%'\r' ∨ key = 27 → ∀ r, inputSearch rx junk surr enc ascii (before ++ key :: more) = some r →
      (∀ p, r = .pattern p ↔ key ≠ 27 ∧ ∃ str, TextOf surr enc ascii (Keys.editedFrom [] before) str ∧ parse rx junk str = some p) ∧
      (r = .cancelled ↔ key = 27 ∧ ∃ str, TextOf surr enc ascii (Keys.editedFrom [] before) str) ∧
      (r = .uncaught ↔ Stumbles surr enc ascii (Keys.editedFrom [] before) ∨
        (key ≠ 27 ∧ ∃ str, TextOf surr enc ascii (Keys.editedFrom [] before) str ∧ parse rx junk str = none)) ∧
      (r = .undefined ↔ (∀ bytes, ¬ Encoded enc (Keys.editedFrom [] before) bytes) ∨
        ascii = false ∧ ∃ bytes, Encoded enc (Keys.editedFrom [] before) bytes ∧ EndsInEscape surr bytes) := by
  constructor
  · intro keys h
    unfold inputSearch
    have := typeLine_letters keys [] [] h
    rw [List.append_nil] at this
    rw [this]
    rfl
  · intro before more key hl hk r hr
    generalize hline : Keys.editedFrom [] before = line
    have hr : r = lineToPattern rx junk surr enc ascii line (decide (key = 27)) := by
      unfold inputSearch at hr
      rw [typeLine_letters before [] _ hl, hline, typeLine] at hr
      rcases hk with rfl | rfl | rfl
      · simp at hr; exact hr.symm
      · simp at hr; exact hr.symm
      · simp at hr; exact hr.symm
    have henc : ∀ b, Encoded enc line b ↔ wcstombs enc (line.length * 4) line = some b := by
      intro b
      rw [wcstombs_iff, Nat.mul_comm]
      exact Iff.rfl
    unfold lineToPattern at hr
    subst hr
    cases hw : wcstombs enc (line.length * 4) line with
    | none =>
      have hno : ∀ b, ¬ Encoded enc line b := fun b h => by rw [henc, hw] at h; cases h
      have ht : ∀ str, ¬ TextOf surr enc ascii line str := fun str ⟨b, hb, _⟩ => hno b hb
      have hst : ¬ Stumbles surr enc ascii line := fun ⟨b, hb, _⟩ => hno b hb
      simp [hno, ht, hst]
    | some b =>
      have hb : Encoded enc line b := (henc b).mpr hw
      have hone : ∀ b', Encoded enc line b' ↔ b' = b := fun b' => by rw [henc, hw]; simp [eq_comm]
      have hsome : ¬ ∀ b, ¬ Encoded enc line b := fun h => h b hb
      obtain ⟨c1, c2, c3, c4⟩ := C55_exactly_partial surr b
      dsimp only
      cases ascii with
      | true =>
        have ht : ∀ str, TextOf surr enc true line str ↔ str = b := fun str => by simp [TextOf, hone]
        have hst : ¬ Stumbles surr enc true line := by simp [Stumbles]
        by_cases h27 : key = 27
        · simp [h27, ht, hst, hsome]
        · simp only [h27, decide_false, ht, hst, hsome, if_true]
          cases hp : parse rx junk b <;> simp [hp, h27]
      | false =>
        have ht : ∀ str, TextOf surr enc false line str ↔ Whole surr b str := fun str => by simp [TextOf, hone]
        have hst : Stumbles surr enc false line ↔ Refuses surr b ∨ ∃ x, NoDigit surr b x := by simp [Stumbles, hone]
        simp only [ht, hst, hone, exists_eq_left]
        simp only [← c1, ← c2, ← c3, ← c4]
        cases he : extractUnicode surr b with
        | overrun => simp
        | throws x => cases x <;> simp
        | ok str =>
          by_cases h27 : key = 27
          · simp [h27]
          · simp only [h27, decide_false]
            cases hp : parse rx junk str <;> simp [hp, h27]

/-- Lines of ASCII characters: `\u0041bc` and Enter, with a Backspace in between, is the search for `Ac`; the empty line has no encoding that fits. -/
example : Keys.Letters (b!"\\u0041bx" ++ [8] ++ b!"c") ∧ Keys.editedFrom [] (b!"\\u0041bx" ++ [8] ++ b!"c") = b!"\\u0041bc" ∧
    TextOf (fun _ => none) (fun c => some [c]) false b!"\\u0041bc" b!"Ac" ∧ ∀ bytes, ¬ Encoded (fun c => some [c]) [] bytes := by
  refine ⟨by unfold Keys.Letters; decide, by decide, ⟨b!"\\u0041bc", ⟨⟨b!"\\u0041bc".map fun c => [c], by decide, by decide⟩, by decide⟩, ?_⟩, ?_⟩
  · exact (C55_exactly_partial _ _).1 _ |>.mp (by decide +kernel)
  · rintro bytes ⟨-, h⟩
    simp at h

end Verif.Props
