import Verif.Lemmas.BreaksRead
import Verif.Props.History
/-!
# Properties C16–C19 with line breaks directly after numbers and booleans
-/
namespace Verif.Props
open Verif.Model Verif.Spec Verif.Lemmas

/-- **C16, C17, C18 in the reader: exactly what is shown.** On every input in which no line break interrupts a `\uXXXX` or the four bytes of a `null`: every exception and every message shows a position up to which
the input was read: the line number of that position plus the number of line breaks before it that directly follow a number or boolean outside strings; the end of its line; and from line two on its column. The only
other thing an exception can show is this position, directly after a number or boolean and directly before a line break, without the last byte before it. After a successful read, the history shows the position after
the bytes that were read, in the same way. Missing: the inputs with line breaks inside such windows, and the column on the first line (`C18_column_false`). -/
theorem C16_exactly_partial (strict ascii sort : Bool) (surr : Nat → Option Bytes) (junk : List Byte) (n : Nat) (hj : junk.length = 45) (input : Bytes)
    (hw : UnbrokenWindows input) :
    (∀ e, Model.read (envOf strict ascii sort surr) (St.init junk n input) = .throw e →
      ∃ t, ReadUpTo input t ∧ endsLine t = false ∧ (ShowsAt e.hist t ∨ LacksOne input e.hist t)) ∧
    (∀ r s', Model.read (envOf strict ascii sort surr) (St.init junk n input) = .ret r s' →
      (s'.good = true → ∃ t, t ++ s'.rest = input ∧ endsLine t = false ∧ (ShowsAt s'.hist t ∨ LacksOne input s'.hist t)) ∧
      ∀ m ∈ s'.warns, ∃ t, ReadUpTo input t ∧ endsLine t = false ∧ (ShowsAt m.hist t ∨ LacksOne input m.hist t)) := by
  have h := read_br hw (envOf strict ascii sort surr) junk n hj
  constructor
  · intro e he
    rw [he] at h
    obtain ⟨t, h1, h2, _, h3⟩ := h
    exact ⟨t, h1, h2, h3⟩
  · intro r s' hr
    rw [hr] at h
    refine ⟨fun hg => ?_, fun m hm => ?_⟩
    · obtain ⟨t, h1, _, h2, h3, ⟨⟨jp, h4⟩, _⟩ | ⟨c, r, hr, h4⟩⟩ := h.good hg
      · exact ⟨t, h1, h2, Or.inl (h4.shows h2)⟩
      · exact ⟨t, h1, h2, Or.inr (h4.lacks h3 ⟨r, by rw [← h1, hr]; simp⟩)⟩
    · obtain ⟨t, h1, h2, _, h3⟩ := h.warns m hm
      exact ⟨t, h1, h2, h3⟩

theorem line_of {input : Bytes} {h : LHist} {t : Bytes} (hs : ShowsAt h t ∨ LacksOne input h t) : h.currentLine = lineNumber t + countedTwice t := by
  rcases hs with hs | hs
  · exact hs.1
  · exact hs.2.2.1

/-- **C17, exactly.** The line number of every exception and every message is that of a position up to which the input was read, plus the number of line breaks before that position that directly follow a number or
boolean outside strings; so it is right if and only if there is no such line break. After a successful read it is that of the end of what was read. Missing: the inputs with line breaks inside a `\uXXXX` or the four
bytes of a `null`. -/
theorem C17_exactly_partial (strict ascii sort : Bool) (surr : Nat → Option Bytes) (junk : List Byte) (n : Nat) (hj : junk.length = 45) (input : Bytes)
    (hw : UnbrokenWindows input) :
    (∀ e, Model.read (envOf strict ascii sort surr) (St.init junk n input) = .throw e →
      ∃ t, ReadUpTo input t ∧ endsLine t = false ∧ e.hist.currentLine = lineNumber t + countedTwice t) ∧
    (∀ r s', Model.read (envOf strict ascii sort surr) (St.init junk n input) = .ret r s' →
      (s'.good = true → ∃ t, t ++ s'.rest = input ∧ endsLine t = false ∧ s'.hist.currentLine = lineNumber t + countedTwice t) ∧
      ∀ m ∈ s'.warns, ∃ t, ReadUpTo input t ∧ endsLine t = false ∧ m.hist.currentLine = lineNumber t + countedTwice t) := by
  obtain ⟨h1, h2⟩ := C16_exactly_partial strict ascii sort surr junk n hj input hw
  refine ⟨fun e he => ?_, fun r s' hr => ⟨fun hg => ?_, fun m hm => ?_⟩⟩
  · obtain ⟨t, a, b, c⟩ := h1 e he
    exact ⟨t, a, b, line_of c⟩
  · obtain ⟨t, a, b, c⟩ := (h2 r s' hr).1 hg
    exact ⟨t, a, b, line_of c⟩
  · obtain ⟨t, a, b, c⟩ := (h2 r s' hr).2 m hm
    exact ⟨t, a, b, line_of c⟩

/-- **C19, exactly.** On these inputs, an exception whose text is well defined is displayed, with as many `~` as there are characters before the last one shown, unless the history is empty; and it is empty only if
the error is a number or boolean of one byte, alone on its line up to the line break that follows it. Missing: the exceptions "expected c" and "unexpected escaped char" (`C19_display_false`), and line breaks inside a
`\uXXXX` or the four bytes of a `null`. -/
theorem C19_exactly_partial (strict ascii sort : Bool) (surr : Nat → Option Bytes) (junk : List Byte) (n : Nat) (hj : junk.length = 45) (input : Bytes)
    (hw : UnbrokenWindows input) (e : Exn) (he : Model.read (envOf strict ascii sort surr) (St.init junk n input) = .throw e) (hu : ∀ c, e.kind ≠ .unexpected c) (hes : ∀ c, e.kind ≠ .escaped c) :
    (∃ what, displayException e = .shown e.hist.currentLine e.hist.totalSize what e.hist.toString (e.hist.toString.length - 1)) ∨
    (displayException e = .lengthError ∧ ∃ t d c, t ++ [d, c] <+: input ∧ endsNumber d = true ∧ isBreak c = true ∧ lineText (t ++ [d]) = [d]) := by
  have h := read_br hw (envOf strict ascii sort surr) junk n hj
  rw [he] at h
  obtain ⟨t, _, h2, h3, h4⟩ := h
  by_cases hne : e.hist.toString.length = 0
  · right
    constructor
    · unfold displayException
      cases hk : e.kind with
      | unexpected c => exact absurd hk (hu c)
      | escaped c => exact absurd hk (hes c)
      | _ => simp only [message, if_pos hne]
    · have hpos : 0 < (lineText t).length := List.length_pos_iff.mpr h3
      rcases h4 with ⟨_, ⟨k, hk, hx⟩, _⟩ | ⟨hm, ⟨c, hc, hi⟩, _, hx, _⟩
      · rw [hx] at hne
        simp only [lastN, List.length_drop] at hne
        omega
      · rw [hx] at hne
        simp only [lastN, List.length_drop, List.length_dropLast] at hne
        obtain ⟨t0, d, rfl⟩ : ∃ t0 d, t = t0 ++ [d] := by
          rcases t.eq_nil_or_concat with rfl | ⟨t0, d, h⟩
          · cases hm
          · exact ⟨t0, d, by simpa using h⟩
        rw [endsLine_snoc] at h2
        rw [lineText_snoc _ _ h2] at hne hpos
        refine ⟨t0, d, c, by simpa using hi, ?_, hc, ?_⟩
        · rw [whereAt_snoc] at hm
          cases hq : whereAt t0 with
          | outside k =>
            rw [hq] at hm
            by_cases hq : d = 34
            · simp [Where.next, hq] at hm
            · simpa [Where.next, hq] using hm
          | inside =>
            rw [hq] at hm
            by_cases hq : d = 34
            · simp [Where.next, hq] at hm
            · by_cases hq' : d = 92 <;> simp [Where.next, hq, hq'] at hm
          | escaped => rw [hq] at hm; cases hm
        · rw [lineText_snoc _ _ h2]
          have : (if endsLine t0 = true then [] else lineText t0) = [] := by
            apply List.eq_nil_of_length_eq_zero
            rw [List.length_append, List.length_singleton] at hne
            omega
          rw [this]; rfl
  · left
    unfold displayException
    cases hk : e.kind with
    | unexpected c => exact absurd hk (hu c)
    | escaped c => exact absurd hk (hes c)
    | _ => exact ⟨_, by simp only [message, if_neg hne]; rfl⟩

/-- Decides `UnbrokenWindows` from a place on. -/
def unbrokenB : Where → Bytes → Bool
  | _, [] => true
  | m, c :: r => (if m = .inside ∧ c = 92 ∧ r.head? = some 117 then ((r.drop 1).take 4).all (fun x => !isBreak x) else true) &&
      (if m ≠ .inside ∧ m ≠ .escaped ∧ (c = 110 ∨ c = 78) then (r.take 3).all (fun x => !isBreak x) else true) && unbrokenB (m.next c) r

theorem unbrokenB_sound {input : Bytes} (h : unbrokenB (.outside false) input = true) : UnbrokenWindows input := by
  have skip : ∀ (t l : Bytes) (m : Where), unbrokenB m (t ++ l) = true → unbrokenB (t.foldl Where.next m) l = true := by
    intro t
    induction t with
    | nil => intro l m h; exact h
    | cons c t ih =>
      intro l m h
      rw [List.cons_append, unbrokenB] at h
      simp only [Bool.and_eq_true] at h
      exact ih l _ h.2
  have mem : ∀ (w : Bytes) (b : Byte) (r : Bytes) (k : Nat), w.length < k → b ∈ (w ++ b :: r).take k := by
    intro w b r k hk
    rw [List.take_append, List.mem_append]
    right
    rw [show k - w.length = (k - w.length - 1) + 1 by omega]
    simp
  constructor
  · rintro t d w b ⟨r, rfl⟩ ⟨k, hk⟩ hd hl
    have h1 := skip t ([d] ++ w ++ [b] ++ r) (.outside false) (by simpa using h)
    rw [show t.foldl Where.next (.outside false) = whereAt t from rfl, hk, show [d] ++ w ++ [b] ++ r = d :: (w ++ b :: r) by simp, unbrokenB] at h1
    simp only [Bool.and_eq_true] at h1
    have h2 := h1.1.2
    rw [if_pos ⟨by simp, by simp, hd⟩, List.all_eq_true] at h2
    simpa using h2 b (mem w b r 3 (by omega))
  · rintro t w b ⟨r, rfl⟩ hk hl
    have h1 := skip t (92 :: 117 :: (w ++ b :: r)) (.outside false) (by simpa using h)
    rw [show t.foldl Where.next (.outside false) = whereAt t from rfl, hk, unbrokenB] at h1
    simp only [Bool.and_eq_true] at h1
    have h2 := h1.1.1
    rw [if_pos (by simp), List.all_eq_true] at h2
    simpa using h2 b (mem w b r 4 (by omega))

/-- A text with line breaks after a number, a boolean, a string that ends with `n`, and an error on its sixth line, reported on line eight. -/
def brokenDoc : Bytes := b!"[\n1\n,\"on\",\ntrue\n,\n{]"

example : UnbrokenWindows brokenDoc ∧ countedTwice brokenDoc = 2 ∧ lineNumber brokenDoc = 6 ∧
    (∃ e, Model.read (envOf true false true) (St.init (List.replicate 45 0) 0 brokenDoc) = .throw e ∧
      decide (e.hist.currentLine = 8 ∧ e.hist.toString = b!"{]" ∧ e.hist.totalSize = 2) = true) :=
  ⟨unbrokenB_sound (by decide), by decide, by decide, throws_sound (by decide +kernel)⟩

/-- A number between two line breaks where a key should be: the history is empty, and the program dies. -/
example : UnbrokenWindows b!"{\n5\n}" ∧
    (∃ e, Model.read (envOf true false true) (St.init (List.replicate 45 0) 0 b!"{\n5\n}") = .throw e ∧ decide (displayException e = .lengthError) = true) :=
  ⟨unbrokenB_sound (by decide), throws_sound (by decide +kernel)⟩

/-- The inputs of the older partial theorems are among these. -/
theorem unbroken_of_whole {input : Bytes} (h : WholeWindows input) : UnbrokenWindows input := by
  constructor
  · rintro t d w b ⟨r, rfl⟩ _ hd hl
    exact h.2 d w b ⟨t, r, by simp⟩ hd hl
  · rintro t w b ⟨r, rfl⟩ _ hl
    exact h.1 w b ⟨t, r, by simp⟩ hl

end Verif.Props
