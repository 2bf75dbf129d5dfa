import Verif.Props.Search
import Verif.Model.SearchInput
/-! # C60: the search prompt -/
namespace Verif.Props
open Verif.Model Verif.Model.Search Verif.Spec Verif.Lemmas

/-- **C60 does not hold**: Enter on the empty line makes the program read memory it does not own; an invalid regular expression ends the
program, and so does a `\u` that is not followed by hexadecimal digits, even if the prompt is left with Escape. -/
theorem C60_prompt_false (rx : Rx) (junk : Int) (surr enc : Nat → Option Bytes) (henc : ∀ c, c < 128 → enc c = some [c]) :
    inputSearch rx junk surr enc false b!"\n" = some .undefined ∧
    (rx.valid b!"(" false = false → inputSearch rx junk surr enc false b!"(/e\n" = some .uncaught) ∧
    inputSearch rx junk surr enc false (b!"\\uzzzz" ++ [27]) = some .uncaught := by
  refine ⟨rfl, fun h => ?_, ?_⟩
  · simp [inputSearch, typeLine, lineToPattern, wcstombs, henc, extractUnicode, Extract.prepend, parse, trim, split, evalFlags, h]
  · simp [inputSearch, typeLine, lineToPattern, wcstombs, henc, extractUnicode, hexWord, hexByte]

theorem typed_typeLine {ks l : List Nat} (h : Typed ks l) (more : List Nat) : typeLine [] (ks ++ more) = typeLine l more := by
  induction h generalizing more with
  | start => rfl
  | @key ks l c _ hc ih =>
    rw [List.append_assoc, ih]
    unfold Printing at hc
    simp only [List.singleton_append, typeLine]
    rw [if_neg (by omega), if_neg (by omega), if_neg (by omega)]
  | @back ks l c b _ hb ih =>
    rw [List.append_assoc, ih]
    simp only [List.singleton_append, typeLine]
    rw [if_neg (by omega), if_pos (by omega)]
    simp
  | @nothing ks b _ hb ih =>
    rw [List.append_assoc, ih]
    simp only [List.singleton_append, typeLine]
    rw [if_neg (by omega), if_pos (by omega)]
    simp

theorem typed_printing {ks l : List Nat} (h : Typed ks l) : ∀ c ∈ l, Printing c := by
  induction h with
  | start => simp
  | key _ hc ih =>
    intro x hx
    rcases List.mem_append.mp hx with h | h
    · exact ih x h
    · simp at h; exact h ▸ hc
  | back _ _ ih => exact fun x hx => ih x (by simp [hx])
  | nothing _ _ _ => simp

theorem wcstombs_ascii (enc : Nat → Option Bytes) (henc : ∀ c, c < 128 → enc c = some [c]) :
    ∀ (l : List Nat) (room : Nat), (∀ c ∈ l, Printing c) → l.length < room → wcstombs enc room l = some l
  | [], room + 1, _, _ => rfl
  | _, 0, _, h => by omega
  | c :: l, room + 1, hp, h => by
    have hc := hp c (by simp)
    unfold Printing at hc
    simp only [List.length_cons] at h
    rw [wcstombs, if_neg (by omega), henc c (by omega)]
    simp only [List.length_singleton]
    rw [if_neg (by omega), wcstombs_ascii enc henc l (room + 1 - 1) (fun x hx => hp x (by simp [hx])) (by omega)]
    rfl

theorem extract_plain (surr : Nat → Option Bytes) : ∀ s : Bytes, NoEscape s → extractUnicode surr s = .ok s
  | [], _ => rfl
  | c :: s, h => by
    rw [extract_raw surr c s (h _ (List.suffix_refl _)), extract_plain surr s fun t ht => h t (ht.trans (List.suffix_cons c s))]
    rfl

/-- **C60, the part that holds.** After any typing and deleting of printable ASCII characters that leaves a non-empty line without `\u`
escape, Enter looks for that line (it ends the program iff the line is an invalid regular expression) and Escape cancels; the keys
after that are not used. This holds in every locale in which ASCII characters are themselves. Missing: the empty line, and
lines with escapes (for these see C55). -/
theorem C60_prompt_partial (rx : Rx) (junk : Int) (surr enc : Nat → Option Bytes) (henc : ∀ c, c < 128 → enc c = some [c]) (ascii : Bool)
    (keys line : List Nat) (ht : Typed keys line) (hne : line ≠ []) (hu : ascii = true ∨ NoEscape line) :
    (∀ enter more, enter = c%'\n' ∨ enter = c%'\r' → inputSearch rx junk surr enc ascii (keys ++ enter :: more) =
      some (match parse rx junk line with | some p => .pattern p | none => .uncaught)) ∧
    (∀ more, inputSearch rx junk surr enc ascii (keys ++ 27 :: more) = some .cancelled) := by
  have h1 := wcstombs_ascii enc henc line (line.length * 4) (typed_printing ht) (by
    have : 0 < line.length := List.length_pos_iff.mpr hne
    omega)
  have h2 : (if ascii then Extract.ok line else extractUnicode surr line) = .ok line := by
    rcases hu with rfl | hu
    · rfl
    · rw [extract_plain surr line hu]; simp
  constructor
  · intro enter more he
    rw [inputSearch, typed_typeLine ht, typeLine, if_pos he]
    simp only [Option.map_some, lineToPattern, h1, h2]
    cases parse rx junk line <;> simp
  · intro more
    rw [inputSearch, typed_typeLine ht, typeLine]
    simp [lineToPattern, h1, h2]

/-- `f`, `x`, Backspace, `o` leaves `fo`. -/
example : Typed [102, 120, 8, 111] b!"fo" ∧ NoEscape b!"fo" := by
  refine ⟨.key (l := [102]) (.back (l := [102]) (c := 120) (.key (l := [102]) (.key (l := []) .start (by simp [Printing])) (by simp [Printing])) (.inl rfl)) (by simp [Printing]), ?_⟩
  intro t ht
  simp only [List.suffix_cons_iff, List.suffix_nil] at ht
  rcases ht with rfl | rfl | rfl <;> rfl

end Verif.Props
