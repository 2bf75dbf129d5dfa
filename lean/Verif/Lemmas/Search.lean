import Verif.Model.SearchPattern
import Verif.Spec.Search
import Verif.Lemmas.Tokens
/-! # Lemmas about the search -/
namespace Verif.Lemmas
open Verif.Model Verif.Model.Search Verif.Spec

theorem toLower_idem (c : Byte) : toLower (toLower c) = toLower c := by
  unfold toLower
  by_cases h : 65 ≤ c ∧ c ≤ 90
  · rw [if_pos h, if_neg (by omega)]
  · rw [if_neg h, if_neg h]

theorem map_toLower_idem (s : Bytes) : (s.map toLower).map toLower = s.map toLower := by
  simp [toLower_idem]

theorem trim_blanks (w s : Bytes) (h : Blanks w) : trim (w ++ s) = trim s := by
  induction w with
  | nil => rfl
  | cons c w ih =>
    have h1 := h c (by simp)
    rw [List.cons_append, trim, if_pos h1]
    exact ih fun x hx => h x (by simp [hx])

theorem trim_id (s : Bytes) (h : ∀ c ∈ s.head?, c ≠ c%' ' ∧ c ≠ c%'\t') : trim s = s := by
  cases s with
  | nil => rfl
  | cons c s =>
    have := h c (by simp)
    rw [trim, if_neg (by omega)]

theorem split_items (items : List PatItem) (h : ∀ i ∈ items, i.WF) (s : Bytes) :
    split false (patText items ++ s) = (patValue items ++ (split false s).1, (split false s).2) := by
  induction items with
  | nil => simp [patText, patValue]
  | cons i items ih =>
    have hi := h i (by simp)
    have ih := ih fun x hx => h x (by simp [hx])
    cases i with
    | plain c =>
      obtain ⟨h1, h2, h3⟩ := hi
      show split false (c :: (patText items ++ s)) = (c :: (patValue items ++ _), _)
      rw [split]
      simp [h1, h2, h3, ih]
    | slash =>
      show split false (92 :: 47 :: (patText items ++ s)) = (47 :: (patValue items ++ _), _)
      simp [split, ih]
    | kept c =>
      obtain ⟨h1, h2⟩ := hi
      show split false (92 :: c :: (patText items ++ s)) = (92 :: c :: (patValue items ++ _), _)
      rw [split]
      simp only [split]
      simp [h1, h2, ih]

/-- The number the program uses for a type. -/
def kindNum : Kind → Int
  | .bool => 1
  | .number => 2
  | .string => 3
  | .key => 4

theorem evalFlags_spec (flags : Bytes) (h0 : 0 ∉ flags) (p : Pattern) :
    evalFlags p flags = ⟨if c%'i' ∈ flags then p.pattern.map toLower else p.pattern, p.icase || decide (c%'i' ∈ flags),
      p.word || decide (c%'w' ∈ flags), p.whole || decide (c%'f' ∈ flags), p.regex || decide (c%'e' ∈ flags),
      ((kindFlags flags).map kindNum).getD p.typeFlag⟩ := by
  induction flags generalizing p with
  | nil => simp [evalFlags, kindFlags]
  | cons c flags ih =>
    have hc : c ≠ 0 := fun h => h0 (by simp [h])
    rw [evalFlags, if_neg hc, ih fun h => h0 (by simp [h])]
    have hk : kindFlags (c :: flags) = (kindFlags flags).or (kindFlag c) := by
      unfold kindFlags
      cases hk : kindFlag c with
      | none => simp [hk]
      | some k => simp [hk, List.getLast?_cons]
    rw [hk]
    by_cases e1 : c = c%'i'
    · subst e1
      by_cases hi : 105 ∈ flags <;> simp [hi, kindFlag, toLower_idem]
    by_cases e2 : c = c%'w'
    · subst e2; simp [kindFlag]
    by_cases e3 : c = c%'f'
    · subst e3; simp [kindFlag]
    by_cases e4 : c = c%'e'
    · subst e4; simp [kindFlag]
    have e1' : ¬ 105 = c := fun h => e1 h.symm
    have e2' : ¬ 119 = c := fun h => e2 h.symm
    have e3' : ¬ 102 = c := fun h => e3 h.symm
    have e4' : ¬ 101 = c := fun h => e4 h.symm
    by_cases e5 : c = c%'b'
    · subst e5; cases kindFlags flags <;> simp [kindFlag, kindNum]
    by_cases e6 : c = c%'n'
    · subst e6; cases kindFlags flags <;> simp [kindFlag, kindNum]
    by_cases e7 : c = c%'s'
    · subst e7; cases kindFlags flags <;> simp [kindFlag, kindNum]
    by_cases e8 : c = c%'o'
    · subst e8; cases kindFlags flags <;> simp [kindFlag, kindNum]
    simp [e1, e2, e3, e4, e5, e6, e7, e8, e1', e2', e3', e4', kindFlag]

/-- How a character of the text is seen. -/
def seen (icase : Bool) (s : Bytes) : Bytes := if icase then lower (untab s) else untab s

theorem lower_eq (s : Bytes) : lower s = s.map toLower := rfl

theorem seen_cons (icase : Bool) (a b : Byte) (s : Bytes) (h : same icase a b = true) : seen icase (a :: s) = b :: seen icase s := by
  cases icase <;> simp [same, seen, lower_eq, untab] at * <;> exact h

theorem seen_head (icase : Bool) (a : Byte) (s : Bytes) : ∃ x, seen icase (a :: s) = x :: seen icase s ∧ ∀ b, same icase a b = decide (x = b) := by
  cases icase
  · exact ⟨_, rfl, fun b => rfl⟩
  · exact ⟨_, rfl, fun b => rfl⟩

theorem atStart_iff (icase : Bool) (pat : Bytes) : ∀ text, atStart icase text pat = true ↔ pat <+: seen icase text := by
  induction pat with
  | nil => intro text; cases text <;> simp [atStart]
  | cons b pat ih =>
    intro text
    cases text with
    | nil => cases icase <;> simp [atStart, seen, untab, lower]
    | cons a text =>
      obtain ⟨x, h1, h2⟩ := seen_head icase a text
      rw [atStart, h1, h2, Bool.and_eq_true, decide_eq_true_eq, ih, List.cons_prefix_cons]
      exact and_congr_left' eq_comm

theorem search_iff (icase : Bool) (pat : Bytes) : ∀ text, search icase text pat = true ↔ text ≠ [] ∧ pat <:+: seen icase text := by
  intro text
  induction text with
  | nil => simp [search]
  | cons a text ih =>
    rw [search, Bool.or_eq_true, atStart_iff, ih]
    obtain ⟨x, h1, -⟩ := seen_head icase a text
    rw [h1, List.infix_cons_iff]
    constructor
    · rintro (h | ⟨_, h⟩)
      · exact ⟨by simp, .inl h⟩
      · exact ⟨by simp, .inr h⟩
    · rintro ⟨-, h | h⟩
      · exact .inl h
      · by_cases ht : text = []
        · subst ht
          left
          cases icase <;> simp [seen, untab, lower] at h <;> simp [h]
        · exact .inr ⟨ht, h⟩

theorem seen_length (icase : Bool) (s : Bytes) : (seen icase s).length = s.length := by
  cases icase <;> simp [seen, untab, lower]

theorem typeOk_iff (t : Int) (e : Elem) : typeOk t e = true ↔ ∀ k, t = kindNum k → kindOf e = some k := by
  have key : ∀ (l : List Int) (o : Option Kind), (∀ k, kindNum k ∈ l ↔ o ≠ some k) → (∀ x ∈ l, ∃ k, x = kindNum k) →
      (t ∉ l ↔ ∀ k, t = kindNum k → o = some k) := by
    intro l o h1 h2
    constructor
    · intro h k hk
      exact Classical.byContradiction fun hne => h (hk ▸ (h1 k).mpr hne)
    · intro h hm
      obtain ⟨k, rfl⟩ := h2 t hm
      exact (h1 k).mp hm (h k rfl)
  have ex : ∀ x ∈ ([1, 2, 3, 4] : List Int), ∃ k, x = kindNum k := by
    intro x hx
    simp at hx
    rcases hx with rfl | rfl | rfl | rfl
    · exact ⟨.bool, rfl⟩
    · exact ⟨.number, rfl⟩
    · exact ⟨.string, rfl⟩
    · exact ⟨.key, rfl⟩
  have go : ∀ (l : List Int) (o : Option Kind), (∀ x ∈ l, x ∈ ([1, 2, 3, 4] : List Int)) → (∀ k, kindNum k ∈ l ↔ o ≠ some k) →
      (decide (t ∉ l) = true ↔ ∀ k, t = kindNum k → o = some k) := by
    intro l o h1 h2
    rw [decide_eq_true_eq]
    exact key l o h2 fun x hx => ex x (h1 x hx)
  cases e with
  | entry k v => exact go _ _ (by decide) (by intro k; cases k <;> simp [kindNum, kindOf])
  | value v =>
    cases v with
    | str _ => exact go _ _ (by decide) (by intro k; cases k <;> simp [kindNum, kindOf])
    | bool _ => exact go _ _ (by decide) (by intro k; cases k <;> simp [kindNum, kindOf])
    | int _ => exact go _ _ (by decide) (by intro k; cases k <;> simp [kindNum, kindOf])
    | long _ => exact go _ _ (by decide) (by intro k; cases k <;> simp [kindNum, kindOf])
    | dbl _ => exact go _ _ (by decide) (by intro k; cases k <;> simp [kindNum, kindOf])
    | null => exact go _ _ (by decide) (by intro k; cases k <;> simp [kindNum, kindOf])
    | arr _ => exact go _ _ (by decide) (by intro k; cases k <;> simp [kindNum, kindOf])
    | obj _ => exact go _ _ (by decide) (by intro k; cases k <;> simp [kindNum, kindOf])

/-- Every line is made of blanks, items, and possibly a lone backslash or a slash and flags. -/
theorem items_exist : ∀ (n : Nat) (s : Bytes), s.length ≤ n → 0 ∉ s →
    ∃ items t, s = patText items ++ t ∧ (∀ i ∈ items, i.WF) ∧ (t = [] ∨ t = b!"\\" ∨ ∃ flags, t = c%'/' :: flags)
  | _, [], _, _ => ⟨[], [], rfl, by simp, .inl rfl⟩
  | 0, _ :: _, h, _ => by simp at h
  | n + 1, c :: s, h, h0 => by
    simp only [List.length_cons] at h
    simp only [List.mem_cons, not_or] at h0
    by_cases h1 : c = c%'/'
    · exact ⟨[], _, rfl, by simp, .inr (.inr ⟨s, by rw [h1]⟩)⟩
    by_cases h2 : c = c%'\\'
    · subst h2
      cases s with
      | nil => exact ⟨[], _, rfl, by simp, .inr (.inl rfl)⟩
      | cons d s =>
        simp only [List.length_cons] at h
        simp only [List.mem_cons, not_or] at h0
        obtain ⟨items, t, e1, e2, e3⟩ := items_exist n s (by omega) h0.2.2
        by_cases h3 : d = c%'/'
        · refine ⟨.slash :: items, t, ?_, ?_, e3⟩
          · rw [e1, h3]; simp [patText, PatItem.text]
          · intro i hi
            rcases List.mem_cons.mp hi with rfl | hi
            · trivial
            · exact e2 i hi
        · refine ⟨.kept d :: items, t, ?_, ?_, e3⟩
          · rw [e1]; simp [patText, PatItem.text]
          · intro i hi
            rcases List.mem_cons.mp hi with rfl | hi
            · exact ⟨fun h => h0.2.1 h.symm, h3⟩
            · exact e2 i hi
    · obtain ⟨items, t, e1, e2, e3⟩ := items_exist n s (by omega) h0.2
      refine ⟨.plain c :: items, t, ?_, ?_, e3⟩
      · rw [e1]; simp [patText, PatItem.text]
      · intro i hi
        rcases List.mem_cons.mp hi with rfl | hi
        · exact ⟨fun h => h0.1 h.symm, h1, h2⟩
        · exact e2 i hi

theorem blanks_split (s : Bytes) : ∃ w, s = w ++ trim s ∧ Blanks w ∧ ∀ c ∈ (trim s).head?, c ≠ c%' ' ∧ c ≠ c%'\t' := by
  induction s with
  | nil => exact ⟨[], rfl, by simp [Blanks], by simp [trim]⟩
  | cons c s ih =>
    rw [trim]
    split
    · next h =>
      obtain ⟨w, h1, h2, h3⟩ := ih
      refine ⟨c :: w, by rw [List.cons_append, ← h1], ?_, h3⟩
      intro x hx
      rcases List.mem_cons.mp hx with rfl | hx
      · exact h
      · exact h2 x hx
    · next h => exact ⟨[], rfl, by simp [Blanks], by simp; omega⟩

end Verif.Lemmas
