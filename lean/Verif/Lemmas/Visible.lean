import Verif.Lemmas.Navigate
/-! # Which items are displayed -/
namespace Verif.Lemmas
open Verif.Model Verif.Model.Nav Verif.Spec

/-- `s` is the position, relative to the value `v` at `p`, of an item inside `v` that is displayed. -/
def In (hidden : Path → Bool) (p : Path) (v : Json) (s : Path) : Prop :=
  s ≠ [] ∧ (∃ e, (Elem.value v).at s = some e) ∧ (∃ c, (Elem.value v).at s.dropLast = some c ∧ c.isContainer = true) ∧
    ∀ a c, a <+: s → a ≠ s → (Elem.value v).at a = some c → c.isContainer = true → hidden (p ++ a) = false

theorem prefix_cons_cases {a : Path} {j : Nat} {s : Path} (h : a <+: j :: s) : a = [] ∨ ∃ a', a = j :: a' ∧ a' <+: s := by
  cases a with
  | nil => exact .inl rfl
  | cons i a =>
    rw [List.cons_prefix_cons] at h
    exact .inr ⟨a, by rw [h.1], h.2⟩

theorem in_arr (hidden : Path → Bool) (p : Path) (xs : List Json) (s : Path) :
    In hidden p (.arr xs) s ↔ hidden p = false ∧ ∃ j x s', s = j :: s' ∧ xs[j]? = some x ∧ (s' = [] ∨ In hidden (p ++ [j]) x s') := by
  constructor
  · rintro ⟨h1, ⟨e, h2⟩, ⟨c, h3, h3'⟩, h4⟩
    refine ⟨by simpa using h4 [] (.value (.arr xs)) (List.nil_prefix) (fun h => h1 h.symm) rfl rfl, ?_⟩
    cases s with
    | nil => exact absurd rfl h1
    | cons j s =>
      simp only [Elem.at, Elem.kids, List.getElem?_map] at h2
      cases hx : xs[j]? with
      | none => simp [hx] at h2
      | some x =>
        simp only [hx, Option.map_some, Option.bind_some] at h2
        refine ⟨j, x, s, rfl, hx, ?_⟩
        by_cases hs : s = []
        · exact .inl hs
        · refine .inr ⟨hs, ⟨e, h2⟩, ⟨c, ?_, h3'⟩, fun a c' ha hne hc hcc => ?_⟩
          · rw [List.dropLast_cons_of_ne_nil hs] at h3
            simpa [Elem.at, Elem.kids, hx] using h3
          · have := h4 (j :: a) c' (List.cons_prefix_cons.mpr ⟨rfl, ha⟩) (fun h => hne (List.cons.inj h).2) (by simpa [Elem.at, Elem.kids, hx] using hc) hcc
            simpa using this
  · rintro ⟨hp, j, x, s', rfl, hx, h⟩
    rcases h with rfl | ⟨h1, ⟨e, h2⟩, ⟨c, h3, h3'⟩, h4⟩
    · refine ⟨by simp, ⟨.value x, by simp [Elem.at, Elem.kids, hx]⟩, ⟨_, rfl, rfl⟩, fun a c ha hne hc _ => ?_⟩
      rcases prefix_cons_cases ha with rfl | ⟨a', rfl, ha'⟩
      · simpa using hp
      · simp at ha'; subst ha'; exact absurd rfl hne
    · refine ⟨by simp, ⟨e, by simpa [Elem.at, Elem.kids, hx] using h2⟩, ⟨c, ?_, h3'⟩, fun a c' ha hne hc hcc => ?_⟩
      · rw [List.dropLast_cons_of_ne_nil h1]; simpa [Elem.at, Elem.kids, hx] using h3
      · rcases prefix_cons_cases ha with rfl | ⟨a', rfl, ha'⟩
        · simpa using hp
        · have := h4 a' c' ha' (fun h => hne (by rw [h])) (by simpa [Elem.at, Elem.kids, hx] using hc) hcc
          simpa using this

theorem in_obj (hidden : Path → Bool) (p : Path) (es : List (Bytes × Json)) (s : Path) :
    In hidden p (.obj es) s ↔ hidden p = false ∧ ∃ j k v, es[j]? = some (k, v) ∧ (s = [j] ∨ ∃ s', s = j :: 0 :: s' ∧ In hidden (p ++ [j] ++ [0]) v s') := by
  constructor
  · rintro ⟨h1, ⟨e, h2⟩, ⟨c, h3, h3'⟩, h4⟩
    refine ⟨by simpa using h4 [] (.value (.obj es)) (List.nil_prefix) (fun h => h1 h.symm) rfl rfl, ?_⟩
    cases s with
    | nil => exact absurd rfl h1
    | cons j s =>
      simp only [Elem.at, Elem.kids, List.getElem?_map] at h2
      cases hx : es[j]? with
      | none => simp [hx] at h2
      | some x =>
        obtain ⟨k, v⟩ := x
        simp only [hx, Option.map_some, Option.bind_some] at h2
        refine ⟨j, k, v, hx, ?_⟩
        cases s with
        | nil => exact .inl rfl
        | cons z s =>
          right
          have hz : z = 0 := by
            cases z with
            | zero => rfl
            | succ z => simp [Elem.at, Elem.kids] at h2
          subst hz
          simp only [Elem.at, Elem.kids, List.getElem?_cons_zero, Option.bind_some] at h2
          refine ⟨s, rfl, ?_⟩
          have hs : s ≠ [] := by
            rintro rfl
            simp [Elem.at, Elem.kids, hx] at h3
            subst h3
            simp [Elem.isContainer] at h3'
          refine ⟨hs, ⟨e, h2⟩, ⟨c, ?_, h3'⟩, fun a c' ha hne hc hcc => ?_⟩
          · rw [List.dropLast_cons_of_ne_nil (by simp), List.dropLast_cons_of_ne_nil hs] at h3
            simpa [Elem.at, Elem.kids, hx] using h3
          · have := h4 (j :: 0 :: a) c' (by simpa using ha) (fun h => hne (by simpa using h)) (by simpa [Elem.at, Elem.kids, hx] using hc) hcc
            simpa using this
  · rintro ⟨hp, j, k, v, hx, h⟩
    rcases h with rfl | ⟨s', rfl, h1, ⟨e, h2⟩, ⟨c, h3, h3'⟩, h4⟩
    · refine ⟨by simp, ⟨.entry k v, by simp [Elem.at, Elem.kids, hx]⟩, ⟨_, rfl, rfl⟩, fun a c ha hne hc _ => ?_⟩
      rcases prefix_cons_cases ha with rfl | ⟨a', rfl, ha'⟩
      · simpa using hp
      · simp at ha'; subst ha'; exact absurd rfl hne
    · refine ⟨by simp, ⟨e, by simpa [Elem.at, Elem.kids, hx] using h2⟩, ⟨c, ?_, h3'⟩, fun a c' ha hne hc hcc => ?_⟩
      · rw [List.dropLast_cons_of_ne_nil (by simp), List.dropLast_cons_of_ne_nil h1]; simpa [Elem.at, Elem.kids, hx] using h3
      · rcases prefix_cons_cases ha with rfl | ⟨a', rfl, ha'⟩
        · simpa using hp
        · rcases prefix_cons_cases ha' with rfl | ⟨a'', rfl, ha''⟩
          · simp [Elem.at, Elem.kids, hx] at hc
            subst hc
            simp [Elem.isContainer] at hcc
          · have := h4 a'' c' ha'' (fun h => hne (by rw [h])) (by simpa [Elem.at, Elem.kids, hx] using hc) hcc
            simpa using this

theorem not_in_prim (hidden : Path → Bool) (p : Path) (v : Json) (hv : v.isContainer = false) (s : Path) : ¬ In hidden p v s := by
  rintro ⟨h1, ⟨e, h2⟩, -⟩
  cases s with
  | nil => exact h1 rfl
  | cons j s => cases v <;> simp [Json.isContainer] at hv <;> simp [Elem.at, Elem.kids] at h2

theorem mem_prim (hidden : Path → Bool) (p q : Path) (v : Json) (hv : v.isContainer = false) (hi : inside hidden p v = []) :
    q ∈ inside hidden p v ↔ ∃ s, q = p ++ s ∧ In hidden p v s := by
  rw [hi]
  constructor
  · simp
  · rintro ⟨s, -, h⟩
    exact absurd h (not_in_prim hidden p v hv s)

mutual
theorem inside_mem (hidden : Path → Bool) : ∀ (v : Json) (p q : Path), q ∈ inside hidden p v ↔ ∃ s, q = p ++ s ∧ In hidden p v s
  | .arr xs, p, q => by
    rw [inside]
    simp only [in_arr]
    by_cases hp : hidden p = true
    · simp [hp]
    · rw [if_neg hp, insideItems_mem hidden xs p 0 q]
      simp only [Nat.zero_add, Bool.not_eq_true] at hp ⊢
      constructor
      · rintro ⟨j, x, s', rfl, h1, h2⟩
        exact ⟨j :: s', by simp, hp, j, x, s', rfl, h1, h2⟩
      · rintro ⟨s, rfl, -, j, x, s', rfl, h1, h2⟩
        exact ⟨j, x, s', by simp, h1, h2⟩
  | .obj es, p, q => by
    rw [inside]
    simp only [in_obj]
    by_cases hp : hidden p = true
    · simp [hp]
    · rw [if_neg hp, insideEntries_mem hidden es p 0 q]
      simp only [Nat.zero_add, Bool.not_eq_true] at hp ⊢
      constructor
      · rintro ⟨j, k, v, h1, rfl | ⟨s', rfl, h2⟩⟩
        · exact ⟨[j], rfl, hp, j, k, v, h1, .inl rfl⟩
        · exact ⟨j :: 0 :: s', by simp, hp, j, k, v, h1, .inr ⟨s', rfl, h2⟩⟩
      · rintro ⟨s, rfl, -, j, k, v, h1, rfl | ⟨s', rfl, h2⟩⟩
        · exact ⟨j, k, v, h1, .inl rfl⟩
        · exact ⟨j, k, v, h1, .inr ⟨s', by simp, h2⟩⟩
  | .str _, p, q => mem_prim hidden p q _ rfl (by simp [inside])
  | .bool _, p, q => mem_prim hidden p q _ rfl (by simp [inside])
  | .null, p, q => mem_prim hidden p q _ rfl (by simp [inside])
  | .int _, p, q => mem_prim hidden p q _ rfl (by simp [inside])
  | .long _, p, q => mem_prim hidden p q _ rfl (by simp [inside])
  | .dbl _, p, q => mem_prim hidden p q _ rfl (by simp [inside])
theorem insideItems_mem (hidden : Path → Bool) : ∀ (xs : List Json) (p : Path) (i : Nat) (q : Path), q ∈ insideItems hidden p i xs ↔
    ∃ j x s, q = p ++ [i + j] ++ s ∧ xs[j]? = some x ∧ (s = [] ∨ In hidden (p ++ [i + j]) x s)
  | [], p, i, q => by simp [insideItems]
  | y :: ys, p, i, q => by
    rw [insideItems, List.cons_append, List.mem_cons, List.mem_append, inside_mem hidden y, insideItems_mem hidden ys p (i + 1) q]
    constructor
    · rintro (rfl | ⟨s, rfl, h⟩ | ⟨j, x, s, rfl, h1, h2⟩)
      · exact ⟨0, y, [], by simp, by simp, .inl rfl⟩
      · exact ⟨0, y, s, by simp, by simp, .inr (by simpa using h)⟩
      · have e : i + 1 + j = i + (j + 1) := by omega
        rw [e] at h2 ⊢
        exact ⟨j + 1, x, s, rfl, by simpa using h1, h2⟩
    · rintro ⟨j, x, s, rfl, h1, h2⟩
      cases j with
      | zero =>
        simp at h1; subst h1
        rcases h2 with rfl | h2
        · left; simp
        · right; left; exact ⟨s, by simp, by simpa using h2⟩
      | succ j =>
        have e : i + (j + 1) = i + 1 + j := by omega
        rw [e] at h2 ⊢
        right; right
        exact ⟨j, x, s, rfl, by simpa using h1, h2⟩
theorem insideEntries_mem (hidden : Path → Bool) : ∀ (es : List (Bytes × Json)) (p : Path) (i : Nat) (q : Path), q ∈ insideEntries hidden p i es ↔
    ∃ j k v, es[j]? = some (k, v) ∧ (q = p ++ [i + j] ∨ ∃ s, q = p ++ [i + j] ++ [0] ++ s ∧ In hidden (p ++ [i + j] ++ [0]) v s)
  | [], p, i, q => by simp [insideEntries]
  | (k, v) :: es, p, i, q => by
    rw [insideEntries, List.cons_append, List.mem_cons, List.mem_append, inside_mem hidden v, insideEntries_mem hidden es p (i + 1) q]
    constructor
    · rintro (rfl | ⟨s, rfl, h⟩ | ⟨j, k', v', h1, h2⟩)
      · exact ⟨0, k, v, by simp, .inl (by simp)⟩
      · exact ⟨0, k, v, by simp, .inr ⟨s, by simp, by simpa using h⟩⟩
      · have e : i + 1 + j = i + (j + 1) := by omega
        rw [e] at h2
        exact ⟨j + 1, k', v', by simpa using h1, h2⟩
    · rintro ⟨j, k', v', h1, h2⟩
      cases j with
      | zero =>
        simp at h1
        obtain ⟨rfl, rfl⟩ := h1
        rcases h2 with rfl | ⟨s, rfl, h2⟩
        · left; simp
        · right; left; exact ⟨s, by simp, by simpa using h2⟩
      | succ j =>
        have e : i + (j + 1) = i + 1 + j := by omega
        rw [e] at h2
        right; right
        exact ⟨j, k', v', by simpa using h1, h2⟩
end

/-- What is displayed: the elements that are the root or directly in a container, and not inside a collapsed container. -/
theorem mem_visible (hidden : Path → Bool) (root : Json) (q : Path) :
    q ∈ visible hidden root ↔ (∃ e, elem root q = some e) ∧ (q = [] ∨ ∃ c, elem root q.dropLast = some c ∧ c.isContainer = true) ∧
      ∀ a c, a <+: q → a ≠ q → elem root a = some c → c.isContainer = true → hidden a = false := by
  rw [visible, List.mem_cons, inside_mem]
  simp only [List.nil_append, exists_eq_left', In, elem]
  by_cases hq : q = []
  · subst hq
    simp [Elem.at]
    intro a c h1 h2
    exact absurd h1 h2
  · simp only [hq, false_or, ne_eq, not_false_eq_true, true_and]

theorem mem_items (root : Json) (q : Path) :
    q ∈ items root ↔ (∃ e, elem root q = some e) ∧ (q = [] ∨ ∃ c, elem root q.dropLast = some c ∧ c.isContainer = true) := by
  rw [items, mem_visible]
  simp

theorem visible_items (hidden : Path → Bool) (root : Json) (q : Path) (h : q ∈ visible hidden root) : q ∈ items root := by
  rw [mem_visible] at h
  exact (mem_items root q).mpr ⟨h.1, h.2.1⟩

end Verif.Lemmas
