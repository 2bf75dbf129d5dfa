import Verif.Lemmas.Visible
/-! # `findNext` and the document order -/
namespace Verif.Lemmas
open Verif.Model Verif.Model.Nav Verif.Spec

theorem append_lt_of_lt {a q : Path} (h : a < q) : ¬ a <+: q → ∀ s, a ++ s < q := by
  induction h with
  | nil => intro h; exact absurd (List.nil_prefix) h
  | rel h => intro _ s; exact List.Lex.rel h
  | cons h ih =>
    intro hn s
    exact List.Lex.cons (ih (fun hp => hn (List.cons_prefix_cons.mpr ⟨rfl, hp⟩)) s)

theorem between (a : Path) (i : Nat) : ∀ r : Path, a ++ [i] < r → r < a ++ [i + 1] → a ++ [i] <+: r := by
  induction a with
  | nil =>
    intro r h1 h2
    cases r with
    | nil => exact absurd h1 (List.not_lt_nil _)
    | cons c r =>
      simp only [List.nil_append] at h1 h2 ⊢
      rw [List.cons_lt_cons_iff] at h1 h2
      have : c = i := by
        rcases h1 with h1 | h1 <;> rcases h2 with h2 | h2
        · omega
        · exact absurd h2.2 (List.not_lt_nil _)
        · omega
        · omega
      subst this
      simp
  | cons j a ih =>
    intro r h1 h2
    cases r with
    | nil => exact absurd h1 (List.not_lt_nil _)
    | cons c r =>
      simp only [List.cons_append] at h1 h2 ⊢
      rw [List.cons_lt_cons_iff] at h1 h2
      have hc : c = j := by omega
      subst hc
      have h1' : a ++ [i] < r := by rcases h1 with h | h; omega; exact h.2
      have h2' : r < a ++ [i + 1] := by rcases h2 with h | h; omega; exact h.2
      exact List.cons_prefix_cons.mpr ⟨rfl, ih r h1' h2'⟩

theorem eq_or_lt_of_not_lt {a b : Path} (h : ¬ b < a) : a = b ∨ a < b := by
  by_cases h2 : a < b
  · exact .inr h2
  · left; exact List.le_antisymm (List.not_lt.mp h) (List.not_lt.mp h2)

/-- A position behind the whole subtree of `p`. -/
def Behind (root : Json) (p r : Path) : Prop := (∃ e, elem root r = some e) ∧ p < r ∧ ¬ p <+: r

theorem behind_parent {root : Json} {a : Path} {i : Nat} {parent : Elem} (hp : elem root a = some parent) (hi : ¬ i + 1 < parent.kids.length)
    {r : Path} (h : Behind root (a ++ [i]) r) : Behind root a r := by
  obtain ⟨⟨e, he⟩, h1, h2⟩ := h
  refine ⟨⟨e, he⟩, path_trans (by simpa using lt_append_cons a i []) h1, ?_⟩
  rintro ⟨s, rfl⟩
  cases s with
  | nil => rw [List.append_nil] at h1; exact path_asymm h1 (by simpa using lt_append_cons a i [])
  | cons j s =>
    have hj : j < parent.kids.length := by
      rw [elem, at_append] at he
      rw [elem] at hp
      simp only [hp, Option.bind_some, Elem.at] at he
      by_cases hj : j < parent.kids.length
      · exact hj
      · rw [List.getElem?_eq_none (by omega)] at he
        simp at he
    by_cases hji : j = i
    · subst hji
      exact h2 ⟨s, by simp⟩
    · have hlt : j < i := by omega
      have := lt_branch a hlt s []
      simp only [List.append_nil] at this
      rw [List.append_assoc] at this
      exact path_asymm h1 this

theorem findNextRev_some (root : Json) : ∀ (rev : List Nat) (q : Path), (∃ e, elem root rev.reverse = some e) → findNextRev root rev = some q →
    Behind root rev.reverse q ∧ ∀ r, Behind root rev.reverse r → q = r ∨ q < r
  | [], q, _, h => by simp [findNextRev] at h
  | i :: rev, q, he, h => by
    rw [findNextRev] at h
    cases hp : (Elem.value root).at rev.reverse with
    | none => simp [hp] at h
    | some parent =>
      simp only [hp] at h
      split at h
      · simp at h
      split at h
      · next hc hi =>
        cases h
        simp only [List.reverse_cons]
        refine ⟨⟨⟨parent.kids[i + 1], ?_⟩, ?_, ?_⟩, fun r hr => ?_⟩
        · rw [elem, at_concat, hp]; simp [List.getElem?_eq_getElem hi]
        · simpa using lt_branch rev.reverse (show i < i + 1 by omega) [] []
        · rintro ⟨s, hs⟩
          simp at hs
        · exact eq_or_lt_of_not_lt fun hlt => hr.2.2 (between _ _ _ hr.2.1 hlt)
      · next hc hi =>
        obtain ⟨⟨g1, g2, g3⟩, g4⟩ := findNextRev_some root rev q ⟨parent, hp⟩ h
        simp only [List.reverse_cons]
        refine ⟨⟨g1, append_lt_of_lt g2 g3 _, fun hpre => g3 ((List.prefix_append _ _).trans hpre)⟩, fun r hr => ?_⟩
        exact g4 r (behind_parent hp hi hr)

theorem findNextRev_none (root : Json) : ∀ (rev : List Nat), (∃ e, elem root rev.reverse = some e) → findNextRev root rev = none →
    ∀ r, Behind root rev.reverse r → ∃ a k v, a ++ [0] <+: rev.reverse ∧ elem root a = some (.entry k v) ∧ ¬ a ++ [0] <+: r
  | [], _, _, r, hr => absurd (List.nil_prefix) hr.2.2
  | i :: rev, he, h, r, hr => by
    rw [findNextRev] at h
    cases hp : (Elem.value root).at rev.reverse with
    | none =>
      obtain ⟨e, he⟩ := he
      rw [List.reverse_cons, elem, at_concat, hp] at he
      simp at he
    | some parent =>
      simp only [hp] at h
      split at h
      · next hc =>
        obtain ⟨e, he⟩ := he
        rw [List.reverse_cons, elem, at_concat, hp] at he
        simp only [List.reverse_cons] at hr ⊢
        cases parent with
        | entry k v =>
          have hi : i = 0 := by
            cases i with
            | zero => rfl
            | succ i => simp [Elem.kids] at he
          subst hi
          exact ⟨rev.reverse, k, v, List.prefix_refl _, hp, hr.2.2⟩
        | value v =>
          cases v <;> simp [Elem.isContainer] at hc <;> simp [Elem.kids] at he
      split at h
      · simp at h
      · next hc hi =>
        simp only [List.reverse_cons] at hr ⊢
        obtain ⟨a, k, v, h1, h2, h3⟩ := findNextRev_none root rev ⟨parent, hp⟩ h r (behind_parent hp hi hr)
        exact ⟨a, k, v, h1.trans (List.prefix_append _ _), h2, h3⟩

theorem prefix_concat {a b : Path} {i : Nat} (h : a <+: b ++ [i]) : a = b ++ [i] ∨ a <+: b := by
  rcases List.prefix_or_prefix_of_prefix h (List.prefix_append b [i]) with h1 | h1
  · exact .inr h1
  · obtain ⟨s, rfl⟩ := h1
    rw [List.prefix_append_right_inj] at h
    cases s with
    | nil => exact .inr (by simp)
    | cons x s =>
      obtain ⟨t, ht⟩ := h
      simp only [List.cons_append, List.cons.injEq, List.append_eq_nil_iff] at ht
      exact .inl (by rw [ht.1, ht.2.1])

theorem findNextRev_inside (root : Json) : ∀ (rev : List Nat) (q : Path), findNextRev root rev = some q →
    ∀ a k v, a ++ [0] <+: rev.reverse → elem root a = some (.entry k v) → a ++ [0] <+: q
  | [], q, h, _, _, _, _, _ => by simp [findNextRev] at h
  | i :: rev, q, h, a, k, v, ha, hk => by
    rw [findNextRev] at h
    cases hp : (Elem.value root).at rev.reverse with
    | none => simp [hp] at h
    | some parent =>
      simp only [hp] at h
      split at h
      · simp at h
      next hc =>
      rw [List.reverse_cons] at ha
      have hin : a ++ [0] <+: rev.reverse := by
        rcases prefix_concat ha with h1 | h1
        · obtain ⟨rfl, -⟩ := List.append_inj' h1 rfl
          rw [elem, hp] at hk
          cases hk
          simp [Elem.isContainer] at hc
        · exact h1
      split at h
      · cases h
        exact hin.trans (List.prefix_append _ _)
      · exact findNextRev_inside root rev q h a k v hin hk

end Verif.Lemmas
