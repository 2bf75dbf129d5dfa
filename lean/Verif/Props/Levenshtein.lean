import Verif.Lemmas.Levenshtein
import Verif.Lemmas.Percent
/-! # C24–C26: the distance of strings -/
namespace Verif.Props
open Verif.Model Verif.Spec Verif.Lemmas

/-- **C24 `levenshtein()` is the edit distance**: some script of that many single-character edits turns the first string into the
second one, and no script is shorter. -/
theorem C24_edit_distance (a b : Bytes) :
    Edits (levenshtein a b) a b ∧ ∀ n, Edits n a b → levenshtein a b ≤ n := by
  rw [levenshtein_D]
  exact ⟨by simpa using Edits.of_Al (Al.of_D a b) [], fun n h => D_edits h⟩

example : levenshtein b!"kitten" b!"sitting" = 3 := by decide
example : Edits 2 b!"ab" b!"bc" := .step (.step (.done _) (.delete [] b!"b" 97)) (.insert b!"b" [] 99)

/-- **C25 `levenshtein()` is a metric** with the usual bounds. -/
theorem C25_metric (a b c : Bytes) :
    (levenshtein a b = 0 ↔ a = b) ∧ levenshtein a b = levenshtein b a ∧
    levenshtein a c ≤ levenshtein a b + levenshtein b c ∧
    a.length - b.length ≤ levenshtein a b ∧ b.length - a.length ≤ levenshtein a b ∧
    levenshtein a b ≤ max a.length b.length := by
  simp only [levenshtein_D]
  refine ⟨D_eq_zero a b, D_symm a b, D_triangle a b c, ?_, ?_, ?_⟩
  · have := (Al.of_D a b).bounds; omega
  · have := (Al.of_D a b).bounds; omega
  · obtain ⟨n, h1, h2⟩ := Al.max a b
    exact Nat.le_trans (D_le_of_Al h2) h1

theorem percent_short (a b : Bytes) (h : 0 < max a.length b.length) (hs : max a.length b.length < 2 ^ 24) :
    levenshteinPercent a b = F32.oneSub (F32.ofRatio (levenshtein a b) (max a.length b.length)) := by
  have hle : levenshtein a b ≤ max a.length b.length := (C25_metric a b b).2.2.2.2.2
  unfold levenshteinPercent
  rw [if_neg]
  · have h1 : F32.ofNat (levenshtein a b) = ⟨levenshtein a b, 0⟩ := by
      rw [F32.ofNat, if_pos (by omega)]
    have h2 : F32.ofNat (max a.length b.length) = ⟨max a.length b.length, 0⟩ := by
      rw [F32.ofNat, if_pos hs]
    rw [h1, h2, F32.div]
    simp
  · intro he
    simp only [Bool.and_eq_true, List.isEmpty_iff] at he
    rw [he.1, he.2] at h
    simp at h

/-- **C26, the part that holds.** For strings shorter than `2^24` bytes `levenshteinPercent` is symmetric, at most 1, less than 1 exactly
when the strings differ, and above the threshold exactly when the distance is less than 30% of the longer length or
the strings are equal. Missing: longer strings (`C26_percent_false`). -/
theorem C26_percent_partial (a b : Bytes) (hs : max a.length b.length < 2 ^ 24) :
    levenshteinPercent a b = levenshteinPercent b a ∧
    F32.lt F32.one (levenshteinPercent a b) = false ∧
    (F32.lt (levenshteinPercent a b) F32.one = true ↔ a ≠ b) ∧
    (percentSimilar a b = true ↔ a = b ∨ 10 * levenshtein a b < 3 * max a.length b.length) := by
  have hz := (C25_metric a b b).1
  have hle : levenshtein a b ≤ max a.length b.length := (C25_metric a b b).2.2.2.2.2
  by_cases h0 : max a.length b.length = 0
  · have ha : a = [] := List.length_eq_zero_iff.mp (by omega)
    have hb : b = [] := List.length_eq_zero_iff.mp (by omega)
    subst ha; subst hb
    exact ⟨rfl, by decide, by decide, by decide⟩
  · have e := percent_short a b (by omega) hs
    have e' := percent_short b a (by omega) (by omega)
    refine ⟨?_, ?_, ?_, ?_⟩
    · rw [e, e', (C25_metric b a a).2.1, Nat.max_comm]
    · rw [e]; exact oneSub_le_one _ _ hle
    · rw [e]
      constructor
      · rintro h rfl
        rw [hz.mpr rfl] at h
        simp only [F32.ofRatio, if_pos] at h
        revert h
        decide
      · intro h
        exact percent_one _ _ hle (by omega) hs (Nat.pos_of_ne_zero fun h' => h (hz.mp h'))
    · rw [percentSimilar, e, percent_iff _ _ hle (by omega) hs, decide_eq_true_iff]
      constructor
      · exact .inr
      · rintro (h | h)
        · rw [hz.mpr h]; omega
        · exact h

example : max (b!"abcdefghij").length (b!"abcdefghik").length < 2 ^ 24 ∧ percentSimilar b!"abcdefghij" b!"abcdefghik" = true ∧
    percentSimilar b!"abcdefghij" b!"abcdefgxyz" = false := by decide +kernel

theorem long_strings (n : Nat) (hn : n + 1 = 33554432) :
    (97 :: List.replicate n 97) ≠ (98 :: List.replicate n 97 : Bytes) ∧
      F32.lt (levenshteinPercent (97 :: List.replicate n 97) (98 :: List.replicate n 97)) F32.one = false := by
  have hne : (97 :: List.replicate n 97) ≠ (98 :: List.replicate n 97 : Bytes) := by
    intro h
    have := (List.cons.inj h).1
    omega
  refine ⟨hne, ?_⟩
  have h1 : levenshtein (97 :: List.replicate n 97) (98 :: List.replicate n 97) = 1 := by
    apply Nat.le_antisymm
    · apply (C24_edit_distance _ _).2
      have := Edit.substitute [] (List.replicate n 97) 97 98
      exact .step (.done _) this
    · have := (C25_metric (97 :: List.replicate n 97) (98 :: List.replicate n 97) []).1
      have h2 : levenshtein (97 :: List.replicate n 97) (98 :: List.replicate n 97) ≠ 0 := fun h => hne (this.mp h)
      omega
  have h2 : max (97 :: List.replicate n 97 : Bytes).length (98 :: List.replicate n 97 : Bytes).length = 33554432 := by
    simp only [List.length_cons, List.length_replicate, hn, Nat.max_self]
  unfold levenshteinPercent
  rw [h1, h2, if_neg (by simp)]
  decide +kernel

/-- **C26 does not hold** for very long strings: the rounding of `float` makes the similarity of two different strings of `2^25` bytes
exactly 1. -/
theorem C26_percent_false : ∃ a b : Bytes, a ≠ b ∧ F32.lt (levenshteinPercent a b) F32.one = false := by
  have : ∃ n, n + 1 = 33554432 := ⟨33554431, rfl⟩
  obtain ⟨n, hn⟩ := this
  exact ⟨_, _, long_strings n hn⟩

end Verif.Props
