import Verif.Lemmas.DiffWhole
import Verif.Props.SignsExactly
/-! # C135: the comparison, exactly -/
namespace Verif.Props
open Verif.Model Verif.Model.Diff Verif.Spec Verif.Lemmas.Diff

/-- For all costs and numbers of children there is exactly one chosen alignment, and it is one of the cheapest. -/
theorem C135_one_alignment (cost : Nat → Nat → Nat) (n m : Nat) :
    ∃ l, Chosen cost n m l ∧ (∀ l', Chosen cost n m l' → l' = l) ∧ ∃ d, Align cost n m l d ∧ ∀ l' d', Align cost n m l' d' → d ≤ d' := by
  obtain ⟨l, hl⟩ := chosen_exists cost n m
  obtain ⟨d, h1, h2⟩ := chosen_align hl
  exact ⟨l, hl, fun l' h => chosen_unique h hl, d, h1, h2.2⟩

/-- **C135** Provided all the sums fit the cells and the texts are shorter than 16 MiB, the comparison is determined, whatever the addresses of the elements: (1) the view takes two elements as counterparts exactly if they are opposite
according to the specification and are items or entries of containers, containers that cost nothing, or primitives of the same type; (2) this is symmetric; (3) elements that are opposite according to the specification have the signs their kinds and the
cost of facing each other say; (4, 5) all others are marked as added. -/
theorem C135_comparison (fmt : Bytes → Bytes) (a b : Json) (t : Table) (h : diff fmt a b = some t) (sa : ShortTexts (·.stringify fmt) (.value a)) (sb : ShortTexts (·.stringify fmt) (.value b))
    (hr : RoomFor (·.stringify fmt) (.value a) (.value b)) (order : List (Ptr × Ptr)) (hp : order.Perm t.equivalences) :
    (∀ p q, scan order (.left p) = some (.right q) ↔ Opposed (·.stringify fmt) (.value a) (.value b) p q ∧
      (IsChild (.value a) p ∨ ∃ x y, (Elem.value a).at p = some x ∧ (Elem.value b).at q = some y ∧ Matched (·.stringify fmt) x y)) ∧
    (∀ p q, scan order (.right q) = some (.left p) ↔ scan order (.left p) = some (.right q)) ∧
    (∀ p q, Opposed (·.stringify fmt) (.value a) (.value b) p q → ∃ x y c, (Elem.value a).at p = some x ∧ (Elem.value b).at q = some y ∧ Facing (·.stringify fmt) x y c ∧
      (markOf t (.left p), markOf t (.right q)) = signsFor (decide (c = 0)) x y) ∧
    (∀ p, (∀ q, ¬ Opposed (·.stringify fmt) (.value a) (.value b) p q) → markOf t (.left p) = .add) ∧
    (∀ q, (∀ p, ¬ Opposed (·.stringify fmt) (.value a) (.value b) p q) → markOf t (.right q) = .add) := by
  have g := build_good fmt (.value a) (.value b) [] [] t h
  have w := build_whole fmt (.value a) (.value b) [] [] t h sa sb hr
  obtain ⟨h1, h2, h3, _, _, _⟩ := C134_signs fmt a b t h sa sb hr order hp
  have hopp : ∀ p q, Opposite (fun p q => scan order (.left p) = some (.right q)) (.value a) (.value b) p q ↔ Opposed (·.stringify fmt) (.value a) (.value b) p q := by
    intro p q
    rw [opposite_congr (fun p q => (scan_rel g hp p q).1) _ _]
    exact w.opp p q
  refine ⟨fun p q => ?_, fun p q => ?_, ?_, ?_, ?_⟩
  · rw [(scan_rel g hp p q).1]
    exact w.rel p q (by rintro ⟨⟨_, _, _, e, _⟩, _⟩; cases e)
  · rw [(scan_rel g hp p q).1, (scan_rel g hp p q).2]
  · intro p q ho
    obtain ⟨x, y, c, e1, e2, e3, _, e5⟩ := h1 p q ((hopp p q).mpr ho)
    exact ⟨x, y, c, e1, e2, e3, e5⟩
  · exact fun p hn => h2 p fun q ho => hn q ((hopp p q).mp ho)
  · exact fun q hn => h3 q fun p ho => hn p ((hopp p q).mp ho)

/-- The hypotheses of `C135_comparison` at work, with two cheapest alignments of which the specification names the one that is shown: `[1, 2, 9]` and `[2, 1, 9]`. -/
example : ∃ t, diff id (.arr [.int 1, .int 2, .int 9]) (.arr [.int 2, .int 1, .int 9]) = some t ∧
    (ShortTexts (·.stringify id) (.value (.arr [.int 1, .int 2, .int 9])) ∧ ShortTexts (·.stringify id) (.value (.arr [.int 2, .int 1, .int 9])) ∧
     RoomFor (·.stringify id) (.value (.arr [.int 1, .int 2, .int 9])) (.value (.arr [.int 2, .int 1, .int 9]))) ∧
    Opposed (·.stringify id) (.value (.arr [.int 1, .int 2, .int 9])) (.value (.arr [.int 2, .int 1, .int 9])) [0] [1] ∧
    ¬ Opposed (·.stringify id) (.value (.arr [.int 1, .int 2, .int 9])) (.value (.arr [.int 2, .int 1, .int 9])) [1] [0] := by
  obtain ⟨t, h1, h2⟩ := any_some (o := diff id (.arr [.int 1, .int 2, .int 9]) (.arr [.int 2, .int 1, .int 9]))
    (p := fun t => scan t.equivalences (.left [0]) = some (.right [1]) ∧ scan t.equivalences (.left [1]) = none) (by decide +kernel)
  have ma := modest_spec (fmt := id) (n := 5) (e := .value (.arr [.int 1, .int 2, .int 9])) (by decide +kernel)
  have mb := modest_spec (fmt := id) (n := 5) (e := .value (.arr [.int 2, .int 1, .int 9])) (by decide +kernel)
  have hr := room_small (text := (·.stringify id)) ma.2 mb.2
  have key := (C135_comparison id _ _ t h1 ma.1 mb.1 hr t.equivalences (.refl _)).1
  refine ⟨t, h1, ⟨ma.1, mb.1, hr⟩, ((key _ _).mp h2.1).1, fun h => ?_⟩
  have := (key _ _).mpr ⟨h, .inl (isChild_single.mpr rfl)⟩
  rw [h2.2] at this
  cases this

end Verif.Props
