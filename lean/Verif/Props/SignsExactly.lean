import Verif.Lemmas.DiffExact
/-! # C134: every sign of a comparison, exactly -/
namespace Verif.Props
open Verif.Model Verif.Model.Diff Verif.Spec Verif.Lemmas.Diff

/-- The sign the view shows for an element (`env.op`). -/
def markOf (t : Table) (e : Ptr) : Op := (t.get e).getD .add

theorem opposite_congr {R S : Path → Path → Prop} (h : ∀ p q, R p q ↔ S p q) (a b : Elem) (p q : Path) : Opposite R a b p q ↔ Opposite S a b p q := by
  have : R = S := funext fun p => funext fun q => propext (h p q)
  rw [this]

theorem facing_big {text : Json → Bytes} {x y : Elem} {c : Nat} (h : Facing text x y c) (hc : c ≤ 1) (hx : x.isContainer = true) :
    (y.isContainer = false → x.kids = []) ∧ (y.isContainer = true → c ≠ 0 → x.kids.length ≤ 1 ∧ y.kids.length ≤ 1) := by
  cases h with
  | near h1 _ _ => exact absurd ((container_iff _).mp hx) h1
  | far h1 _ _ => exact absurd ((container_iff _).mp hx) h1
  | sameKey => cases hx
  | otherKey => cases hx
  | entryLeft => cases hx
  | entryRight h1 => exact absurd ((container_iff _).mp hx) h1
  | containerLeft h1 h2 => exact ⟨fun _ => List.length_eq_zero_iff.mp (by omega), fun h => by rw [h2] at h; cases h⟩
  | containerRight h1 h2 => rw [hx] at h1; cases h1
  | @containers _ _ _ _ n h1 h2 h3 h4 h5 =>
    refine ⟨fun h => (by rw [h2] at h; cases h), fun _ hne => ?_⟩
    split at hne
    · exact absurd rfl hne
    · rename_i hn
      rw [if_neg hn] at hc
      omega

theorem facing_big' {text : Json → Bytes} {x y : Elem} {c : Nat} (h : Facing text x y c) (hc : c ≤ 1) (hy : y.isContainer = true) :
    (x.isContainer = false → y.kids = []) ∧ (x.isContainer = true → c ≠ 0 → x.kids.length ≤ 1 ∧ y.kids.length ≤ 1) := by
  cases h with
  | near _ h1 _ => exact absurd ((container_iff _).mp hy) h1
  | far _ h1 _ => exact absurd ((container_iff _).mp hy) h1
  | sameKey => cases hy
  | otherKey => cases hy
  | entryLeft h1 => exact absurd ((container_iff _).mp hy) h1
  | entryRight => cases hy
  | containerLeft h1 h2 => rw [hy] at h2; cases h2
  | containerRight h1 h2 => exact ⟨fun _ => List.length_eq_zero_iff.mp (by omega), fun h => by rw [h1] at h; cases h⟩
  | @containers _ _ _ _ n h1 h2 h3 h4 h5 =>
    refine ⟨fun h => (by rw [h1] at h; cases h), fun _ hne => ?_⟩
    split at hne
    · exact absurd rfl hne
    · rename_i hn
      rw [if_neg hn] at hc
      omega

/-- **C134** Provided all the sums fit the cells and the texts are shorter than 16 MiB: (1) two opposite elements (the documents; elements that the comparison pairs; the values of two paired entries with the same key) have the
signs that their kinds and the cost of facing each other say, and this cost is 0 or 1 but for the documents themselves; (2, 3) an element with nothing opposite is marked as added; (4, 5) below the documents only empty containers are marked as
removed; (6) below the documents two opposite containers, one of which has two or more children, are marked as equal. -/
theorem C134_signs (fmt : Bytes → Bytes) (a b : Json) (t : Table) (h : diff fmt a b = some t) (sa : ShortTexts (·.stringify fmt) (.value a)) (sb : ShortTexts (·.stringify fmt) (.value b))
    (hr : RoomFor (·.stringify fmt) (.value a) (.value b)) (order : List (Ptr × Ptr)) (hp : order.Perm t.equivalences) :
    let faces : Path → Path → Prop := fun p q => scan order (.left p) = some (.right q)
    (∀ p q, Opposite faces (.value a) (.value b) p q → ∃ x y c, (Elem.value a).at p = some x ∧ (Elem.value b).at q = some y ∧ Facing (·.stringify fmt) x y c ∧ (p = [] ∨ c ≤ 1) ∧
      (markOf t (.left p), markOf t (.right q)) = signsFor (decide (c = 0)) x y) ∧
    (∀ p, (∀ q, ¬ Opposite faces (.value a) (.value b) p q) → markOf t (.left p) = .add) ∧
    (∀ q, (∀ p, ¬ Opposite faces (.value a) (.value b) p q) → markOf t (.right q) = .add) ∧
    (∀ p x, p ≠ [] → (Elem.value a).at p = some x → markOf t (.left p) = .rem → x.isContainer = true ∧ x.kids = []) ∧
    (∀ q y, q ≠ [] → (Elem.value b).at q = some y → markOf t (.right q) = .rem → y.isContainer = true ∧ y.kids = []) ∧
    (∀ p q x y, p ≠ [] → Opposite faces (.value a) (.value b) p q → (Elem.value a).at p = some x → (Elem.value b).at q = some y → 2 ≤ max x.kids.length y.kids.length →
      markOf t (.left p) = .equ ∧ markOf t (.right q) = .equ) := by
  intro faces
  have g := build_good fmt (.value a) (.value b) [] [] t h
  have ex := build_exact fmt (.value a) (.value b) [] [] t h sa sb hr
  have hcong : ∀ p q, Opposite faces (.value a) (.value b) p q ↔ Opp (.value a) (.value b) [] [] t p q :=
    opposite_congr (fun p q => (scan_rel g hp p q).1) _ _
  have nk : ∀ p : Path, ¬ (p = [] ∧ SameKey (.value a) (.value b)) := by rintro p ⟨_, k, v, v', e, _⟩; cases e
  have one : ∀ p q, Opposite faces (.value a) (.value b) p q → ∃ x y c, (Elem.value a).at p = some x ∧ (Elem.value b).at q = some y ∧ Facing (·.stringify fmt) x y c ∧ (p = [] ∨ c ≤ 1) ∧
      (markOf t (.left p), markOf t (.right q)) = signsFor (decide (c = 0)) x y := by
    intro p q ho
    obtain ⟨x, y, c, h1, h2, h3, h4, h5, h6⟩ := ex.pairs p q ((hcong p q).mp ho) (nk p)
    refine ⟨x, y, c, h1, h2, h3, ?_, ?_⟩
    · obtain h4 | ⟨⟨_, _, _, e, _⟩, _⟩ | h4 := h4
      · exact .inl h4
      · cases e
      · exact .inr h4
    · simp only [List.nil_append] at h5 h6
      simp only [markOf, Table.get, h5, h6, Option.getD_some]
  have two : ∀ p, (∀ q, ¬ Opposite faces (.value a) (.value b) p q) → markOf t (.left p) = .add := by
    intro p hn
    unfold markOf Table.get
    cases hl : look t.operations (.left p) with
    | none => rfl
    | some o =>
      obtain ⟨q, ho⟩ | rfl := ex.aloneL p o (by simpa using hl)
      · exact absurd ((hcong p q).mpr ho) (hn q)
      · rfl
  have three : ∀ q, (∀ p, ¬ Opposite faces (.value a) (.value b) p q) → markOf t (.right q) = .add := by
    intro q hn
    unfold markOf Table.get
    cases hl : look t.operations (.right q) with
    | none => rfl
    | some o =>
      obtain ⟨p, ho⟩ | rfl := ex.aloneR q o (by simpa using hl)
      · exact absurd ((hcong p q).mpr ho) (hn p)
      · rfl
  refine ⟨one, two, three, ?_, ?_, ?_⟩
  · intro p x hne hx hs
    by_cases hex : ∃ q, Opposite faces (.value a) (.value b) p q
    · obtain ⟨q, ho⟩ := hex
      obtain ⟨x', y, c, h1, h2, h3, h4, h5⟩ := one p q ho
      rw [hx] at h1; cases h1
      have hc : c ≤ 1 := h4.resolve_left hne
      rw [hs] at h5
      have h5 := congrArg Prod.fst h5
      by_cases cx : x.isContainer = true
      · refine ⟨cx, (facing_big h3 hc cx).1 ?_⟩
        cases cy : y.isContainer with
        | false => rfl
        | true =>
          cases hd : decide (c = 0) <;> simp [signsFor, cx, cy, hd] at h5
      · exfalso
        simp only [signsFor, if_neg cx] at h5
        repeat' split at h5
        all_goals cases h5
    · rw [two p (fun q ho => hex ⟨q, ho⟩)] at hs
      cases hs
  · intro q y hne hy hs
    by_cases hex : ∃ p, Opposite faces (.value a) (.value b) p q
    · obtain ⟨p, ho⟩ := hex
      obtain ⟨x, y', c, h1, h2, h3, h4, h5⟩ := one p q ho
      rw [hy] at h2; cases h2
      have hpn : p ≠ [] := by
        rintro rfl
        apply hne
        have ho' := (hcong [] q).mp ho
        obtain ⟨_, e⟩ | hr | ⟨r0, q0, k', u, u', e, _⟩ := ho'
        · exact e
        · simpa using (g.corr.len hr).symm
        · simp at e
      have hc : c ≤ 1 := h4.resolve_left hpn
      rw [hs] at h5
      have h5 := congrArg Prod.snd h5
      by_cases cy : y.isContainer = true
      · refine ⟨cy, (facing_big' h3 hc cy).1 ?_⟩
        cases cx : x.isContainer with
        | false => rfl
        | true =>
          cases hd : decide (c = 0) <;> simp [signsFor, cx, cy, hd] at h5
      · exfalso
        simp only [signsFor, if_neg cy] at h5
        repeat' split at h5
        all_goals cases h5
    · rw [three q (fun p ho => hex ⟨p, ho⟩)] at hs
      cases hs
  · intro p q x y hne ho hx hy hk
    obtain ⟨x', y', c, h1, h2, h3, h4, h5⟩ := one p q ho
    rw [hx] at h1; cases h1
    rw [hy] at h2; cases h2
    have hc : c ≤ 1 := h4.resolve_left hne
    have big : ∀ e : Elem, 2 ≤ e.kids.length → e.isContainer = true := by
      intro e he
      match e, he with
      | .value (.arr _), _ => rfl
      | .value (.obj _), _ => rfl
      | .entry _ _, he => simp [Elem.kids] at he
      | .value (.str _), he | .value (.bool _), he | .value .null, he | .value (.int _), he | .value (.long _), he | .value (.dbl _), he => simp [Elem.kids] at he
    have both : x.isContainer = true ∧ y.isContainer = true ∧ c = 0 := by
      by_cases k2 : 2 ≤ x.kids.length
      · have cx := big x k2
        have f := facing_big h3 hc cx
        cases cy : y.isContainer with
        | false => have := f.1 cy; rw [this] at k2; simp at k2
        | true => exact ⟨cx, rfl, Classical.byContradiction fun h0 => by have := f.2 cy h0; omega⟩
      · have cy := big y (by omega)
        have f := facing_big' h3 hc cy
        cases cx : x.isContainer with
        | false => have := f.1 cx; rw [this] at hk; simp at hk; omega
        | true => exact ⟨rfl, cy, Classical.byContradiction fun h0 => by have := f.2 cx h0; omega⟩
    obtain ⟨cx, cy, rfl⟩ := both
    simp only [signsFor, cx, cy, if_true, decide_true, Prod.mk.injEq] at h5
    exact h5

/-- A property of all elements of a document, to be checked by evaluation (`n` exceeds the depth). -/
def everyElem (P : Elem → Bool) : Nat → Elem → Bool
  | 0, _ => false
  | n + 1, e => P e && e.kids.all (everyElem P n)

theorem everyElem_at {P : Elem → Bool} {x : Elem} : ∀ {p : Path} {n : Nat} {e : Elem}, everyElem P n e = true → e.at p = some x → P x = true
  | _, 0, _, h, _ => by cases h
  | [], n + 1, e, h, hx => by
    simp only [everyElem, Bool.and_eq_true] at h
    cases hx; exact h.1
  | i :: p, n + 1, e, h, hx => by
    simp only [everyElem, Bool.and_eq_true, List.all_eq_true] at h
    simp only [Elem.at, Option.bind_eq_some_iff] at hx
    obtain ⟨u, hu, hx⟩ := hx
    exact everyElem_at (h.2 u (List.mem_of_getElem? hu)) hx

/-- Few children and short texts. -/
def modest (fmt : Bytes → Bytes) : Elem → Bool
  | .value v => decide ((Elem.value v).kids.length ≤ 50) && decide ((v.stringify fmt).length < 16777216)
  | .entry _ _ => true

theorem modest_spec {fmt : Bytes → Bytes} {n : Nat} {e : Elem} (h : everyElem (modest fmt) n e = true) :
    ShortTexts (·.stringify fmt) e ∧ ∀ p x, e.at p = some x → x.kids.length ≤ 50 := by
  refine ⟨fun p v hv => ?_, fun p x hx => ?_⟩
  · have := everyElem_at h hv
    simp only [modest, Bool.and_eq_true, decide_eq_true_eq] at this
    exact this.2
  · have := everyElem_at h hx
    cases x with
    | value v =>
      simp only [modest, Bool.and_eq_true, decide_eq_true_eq] at this
      exact this.1
    | entry k v => simp [Elem.kids]

/-- The hypotheses of `C134_signs` at work, with all four signs: `{"k": [], "l": 1, "m": [1, 2, 3], "n": "x", "o": null}` and `{"k": 7, "l": 2, "m": [1, 2], "o": null}`. -/
example : ∃ t, diff id (.obj [(b!"k", .arr []), (b!"l", .int 1), (b!"m", .arr [.int 1, .int 2, .int 3]), (b!"n", .str b!"x"), (b!"o", .null)])
      (.obj [(b!"k", .int 7), (b!"l", .int 2), (b!"m", .arr [.int 1, .int 2]), (b!"o", .null)]) = some t ∧
    (ShortTexts (·.stringify id) (.value (.obj [(b!"k", .arr []), (b!"l", .int 1), (b!"m", .arr [.int 1, .int 2, .int 3]), (b!"n", .str b!"x"), (b!"o", .null)])) ∧
     ShortTexts (·.stringify id) (.value (.obj [(b!"k", .int 7), (b!"l", .int 2), (b!"m", .arr [.int 1, .int 2]), (b!"o", .null)])) ∧
     RoomFor (·.stringify id) (.value (.obj [(b!"k", .arr []), (b!"l", .int 1), (b!"m", .arr [.int 1, .int 2, .int 3]), (b!"n", .str b!"x"), (b!"o", .null)]))
       (.value (.obj [(b!"k", .int 7), (b!"l", .int 2), (b!"m", .arr [.int 1, .int 2]), (b!"o", .null)]))) ∧
    markOf t (.left [0, 0]) = .rem ∧ markOf t (.right [0, 0]) = .add ∧ markOf t (.left [1]) = .mod ∧ markOf t (.right [1]) = .mod ∧ markOf t (.left [2, 0]) = .equ ∧ markOf t (.right [2, 0]) = .equ ∧
    markOf t (.left [3]) = .add ∧ scan t.equivalences (.left [4]) = some (.right [3]) := by
  obtain ⟨t, h1, h2⟩ := any_some (o := diff id (.obj [(b!"k", .arr []), (b!"l", .int 1), (b!"m", .arr [.int 1, .int 2, .int 3]), (b!"n", .str b!"x"), (b!"o", .null)])
      (.obj [(b!"k", .int 7), (b!"l", .int 2), (b!"m", .arr [.int 1, .int 2]), (b!"o", .null)]))
    (p := fun t => markOf t (.left [0, 0]) = .rem ∧ markOf t (.right [0, 0]) = .add ∧ markOf t (.left [1]) = .mod ∧ markOf t (.right [1]) = .mod ∧ markOf t (.left [2, 0]) = .equ ∧ markOf t (.right [2, 0]) = .equ ∧
      markOf t (.left [3]) = .add ∧ scan t.equivalences (.left [4]) = some (.right [3])) (by decide +kernel)
  have ma := modest_spec (fmt := id) (n := 5) (e := .value (.obj [(b!"k", .arr []), (b!"l", .int 1), (b!"m", .arr [.int 1, .int 2, .int 3]), (b!"n", .str b!"x"), (b!"o", .null)])) (by decide +kernel)
  have mb := modest_spec (fmt := id) (n := 5) (e := .value (.obj [(b!"k", .int 7), (b!"l", .int 2), (b!"m", .arr [.int 1, .int 2]), (b!"o", .null)])) (by decide +kernel)
  exact ⟨t, h1, ⟨ma.1, mb.1, room_small ma.2 mb.2⟩, h2⟩

end Verif.Props
