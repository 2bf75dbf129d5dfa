import Verif.Lemmas.DiffCells
import Verif.Props.Levenshtein
/-! # C27–C31: the comparison of two documents -/
namespace Verif.Props
open Verif.Model Verif.Model.Diff Verif.Spec Verif.Lemmas.Diff

theorem any_some {α : Type} {o : Option α} {p : α → Prop} [DecidablePred p] (h : o.any (fun t => decide (p t)) = true) :
    ∃ t, o = some t ∧ p t := by
  cases o with
  | none => simp at h
  | some t => exact ⟨t, rfl, by simpa using h⟩

/-- All the containers of the two documents can be compared: no empty container meets an empty container, and together two containers have
fewer than `2^32` children. -/
def NoEmptyPair (a b : Json) : Prop := ∀ p q x y, (Elem.value a).at p = some x → (Elem.value b).at q = some y →
  x.isContainer = true → y.isContainer = true →
  ¬ (x.kids.length = 0 ∧ y.kids.length = 0) ∧ x.kids.length + y.kids.length < 4294967296

theorem NoEmptyPair.fits {a b : Json} (h : NoEmptyPair a b) : Fits (.value a) (.value b) := by
  intro p q x y hx hy cx cy
  have := h p q x y hx hy cx cy
  omega

/-- **C28 does not hold**: comparing two empty arrays divides by zero. -/
theorem C28_no_crash_false (fmt : Bytes → Bytes) : diff fmt (.arr []) (.arr []) = none := rfl

/-- **C28, the part that holds**: the comparison of two documents always ends with a difference table, if no two containers compared are
both empty. Missing: documents with two empty containers (`C28_no_crash_false`). -/
theorem C28_no_crash_partial (fmt : Bytes → Bytes) (a b : Json) (h : NoEmptyPair a b) : ∃ t, diff fmt a b = some t := by
  obtain ⟨t, ht⟩ := build_some fmt (.value a) (.value b) [] [] h.fits
  exact ⟨t, ht⟩

/-- **C27 does not hold**: a document that contains an empty container crashes when compared with itself. -/
theorem C27_self_false (fmt : Bytes → Bytes) : diff fmt (.arr [.int 1, .obj []]) (.arr [.int 1, .obj []]) = none := by
  simp [diff, build, Elem.isContainer, Elem.kids, buildItems, row, buildEntries, containers]

/-- **C27, the part that holds**: in the comparison of a document without empty containers with itself every element of both copies is
marked equal, and its counterpart is the element at the same position. Missing: documents with empty containers (`C27_self_false`). -/
theorem C27_self_partial (fmt : Bytes → Bytes) (a : Json) (h : NoEmptyPair a a) :
    ∃ t, diff fmt a a = some t ∧ ∀ p x, (Elem.value a).at p = some x →
      t.get (.left p) = some .equ ∧ t.get (.right p) = some .equ ∧
      ∀ order, order.Perm t.equivalences → scan order (.left p) = some (.right p) ∧ scan order (.right p) = some (.left p) := by
  obtain ⟨t, ht⟩ := C28_no_crash_partial fmt a a h
  refine ⟨t, ht, ?_⟩
  intro p x hx
  have hs := (build_self fmt (.value a) [] [] t ht).equ p x hx (.inl rfl)
  have hg := build_good fmt (.value a) (.value a) [] [] t ht
  refine ⟨hs.1, hs.2.1, fun order hp => ?_⟩
  have := scan_rel hg hp p p
  exact ⟨this.1.mpr hs.2.2, this.2.mpr hs.2.2⟩

/-- Every container of this document, of any shape, has a child: the hypothesis holds. -/
theorem noEmptyPair_of_nonempty {a b : Json}
    (h : ∀ p x, (Elem.value a).at p = some x → x.isContainer = true → x.kids ≠ [] ∧ x.kids.length < 2147483648)
    (hb : ∀ p x, (Elem.value b).at p = some x → x.kids.length < 2147483648) : NoEmptyPair a b := by
  intro p q x y hx hy cx cy
  have h1 := h p x hx cx
  have h2 := hb q y hy
  have : x.kids.length ≠ 0 := fun h => h1.1 (List.length_eq_zero_iff.mp h)
  omega

example : ∃ t, diff id (.arr [.int 1, .obj [(b!"a", .arr [.null, .str b!"x"])]]) (.arr [.int 1, .obj [(b!"a", .arr [.null, .str b!"x"])]]) = some t ∧
    t.get (.left [1, 0, 0, 1]) = some .equ := by
  obtain ⟨t, h1, h2⟩ := C27_self_partial id (.arr [.int 1, .obj [(b!"a", .arr [.null, .str b!"x"])]]) (by
    intro p q x y hx hy cx cy
    have aux : ∀ p x, (Elem.value (.arr [.int 1, .obj [(b!"a", .arr [.null, .str b!"x"])]])).at p = some x → x.isContainer = true →
        x.kids.length = 1 ∨ x.kids.length = 2 := by
      intro p x hx cx
      match p with
      | [] => cases hx; exact .inr rfl
      | 0 :: [] => cases hx; cases cx
      | 0 :: i :: p => simp [Elem.at, Elem.kids] at hx
      | 1 :: [] => cases hx; exact .inl rfl
      | 1 :: 0 :: [] => cases hx; cases cx
      | 1 :: 0 :: 0 :: [] => cases hx; exact .inr rfl
      | 1 :: 0 :: 0 :: 0 :: [] => cases hx; cases cx
      | 1 :: 0 :: 0 :: 1 :: [] => cases hx; cases cx
      | 1 :: 0 :: 0 :: 0 :: i :: p => simp [Elem.at, Elem.kids] at hx
      | 1 :: 0 :: 0 :: 1 :: i :: p => simp [Elem.at, Elem.kids] at hx
      | 1 :: 0 :: 0 :: (i + 2) :: p => simp [Elem.at, Elem.kids] at hx
      | 1 :: 0 :: (i + 1) :: p => simp [Elem.at, Elem.kids] at hx
      | 1 :: (i + 1) :: p => simp [Elem.at, Elem.kids] at hx
      | (i + 2) :: p => simp [Elem.at, Elem.kids] at hx
    have := aux p x hx cx
    have := aux q y hy cy
    omega)
  exact ⟨t, h1, (h2 [1, 0, 0, 1] (.value (.str b!"x")) rfl).1⟩

theorem cellSize_limit (n m : Nat) : cellSize n m = cellLimit n m := by
  unfold cellSize cellLimit
  simp only [Nat.max_lt]

/-- What facing each other costs two children: nothing if they are similar, otherwise their distance. -/
def FacingCost (fmt : Bytes → Bytes) (a : Elem) (pa : Path) (b : Elem) (pb : Path) (cost : Nat → Nat → Nat) : Prop :=
  ∀ (i j : Nat) (x y : Elem) (s : Table), a.kids[i]? = some x → b.kids[j]? = some y → buildE fmt x (pa ++ [i]) y (pb ++ [j]) = some s →
    cost i j = if s.similar then 0 else s.result

/-- The distance of two containers is the least cost of an order-preserving alignment of their children, provided the sums
fit the cells (fewer than 256, 65536 or `2^32`, by the number of children); and when the containers count as similar, the children that the
table pairs are those of such a cheapest alignment. -/
theorem optimal_level (fmt : Bytes → Bytes) (a b : Elem) (pa pb : Path) (t : Table) (cost : Nat → Nat → Nat)
    (ha : a.isContainer = true) (hb : b.isContainer = true) (ht : buildE fmt a pa b pb = some t)
    (hcost : FacingCost fmt a pa b pb cost)
    (hsum : a.kids.length + b.kids.length < 4294967296)
    (hfit : ∀ i j d, i ≤ a.kids.length → j ≤ b.kids.length → Least cost i j d → d + 1 < cellLimit a.kids.length b.kids.length ∧
      (i < a.kids.length → j < b.kids.length → d + cost i j < cellLimit a.kids.length b.kids.length)) :
    (∀ pairs d, Align cost a.kids.length b.kids.length pairs d → t.result ≤ d) ∧
    ∃ pairs, Align cost a.kids.length b.kids.length pairs t.result ∧
      (t.similar = true → ∀ i j, (i, j) ∈ pairs ↔ look t.equivalences (.left (pa ++ [i])) = some (.right (pb ++ [j]))) := by
  obtain ⟨sub, hs, hcon⟩ := build_containers ha hb ht
  rw [← cellSize_limit] at hfit
  -- the costs of the code are these costs
  have ecost : ∀ i < a.kids.length, ∀ j < b.kids.length, (if (sub i j).similar then 0 else (sub i j).result) = cost i j := by
    intro i hi j hj
    exact (hcost i j _ _ _ (List.getElem?_eq_getElem hi) (List.getElem?_eq_getElem hj)
      (hs i j _ _ (List.getElem?_eq_getElem hi) (List.getElem?_eq_getElem hj))).symm
  generalize hc : (fun i j => if (sub i j).similar then 0 else (sub i j).result) = c at *
  have ec : ∀ i < a.kids.length, ∀ j < b.kids.length, c i j = cost i j := by
    intro i hi j hj; rw [← hc]; exact ecost i hi j hj
  have hal : ∀ {f g : Nat → Nat → Nat} {n m d : Nat} {l : List (Nat × Nat)}, Align f n m l d → (∀ i < n, ∀ j < m, f i j = g i j) → Align g n m l d := by
    intro f g n m d l h
    induction h with
    | done => exact fun _ => .done
    | aloneLeft _ ih => exact fun h => (ih fun i hi j hj => h i (by omega) j hj).aloneLeft
    | aloneRight _ ih => exact fun h => (ih fun i hi j hj => h i hi j (by omega)).aloneRight
    | @facing i j t l _ ih =>
      intro h
      rw [h i (by omega) j (by omega)]
      exact (ih fun i hi j hj => h i (by omega) j (by omega)).facing
  have hno : NoWrap (cellSize a.kids.length b.kids.length) c a.kids.length b.kids.length := by
    refine noWrap_of_least (fun e => by omega) fun i hi j hj d hd => ?_
    obtain ⟨⟨l, hl⟩, hmin⟩ := hd
    have g := hfit i j d hi hj ⟨⟨l, hal hl fun i' hi' j' hj' => ec i' (by omega) j' (by omega)⟩,
      fun l' d' h' => hmin l' d' (hal h' fun i' hi' j' hj' => (ec i' (by omega) j' (by omega)).symm)⟩
    exact ⟨g.1, fun h1 h2 => by rw [ec i h1 j h2]; exact g.2 h1 h2⟩
  have hres : t.result = cell (cellSize a.kids.length b.kids.length) c a.kids.length b.kids.length := by
    simp only [containers, hc] at hcon
    split at hcon
    · cases hcon
    · split at hcon
      · cases hcon; rfl
      · split at hcon
        · cases hcon
        · cases hcon; rfl
  obtain ⟨s, htr⟩ := trace_some (cellSize_cases a.kids.length b.kids.length) c a.kids.length b.kids.length (fun _ => hsum)
  rw [hres]
  refine ⟨fun pairs d hd => cell_optimal hno (hal hd fun i hi j hj => (ec i hi j hj).symm) (Nat.le_refl _) (Nat.le_refl _),
    pairsOf s, hal (trace_align hno _ _ (Nat.le_refl _) (Nat.le_refl _) htr) ec, ?_⟩
  intro hsim i j
  obtain ⟨h1, _, _, _⟩ | ⟨_, _, _, s', hs', hd, hok, hO, hE⟩ :=
      look_containers hcon (fun i j hi hj => (build_good fmt _ _ _ _ _
        (hs i j _ _ (List.getElem?_eq_getElem hi) (List.getElem?_eq_getElem hj))).ok)
  · rw [hsim] at h1; cases h1
  · rw [hc, htr] at hs'
    cases hs'
    rw [mem_pairsOf, hE]
    constructor
    · rintro ⟨op, hm⟩
      refine .inr (.inr ⟨by simp, by simp, _, hm, ((local_pair op (hok i j op hm) _).2 _).mpr (.inl ⟨rfl, rfl⟩)⟩)
    · rintro (⟨h, _⟩ | ⟨h, _⟩ | ⟨_, _, x, hx, hl⟩)
      · simp at h
      · cases h
      · cases x with
        | dropLeft k => rw [(local_dropLeft k _).2] at hl; cases hl
        | dropRight k => rw [(local_dropRight k _).2] at hl; cases hl
        | pair i' j' op =>
          obtain ⟨h1, h2⟩ | ⟨h1, h2⟩ := ((local_pair op (hok i' j' op hx) _).2 _).mp hl
          · have e1 : i = i' := by simpa using Ptr.left.inj h1
            have e2 : j = j' := by simpa using Ptr.right.inj h2
            subst e1 e2
            exact ⟨op, hx⟩
          · obtain ⟨r, q, e1, e2⟩ | ⟨r, q, e1, e2⟩ := (hok i' j' op hx).domE _ _ h2
            · simp at e1
              exact absurd (by simp [e1.1]) h1
            · cases e1

theorem align_bound {cost : Nat → Nat → Nat} : ∀ n m, Align cost n m [] (n + m)
  | 0, 0 => .done
  | n + 1, m => by
    have := (align_bound (cost := cost) n m).aloneLeft
    rwa [show n + m + 1 = n + 1 + m by omega] at this
  | 0, m + 1 => by
    have := (align_bound (cost := cost) 0 m).aloneRight
    rwa [show 0 + m + 1 = 0 + (m + 1) by omega] at this

/-- The hypotheses of `optimal_level` at work: two lists with one element more on the right. -/
example : ∃ cost, FacingCost id (.value (.arr [.int 1, .int 2])) [] (.value (.arr [.int 1, .null, .int 2])) [] cost ∧
    (∀ i j d, i ≤ 2 → j ≤ 3 → Least cost i j d → d + 1 < cellLimit 2 3 ∧ (i < 2 → j < 3 → d + cost i j < cellLimit 2 3)) ∧
    ∃ t, buildE id (.value (.arr [.int 1, .int 2])) [] (.value (.arr [.int 1, .null, .int 2])) [] = some t ∧ t.result = 1 := by
  refine ⟨fun i j => if (i = 0 ∧ j = 0) ∨ (i = 1 ∧ j = 2) then 0 else 1, ?_, ?_, any_some (by decide +kernel)⟩
  rotate_left
  · intro i j d hi hj hd
    have e : cellLimit 2 3 = 256 := rfl
    have := hd.2 _ _ (align_bound i j)
    rw [e]
    refine ⟨by omega, fun _ _ => ?_⟩
    dsimp only
    split <;> omega
  intro i j x y s hx hy hs
  match i, j with
  | 0, 0 | 0, 1 | 0, 2 | 1, 0 | 1, 1 | 1, 2 => cases hx; cases hy; cases hs; decide +kernel
  | 0, j + 3 => simp [Elem.kids] at hy
  | 1, j + 3 => simp [Elem.kids] at hy
  | i + 2, j => simp [Elem.kids] at hx

/-! ### What facing each other costs -/

theorem align_cost {f g : Nat → Nat → Nat} {n m d : Nat} {l : List (Nat × Nat)} (h : Align f n m l d) : (∀ i < n, ∀ j < m, f i j = g i j) → Align g n m l d := by
  induction h with
  | done => exact fun _ => .done
  | aloneLeft _ ih => exact fun h => (ih fun i hi j hj => h i (by omega) j hj).aloneLeft
  | aloneRight _ ih => exact fun h => (ih fun i hi j hj => h i hi j (by omega)).aloneRight
  | @facing i j t l _ ih =>
    intro h
    rw [h i (by omega) j (by omega)]
    exact (ih fun i hi j hj => h i (by omega) j (by omega)).facing

theorem container_iff (v : Json) : (Elem.value v).isContainer = true ↔ IsContainer v := by cases v <;> simp [Elem.isContainer, IsContainer]

/-- What two children cost is determined. -/
theorem facing_unique {text : Json → Bytes} {x y : Elem} {c : Nat} (h : Facing text x y c) : ∀ {c'}, Facing text x y c' → c = c' := by
  induction h with
  | near h1 h2 h3 =>
    intro c' h
    cases h with
    | near => rfl
    | far _ _ h => exact absurd h3 h
    | containerLeft h => exact absurd ((container_iff _).mp h) h1
    | containerRight _ h => exact absurd ((container_iff _).mp h) h2
    | containers h => exact absurd ((container_iff _).mp h) h1
  | far h1 h2 h3 =>
    intro c' h
    cases h with
    | far => rfl
    | near _ _ h => exact absurd h h3
    | containerLeft h => exact absurd ((container_iff _).mp h) h1
    | containerRight _ h => exact absurd ((container_iff _).mp h) h2
    | containers h => exact absurd ((container_iff _).mp h) h1
  | sameKey _ ih =>
    intro c' h
    cases h with
    | sameKey h => exact ih h
    | otherKey h => exact absurd rfl h
    | containerLeft h => cases h
    | containerRight _ h => cases h
    | containers h => cases h
  | otherKey hk =>
    intro c' h
    cases h with
    | sameKey h => exact absurd rfl hk
    | otherKey h => rfl
    | containerLeft h => cases h
    | containerRight _ h => cases h
    | containers h => cases h
  | entryLeft h1 =>
    intro c' h
    cases h with
    | entryLeft => rfl
    | containerLeft h => cases h
    | containerRight _ h => exact absurd ((container_iff _).mp h) h1
    | containers h => cases h
  | entryRight h1 =>
    intro c' h
    cases h with
    | entryRight => rfl
    | containerLeft h => exact absurd ((container_iff _).mp h) h1
    | containerRight _ h => cases h
    | containers _ h => cases h
  | containerLeft h1 h2 =>
    intro c' h
    cases h with
    | near h => exact absurd ((container_iff _).mp h1) h
    | far h => exact absurd ((container_iff _).mp h1) h
    | sameKey h => cases h1
    | otherKey h => cases h1
    | entryLeft h => cases h1
    | entryRight h => exact absurd ((container_iff _).mp h1) h
    | containerLeft => rfl
    | containerRight h _ => rw [h1] at h; cases h
    | containers _ h => rw [h2] at h; cases h
  | containerRight h1 h2 =>
    intro c' h
    cases h with
    | near _ h => exact absurd ((container_iff _).mp h2) h
    | far _ h => exact absurd ((container_iff _).mp h2) h
    | sameKey h => cases h2
    | otherKey h => cases h2
    | entryLeft h => exact absurd ((container_iff _).mp h2) h
    | entryRight h => cases h2
    | containerLeft h => rw [h1] at h; cases h
    | containerRight => rfl
    | containers h => rw [h1] at h; cases h
  | @containers x y cost pairs n h1 h2 h3 h4 h5 ih =>
    intro c' h
    cases h with
    | near h => exact absurd ((container_iff _).mp h1) h
    | far h => exact absurd ((container_iff _).mp h1) h
    | sameKey h => cases h1
    | otherKey h => cases h1
    | entryLeft h => cases h1
    | entryRight h => cases h2
    | containerLeft _ h => rw [h2] at h; cases h
    | containerRight h => rw [h1] at h; cases h
    | @containers _ _ cost' pairs' n' _ _ g3 g4 g5 =>
      have e : ∀ i < x.kids.length, ∀ j < y.kids.length, cost i j = cost' i j := by
        intro i hi j hj
        exact ih i j _ _ (List.getElem?_eq_getElem hi) (List.getElem?_eq_getElem hj) (g3 i j _ _ (List.getElem?_eq_getElem hi) (List.getElem?_eq_getElem hj))
      have e1 := h5 _ _ (align_cost g4 fun i hi j hj => (e i hi j hj).symm)
      have e2 := g5 _ _ (align_cost h4 e)
      rw [show n = n' by omega]

theorem percent_near {a b : Bytes} (ha : a.length < 2 ^ 24) (hb : b.length < 2 ^ 24) : percentSimilar a b = true ↔ Near a b := by
  rw [(C26_percent_partial a b (by omega)).2.2.2]
  obtain ⟨h1, h2⟩ := C24_edit_distance a b
  constructor
  · rintro (h | h)
    · exact .inl h
    · exact .inr ⟨_, h1, h⟩
  · rintro (h | ⟨n, h, h'⟩)
    · exact .inl h
    · have := h2 n h
      exact .inr (by omega)

theorem at_kid {a x u : Elem} {i : Nat} {p : Path} (hu : a.kids[i]? = some u) (h : u.at p = some x) : a.at (i :: p) = some x := by
  simp [Elem.at, hu, h]

theorem room_kids {text : Json → Bytes} {a b u w : Elem} {i j : Nat} (h : RoomFor text a b) (hu : a.kids[i]? = some u) (hw : b.kids[j]? = some w) : RoomFor text u w :=
  fun p q x y cost hl hx hy => h (i :: p) (j :: q) x y cost (by simp [hl]) (at_kid hu hx) (at_kid hw hy)

theorem room_noWrap {text : Json → Bytes} {a b : Elem} {cost : Nat → Nat → Nat} (h : RoomFor text a b) (ha : a.isContainer = true) (hb : b.isContainer = true)
    (hf : ∀ (i j : Nat) (u w : Elem), a.kids[i]? = some u → b.kids[j]? = some w → Facing text u w (cost i j)) :
    NoWrap (cellSize a.kids.length b.kids.length) cost a.kids.length b.kids.length := by
  obtain ⟨h1, h2⟩ := h [] [] a b cost rfl rfl rfl ha hb hf
  rw [← cellSize_limit] at h2
  exact noWrap_of_least (fun e => by omega) fun i hi j hj d hd => h2 i j d hi hj hd

theorem short_kids {text : Json → Bytes} {a u : Elem} {i : Nat} (h : ShortTexts text a) (hu : a.kids[i]? = some u) : ShortTexts text u :=
  fun p v hv => h (i :: p) v (at_kid hu hv)

theorem relative_zero {n m d : Nat} (hm : max n m ≠ 0) (hd : d ≤ n + m) : relative d n m = 0 ↔ ¬ (d < max n m ∨ d = 2 * max n m) := by
  have h2 : d ≤ 2 * max n m := by omega
  unfold relative
  generalize max n m = k at *
  have hk : 0 < k := by omega
  by_cases h : d < k
  · rw [Nat.div_eq_of_lt h]; omega
  · by_cases h' : d = 2 * k
    · subst h'
      rw [Nat.mul_div_cancel _ hk]; omega
    · have : d / k = 1 := by
        rw [Nat.div_eq_iff hk]; omega
      rw [this]; omega

/-- The comparison of two elements gives what facing each other costs. -/
theorem build_facing_aux (fmt : Bytes → Bytes) (n : Nat) : ∀ (a b : Elem) (pa pb : Path) (t : Table) (_ : sizeOf a < n) (ht : buildE fmt a pa b pb = some t) (ha : ShortTexts (·.stringify fmt) a) (hb : ShortTexts (·.stringify fmt) b)
    (hr : RoomFor (·.stringify fmt) a b), Facing (·.stringify fmt) a b (if t.similar then 0 else t.result) := by
  induction n with
  | zero => intro a b pa pb t h; omega
  | succ n ih =>
  intro a b pa pb t hn ht ha hb hr
  by_cases hc : a.isContainer = true ∧ b.isContainer = true
  · obtain ⟨c1, c2⟩ := hc
    obtain ⟨sub, hs, hcon⟩ := build_containers c1 c2 ht
    have hf : ∀ (i j : Nat) (u w : Elem), a.kids[i]? = some u → b.kids[j]? = some w → Facing (·.stringify fmt) u w (if (sub i j).similar then 0 else (sub i j).result) := by
      intro i j u w hu hw
      have := kid_size (List.mem_of_getElem? hu)
      exact ih u w _ _ _ (by omega) (hs i j u w hu hw) (short_kids ha hu) (short_kids hb hw) (room_kids hr hu hw)
    obtain ⟨r1, r2⟩ := hr [] [] a b _ rfl rfl rfl c1 c2 hf
    obtain ⟨o1, pairs, o2, _⟩ := optimal_level fmt a b pa pb t (fun i j => if (sub i j).similar then 0 else (sub i j).result) c1 c2 ht (by
      intro i j x y s hx hy hs'
      rw [hs i j x y hx hy] at hs'
      cases hs'; rfl) r1 r2
    have key := Facing.containers c1 c2 hf o2 o1
    have hm : max a.kids.length b.kids.length ≠ 0 ∧ (t.similar = true ↔ relative t.result a.kids.length b.kids.length ≠ 0) := by
      unfold containers at hcon
      dsimp only at hcon
      split at hcon
      · cases hcon
      · rename_i h0
        refine ⟨h0, ?_⟩
        split at hcon
        · rename_i h1; cases hcon; simp [h1]
        · rename_i h1
          split at hcon
          · cases hcon
          · cases hcon; simp [h1]
    have hle := o1 _ _ (align_bound _ _)
    have h3 := relative_zero hm.1 hle
    by_cases hsim : t.similar = true
    · have h4 := hm.2.mp hsim
      rw [ne_eq, h3, Classical.not_not] at h4
      rw [if_pos h4] at key
      rw [if_pos hsim]; exact key
    · rw [if_neg hsim]
      have h4 : ¬ (t.result < max a.kids.length b.kids.length ∨ t.result = 2 * max a.kids.length b.kids.length) := by
        rw [← h3]
        exact Classical.byContradiction fun h => hsim (hm.2.mpr h)
      rw [if_neg h4] at key
      exact key
  · match a, b with
    | .entry k v, .entry k' v' =>
      by_cases hk : k = k'
      · subst hk
        have e : buildE fmt (.entry k v) pa (.entry k v') pb = buildE fmt (.value v) (pa ++ [0]) (.value v') (pb ++ [0]) := by simp [buildE, entryWith]
        rw [e] at ht
        have hsz : sizeOf (Elem.value v) < sizeOf (Elem.entry k v) := kid_size (by simp [Elem.kids])
        exact .sameKey (ih (.value v) (.value v') _ _ _ (by omega) ht (short_kids (i := 0) ha rfl) (short_kids (i := 0) hb rfl) (room_kids (i := 0) (j := 0) hr rfl rfl))
      · have e : buildE fmt (.entry k v) pa (.entry k' v') pb = some (score false (.left pa) (.right pb) true) := by simp [buildE, entryWith, hk]
        rw [e] at ht; cases ht
        exact .otherKey hk
    | .entry k v, .value v' =>
      by_cases hv : v'.isContainer = true
      · have e : buildE fmt (.entry k v) pa (.value v') pb = some (manual (.right pb) (.left pa) (Elem.kids (.value v')).length) := by simp only [buildE, entryWith, if_pos hv]
        rw [e] at ht; cases ht
        exact .containerRight rfl (by cases v' <;> simp_all [Json.isContainer, Elem.isContainer])
      · have e : buildE fmt (.entry k v) pa (.value v') pb = some (score false (.left pa) (.right pb) false) := by simp only [buildE, entryWith, if_neg hv]
        rw [e] at ht; cases ht
        exact .entryLeft (by cases v' <;> simp_all [Json.isContainer, IsContainer])
    | .value v, b =>
      by_cases hv : IsContainer v
      · have h1 : (Elem.value v).isContainer = true := (container_iff v).mpr hv
        have h2 : b.isContainer = false := by simpa using fun h => hc ⟨h1, h⟩
        have e : buildE fmt (.value v) pa b pb = some (manual (.left pa) (.right pb) (Elem.kids (.value v)).length) := by
          cases v <;> first | exact hv.elim | simp [buildE, build, h2, Elem.kids]
        rw [e] at ht; cases ht
        exact .containerLeft h1 h2
      · have e : buildE fmt (.value v) pa b pb = some (primitive fmt v pa b pb) := by
          cases v <;> first | rfl | exact absurd trivial hv
        rw [e] at ht; cases ht
        match b with
        | .entry k' v' => exact .entryRight hv
        | .value v' =>
          unfold primitive
          dsimp only
          split
          · rename_i h
            exact .containerRight (by cases v <;> simp_all [IsContainer, Elem.isContainer]) (by cases v' <;> simp_all [Json.isContainer, Elem.isContainer])
          · rename_i h
            have hv' : ¬ IsContainer v' := by cases v' <;> simp_all [Json.isContainer, IsContainer]
            have hn := percent_near (ha [] v rfl) (hb [] v' rfl)
            by_cases hp : percentSimilar (v.stringify fmt) (v'.stringify fmt) = true
            · rw [hp]
              exact .near hv hv' (hn.mp hp)
            · simp only [Bool.not_eq_true] at hp
              rw [hp]
              exact .far hv hv' fun h => by rw [hn.mpr h] at hp; cases hp

theorem build_facing (fmt : Bytes → Bytes) (a b : Elem) (pa pb : Path) (t : Table) (ht : buildE fmt a pa b pb = some t) (ha : ShortTexts (·.stringify fmt) a) (hb : ShortTexts (·.stringify fmt) b)
    (hr : RoomFor (·.stringify fmt) a b) : Facing (·.stringify fmt) a b (if t.similar then 0 else t.result) :=
  build_facing_aux fmt _ a b pa pb t (Nat.lt_succ_self _) ht ha hb hr

/-- **C29** The distance of two containers is the least cost of an order-preserving alignment of their children, where a child left alone costs 1 and two children facing each other cost what
`Spec.Facing` says, provided all the sums fit the cells (fewer than 256, 65536 or `2^32`, by the number of children) and the texts are shorter than 16 MiB; and when the containers count as similar
(which is when they cost nothing themselves), the children that the table pairs are those of such a cheapest alignment. -/
theorem C29_optimal (fmt : Bytes → Bytes) (a b : Elem) (pa pb : Path) (t : Table) (ha : a.isContainer = true) (hb : b.isContainer = true) (ht : buildE fmt a pa b pb = some t)
    (sa : ShortTexts (·.stringify fmt) a) (sb : ShortTexts (·.stringify fmt) b) (hr : RoomFor (·.stringify fmt) a b) (cost : Nat → Nat → Nat)
    (hcost : ∀ (i j : Nat) (x y : Elem), a.kids[i]? = some x → b.kids[j]? = some y → Facing (·.stringify fmt) x y (cost i j)) :
    (∀ pairs d, Align cost a.kids.length b.kids.length pairs d → t.result ≤ d) ∧
    (∃ pairs, Align cost a.kids.length b.kids.length pairs t.result ∧
      (t.similar = true → ∀ i j, (i, j) ∈ pairs ↔ look t.equivalences (.left (pa ++ [i])) = some (.right (pb ++ [j])))) ∧
    Facing (·.stringify fmt) a b (if t.similar then 0 else t.result) := by
  obtain ⟨r1, r2⟩ := hr [] [] a b cost rfl rfl rfl ha hb hcost
  obtain ⟨h1, h2⟩ := optimal_level fmt a b pa pb t cost ha hb ht (by
    intro i j x y s hx hy hs
    exact facing_unique (hcost i j x y hx hy) (build_facing fmt x y _ _ s hs (short_kids sa hx) (short_kids sb hy) (room_kids hr hx hy))) r1 r2
  exact ⟨h1, h2, build_facing fmt a b pa pb t ht sa sb hr⟩

/-- The number of children of an element, of its value for an entry. -/
def width : Elem → Nat
  | .entry _ v => (Elem.value v).kids.length
  | x => x.kids.length

theorem facing_le {text : Json → Bytes} {x y : Elem} {c : Nat} (h : Facing text x y c) : c ≤ width x + width y + 1 := by
  induction h with
  | near => omega
  | far => omega
  | sameKey _ ih => exact ih
  | otherKey => omega
  | entryLeft => omega
  | entryRight => omega
  | @containerLeft x y h1 _ =>
    have : width x = x.kids.length := by cases x with | value v => rfl | entry k v => cases h1
    omega
  | @containerRight x y _ h1 =>
    have : width y = y.kids.length := by cases y with | value v => rfl | entry k v => cases h1
    omega
  | @containers x y cost pairs n h1 h2 h3 h4 h5 ih =>
    have e1 : width x = x.kids.length := by cases x with | value v => rfl | entry k v => cases h1
    have e2 : width y = y.kids.length := by cases y with | value v => rfl | entry k v => cases h2
    have := h5 _ _ (align_bound _ _)
    split <;> omega

theorem at_append {a x y : Elem} {p q : Path} (h : a.at p = some x) (h' : x.at q = some y) : a.at (p ++ q) = some y := by
  induction p generalizing a with
  | nil => cases h; exact h'
  | cons i p ih =>
    simp only [Elem.at, Option.bind_eq_some_iff] at h
    obtain ⟨u, hu, h⟩ := h
    simp only [List.cons_append, Elem.at, hu, Option.bind_some]
    exact ih h

theorem width_le {a x u : Elem} {K i : Nat} {p : Path} (h : ∀ p x, a.at p = some x → x.kids.length ≤ K) (hx : a.at p = some x) (hu : x.kids[i]? = some u) : width u ≤ K := by
  have h1 : a.at (p ++ [i]) = some u := at_append hx (by simp [Elem.at, hu])
  cases u with
  | value v => exact h _ _ h1
  | entry k v => exact h (p ++ [i] ++ [0]) (.value v) (at_append h1 (by simp [Elem.at, Elem.kids]))

/-- There is room if no container has more than 50 children. -/
theorem room_small {text : Json → Bytes} {a b : Elem} (ha : ∀ p x, a.at p = some x → x.kids.length ≤ 50) (hb : ∀ p x, b.at p = some x → x.kids.length ≤ 50) : RoomFor text a b := by
  intro p q x y cost _ hx hy _ _ hf
  have h1 := ha p x hx
  have h2 := hb q y hy
  have e : cellLimit x.kids.length y.kids.length = 256 := by unfold cellLimit; rw [if_pos (by omega)]
  rw [e]
  refine ⟨by omega, fun i j d hi hj hd => ?_⟩
  have g0 := hd.2 _ _ (align_bound i j)
  refine ⟨by omega, fun hi hj => ?_⟩
  have hu := List.getElem?_eq_getElem hi
  have hw := List.getElem?_eq_getElem hj
  have g1 := width_le ha hx hu
  have g2 := width_le hb hy hw
  have g3 := facing_le (hf i j _ _ hu hw)
  omega

/-- If no two children cost more than 1 facing each other, then aligning them costs at most the larger number. -/
theorem least_max {cost : Nat → Nat → Nat} (n m : Nat) (h : ∀ i < n, ∀ j < m, cost i j ≤ 1) : ∃ l d, Align cost n m l d ∧ d ≤ max n m := by
  match n, m with
  | n, 0 => exact ⟨_, _, align_bound n 0, by omega⟩
  | 0, m + 1 => exact ⟨_, _, align_bound 0 (m + 1), by omega⟩
  | n + 1, m + 1 =>
    obtain ⟨l, d, h1, h2⟩ := least_max n m fun i hi j hj => h i (by omega) j (by omega)
    have := h n (by omega) m (by omega)
    exact ⟨_, _, h1.facing, by omega⟩

/-- There is always room for two documents with nothing but primitives in them, of less than `2^31` children. -/
theorem room_flat {text : Json → Bytes} {a b : Elem} (ha : ∀ i p x, a.at (i :: p) = some x → x.isContainer = false) (hb : ∀ i p x, b.at (i :: p) = some x → x.isContainer = false)
    (la : a.kids.length < 2147483648) (lb : b.kids.length < 2147483648) : RoomFor text a b := by
  intro p q x y cost _ hx hy cx cy hf
  have hp : p = [] := by
    cases p with
    | nil => rfl
    | cons i p => rw [ha i p x hx] at cx; cases cx
  have hq : q = [] := by
    cases q with
    | nil => rfl
    | cons i p => rw [hb i p y hy] at cy; cases cy
  subst hp hq
  cases hx
  cases hy
  refine ⟨by omega, fun i j d hi hj hd => ?_⟩
  have hc : ∀ i < a.kids.length, ∀ j < b.kids.length, cost i j ≤ 1 := by
    intro i hi j hj
    have hu := List.getElem?_eq_getElem hi
    have hw := List.getElem?_eq_getElem hj
    have n1 : a.kids[i].isContainer = false := ha i [] _ (at_kid hu rfl)
    have n2 : b.kids[j].isContainer = false := hb j [] _ (at_kid hw rfl)
    have hfc := hf i j _ _ hu hw
    have aux : ∀ {x y : Elem} {c : Nat}, Facing text x y c → (∀ k v, x = .entry k v → ¬ IsContainer v) → (∀ k v, y = .entry k v → ¬ IsContainer v) → x.isContainer = false → y.isContainer = false → c ≤ 1 := by
      intro x y c h
      induction h with
      | near => intros; omega
      | far => intros; omega
      | @sameKey k v v' c _ ih =>
        intro g1 g2 _ _
        refine ih (fun k v e => by cases e) (fun k v e => by cases e) ?_ ?_
        · exact Bool.eq_false_iff.mpr (mt (container_iff v).mp (g1 k v rfl))
        · exact Bool.eq_false_iff.mpr (mt (container_iff v').mp (g2 k v' rfl))
      | otherKey => intros; omega
      | entryLeft => intros; omega
      | entryRight => intros; omega
      | containerLeft g1 _ => intro _ _ g3; rw [g1] at g3; cases g3
      | containerRight _ g1 => intro _ _ _ g3; rw [g1] at g3; cases g3
      | containers g1 _ => intro _ _ g3; rw [g1] at g3; cases g3
    refine aux hfc (fun k v e hv => ?_) (fun k v e hv => ?_) n1 n2
    · have := ha i [0] (.value v) (at_kid hu (by rw [e]; rfl))
      rw [(container_iff v).mpr hv] at this; cases this
    · have := hb j [0] (.value v) (at_kid hw (by rw [e]; rfl))
      rw [(container_iff v).mpr hv] at this; cases this
  obtain ⟨l, d', h1, h2⟩ := least_max i j fun i' hi' j' hj' => hc i' (by omega) j' (by omega)
  have h3 := hd.2 _ _ h1
  have hlim : max a.kids.length b.kids.length + 1 < cellLimit a.kids.length b.kids.length := by
    unfold cellLimit
    repeat' split
    all_goals omega
  exact ⟨by omega, fun hi hj => by have := hc i hi j hj; omega⟩

/-- The hypotheses of `C29_optimal` at work, with a container that faces a number: `[1, [2, 3]]` and `[1, 5]`. -/
example : ∃ t, buildE id (.value (.arr [.int 1, .arr [.int 2, .int 3]])) [] (.value (.arr [.int 1, .int 5])) [] = some t ∧
    ShortTexts (·.stringify id) (.value (.arr [.int 1, .arr [.int 2, .int 3]])) ∧ ShortTexts (·.stringify id) (.value (.arr [.int 1, .int 5])) ∧
    RoomFor (·.stringify id) (.value (.arr [.int 1, .arr [.int 2, .int 3]])) (.value (.arr [.int 1, .int 5])) ∧
    (∀ (i j : Nat) (x y : Elem), (Elem.value (.arr [.int 1, .arr [.int 2, .int 3]])).kids[i]? = some x → (Elem.value (.arr [.int 1, .int 5])).kids[j]? = some y →
      Facing (·.stringify id) x y (if i = 0 then if j = 0 then 0 else 1 else 3)) ∧
    t.result = 2 := by
  have ha : ∀ p x, (Elem.value (.arr [.int 1, .arr [.int 2, .int 3]])).at p = some x → x.kids.length ≤ 50 ∧ ∀ v, x = .value v → (v.stringify id).length < 2 ^ 24 := by
    intro p x hx
    match p with
    | [] => cases hx; exact ⟨by decide, by intro v hv; cases hv; decide +kernel⟩
    | [0] => cases hx; exact ⟨by decide, by intro v hv; cases hv; decide +kernel⟩
    | 0 :: i :: p => simp [Elem.at, Elem.kids] at hx
    | [1] => cases hx; exact ⟨by decide, by intro v hv; cases hv; decide +kernel⟩
    | [1, 0] => cases hx; exact ⟨by decide, by intro v hv; cases hv; decide +kernel⟩
    | [1, 1] => cases hx; exact ⟨by decide, by intro v hv; cases hv; decide +kernel⟩
    | 1 :: 0 :: i :: p => simp [Elem.at, Elem.kids] at hx
    | 1 :: 1 :: i :: p => simp [Elem.at, Elem.kids] at hx
    | 1 :: (i + 2) :: p => simp [Elem.at, Elem.kids] at hx
    | (i + 2) :: p => simp [Elem.at, Elem.kids] at hx
  have hb : ∀ p x, (Elem.value (.arr [.int 1, .int 5])).at p = some x → x.kids.length ≤ 50 ∧ ∀ v, x = .value v → (v.stringify id).length < 2 ^ 24 := by
    intro p x hx
    match p with
    | [] => cases hx; exact ⟨by decide, by intro v hv; cases hv; decide +kernel⟩
    | [0] => cases hx; exact ⟨by decide, by intro v hv; cases hv; decide +kernel⟩
    | 0 :: i :: p => simp [Elem.at, Elem.kids] at hx
    | [1] => cases hx; exact ⟨by decide, by intro v hv; cases hv; decide +kernel⟩
    | 1 :: i :: p => simp [Elem.at, Elem.kids] at hx
    | (i + 2) :: p => simp [Elem.at, Elem.kids] at hx
  have sa : ShortTexts (·.stringify id) (.value (.arr [.int 1, .arr [.int 2, .int 3]])) := fun p v h => (ha p _ h).2 v rfl
  have sb : ShortTexts (·.stringify id) (.value (.arr [.int 1, .int 5])) := fun p v h => (hb p _ h).2 v rfl
  have hr := room_small (text := (·.stringify id)) (fun p x h => (ha p x h).1) (fun p x h => (hb p x h).1)
  obtain ⟨t, ht, h2⟩ := any_some (o := buildE id (.value (.arr [.int 1, .arr [.int 2, .int 3]])) [] (.value (.arr [.int 1, .int 5])) []) (p := fun t => t.result = 2) (by decide +kernel)
  refine ⟨t, ht, sa, sb, hr, ?_, h2⟩
  intro i j x y hx hy
  have key : ∀ c s, buildE id x [i] y [j] = some s → (if s.similar then 0 else s.result) = c → Facing (·.stringify id) x y c :=
    fun c s h e => e ▸ build_facing id x y [i] [j] s h (short_kids sa hx) (short_kids sb hy) (room_kids hr hx hy)
  match i, j with
  | 0, 0 | 0, 1 | 1, 0 | 1, 1 => cases hx; cases hy; exact key _ _ rfl (by decide +kernel)
  | 0, j + 2 => simp [Elem.kids] at hy
  | 1, j + 2 => simp [Elem.kids] at hy
  | i + 2, j => simp [Elem.kids] at hx

/-- **C30** The counterparts that the table gives to the elements of two documents form a correspondence of the two trees: one-to-one,
symmetric, pairs below pairs, in the same order on both sides; it does not depend on the addresses of the elements. -/
theorem C30_tree_matching (fmt : Bytes → Bytes) (a b : Json) (t : Table) (h : diff fmt a b = some t) (order : List (Ptr × Ptr))
    (hp : order.Perm t.equivalences) :
    TreeMatching (fun p q => scan order (.left p) = some (.right q)) ∧
    (∀ e e', scan order e = some e' ↔ scan order e' = some e) ∧
    (∀ p e, scan order (.left p) = some e → ∃ q x y, e = .right q ∧ (Elem.value a).at p = some x ∧ (Elem.value b).at q = some y) := by
  have g := build_good fmt (.value a) (.value b) [] [] t h
  have hr := fun p q => scan_rel g hp p q
  have sym : ∀ e e', scan order e = some e' → scan order e' = some e := by
    intro e e' he
    obtain ⟨p, q, rfl, rfl⟩ | ⟨p, q, rfl, rfl⟩ := scan_side g hp he
    · exact (hr p q).2.mpr ((hr p q).1.mp he)
    · exact (hr q p).1.mpr ((hr q p).2.mp he)
  refine ⟨⟨?_, ?_, ?_, ?_⟩, fun e e' => ⟨sym e e', sym e' e⟩, ?_⟩
  · intro p q q' h1 h2
    rw [h1] at h2
    cases h2; rfl
  · intro p p' q h1 h2
    exact g.corr.one' ((hr _ _).1.mp h1) ((hr _ _).1.mp h2)
  · intro p q h1
    have h1 := (hr _ _).1.mp h1
    have hl := g.corr.len h1
    obtain rfl | hne := List.eq_nil_or_concat p
    · exact .inl ⟨rfl, by simpa using hl.symm⟩
    · obtain ⟨p', i, rfl⟩ := hne
      obtain rfl | hne := List.eq_nil_or_concat q
      · simp at hl
      · obtain ⟨q', j, rfl⟩ := hne
        refine .inr ⟨p', i, q', j, by simp, by simp, (hr _ _).1.mpr ?_⟩
        simp only [List.concat_eq_append] at h1
        obtain ⟨rfl, rfl⟩ | h' := g.corr.parent h1
        · exact g.top rfl h1
        · exact h'
  · intro p q i j i' j' h1 h2
    exact g.corr.order ((hr _ _).1.mp h1) ((hr _ _).1.mp h2)
  · intro p e he
    obtain ⟨p', q, h1, rfl⟩ | ⟨p', q, h1, _⟩ := scan_side g hp he
    · cases h1
      obtain ⟨x, y, hx, hy⟩ := g.ex ((hr _ _).1.mp he)
      exact ⟨q, x, y, rfl, hx, hy⟩
    · cases h1

example : ∃ t, diff id (.arr [.int 1, .int 2]) (.arr [.int 1, .null, .int 2]) = some t ∧
    scan t.equivalences (.left [1]) = some (.right [2]) := any_some (by decide +kernel)

/-- **C31 does not hold**: `[[1]]` and `[5]` are so far apart (distance 2 for one child) that the unsigned
arithmetic wraps and the two arrays are marked equal; also a changed last number leaves the arrays marked equal. -/
theorem C31_equal_false :
    (∃ t, diff id (.arr [.arr [.int 1]]) (.arr [.int 5]) = some t ∧ t.get (.left []) = some .equ) ∧
    (∃ t, diff id (.arr [.int 1, .int 2, .int 3]) (.arr [.int 1, .int 2, .int 4]) = some t ∧ t.get (.left []) = some .equ) ∧
    ∃ t, diff id (.str b!"abcdefghij") (.str b!"abcdefghik") = some t ∧ t.get (.left []) = some .equ :=
  ⟨any_some (by decide +kernel), any_some (by decide +kernel), any_some (by decide +kernel)⟩

theorem sameKind_of_type {v v' : Json} (h : v.isContainer = false) (h' : v'.isContainer = false) (e : typeStr v = typeStr v') :
    sameKind v v' = true := by
  cases v <;> cases v' <;> simp_all [typeStr, sameKind, Json.isContainer]

theorem resembles_of_alike {fmt : Bytes → Bytes} {x y : Elem} (h : Alike fmt x y) : Resembles (Json.stringify fmt) x y := by
  match x, y with
  | .entry k _, .entry k' _ => exact h
  | .value v, .value v' =>
    obtain ⟨h1, h2⟩ | ⟨h1, h2, h3, h4⟩ := h
    · refine .inl ⟨?_, ?_⟩
      · cases v <;> first | trivial | simp [Json.isContainer] at h1
      · cases v' <;> first | trivial | simp [Json.isContainer] at h2
    · refine .inr ⟨sameKind_of_type h1 h2 h3, fun hs => ?_⟩
      obtain h | h := (C26_percent_partial _ _ hs).2.2.2.mp h4
      · exact .inl h
      · exact .inr ⟨_, (C24_edit_distance _ _).1, h⟩

/-- **C31, the part that holds**: an element marked equal has a counterpart of the same kind, an entry with the same key, a
primitive of the same type with the same or a nearly identical text. Missing: equality of the texts, and anything about the contents of
containers (`C31_equal_false`). -/
theorem C31_equal_partial (fmt : Bytes → Bytes) (a b : Json) (t : Table) (h : diff fmt a b = some t) (order : List (Ptr × Ptr))
    (hp : order.Perm t.equivalences) :
    (∀ p, t.get (.left p) = some .equ → ∃ q x y, scan order (.left p) = some (.right q) ∧
      (Elem.value a).at p = some x ∧ (Elem.value b).at q = some y ∧ Resembles (Json.stringify fmt) x y) ∧
    (∀ q, t.get (.right q) = some .equ → ∃ p x y, scan order (.right q) = some (.left p) ∧
      (Elem.value a).at p = some x ∧ (Elem.value b).at q = some y ∧ Resembles (Json.stringify fmt) x y) := by
  have g := build_good fmt (.value a) (.value b) [] [] t h
  have hr := fun p q => scan_rel g hp p q
  refine ⟨fun p h => ?_, fun q h => ?_⟩
  · obtain ⟨q, x, y, h1, h2, h3, h4⟩ := g.equL h
    exact ⟨q, x, y, (hr _ _).1.mpr h1, h2, h3, resembles_of_alike h4⟩
  · obtain ⟨p, x, y, h1, h2, h3, h4⟩ := g.equR h
    exact ⟨p, x, y, (hr _ _).2.mpr h1, h2, h3, resembles_of_alike h4⟩

example : ∃ t, diff id (.obj [(b!"k", .str b!"abcdefghij")]) (.obj [(b!"k", .str b!"abcdefghik")]) = some t ∧
    t.get (.left [0]) = some .equ ∧ t.get (.left [0, 0]) = some .equ := any_some (by decide +kernel)
end Verif.Props
