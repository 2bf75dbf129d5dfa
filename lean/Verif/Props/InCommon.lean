import Verif.Props.Comparison
/-! # C136: what containers marked as equal have in common -/
namespace Verif.Props
open Verif.Model Verif.Model.Diff Verif.Spec Verif.Lemmas.Diff

theorem opposed_split {text : Json → Bytes} {r s : Path} : ∀ (p q : Path) {a b : Elem}, p.length = q.length → Opposed text a b (p ++ r) (q ++ s) →
    ∃ x y, a.at p = some x ∧ b.at q = some y ∧ Opposed text x y r s
  | [], [], a, b, _, h => ⟨a, b, rfl, rfl, h⟩
  | [], _ :: _, _, _, e, _ => by cases e
  | _ :: _, [], _, _, e, _ => by cases e
  | i :: p, j :: q, a, b, e, h => by
    cases h with
    | values h =>
      obtain ⟨x, y, h1, h2, h3⟩ := opposed_split p q (by simpa using e) h
      exact ⟨x, y, by rw [at_cons (i := 0) _ rfl]; exact h1, by rw [at_cons (i := 0) _ rfl]; exact h2, h3⟩
    | children _ _ _ _ _ _ hx hy h =>
      obtain ⟨x, y, h1, h2, h3⟩ := opposed_split p q (by simpa using e) h
      exact ⟨x, y, by rw [at_cons _ hx]; exact h1, by rw [at_cons _ hy]; exact h2, h3⟩

theorem opposed_append {text : Json → Bytes} {a b x y : Elem} {p q r s : Path} (h : Opposed text a b p q) : a.at p = some x → b.at q = some y → Opposed text x y r s →
    Opposed text a b (p ++ r) (q ++ s) := by
  induction h with
  | here => intro e1 e2 h; cases e1; cases e2; exact h
  | values _ ih =>
    intro e1 e2 h
    exact .values (ih (by rw [← e1]; rw [at_cons (i := 0) _ rfl]) (by rw [← e2]; rw [at_cons (i := 0) _ rfl]) h)
  | children c1 c2 hf hc hch hm hx hy _ ih =>
    intro e1 e2 h
    exact .children c1 c2 hf hc hch hm hx hy (ih (by rw [← e1]; rw [at_cons _ hx]) (by rw [← e2]; rw [at_cons _ hy]) h)

theorem opposed_length {text : Json → Bytes} {a b : Elem} {p q : Path} (h : Opposed text a b p q) : p.length = q.length := by
  induction h with
  | here => rfl
  | values _ ih => simp [ih]
  | children _ _ _ _ _ _ _ _ _ ih => simp [ih]

theorem align_range {cost : Nat → Nat → Nat} {n m d : Nat} {l : List (Nat × Nat)} (h : Align cost n m l d) {i j : Nat} (hm : (i, j) ∈ l) : i < n ∧ j < m := by
  induction h with
  | done => cases hm
  | aloneLeft _ ih => have := ih hm; omega
  | aloneRight _ ih => have := ih hm; omega
  | facing _ ih =>
    cases hm with
    | head => omega
    | tail _ hm => have := ih hm; omega

/-- An alignment cheaper than the larger number of children has a pair that costs nothing. -/
theorem align_common {cost : Nat → Nat → Nat} {n m d : Nat} {l : List (Nat × Nat)} (h : Align cost n m l d) (hn : ∀ i j, (i, j) ∈ l → cost i j ≠ 0) : max n m ≤ d := by
  induction h with
  | done => exact Nat.le_refl _
  | aloneLeft _ ih => have := ih hn; omega
  | aloneRight _ ih => have := ih hn; omega
  | @facing i j t l _ ih =>
    have := ih fun i' j' h' => hn i' j' (List.mem_cons_of_mem _ h')
    have := hn i j (List.mem_cons_self ..)
    omega

theorem align_more {cost : Nat → Nat → Nat} {n m d : Nat} {l : List (Nat × Nat)} (h : Align cost n m l d) (i : Nat) : ∀ j, Align cost (n + i) (m + j) l (d + i + j) := by
  induction i with
  | zero =>
    intro j
    induction j with
    | zero => exact h
    | succ j ih => exact ih.aloneRight
  | succ i ih =>
    intro j
    have := (ih j).aloneLeft
    rw [show d + i + j + 1 = d + (i + 1) + j by omega] at this
    exact this

/-- Leaving all the children alone is a cheapest alignment exactly if any two of them cost at least 2. -/
theorem align_alone {cost : Nat → Nat → Nat} {n m : Nat} : (∀ l d, Align cost n m l d → n + m ≤ d) ↔ ∀ i < n, ∀ j < m, 2 ≤ cost i j := by
  constructor
  · intro h i hi j hj
    have := h _ _ (align_more (align_bound (cost := cost) i j).facing (n - (i + 1)) (m - (j + 1)) |> fun a => by
      rw [show i + 1 + (n - (i + 1)) = n by omega, show j + 1 + (m - (j + 1)) = m by omega] at a
      exact a)
    omega
  · intro h l d ha
    induction ha with
    | done => exact Nat.le_refl _
    | aloneLeft _ ih => have := ih fun i hi j hj => h i (by omega) j hj; omega
    | aloneRight _ ih => have := ih fun i hi j hj => h i hi j (by omega); omega
    | @facing i j t l _ ih =>
      have := ih fun i' hi j' hj => h i' (by omega) j' (by omega)
      have := h i (by omega) j (by omega)
      omega

/-- **C136, exactly.** Two containers opposite each other are both marked as equal exactly if a child of the one is the counterpart of a child of the other and they cost nothing, or if both have as many children and any two of
these cost at least 2 (the defect: then nothing in them is in common). Otherwise they are marked as added. Missing for C136: that defect, and costs beyond the cells. -/
theorem C136_exactly_partial (fmt : Bytes → Bytes) (a b : Json) (t : Table) (h : diff fmt a b = some t) (sa : ShortTexts (·.stringify fmt) (.value a)) (sb : ShortTexts (·.stringify fmt) (.value b))
    (hr : RoomFor (·.stringify fmt) (.value a) (.value b)) (order : List (Ptr × Ptr)) (hp : order.Perm t.equivalences) (p q : Path) (x y : Elem)
    (ho : Opposed (·.stringify fmt) (.value a) (.value b) p q) (hx : (Elem.value a).at p = some x) (hy : (Elem.value b).at q = some y) (cx : x.isContainer = true) (cy : y.isContainer = true) :
    ((markOf t (.left p) = .equ ∧ markOf t (.right q) = .equ) ∨ (markOf t (.left p) = .add ∧ markOf t (.right q) = .add)) ∧
    (markOf t (.left p) = .equ ↔
      (∃ (i j : Nat) (u w : Elem), x.kids[i]? = some u ∧ y.kids[j]? = some w ∧ scan order (.left (p ++ [i])) = some (.right (q ++ [j])) ∧ Facing (·.stringify fmt) u w 0) ∨
      (x.kids.length = y.kids.length ∧ ∀ (i j : Nat) (u w : Elem) (c : Nat), x.kids[i]? = some u → y.kids[j]? = some w → Facing (·.stringify fmt) u w c → 2 ≤ c)) := by
  obtain ⟨a1, _, a3, _, _⟩ := C135_comparison fmt a b t h sa sb hr order hp
  obtain ⟨x', y', c, e1, e2, hf, hs⟩ := a3 p q ho
  rw [hx] at e1; cases e1
  rw [hy] at e2; cases e2
  have hl := congrArg Prod.fst hs
  have hr' := congrArg Prod.snd hs
  simp only [signsFor, cx, cy, if_true] at hl hr'
  have main : c = 0 ↔ ((∃ (i j : Nat) (u w : Elem), x.kids[i]? = some u ∧ y.kids[j]? = some w ∧ scan order (.left (p ++ [i])) = some (.right (q ++ [j])) ∧ Facing (·.stringify fmt) u w 0) ∨
      (x.kids.length = y.kids.length ∧ ∀ (i j : Nat) (u w : Elem) (c : Nat), x.kids[i]? = some u → y.kids[j]? = some w → Facing (·.stringify fmt) u w c → 2 ≤ c)) := by
    constructor
    · rintro rfl
      generalize h0 : 0 = z at hf
      cases hf with
      | near hv => exact absurd ((container_iff _).mp cx) hv
      | far hv => exact absurd ((container_iff _).mp cx) hv
      | sameKey => cases cx
      | otherKey => cases cx
      | entryLeft => cases cx
      | entryRight => cases cy
      | containerLeft _ h' => rw [cy] at h'; cases h'
      | containerRight h' => rw [cx] at h'; cases h'
      | @containers x y cost pairs n _ _ hcost hal hmin =>
        have f0 := Facing.containers cx cy hcost hal hmin
        rw [← h0] at f0
        obtain ⟨l, hch, _, d, g1, g2⟩ := C135_one_alignment cost x.kids.length y.kids.length
        have ed : d = n := Nat.le_antisymm (g2 _ _ hal) (hmin _ _ g1)
        subst ed
        have bound := hmin _ _ (align_bound _ _)
        by_cases hlt : d < max x.kids.length y.kids.length
        · refine .inl ?_
          have : ∃ i j, (i, j) ∈ l ∧ cost i j = 0 := by
            apply Classical.byContradiction
            intro hno
            have := align_common g1 fun i j hm hz => hno ⟨i, j, hm, hz⟩
            omega
          obtain ⟨i, j, hm, hz⟩ := this
          obtain ⟨hi, hj⟩ := align_range g1 hm
          have hu := List.getElem?_eq_getElem hi
          have hw := List.getElem?_eq_getElem hj
          refine ⟨i, j, _, _, hu, hw, (a1 _ _).mpr ⟨opposed_append ho hx hy (.children cx cy f0 hcost hch hm hu hw .here), .inl ⟨p, i, x, rfl, hx, cx⟩⟩, ?_⟩
          have hk := hcost i j _ _ hu hw
          rw [hz] at hk
          first | exact hk | (rw [← h0]; exact hk)
        · have h2 : d = 2 * max x.kids.length y.kids.length ∨ d = 0 := by
            by_cases hd : d < max x.kids.length y.kids.length ∨ d = 2 * max x.kids.length y.kids.length
            · rcases hd with hd | hd
              · exact absurd hd hlt
              · exact .inl hd
            · rw [if_neg hd] at h0; exact .inr h0.symm
          have e : d = 2 * max x.kids.length y.kids.length := by omega
          have en : x.kids.length = y.kids.length := by omega
          refine .inr ⟨en, fun i j u w c hu hw hc => ?_⟩
          rw [facing_unique hc (hcost i j u w hu hw)]
          exact align_alone.mp (fun l' d' h' => by have := hmin _ _ h'; omega) i (List.getElem?_eq_some_iff.mp hu).1 j (List.getElem?_eq_some_iff.mp hw).1
    · rintro (⟨i, j, u, w, hu, hw, hsc, _⟩ | ⟨en, hall⟩)
      · obtain ⟨x', y', k1, k2, k3⟩ := opposed_split p q (opposed_length ho) ((a1 _ _).mp hsc).1
        rw [hx] at k1; cases k1
        rw [hy] at k2; cases k2
        cases k3 with
        | values => cases cx
        | children _ _ f0 => exact facing_unique hf f0
      · cases hf with
        | near hv => exact absurd ((container_iff _).mp cx) hv
        | far hv => exact absurd ((container_iff _).mp cx) hv
        | sameKey => cases cx
        | otherKey => cases cx
        | entryLeft => cases cx
        | entryRight => cases cy
        | containerLeft _ h' => rw [cy] at h'; cases h'
        | containerRight h' => rw [cx] at h'; cases h'
        | @containers x y cost pairs n _ _ hcost hal hmin =>
          have h1 := (align_alone (cost := cost) (n := x.kids.length) (m := y.kids.length)).mpr (by
            intro i hi j hj
            have hu := List.getElem?_eq_getElem hi
            have hw := List.getElem?_eq_getElem hj
            exact hall i j _ _ _ hu hw (hcost i j _ _ hu hw)) _ _ hal
          have h2 := hmin _ _ (align_bound _ _)
          rw [if_pos (.inr (by omega))]
  rw [← main]
  by_cases hc : c = 0
  · rw [decide_eq_true hc] at hl hr'
    exact ⟨.inl ⟨hl, hr'⟩, ⟨fun _ => hc, fun _ => hl⟩⟩
  · rw [decide_eq_false hc] at hl hr'
    refine ⟨.inr ⟨hl, hr'⟩, ⟨fun h => ?_, fun h => absurd h hc⟩⟩
    rw [hl] at h
    cases h

/-- The hypotheses of `C136_exactly_partial` at work below the root: in `[9, [1, 2]]` and `[[1, 3]]` the inner arrays are opposite each other, and both marked as equal for their `1`. -/
example : ∃ t, diff id (.arr [.int 9, .arr [.int 1, .int 2]]) (.arr [.arr [.int 1, .int 3]]) = some t ∧
    ShortTexts (·.stringify id) (.value (.arr [.int 9, .arr [.int 1, .int 2]])) ∧ ShortTexts (·.stringify id) (.value (.arr [.arr [.int 1, .int 3]])) ∧
    RoomFor (·.stringify id) (.value (.arr [.int 9, .arr [.int 1, .int 2]])) (.value (.arr [.arr [.int 1, .int 3]])) ∧
    Opposed (·.stringify id) (.value (.arr [.int 9, .arr [.int 1, .int 2]])) (.value (.arr [.arr [.int 1, .int 3]])) [1] [0] ∧
    (∃ x y, (Elem.value (.arr [.int 9, .arr [.int 1, .int 2]])).at [1] = some x ∧ (Elem.value (.arr [.arr [.int 1, .int 3]])).at [0] = some y ∧ x.isContainer = true ∧ y.isContainer = true) ∧
    markOf t (.left [1]) = .equ ∧ scan t.equivalences (.left [1, 0]) = some (.right [0, 0]) := by
  obtain ⟨t, h1, h2⟩ := any_some (o := diff id (.arr [.int 9, .arr [.int 1, .int 2]]) (.arr [.arr [.int 1, .int 3]]))
    (p := fun t => scan t.equivalences (.left [1]) = some (.right [0]) ∧ markOf t (.left [1]) = .equ ∧ scan t.equivalences (.left [1, 0]) = some (.right [0, 0])) (by decide +kernel)
  have ma := modest_spec (fmt := id) (n := 5) (e := .value (.arr [.int 9, .arr [.int 1, .int 2]])) (by decide +kernel)
  have mb := modest_spec (fmt := id) (n := 5) (e := .value (.arr [.arr [.int 1, .int 3]])) (by decide +kernel)
  have hr := room_small (text := (·.stringify id)) ma.2 mb.2
  exact ⟨t, h1, ma.1, mb.1, hr, (((C135_comparison id _ _ t h1 ma.1 mb.1 hr t.equivalences (.refl _)).1 _ _).mp h2.1).1, ⟨_, _, rfl, rfl, rfl, rfl⟩, h2.2⟩

/-- The two documents of the refutation by overflow: 128 pairs, and 127 numbers. -/
def pairs128 : Json := .arr (List.replicate 128 (.arr [.int 1, .int 2]))
def numbers127 : Json := .arr (List.replicate 127 (.int 5))

theorem cell_threes {cost : Nat → Nat → Nat} (h : ∀ i < 128, ∀ j < 127, cost i j = 3) : ∀ k i j, i + j = k → k ≤ 254 → i ≤ 128 → j ≤ 127 → cell 256 cost i j = i + j := by
  intro k
  induction k using Nat.strongRecOn with
  | ind k ih =>
    intro i j hk h254 hi hj
    match i, j with
    | i, 0 => rw [cell_left (by omega)]; omega
    | 0, j + 1 => rw [cell_right (by omega)]; omega
    | i + 1, j + 1 =>
      have g1 := ih (i + (j + 1)) (by omega) i (j + 1) rfl (by omega) (by omega) hj
      have g2 := ih (i + 1 + j) (by omega) (i + 1) j rfl (by omega) hi (by omega)
      have g3 := ih (i + j) (by omega) i j rfl (by omega) (by omega) (by omega)
      have := (cell_here (w := 256) (cost := cost) (i := i) (j := j) (by rw [g3, h i (by omega) j (by omega)]; omega) (by omega) (by omega)).1
      rw [this, g1, g2, g3, h i (by omega) j (by omega)]
      omega

/-- **C136 is false as stated**, twice. (1) `[[1, 2]]` and `[5]` are marked as equal, and nothing in them has a counterpart. (2) A sum that does not fit the cells: 128 arrays of two and 127 numbers, of which any two cost 3, are
marked as equal. -/
theorem C136_in_common_false :
    (∃ t, diff id (.arr [.arr [.int 1, .int 2]]) (.arr [.int 5]) = some t ∧ markOf t (.left []) = .equ ∧ markOf t (.right []) = .equ ∧ scan t.equivalences (.left [0]) = none ∧ scan t.equivalences (.right [0]) = none) ∧
    ∃ t, diff id pairs128 numbers127 = some t ∧ markOf t (.left []) = .equ ∧ markOf t (.right []) = .equ ∧
      ∀ (i j : Nat) (u w : Elem) (c : Nat), (Elem.value pairs128).kids[i]? = some u → (Elem.value numbers127).kids[j]? = some w → Facing (·.stringify id) u w c → c = 3 := by
  refine ⟨any_some (o := diff id (.arr [.arr [.int 1, .int 2]]) (.arr [.int 5]))
    (p := fun t => markOf t (.left []) = .equ ∧ markOf t (.right []) = .equ ∧ scan t.equivalences (.left [0]) = none ∧ scan t.equivalences (.right [0]) = none) (by decide +kernel), ?_⟩
  have k1 : (Elem.value pairs128).kids = List.replicate 128 (.value (.arr [.int 1, .int 2])) := by simp [pairs128, Elem.kids]
  have k2 : (Elem.value numbers127).kids = List.replicate 127 (.value (.int 5)) := by simp [numbers127, Elem.kids]
  have u1 : ∀ {i : Nat} {u : Elem}, (Elem.value pairs128).kids[i]? = some u → u = .value (.arr [.int 1, .int 2]) := by
    intro i u h
    rw [k1] at h
    exact (List.mem_replicate.mp (List.mem_of_getElem? h)).2
  have u2 : ∀ {i : Nat} {u : Elem}, (Elem.value numbers127).kids[i]? = some u → u = .value (.int 5) := by
    intro i u h
    rw [k2] at h
    exact (List.mem_replicate.mp (List.mem_of_getElem? h)).2
  have small : ∀ (v : Nat) (p : Path) (x : Elem), (Elem.value (.int v)).at p = some x → x.isContainer = false := by
    intro v p x h
    cases p with
    | nil => cases h; rfl
    | cons i p => simp [Elem.at, Elem.kids] at h
  have n1 : ∀ p x, (Elem.value pairs128).at p = some x → x.kids.length ≤ 128 := by
    intro p x h
    match p with
    | [] => cases h; rw [k1]; simp
    | i :: p =>
      simp only [Elem.at, Option.bind_eq_some_iff] at h
      obtain ⟨u, hu, h⟩ := h
      cases u1 hu
      match p with
      | [] => cases h; decide
      | 0 :: p => 
        cases p with
        | nil => cases h; decide
        | cons i p => simp [Elem.at, Elem.kids] at h
      | 1 :: p =>
        cases p with
        | nil => cases h; decide
        | cons i p => simp [Elem.at, Elem.kids] at h
      | (i + 2) :: p => simp [Elem.at, Elem.kids] at h
  have n2 : ∀ q y, (Elem.value numbers127).at q = some y → y.isContainer = true → y.kids.length = 127 := by
    intro q y h hc
    match q with
    | [] => cases h; rw [k2]; simp
    | i :: q =>
      simp only [Elem.at, Option.bind_eq_some_iff] at h
      obtain ⟨u, hu, h⟩ := h
      cases u2 hu
      rw [small 5 q y h] at hc
      cases hc
  obtain ⟨t, ht⟩ := build_some id (.value pairs128) (.value numbers127) [] [] (by
    intro p q x y hx hy _ cy
    have := n1 p x hx
    have := n2 q y hy cy
    omega)
  obtain ⟨sub, hs, hcon⟩ := build_containers rfl rfl ht
  have g := containers_get hcon
  dsimp only at g
  have l1 : (Elem.value pairs128).kids.length = 128 := by rw [k1]; simp
  have l2 : (Elem.value numbers127).kids.length = 127 := by rw [k2]; simp
  have hcost : ∀ i < 128, ∀ j < 127, (fun i j => if (sub i j).similar then 0 else (sub i j).result) i j = 3 := by
    intro i hi j hj
    have hu := List.getElem?_eq_getElem (l := (Elem.value pairs128).kids) (i := i) (by omega)
    have hw := List.getElem?_eq_getElem (l := (Elem.value numbers127).kids) (i := j) (by omega)
    have hb := hs i j _ _ hu hw
    rw [u1 hu, u2 hw] at hb
    show (if (sub i j).similar then 0 else (sub i j).result) = 3
    rw [← Option.some.inj hb]
    rfl
  rw [l1, l2] at g
  have hz : cell (cellSize 128 127) (fun i j => if (sub i j).similar then 0 else (sub i j).result) 128 127 = 0 := by
    have ew : cellSize 128 127 = 256 := rfl
    rw [ew]
    generalize (fun i j => if (sub i j).similar then 0 else (sub i j).result) = cost at hcost
    have a1 := cell_threes hcost _ 127 127 rfl (by omega) (by omega) (by omega)
    have a2 := cell_threes hcost _ 128 126 rfl (by omega) (by omega) (by omega)
    have a3 := cell_threes hcost _ 127 126 rfl (by omega) (by omega) (by omega)
    rw [cell_step, kept, a1, a2, a3, hcost 127 (by omega) 126 (by omega)]
    decide
  rw [hz] at g
  have hsim : t.similar = true := by rw [g.2.1]; decide
  refine ⟨t, ht, ?_, ?_, ?_⟩
  · rw [markOf, g.2.2.1, hsim]; rfl
  · rw [markOf, g.2.2.2, hsim]; rfl
  · intro i j u w c hu hw hf
    cases u1 hu
    cases u2 hw
    exact facing_unique hf (Facing.containerLeft rfl rfl)

end Verif.Props
