import Verif.Props.Inserted
import Verif.Spec.InPlace
/-! # C138: values changed in place -/
namespace Verif.Props
open Verif.Model Verif.Model.Diff Verif.Spec Verif.Lemmas.Diff

/-! ### Alignments in which every child faces the one with the same number -/

/-- What the first `n` children cost together, each facing the one with the same number. -/
def straight (cost : Nat → Nat → Nat) : Nat → Nat
  | 0 => 0
  | n + 1 => straight cost n + cost n n

theorem align_straight (cost : Nat → Nat → Nat) : ∀ n, ∃ l, Align cost n n l (straight cost n)
  | 0 => ⟨_, .done⟩
  | n + 1 => by
    obtain ⟨l, h⟩ := align_straight cost n
    exact ⟨_, .facing h⟩

theorem straight_le {cost : Nat → Nat → Nat} : ∀ {n}, (∀ i < n, cost i i ≤ 1) → straight cost n ≤ n
  | 0, _ => Nat.le_refl _
  | n + 1, h => by
    have := straight_le (n := n) fun i hi => h i (by omega)
    have := h n (by omega)
    simp only [straight]; omega

theorem straight_lt {cost : Nat → Nat → Nat} : ∀ {n}, (∀ i < n, cost i i ≤ 1) → (∃ i < n, cost i i = 0) → straight cost n < n
  | 0, _, ⟨_, h, _⟩ => absurd h (Nat.not_lt_zero _)
  | n + 1, h, ⟨i, hi, h0⟩ => by
    simp only [straight]
    by_cases e : i = n
    · subst e
      have := straight_le (n := i) fun j hj => h j (by omega)
      omega
    · have := straight_lt (n := n) (fun j hj => h j (by omega)) ⟨i, by omega, h0⟩
      have := h n (by omega)
      omega

theorem straight_one {cost : Nat → Nat → Nat} : ∀ {n}, (∀ i < n, cost i i ≤ 1) → (∀ i < n, ∀ j < n, i ≠ j → cost i i = 0 ∨ cost j j = 0) → straight cost n ≤ 1
  | 0, _, _ => Nat.zero_le _
  | n + 1, h, h1 => by
    simp only [straight]
    by_cases h0 : cost n n = 0
    · have := straight_one (n := n) (fun i hi => h i (by omega)) fun i hi j hj => h1 i (by omega) j (by omega)
      omega
    · have hz : ∀ m ≤ n, straight cost m = 0 := by
        intro m
        induction m with
        | zero => intro _; rfl
        | succ m ih =>
          intro hm
          have h2 := ih (by omega)
          have h3 := h1 m (by omega) n (by omega) (by omega)
          simp only [straight]
          omega
      have := hz n (Nat.le_refl _)
      have := h n (by omega)
      omega

/-- If only children with the same number can face each other for nothing, no other alignment is as cheap. -/
theorem align_strict {cost : Nat → Nat → Nat} {n : Nat} (h : ∀ i < n, cost i i ≤ 1) (h1 : ∀ i < n, ∀ j < n, i ≠ j → 1 ≤ cost i j) {i j d : Nat} {l : List (Nat × Nat)} (ha : Align cost i j l d) :
    i ≤ n → j ≤ n → (i = j ∧ l.length = i ∧ straight cost i ≤ d) ∨ straight cost (min i j) + 1 ≤ d := by
  have st : ∀ k < n, straight cost (k + 1) ≤ straight cost k + 1 := fun k hk => by have := h k hk; simp only [straight]; omega
  induction ha with
  | done => intro _ _; exact .inl ⟨rfl, rfl, Nat.le_refl _⟩
  | @aloneLeft i j t l _ ih =>
    intro hi hj
    right
    have ih := ih (by omega) hj
    by_cases hij : i < j
    · have e : min (i + 1) j = i + 1 := by omega
      have e' : min i j = i := by omega
      rw [e]; rw [e'] at ih
      have := st i (by omega)
      omega
    · have e : min (i + 1) j = j := by omega
      have e' : min i j = j := by omega
      rw [e]; rw [e'] at ih
      rcases ih with ⟨rfl, _, h3⟩ | h3 <;> omega
  | @aloneRight i j t l _ ih =>
    intro hi hj
    right
    have ih := ih hi (by omega)
    by_cases hij : j < i
    · have e : min i (j + 1) = j + 1 := by omega
      have e' : min i j = j := by omega
      rw [e]; rw [e'] at ih
      have := st j (by omega)
      omega
    · have e : min i (j + 1) = i := by omega
      have e' : min i j = i := by omega
      rw [e]; rw [e'] at ih
      rcases ih with ⟨rfl, _, h3⟩ | h3 <;> omega
  | @facing i j t l _ ih =>
    intro hi hj
    by_cases e : i = j
    · subst e
      rcases ih (by omega) (by omega) with ⟨_, h2, h3⟩ | h3
      · exact .inl ⟨rfl, by simp [h2], by simp only [straight]; omega⟩
      · right; rw [Nat.min_self] at h3 ⊢; simp only [straight]; omega
    · right
      have h2 := h1 i (by omega) j (by omega) e
      have e2 : min (i + 1) (j + 1) = min i j + 1 := by omega
      rw [e2]
      have := st (min i j) (by omega)
      rcases ih (by omega) (by omega) with ⟨h3, _⟩ | h3
      · exact absurd h3 e
      · omega

theorem align_all {cost : Nat → Nat → Nat} {i j d : Nat} {l : List (Nat × Nat)} (h : Align cost i j l d) : l.length = i → l.length = j → ∀ a b, (a, b) ∈ l → a = b := by
  induction h with
  | done => intro _ _ a b hm; cases hm
  | aloneLeft h _ => intro e _; have := (align_total h).2; omega
  | aloneRight h _ => intro _ e; have := (align_total h).2; omega
  | @facing i j t l _ ih =>
    intro e1 e2 a b hm
    simp only [List.length_cons, Nat.add_right_cancel_iff] at e1 e2
    rcases List.mem_cons.mp hm with e | hm
    · cases e; omega
    · exact ih e1 e2 a b hm

/-- In both situations every child faces the one with the same number, and only it. -/
theorem chosen_straight {cost : Nat → Nat → Nat} {n : Nat} {l : List (Nat × Nat)} (h : ∀ i < n, cost i i ≤ 1)
    (hs : (∀ i < n, ∀ j < n, i ≠ j → cost i i = 0 ∨ cost j j = 0) ∨ (∀ i < n, ∀ j < n, i ≠ j → 1 ≤ cost i j)) (hc : Chosen cost n n l) (i j : Nat) : (i, j) ∈ l ↔ i < n ∧ j = i := by
  obtain ⟨l0, hl0⟩ := align_straight cost n
  obtain ⟨d, hd, hl⟩ := chosen_least hc hl0
  have hlen : l.length = n := by
    rcases hs with hs | hs
    · have h1 := straight_one h hs
      have h2 := align_total hl
      omega
    · rcases align_strict h hs hl (Nat.le_refl _) (Nat.le_refl _) with h1 | h1
      · exact h1.2.1
      · rw [Nat.min_self] at h1; omega
  constructor
  · intro hm
    exact ⟨(align_range hl hm).1, (align_all hl hlen hlen i j hm).symm⟩
  · rintro ⟨hi, rfl⟩
    obtain ⟨j', hj⟩ := align_covers hl hlen _ hi
    rw [← align_all hl hlen hlen _ _ hj] at hj
    exact hj

theorem facing_straight {text : Json → Bytes} {a b : Elem} {cost : Nat → Nat → Nat} (ca : a.isContainer = true) (cb : b.isContainer = true) (hn : a.kids.length = b.kids.length)
    (hcost : ∀ (i j : Nat) (u w : Elem), a.kids[i]? = some u → b.kids[j]? = some w → Facing text u w (cost i j))
    (h : ∀ i < a.kids.length, cost i i ≤ 1) (h0 : ∃ i < a.kids.length, cost i i = 0) : Facing text a b 0 := by
  obtain ⟨l, hl⟩ := chosen_exists cost a.kids.length b.kids.length
  obtain ⟨d, hd, hle⟩ := chosen_align hl
  have := Facing.containers ca cb hcost hd hle.2
  obtain ⟨l0, hl0⟩ := align_straight cost a.kids.length
  have h1 : d ≤ straight cost a.kids.length := by
    refine hle.2 l0 _ ?_
    rw [← hn]
    exact hl0
  have h2 := straight_lt h h0
  rw [if_pos (.inl (by omega))] at this
  exact this

/-! ### Values changed in place -/

theorem inPlace_container {x y : Elem} (h : InPlace x y) : x.isContainer = y.isContainer := by
  cases h with
  | same => rfl
  | primitive h1 h2 => rw [Bool.eq_iff_iff, container_iff, container_iff]; exact ⟨fun h => absurd h h1, fun h => absurd h h2⟩
  | member => rfl
  | items => rfl
  | members => rfl

/-- What is needed of two containers whose children are changed in place. -/
structure Straight (text : Json → Bytes) (a b : Elem) : Prop where
  left : a.isContainer = true
  right : b.isContainer = true
  length : a.kids.length = b.kids.length
  costs : ∀ cost : Nat → Nat → Nat, (∀ (i j : Nat) (u w : Elem), a.kids[i]? = some u → b.kids[j]? = some w → Facing text u w (cost i j)) →
    (∀ i < a.kids.length, cost i i ≤ 1) ∧ (∃ i < a.kids.length, cost i i = 0) ∧
    ((∀ i < a.kids.length, ∀ j < a.kids.length, i ≠ j → cost i i = 0 ∨ cost j j = 0) ∨ (∀ i < a.kids.length, ∀ j < a.kids.length, i ≠ j → 1 ≤ cost i j))

theorem Straight.zero {text : Json → Bytes} {a b : Elem} (h : Straight text a b) : Facing text a b 0 := by
  obtain ⟨cost, hcost⟩ := costs_exist text a b
  obtain ⟨h1, h2, _⟩ := h.costs cost hcost
  exact facing_straight h.left h.right h.length hcost h1 h2

/-- Changed in place, an element costs at most 1, and nothing if it is a container. -/
theorem inPlace_cost {text : Json → Bytes} {x y : Elem} (h : InPlace x y) : ∃ c ≤ 1, Facing text x y c ∧ (x.isContainer = true → x = y ∨ Straight text x y) ∧ ((x = y ∨ x.isContainer = true ∨ ∃ k v, x = .entry k v ∧ IsContainer v) → c = 0) := by
  induction h with
  | same x => exact ⟨0, by omega, facing_self text x, fun _ => .inl rfl, fun _ => rfl⟩
  | @primitive v v' h1 h2 =>
    refine (Classical.em (Near (text v) (text v'))).elim (fun hn => ⟨0, by omega, .near h1 h2 hn, fun hc => absurd ((container_iff v).mp hc) h1, fun _ => rfl⟩) fun hn =>
      ⟨1, by omega, .far h1 h2 hn, fun hc => absurd ((container_iff v).mp hc) h1, ?_⟩
    rintro (e | hc | ⟨k, w, e, _⟩)
    · cases e; exact absurd (.inl rfl) hn
    · exact absurd ((container_iff v).mp hc) h1
    · cases e
  | @member k v v' _ ih =>
    obtain ⟨c, h1, h2, h3, h4⟩ := ih
    refine ⟨c, h1, .sameKey h2, fun hc => (by cases hc), ?_⟩
    rintro (e | hc | ⟨k', w, e, hw⟩)
    · cases e; exact h4 (.inl rfl)
    · cases hc
    · cases e; exact h4 (.inr (.inl ((container_iff v).mpr hw)))
  | @items xs ys hn hall hone hex ih =>
    have k1 : ∀ zs : List Json, (Elem.value (.arr zs)).kids = zs.map .value := fun zs => rfl
    have kl : ∀ zs : List Json, (Elem.value (.arr zs)).kids.length = zs.length := fun zs => by rw [k1]; simp
    have hs : Straight text (.value (.arr xs)) (.value (.arr ys)) := by
      refine ⟨rfl, rfl, by rw [kl, kl, hn], fun cost hcost => ?_⟩
      have hc : ∀ (i : Nat) (x y : Json), xs[i]? = some x → ys[i]? = some y → cost i i ≤ 1 ∧ (Kept x y → cost i i = 0) := by
        intro i x y hx hy
        obtain ⟨c, g1, g2, g3, g4⟩ := ih i x y hx hy
        have e := facing_unique (hcost i i (.value x) (.value y) (by rw [k1, List.getElem?_map, hx]; rfl) (by rw [k1, List.getElem?_map, hy]; rfl)) g2
        refine ⟨by omega, fun hk => ?_⟩
        rw [e]
        rcases hk with rfl | hk
        · exact g4 (.inl rfl)
        · exact g4 (.inr (.inl ((container_iff x).mpr hk)))
      rw [kl]
      have gx : ∀ i (hi : i < xs.length), xs[i]? = some xs[i] := fun i hi => List.getElem?_eq_getElem hi
      have gy : ∀ i (hi : i < xs.length), ys[i]? = some (ys[i]'(by omega)) := fun i hi => List.getElem?_eq_getElem (by omega)
      refine ⟨fun i hi => (hc i _ _ (gx i hi) (gy i hi)).1, ?_, .inl fun i hi j hj hij => ?_⟩
      · obtain ⟨i, x, y, hx, hy, hk⟩ := hex
        exact ⟨i, (List.getElem?_eq_some_iff.mp hx).1, (hc i x y hx hy).2 hk⟩
      · exact (hone i j _ _ _ _ hij (gx i hi) (gy i hi) (gx j hj) (gy j hj)).imp (hc i _ _ (gx i hi) (gy i hi)).2 (hc j _ _ (gx j hj) (gy j hj)).2
    exact ⟨0, by omega, hs.zero, fun _ => .inr hs, fun _ => rfl⟩
  | @members es fs hk hnd hall hex ih =>
    have k1 : ∀ gs : List (Bytes × Json), (Elem.value (.obj gs)).kids = gs.map fun e => .entry e.1 e.2 := fun gs => rfl
    have kl : ∀ gs : List (Bytes × Json), (Elem.value (.obj gs)).kids.length = gs.length := fun gs => by rw [k1]; simp
    have hn : es.length = fs.length := by simpa using congrArg List.length hk
    have hs : Straight text (.value (.obj es)) (.value (.obj fs)) := by
      refine ⟨rfl, rfl, by rw [kl, kl, hn], fun cost hcost => ?_⟩
      have hc : ∀ (i : Nat) (k : Bytes) (v v' : Json), es[i]? = some (k, v) → fs[i]? = some (k, v') → cost i i ≤ 1 ∧ (Kept v v' → cost i i = 0) := by
        intro i k v v' hx hy
        obtain ⟨c, g1, g2, g3, g4⟩ := ih i k v v' hx hy
        have e := facing_unique (hcost i i (.entry k v) (.entry k v') (by rw [k1, List.getElem?_map, hx]; rfl) (by rw [k1, List.getElem?_map, hy]; rfl)) (.sameKey g2)
        refine ⟨by omega, fun hk => ?_⟩
        rw [e]
        rcases hk with rfl | hk
        · exact g4 (.inl rfl)
        · exact g4 (.inr (.inl ((container_iff v).mpr hk)))
      have hkey : ∀ i (hi : i < es.length), ∃ k v v', es[i]? = some (k, v) ∧ fs[i]? = some (k, v') := by
        intro i hi
        have e : (es.map (·.1))[i]? = (fs.map (·.1))[i]? := by rw [hk]
        have h1 : es[i]? = some es[i] := List.getElem?_eq_getElem hi
        have h2 : fs[i]? = some (fs[i]'(by omega)) := List.getElem?_eq_getElem (by omega)
        generalize es[i] = m at h1
        generalize fs[i]'(by omega) = m' at h2
        rw [List.getElem?_map, List.getElem?_map, h1, h2] at e
        obtain ⟨k, v⟩ := m
        obtain ⟨k', v'⟩ := m'
        cases Option.some.inj e
        exact ⟨k, v, v', h1, h2⟩
      rw [kl]
      refine ⟨fun i hi => ?_, ?_, .inr fun i hi j hj hij => ?_⟩
      · obtain ⟨k, v, v', hx, hy⟩ := hkey i hi
        exact (hc i k v v' hx hy).1
      · obtain ⟨i, k, v, v', hx, hy, hk⟩ := hex
        exact ⟨i, (List.getElem?_eq_some_iff.mp hx).1, (hc i k v v' hx hy).2 hk⟩
      · obtain ⟨k, v, v', hx, hy⟩ := hkey i hi
        obtain ⟨k', w, w', hx', hy'⟩ := hkey j hj
        have hne : k ≠ k' := by
          rintro rfl
          refine hij ((List.getElem?_inj (l := es.map (·.1)) (by simpa using hi) hnd).mp ?_)
          rw [List.getElem?_map, List.getElem?_map, hx, hx']
          rfl
        have e := facing_unique (hcost i j (.entry k v) (.entry k' w') (by rw [k1, List.getElem?_map, hx]; rfl) (by rw [k1, List.getElem?_map, hy']; rfl)) (.otherKey hne)
        omega
    exact ⟨0, by omega, hs.zero, fun _ => .inr hs, fun _ => rfl⟩

theorem inPlace_kid {a b : Elem} (h : InPlace a b) {i : Nat} {x y : Elem} (hx : a.kids[i]? = some x) (hy : b.kids[i]? = some y) : InPlace x y := by
  cases h with
  | same => rw [hx] at hy; cases hy; exact .same _
  | @primitive v v' h1 h2 => cases v <;> first | (exact absurd trivial h1) | (simp [Elem.kids] at hx; done)
  | @member k v v' h =>
    match i with
    | 0 => cases hx; cases hy; exact h
    | i + 1 => simp [Elem.kids] at hx
  | @items xs ys hn hall hone hex =>
    have k1 : ∀ zs : List Json, (Elem.value (.arr zs)).kids = zs.map .value := fun zs => rfl
    rw [k1, List.getElem?_map, Option.map_eq_some_iff] at hx hy
    obtain ⟨u, hu, rfl⟩ := hx
    obtain ⟨w, hw, rfl⟩ := hy
    exact hall i u w hu hw
  | @members es fs hk hnd hall hex =>
    have k1 : ∀ gs : List (Bytes × Json), (Elem.value (.obj gs)).kids = gs.map fun e => .entry e.1 e.2 := fun gs => rfl
    rw [k1, List.getElem?_map, Option.map_eq_some_iff] at hx hy
    obtain ⟨⟨k, v⟩, hu, rfl⟩ := hx
    obtain ⟨⟨k', v'⟩, hw, rfl⟩ := hy
    have e : (es.map (·.1))[i]? = (fs.map (·.1))[i]? := by rw [hk]
    rw [List.getElem?_map, List.getElem?_map, hu, hw] at e
    cases Option.some.inj e
    exact .member (hall i k v v' hu hw)

theorem inPlace_kids {text : Json → Bytes} {a b : Elem} (h : InPlace a b) : a.kids.length = b.kids.length := by
  by_cases hc : a.isContainer = true
  · obtain ⟨c, _, _, h3, _⟩ := inPlace_cost (text := text) h
    rcases h3 hc with rfl | h3
    · rfl
    · exact h3.length
  · cases h with
    | same => rfl
    | @primitive v v' h1 h2 => cases v <;> cases v' <;> first | (exact absurd trivial h1) | (exact absurd trivial h2) | rfl
    | member => rfl
    | items => exact absurd rfl hc
    | members => exact absurd rfl hc

/-- Every element is opposite the one in the same place, and nothing else. -/
theorem inPlace_opposed {text : Json → Bytes} : ∀ (p q : Path) (a b : Elem), InPlace a b → (Opposed text a b p q ↔ p = q ∧ ∃ x y, a.at p = some x ∧ b.at p = some y ∧ InPlace x y)
  | [], q, a, b, h => by
    constructor
    · intro ho
      cases ho
      exact ⟨rfl, a, b, rfl, rfl, h⟩
    · rintro ⟨rfl, _⟩
      exact .here
  | i :: p, q, a, b, h => by
    constructor
    · intro ho
      cases ho with
      | @values k v v' p q ho =>
        have h' : InPlace (.value v) (.value v') := inPlace_kid h (i := 0) rfl rfl
        obtain ⟨rfl, x, y, h1, h2, h3⟩ := (inPlace_opposed p q _ _ h').mp ho
        exact ⟨rfl, x, y, by rw [at_cons (i := 0) _ rfl]; exact h1, by rw [at_cons (i := 0) _ rfl]; exact h2, h3⟩
      | @children _ _ x y cost pairs _ j _ q c1 c2 hf hcost hch hm hx hy ho =>
        obtain ⟨c, _, _, h3, _⟩ := inPlace_cost (text := text) h
        have hij : j = i := by
          rcases h3 c1 with rfl | h3
          · exact ((chosen_self (fun i hi => facing_unique (hcost i i _ _ (List.getElem?_eq_getElem hi) (List.getElem?_eq_getElem hi)) (facing_self text _)) hch i j).mp hm).2
          · obtain ⟨g1, g2, g3⟩ := h3.costs cost hcost
            rw [← h3.length] at hch
            exact ((chosen_straight g1 g3 hch i j).mp hm).2
        subst hij
        obtain ⟨rfl, u, w, h1, h2, h3⟩ := (inPlace_opposed p q _ _ (inPlace_kid h hx hy)).mp ho
        exact ⟨rfl, u, w, by rw [at_cons _ hx]; exact h1, by rw [at_cons _ hy]; exact h2, h3⟩
    · rintro ⟨rfl, u, w, h1, h2, h3⟩
      simp only [Elem.at, Option.bind_eq_some_iff] at h1 h2
      obtain ⟨x, hx, h1⟩ := h1
      obtain ⟨y, hy, h2⟩ := h2
      have ho := (inPlace_opposed (text := text) p p x y (inPlace_kid h hx hy)).mpr ⟨rfl, u, w, h1, h2, h3⟩
      by_cases hc : a.isContainer = true
      · obtain ⟨c, _, hf, h4, h5⟩ := inPlace_cost (text := text) h
        cases h5 (.inr (.inl hc))
        obtain ⟨cost, hcost⟩ := costs_exist text a b
        obtain ⟨l, hl⟩ := chosen_exists cost a.kids.length b.kids.length
        refine .children hc (by rw [← inPlace_container h]; exact hc) hf hcost hl ?_ hx hy ho
        have hi := (List.getElem?_eq_some_iff.mp hx).1
        rcases h4 hc with rfl | h4
        · exact (chosen_self (fun i hi => facing_unique (hcost i i _ _ (List.getElem?_eq_getElem hi) (List.getElem?_eq_getElem hi)) (facing_self text _)) hl i i).mpr ⟨hi, rfl⟩
        · obtain ⟨g1, g2, g3⟩ := h4.costs cost hcost
          rw [← h4.length] at hl
          exact (chosen_straight g1 g3 hl i i).mpr ⟨hi, rfl⟩
      · match a, b, h with
        | .entry k v, .entry k' v', h =>
          have e : k = k' := by cases h <;> rfl
          subst e
          match i with
          | 0 => cases hx; cases hy; exact .values ho
          | i + 1 => simp [Elem.kids] at hx
        | .value v, _, _ => cases v <;> first | (exact absurd rfl hc) | (simp [Elem.kids] at hx; done)
        | .entry k v, .value v', h => cases h

theorem inPlace_at {text : Json → Bytes} : ∀ (p : Path) (a b : Elem), InPlace a b → ∀ x, a.at p = some x → ∃ y, b.at p = some y ∧ InPlace x y
  | [], a, b, h, x, hx => by cases hx; exact ⟨b, rfl, h⟩
  | i :: p, a, b, h, x, hx => by
    simp only [Elem.at, Option.bind_eq_some_iff] at hx
    obtain ⟨u, hu, hx⟩ := hx
    have hi := (List.getElem?_eq_some_iff.mp hu).1
    have hw : b.kids[i]? = some (b.kids[i]'(by rw [← inPlace_kids (text := text) h]; exact hi)) := List.getElem?_eq_getElem _
    obtain ⟨y, h1, h2⟩ := inPlace_at (text := text) p _ _ (inPlace_kid h hu hw) x hx
    exact ⟨y, by rw [at_cons _ hw]; exact h1, h2⟩

theorem inPlace_back {text : Json → Bytes} : ∀ (p : Path) (a b : Elem), InPlace a b → ∀ y, b.at p = some y → ∃ x, a.at p = some x
  | [], a, b, h, y, hy => ⟨a, rfl⟩
  | i :: p, a, b, h, y, hy => by
    simp only [Elem.at, Option.bind_eq_some_iff] at hy
    obtain ⟨w, hw, hy⟩ := hy
    have hi := (List.getElem?_eq_some_iff.mp hw).1
    have hu : a.kids[i]? = some (a.kids[i]'(by rw [inPlace_kids (text := text) h]; exact hi)) := List.getElem?_eq_getElem _
    obtain ⟨x, h1⟩ := inPlace_back (text := text) p _ _ (inPlace_kid h hu hw) y hy
    exact ⟨x, by rw [at_cons _ hu]; exact h1⟩

theorem inPlace_mark {text : Json → Bytes} {x y : Elem} {c : Nat} (h : InPlace x y) (hf : Facing text x y c) : ∃ m, PlaceMark text x y m ∧ signsFor (decide (c = 0)) x y = (m, m) ∧ (x = y → m = .equ) ∧
    ((comparable x y = true ∨ x.isContainer = true) ↔ m ≠ .add) := by
  obtain ⟨c', _, hf', _, h0⟩ := inPlace_cost (text := text) h
  cases facing_unique hf hf'
  have hcc := inPlace_container h
  match x, y, h with
  | .entry k v, .value v', h => cases h
  | .value v, .entry k v', h => cases h
  | .value v, .value v', h =>
    by_cases hc : (Elem.value v).isContainer = true
    · have hc' : (Elem.value v').isContainer = true := by rw [← hcc]; exact hc
      cases h0 (.inr (.inl hc))
      exact ⟨.equ, .container ((container_iff v).mp hc) ((container_iff v').mp hc'), by unfold signsFor; rw [if_pos hc, if_pos hc']; rfl, fun _ => rfl, fun _ => by decide, fun _ => .inr hc⟩
    · have hc' : ¬ (Elem.value v').isContainer = true := by rw [← hcc]; exact hc
      have p1 : ¬ IsContainer v := fun h => hc ((container_iff v).mpr h)
      have p2 : ¬ IsContainer v' := fun h => hc' ((container_iff v').mpr h)
      have hs : signsFor (decide (c = 0)) (.value v) (.value v') = if sameKind v v' then if decide (c = 0) then (.equ, .equ) else (.mod, .mod) else (.add, .add) := by
        unfold signsFor; rw [if_neg hc, if_neg hc']; rfl
      rw [hs]
      cases hk : sameKind v v' with
      | false =>
        refine ⟨.add, .otherType p1 p2 hk, rfl, fun e => ?_, ?_⟩
        · cases e
          have := comparable_self (.value v) (by simpa using hc)
          rw [show comparable (.value v) (.value v) = sameKind v v from rfl, hk] at this
          cases this
        · rw [show comparable (.value v) (.value v') = sameKind v v' from rfl, hk]; simp [hc]
      | true =>
        have hcm : comparable (.value v) (.value v') = true := hk
        by_cases hn : Near (text v) (text v')
        · cases facing_unique hf (.near p1 p2 hn)
          exact ⟨.equ, .near p1 p2 hk hn, rfl, fun _ => rfl, fun _ => by decide, fun _ => .inl hcm⟩
        · cases facing_unique hf (.far p1 p2 hn)
          exact ⟨.mod, .far p1 p2 hk hn, rfl, fun e => by cases e; exact absurd (.inl rfl) hn, fun _ => by decide, fun _ => .inl hcm⟩
  | .entry k v, .entry k' v', h =>
    have e : k = k' := by cases h <;> rfl
    subst e
    have hv : InPlace (.value v) (.value v') := by cases h with | same => exact .same _ | member h => exact h
    have hcv := inPlace_container hv
    have hs : signsFor (decide (c = 0)) (.entry k v) (.entry k v') = if decide (c = 0) then (.equ, .equ) else (.mod, .mod) := rfl
    rw [hs]
    have hcm : comparable (.entry k v) (.entry k v') = true := rfl
    by_cases hc : (Elem.value v).isContainer = true
    · have hc' : (Elem.value v').isContainer = true := by rw [← hcv]; exact hc
      cases h0 (.inr (.inr ⟨k, v, rfl, (container_iff v).mp hc⟩))
      exact ⟨.equ, .memberKept (.inl ⟨(container_iff v).mp hc, (container_iff v').mp hc'⟩), rfl, fun _ => rfl, fun _ => by decide, fun _ => .inl hcm⟩
    · have p1 : ¬ IsContainer v := fun h => hc ((container_iff v).mpr h)
      have p2 : ¬ IsContainer v' := fun h => hc (hcv ▸ (container_iff v').mpr h)
      by_cases hn : Near (text v) (text v')
      · cases facing_unique hf (.sameKey (.near p1 p2 hn))
        exact ⟨.equ, .memberKept (.inr ⟨p1, p2, hn⟩), rfl, fun _ => rfl, fun _ => by decide, fun _ => .inl hcm⟩
      · cases facing_unique hf (.sameKey (.far p1 p2 hn))
        exact ⟨.mod, .memberChanged p1 p2 hn, rfl, fun e => by cases e; exact absurd (.inl rfl) hn, fun _ => by decide, fun _ => .inl hcm⟩

/-- **C138, for changes that leave the structure recognizable** (`InPlace`). Every element of the first document has its place in the second one, both have the same sign (`PlaceMark`: equal if it is a container or close to what it
was, modified, or added if its type changed) — equal if nothing was changed in it — and they are each other's counterparts unless the type of a member's value was changed. Nothing else is anything's counterpart. -/
theorem C138_in_place_partial (fmt : Bytes → Bytes) (a b : Json) (t : Table) (h : diff fmt a b = some t) (sa : ShortTexts (·.stringify fmt) (.value a)) (sb : ShortTexts (·.stringify fmt) (.value b))
    (hr : RoomFor (·.stringify fmt) (.value a) (.value b)) (order : List (Ptr × Ptr)) (hp : order.Perm t.equivalences) (hi : InPlace (.value a) (.value b)) :
    (∀ p x, (Elem.value a).at p = some x → ∃ y m, (Elem.value b).at p = some y ∧ PlaceMark (·.stringify fmt) x y m ∧ markOf t (.left p) = m ∧ markOf t (.right p) = m ∧ (x = y → m = .equ) ∧
      (scan order (.left p) = some (.right p) ↔ IsChild (.value a) p ∨ m ≠ .add) ∧ (scan order (.right p) = some (.left p) ↔ IsChild (.value a) p ∨ m ≠ .add)) ∧
    (∀ p y, (Elem.value b).at p = some y → ∃ x, (Elem.value a).at p = some x) ∧
    ∀ p q, scan order (.left p) = some (.right q) ∨ scan order (.right q) = some (.left p) → p = q ∧ ∃ x, (Elem.value a).at p = some x := by
  obtain ⟨a1, a2, a3, a4, a5⟩ := C135_comparison fmt a b t h sa sb hr order hp
  have ho := fun p q => inPlace_opposed (text := (·.stringify fmt)) p q _ _ hi
  refine ⟨fun p x hx => ?_, ?_, ?_⟩
  · obtain ⟨y, hy, hxy⟩ := inPlace_at (text := (·.stringify fmt)) p _ _ hi x hx
    have hop := (ho p p).mpr ⟨rfl, x, y, hx, hy, hxy⟩
    obtain ⟨x', y', c, e1, e2, hf, hs⟩ := a3 p p hop
    rw [hx] at e1; cases e1
    rw [hy] at e2; cases e2
    obtain ⟨m, m1, m2, m3, m4⟩ := inPlace_mark hxy hf
    rw [m2] at hs
    have hsc : scan order (.left p) = some (.right p) ↔ IsChild (.value a) p ∨ m ≠ .add := by
      rw [a1, ← m4]
      refine ⟨fun ⟨_, h2⟩ => h2.imp id ?_, fun h2 => ⟨hop, h2.imp id fun h3 => ⟨x, y, hx, hy, ?_⟩⟩⟩
      · rintro ⟨x', y', e1, e2, hm⟩
        rw [hx] at e1; cases e1
        rw [hy] at e2; cases e2
        exact hm.symm.imp id fun h => h.1
      · refine h3.symm.imp (fun hc => ⟨hc, by rw [← inPlace_container hxy]; exact hc, ?_⟩) id
        obtain ⟨c', _, hf', _, h0⟩ := inPlace_cost (text := (·.stringify fmt)) hxy
        cases h0 (.inr (.inl hc))
        exact hf'
    exact ⟨y, m, hy, m1, congrArg Prod.fst hs, congrArg Prod.snd hs, m3, hsc, by rw [a2]; exact hsc⟩
  · intro p y hy
    obtain ⟨x, hx⟩ := inPlace_back (text := (·.stringify fmt)) p _ _ hi y hy
    exact ⟨x, hx⟩
  · intro p q hq
    rw [a2, or_self] at hq
    obtain ⟨e, x, y, hx, _⟩ := (ho p q).mp ((a1 p q).mp hq).1
    exact ⟨e, x, hx⟩

/-- **C138 is false as stated**: two of three numbers of an array are changed, and the second one was the new first one. The first number is marked as added and not as modified, and so is the new second one; 222 faces 222. -/
theorem C138_in_place_false : ∃ t, diff id (.arr [.int 111, .int 222, .int 5]) (.arr [.int 222, .int 333, .int 5]) = some t ∧
    markOf t (.left [0]) = .add ∧ markOf t (.right [1]) = .add ∧ scan t.equivalences (.left [1]) = some (.right [0]) :=
  any_some (o := diff id (.arr [.int 111, .int 222, .int 5]) (.arr [.int 222, .int 333, .int 5]))
    (p := fun t => markOf t (.left [0]) = .add ∧ markOf t (.right [1]) = .add ∧ scan t.equivalences (.left [1]) = some (.right [0])) (by decide +kernel)

/-- A document, and the same one with three values changed: an item of an array in an object, and two members. -/
def before138 : Json := .obj [([97], .arr [.int 111, .int 5]), ([98], .int 222), ([99], .str [120])]
def after138 : Json := .obj [([97], .arr [.int 999, .int 5]), ([98], .int 888), ([99], .null)]

theorem inPlace138 : InPlace (.value before138) (.value after138) := by
  have h1 : InPlace (.value (.arr [.int 111, .int 5])) (.value (.arr [.int 999, .int 5])) := by
    refine .items rfl ?_ ?_ ⟨1, .int 5, .int 5, rfl, rfl, .inl rfl⟩
    · intro i x y hx hy
      match i, hx, hy with
      | 0, hx, hy => cases hx; cases hy; exact .primitive (fun h => h) (fun h => h)
      | 1, hx, hy => cases hx; cases hy; exact .same _
      | i + 2, hx, hy => simp at hx
    · intro i j x y x' y' hij hx hy hx' hy'
      match i, j, hij, hx, hy, hx', hy' with
      | 0, 0, hij, _, _, _, _ => exact absurd rfl hij
      | 1, _, _, hx, hy, _, _ => cases hx; cases hy; exact .inl (.inl rfl)
      | 0, 1, _, _, _, hx', hy' => cases hx'; cases hy'; exact .inr (.inl rfl)
      | i + 2, _, _, hx, _, _, _ => simp at hx
      | 0, j + 2, _, _, _, hx', _ => simp at hx'
  refine .members rfl (by decide) ?_ ⟨0, [97], _, _, rfl, rfl, .inr trivial⟩
  intro i k v v' hx hy
  match i, hx, hy with
  | 0, hx, hy => cases hx; cases hy; exact h1
  | 1, hx, hy => cases hx; cases hy; exact .primitive (fun h => h) (fun h => h)
  | 2, hx, hy => cases hx; cases hy; exact .primitive (fun h => h) (fun h => h)
  | i + 3, hx, hy => simp at hx

/-- The hypotheses are met. -/
example : ∃ t, diff id before138 after138 = some t ∧ ShortTexts (·.stringify id) (.value before138) ∧ ShortTexts (·.stringify id) (.value after138) ∧
    RoomFor (·.stringify id) (.value before138) (.value after138) ∧ InPlace (.value before138) (.value after138) ∧ markOf t (.left [0]) = .equ ∧ markOf t (.left [0, 0, 0]) = .mod ∧ markOf t (.left [0, 0, 1]) = .equ ∧
    markOf t (.left [1]) = .mod ∧ markOf t (.left [1, 0]) = .mod ∧ markOf t (.left [2]) = .mod ∧ markOf t (.left [2, 0]) = .add := by
  obtain ⟨t, h1, h2⟩ := any_some (o := diff id before138 after138) (p := fun t => markOf t (.left [0]) = .equ ∧ markOf t (.left [0, 0, 0]) = .mod ∧ markOf t (.left [0, 0, 1]) = .equ ∧
    markOf t (.left [1]) = .mod ∧ markOf t (.left [1, 0]) = .mod ∧ markOf t (.left [2]) = .mod ∧ markOf t (.left [2, 0]) = .add) (by decide +kernel)
  have ma := modest_spec (fmt := id) (n := 6) (e := .value before138) (by decide +kernel)
  have mb := modest_spec (fmt := id) (n := 6) (e := .value after138) (by decide +kernel)
  exact ⟨t, h1, ma.1, mb.1, room_small ma.2 mb.2, inPlace138, h2⟩

end Verif.Props
