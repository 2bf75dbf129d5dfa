import Verif.Props.InCommon
import Verif.Props.ExchangeUnique
/-! # C137: what was inserted is what is marked as added -/
namespace Verif.Props
open Verif.Model Verif.Model.Diff Verif.Spec Verif.Lemmas.Diff

/-! ### Alignments -/

theorem align_total {cost : Nat → Nat → Nat} {n m d : Nat} {l : List (Nat × Nat)} (h : Align cost n m l d) :
    d + 2 * l.length = n + m + (l.map fun e => cost e.1 e.2).sum ∧ l.length ≤ n ∧ l.length ≤ m := by
  induction h with
  | done => simp
  | aloneLeft _ ih => omega
  | aloneRight _ ih => omega
  | facing _ ih => simp only [List.length_cons, List.map_cons, List.sum_cons]; omega

theorem align_covers {cost : Nat → Nat → Nat} {n m d : Nat} {l : List (Nat × Nat)} (h : Align cost n m l d) : l.length = n → ∀ i < n, ∃ j, (i, j) ∈ l := by
  induction h with
  | done => intro _ i hi; omega
  | aloneLeft h _ => intro e; have := (align_total h).2; omega
  | aloneRight _ ih => exact ih
  | @facing i j t l _ ih =>
    intro e i' hi'
    by_cases he : i' = i
    · exact ⟨j, by rw [he]; exact List.mem_cons_self ..⟩
    · obtain ⟨j', hj'⟩ := ih (by simpa using e) i' (by omega)
      exact ⟨j', List.mem_cons_of_mem _ hj'⟩

theorem align_fewer {cost : Nat → Nat → Nat} {n : Nat} {f : Nat → Nat} (mono : ∀ i j, i < j → f i < f j) {i j d : Nat} {l : List (Nat × Nat)} (h : Align cost i j l d) :
    ∀ c, (∀ e ∈ l, ∃ k < n, e.2 = f k) → (∀ k < n, f k < j → k < c) → l.length ≤ c := by
  induction h with
  | done => intro c _ _; exact Nat.zero_le _
  | aloneLeft _ ih => exact ih
  | aloneRight _ ih => intro c h1 h2; exact ih c h1 fun k hk hf => h2 k hk (by omega)
  | @facing i j t l _ ih =>
    intro c h1 h2
    obtain ⟨k, hk, e⟩ := h1 _ (List.mem_cons_self ..)
    dsimp only at e
    have h3 := h2 k hk (by omega)
    have := ih k (fun e he => h1 e (List.mem_cons_of_mem _ he)) fun k' _ hf => by
      rcases Nat.lt_trichotomy k' k with h | h | h
      · exact h
      · subst h; omega
      · have := mono _ _ h; omega
    simp only [List.length_cons]
    omega

theorem align_follows {cost : Nat → Nat → Nat} {n : Nat} {f : Nat → Nat} (mono : ∀ i j, i < j → f i < f j) {i j d : Nat} {l : List (Nat × Nat)} (h : Align cost i j l d) :
    l.length = i → (∀ e ∈ l, ∃ k < n, e.2 = f k) → (∀ k < n, f k < j → k < i) → ∀ e ∈ l, e.2 = f e.1 := by
  induction h with
  | done => intro _ _ _ e he; cases he
  | aloneLeft h _ => intro e; have := (align_total h).2; omega
  | aloneRight _ ih => intro h0 h1 h2; exact ih h0 h1 fun k hk hf => h2 k hk (by omega)
  | @facing i j t l hl ih =>
    intro h0 h1 h2
    obtain ⟨k, hk, e⟩ := h1 _ (List.mem_cons_self ..)
    dsimp only at e
    have below : ∀ k' < n, f k' < j → k' < k := fun k' _ hf => by
      rcases Nat.lt_trichotomy k' k with h | h | h
      · exact h
      · subst h; omega
      · have := mono _ _ h; omega
    have rest : ∀ e ∈ l, ∃ k < n, e.2 = f k := fun e he => h1 e (List.mem_cons_of_mem _ he)
    have h3 := align_fewer mono hl k rest below
    have h4 := h2 k hk (by omega)
    simp only [List.length_cons] at h0
    have hki : k = i := by omega
    subst hki
    intro e' he'
    cases he' with
    | head => exact e
    | tail _ he' => exact ih (by omega) rest below e' he'

/-- The only cheapest alignment when the new children cost something with every old one: the old ones face themselves. -/
theorem align_inserted {cost : Nat → Nat → Nat} {n m : Nat} {f : Nat → Nat} (mono : ∀ i j, i < j → f i < f j)
    (hnew : ∀ i < n, ∀ j < m, (∀ k < n, f k ≠ j) → cost i j ≠ 0) {l : List (Nat × Nat)} {d : Nat} (hl : Align cost n m l d) (hd : d ≤ m - n) (hnm : n ≤ m) (i j : Nat) :
    (i, j) ∈ l ↔ i < n ∧ j = f i := by
  obtain ⟨h1, h2, h3⟩ := align_total hl
  have e1 : l.length = n := by omega
  have e2 : (l.map fun e => cost e.1 e.2).sum = 0 := by omega
  have zero : ∀ e ∈ l, cost e.1 e.2 = 0 := fun e he => List.sum_eq_zero_iff_forall_eq_nat.mp e2 _ (List.mem_map.mpr ⟨e, he, rfl⟩)
  have key := align_follows mono hl e1 (n := n) (fun e he => by
    apply Classical.byContradiction
    intro hno
    obtain ⟨k1, k2⟩ := align_range hl (i := e.1) (j := e.2) he
    exact hnew _ k1 _ k2 (fun k hk hfk => hno ⟨k, hk, hfk.symm⟩) (zero e he)) fun k hk _ => hk
  constructor
  · intro h
    exact ⟨(align_range hl h).1, key _ h⟩
  · rintro ⟨hi, rfl⟩
    obtain ⟨j, hj⟩ := align_covers hl e1 i hi
    have := key _ hj
    dsimp only at this
    rw [← this]; exact hj

/-- There is such an alignment. -/
theorem align_inserts {cost : Nat → Nat → Nat} {f : Nat → Nat} (mono : ∀ i j, i < j → f i < f j) : ∀ (n m : Nat), (∀ i < n, f i < m) → (∀ i < n, cost i (f i) = 0) → ∃ l, Align cost n m l (m - n) ∧ n ≤ m
  | 0, m, _, _ => ⟨[], by simpa using align_bound 0 m, by omega⟩
  | n + 1, m, hf, h0 => by
    have h1 := hf n (by omega)
    obtain ⟨l, hl, hle⟩ := align_inserts mono n (f n) (fun i hi => mono i n hi) (fun i hi => h0 i (by omega))
    have h2 := hl.facing
    rw [h0 n (by omega)] at h2
    have h3 := align_more h2 0 (m - (f n + 1))
    rw [show f n + 1 + (m - (f n + 1)) = m by omega, show f n - n + 0 + 0 + (m - (f n + 1)) = m - (n + 1) by omega] at h3
    exact ⟨_, h3, by omega⟩

/-! ### An element and itself -/

theorem costs_of {text : Json → Bytes} {x y : Elem} (h : ∀ u ∈ x.kids, ∀ w, ∃ c, Facing text u w c) :
    ∃ cost : Nat → Nat → Nat, ∀ (i j : Nat) (u w : Elem), x.kids[i]? = some u → y.kids[j]? = some w → Facing text u w (cost i j) := by
  have h' : ∀ i j : Nat, ∃ c, ∀ u w : Elem, x.kids[i]? = some u → y.kids[j]? = some w → Facing text u w c := by
    intro i j
    cases hu : x.kids[i]? with
    | none => exact ⟨0, fun u w h => by cases h⟩
    | some u =>
      cases hw : y.kids[j]? with
      | none => exact ⟨0, fun u w _ h => by cases h⟩
      | some w =>
        obtain ⟨c, hc⟩ := h u (List.mem_of_getElem? hu) w
        exact ⟨c, fun u' w' h1 h2 => by cases h1; cases h2; exact hc⟩
  exact ⟨fun i j => (h' i j).choose, fun i j u w hu hw => (h' i j).choose_spec u w hu hw⟩

theorem facing_total (text : Json → Bytes) (x y : Elem) : ∃ c, Facing text x y c := by
  by_cases cx : x.isContainer = true
  · by_cases cy : y.isContainer = true
    · obtain ⟨cost, hc⟩ := costs_of (text := text) (x := x) (y := y) fun u hu w => by
        have := kid_size hu
        exact facing_total text u w
      obtain ⟨d, ⟨l, hl⟩, hm⟩ := least_exists cost x.kids.length y.kids.length
      exact ⟨_, .containers cx cy hc hl hm⟩
    · exact ⟨_, .containerLeft cx (by simpa using cy)⟩
  · by_cases cy : y.isContainer = true
    · exact ⟨_, .containerRight (by simpa using cx) cy⟩
    · match x, y with
      | .entry k v, .entry k' v' =>
        by_cases hk : k = k'
        · subst hk
          have : 0 < sizeOf k := by cases k <;> simp <;> omega
          obtain ⟨c, hc⟩ := facing_total text (.value v) (.value v')
          exact ⟨c, .sameKey hc⟩
        · exact ⟨1, .otherKey hk⟩
      | .entry k v, .value v' => exact ⟨1, .entryLeft (mt (container_iff v').mpr cy)⟩
      | .value v, .entry k' v' => exact ⟨1, .entryRight (mt (container_iff v).mpr cx)⟩
      | .value v, .value v' =>
        have h1 := mt (container_iff v).mpr cx
        have h2 := mt (container_iff v').mpr cy
        by_cases hn : Near (text v) (text v')
        · exact ⟨0, .near h1 h2 hn⟩
        · exact ⟨1, .far h1 h2 hn⟩
termination_by sizeOf x

theorem costs_exist (text : Json → Bytes) (x y : Elem) :
    ∃ cost : Nat → Nat → Nat, ∀ (i j : Nat) (u w : Elem), x.kids[i]? = some u → y.kids[j]? = some w → Facing text u w (cost i j) :=
  costs_of fun u _ w => facing_total text u w

theorem facing_self (text : Json → Bytes) (x : Elem) : Facing text x x 0 := by
  by_cases hc : x.isContainer = true
  · obtain ⟨cost, h1⟩ := costs_exist text x x
    have h2 : ∀ i < x.kids.length, cost i i = 0 := by
      intro i hi
      have hu := List.getElem?_eq_getElem hi
      have := kid_size (List.mem_of_getElem? hu)
      exact facing_unique (h1 i i _ _ hu hu) (facing_self text _)
    obtain ⟨l, hl, -⟩ := align_inserts (f := fun i => i) (fun _ _ h => h) x.kids.length x.kids.length (fun _ h => h) h2
    have := Facing.containers hc hc h1 hl fun _ _ _ => by omega
    rw [if_pos (by omega)] at this
    exact this
  · match x with
    | .entry k v =>
      have : 0 < sizeOf k := by cases k <;> simp <;> omega
      exact .sameKey (facing_self text (.value v))
    | .value v =>
      have hv := mt (container_iff v).mpr hc
      exact .near hv hv (.inl rfl)
termination_by sizeOf x

theorem chosen_least {cost : Nat → Nat → Nat} {n m d0 : Nat} {l l0 : List (Nat × Nat)} (h : Chosen cost n m l) (h0 : Align cost n m l0 d0) : ∃ d ≤ d0, Align cost n m l d := by
  obtain ⟨d, g1, g2⟩ := chosen_align h
  exact ⟨d, g2.2 _ _ h0, g1⟩

theorem chosen_self {cost : Nat → Nat → Nat} {n : Nat} {l : List (Nat × Nat)} (h0 : ∀ i < n, cost i i = 0) (h : Chosen cost n n l) (i j : Nat) : (i, j) ∈ l ↔ i < n ∧ j = i := by
  obtain ⟨l0, hl0, -⟩ := align_inserts (cost := cost) (f := fun i => i) (fun _ _ h => h) n n (fun _ h => h) h0
  obtain ⟨d, hd, hl⟩ := chosen_least h hl0
  exact align_inserted (f := fun i => i) (fun _ _ h => h) (fun i _ j hj hno => absurd rfl (hno j hj)) hl hd (Nat.le_refl _) i j

/-- In an element compared with itself, every element is opposite itself, and nothing else. -/
theorem opposed_self {text : Json → Bytes} {a b : Elem} {p q : Path} (h : Opposed text a b p q) : a = b → p = q ∧ ∃ u, a.at p = some u := by
  induction h with
  | @here a b => exact fun _ => ⟨rfl, a, rfl⟩
  | @values k v v' p q _ ih =>
    intro e
    cases e
    obtain ⟨rfl, u, hu⟩ := ih rfl
    exact ⟨rfl, u, by rw [at_cons (i := 0) _ rfl]; exact hu⟩
  | @children a b x y cost pairs i j p q c1 c2 hf hcost hch hm hx hy ho ih =>
    intro e
    subst e
    obtain ⟨_, rfl⟩ := (chosen_self (fun i hi => facing_unique (hcost i i _ _ (List.getElem?_eq_getElem hi) (List.getElem?_eq_getElem hi)) (facing_self text _)) hch i j).mp hm
    rw [hx] at hy
    obtain ⟨rfl, u, hu⟩ := ih (Option.some.inj hy)
    exact ⟨rfl, u, by rw [at_cons _ hx]; exact hu⟩

theorem self_opposed (text : Json → Bytes) : ∀ (p : Path) (a u : Elem), a.at p = some u → Opposed text a a p p
  | [], _, _, _ => .here
  | i :: p, a, u, h => by
    simp only [Elem.at, Option.bind_eq_some_iff] at h
    obtain ⟨x, hx, h⟩ := h
    have ih := self_opposed text p x u h
    by_cases hc : a.isContainer = true
    · obtain ⟨cost, hcost⟩ := costs_exist text a a
      obtain ⟨l, hl⟩ := chosen_exists cost a.kids.length a.kids.length
      have hm := (chosen_self (fun i hi => facing_unique (hcost i i _ _ (List.getElem?_eq_getElem hi) (List.getElem?_eq_getElem hi)) (facing_self text _)) hl i i).mpr
        ⟨(List.getElem?_eq_some_iff.mp hx).1, rfl⟩
      exact .children hc hc (facing_self text a) hcost hl hm hx hx ih
    · match a with
      | .entry k v =>
        match i with
        | 0 => cases hx; exact .values ih
        | i + 1 => simp [Elem.kids] at hx
      | .value v => cases v <;> first | (simp [Elem.isContainer] at hc; done) | (simp [Elem.kids] at hx; done)

/-! ### Containers of which we know what faces what -/

theorem opposed_settled {text : Json → Bytes} {a b : Elem} {R : Nat → Nat → Prop} (ca : a.isContainer = true) (cb : b.isContainer = true)
    (hR : ∀ (cost : Nat → Nat → Nat) l, (∀ (i j : Nat) (u w : Elem), a.kids[i]? = some u → b.kids[j]? = some w → Facing text u w (cost i j)) → Chosen cost a.kids.length b.kids.length l → ∀ i j, (i, j) ∈ l ↔ R i j)
    (same : ∀ i j, R i j → ∃ u, a.kids[i]? = some u ∧ b.kids[j]? = some u) (hz : ∀ i j, R i j → Facing text a b 0) (p q : Path) :
    Opposed text a b p q ↔ (p = [] ∧ q = []) ∨ ∃ i j r u, R i j ∧ p = i :: r ∧ q = j :: r ∧ a.at p = some u := by
  constructor
  · intro h
    cases h with
    | here => exact .inl ⟨rfl, rfl⟩
    | values => cases ca
    | children _ _ hf hcost hch hm hx hy ho =>
      have hr := (hR _ _ hcost hch _ _).mp hm
      obtain ⟨u, h1, h2⟩ := same _ _ hr
      rw [h1] at hx; cases hx
      rw [h2] at hy; cases hy
      obtain ⟨rfl, u', hu'⟩ := opposed_self ho rfl
      exact .inr ⟨_, _, _, u', hr, rfl, rfl, by rw [at_cons _ h1]; exact hu'⟩
  · rintro (⟨rfl, rfl⟩ | ⟨i, j, r, u, hr, rfl, rfl, hu⟩)
    · exact .here
    · obtain ⟨x, h1, h2⟩ := same _ _ hr
      obtain ⟨cost, hcost⟩ := costs_exist text a b
      obtain ⟨l, hl⟩ := chosen_exists cost a.kids.length b.kids.length
      rw [at_cons _ h1] at hu
      exact .children ca cb (hz i j hr) hcost hl ((hR cost l hcost hl i j).mpr hr) h1 h2 (self_opposed text r x u hu)

theorem comparable_self (x : Elem) (h : x.isContainer = false) : comparable x x = true := by
  match x with
  | .entry _ _ => rfl
  | .value v => cases v <;> first | rfl | cases h

theorem signs_self (x : Elem) : signsFor true x x = (.equ, .equ) := by
  unfold signsFor
  cases h : x.isContainer with
  | true => rfl
  | false => rw [comparable_self x h]; rfl

/-- What the comparison shows of such containers. -/
theorem shown_settled {fmt : Bytes → Bytes} {a b : Json} {t : Table} (h : diff fmt a b = some t) (sa : ShortTexts (·.stringify fmt) (.value a)) (sb : ShortTexts (·.stringify fmt) (.value b))
    (hr : RoomFor (·.stringify fmt) (.value a) (.value b)) {order : List (Ptr × Ptr)} (hp : order.Perm t.equivalences) {R : Nat → Nat → Prop}
    (ca : (Elem.value a).isContainer = true) (cb : (Elem.value b).isContainer = true)
    (hR : ∀ (cost : Nat → Nat → Nat) l, (∀ (i j : Nat) (u w : Elem), (Elem.value a).kids[i]? = some u → (Elem.value b).kids[j]? = some w → Facing (·.stringify fmt) u w (cost i j)) →
      Chosen cost (Elem.value a).kids.length (Elem.value b).kids.length l → ∀ i j, (i, j) ∈ l ↔ R i j)
    (same : ∀ i j, R i j → ∃ u, (Elem.value a).kids[i]? = some u ∧ (Elem.value b).kids[j]? = some u) (hz : ∀ i j, R i j → Facing (·.stringify fmt) (.value a) (.value b) 0) :
    (∀ i j p u, R i j → (Elem.value a).at (i :: p) = some u → (Elem.value b).at (j :: p) = some u ∧ scan order (.left (i :: p)) = some (.right (j :: p)) ∧
      scan order (.right (j :: p)) = some (.left (i :: p)) ∧ markOf t (.left (i :: p)) = .equ ∧ markOf t (.right (j :: p)) = .equ) ∧
    (∀ i, (∀ j, ¬ R i j) → ∀ p, (∀ q, scan order (.left (i :: p)) ≠ some (.right q)) ∧ markOf t (.left (i :: p)) = .add) ∧
    (∀ j, (∀ i, ¬ R i j) → ∀ p, (∀ q, scan order (.right (j :: p)) ≠ some (.left q)) ∧ markOf t (.right (j :: p)) = .add) := by
  obtain ⟨a1, a2, a3, a4, a5⟩ := C135_comparison fmt a b t h sa sb hr order hp
  have ho := opposed_settled ca cb hR same hz
  refine ⟨fun i j p u hij hu => ?_, fun i hi p => ?_, fun j hj p => ?_⟩
  · obtain ⟨x, h1, h2⟩ := same i j hij
    have hb : (Elem.value b).at (j :: p) = some u := by rw [at_cons _ h2]; rw [at_cons _ h1] at hu; exact hu
    have hop := (ho (i :: p) (j :: p)).mpr (.inr ⟨i, j, p, u, hij, rfl, rfl, hu⟩)
    have hsc : scan order (.left (i :: p)) = some (.right (j :: p)) := by
      refine (a1 _ _).mpr ⟨hop, .inr ⟨u, u, hu, hb, ?_⟩⟩
      by_cases hc : u.isContainer = true
      · exact .inl ⟨hc, hc, facing_self _ u⟩
      · exact .inr (comparable_self u (by simpa using hc))
    obtain ⟨x', y', c, e1, e2, e3, e4⟩ := a3 _ _ hop
    rw [hu] at e1; cases e1
    rw [hb] at e2; cases e2
    cases facing_unique e3 (facing_self _ u)
    rw [decide_eq_true rfl, signs_self] at e4
    exact ⟨hb, hsc, (a2 _ _).mpr hsc, congrArg Prod.fst e4, congrArg Prod.snd e4⟩
  · have hno : ∀ q, ¬ Opposed (·.stringify fmt) (.value a) (.value b) (i :: p) q := by
      intro q hq
      obtain ⟨e, _⟩ | ⟨i', j', r, u, h1, h2, _, _⟩ := (ho _ _).mp hq
      · cases e
      · cases h2; exact hi _ h1
    exact ⟨fun q hq => hno q ((a1 _ _).mp hq).1, a4 _ hno⟩
  · have hno : ∀ q, ¬ Opposed (·.stringify fmt) (.value a) (.value b) q (j :: p) := by
      intro q hq
      obtain ⟨_, e⟩ | ⟨i', j', r, u, h1, _, h2, _⟩ := (ho _ _).mp hq
      · cases e
      · cases h2; exact hj _ h1
    exact ⟨fun q hq => hno q ((a1 _ _).mp ((a2 _ _).mp hq)).1, a5 _ hno⟩

theorem align_difference {cost : Nat → Nat → Nat} {n m d : Nat} {l : List (Nat × Nat)} (h : Align cost n m l d) : m - n ≤ d ∧ n - m ≤ d := by
  have := align_total h
  omega

/-- In the larger container, the children of the smaller one are in other places but in the same order; it counts as similar. -/
theorem facing_inserted {text : Json → Bytes} {a b : Elem} (ca : a.isContainer = true) (cb : b.isContainer = true) {f : Nat → Nat} (mono : ∀ i j, i < j → f i < f j)
    (hold : ∀ (i : Nat) (u : Elem), a.kids[i]? = some u → b.kids[f i]? = some u) (h0 : 0 < a.kids.length) : Facing text a b 0 := by
  obtain ⟨cost, hcost⟩ := costs_exist text a b
  have hin : ∀ i < a.kids.length, f i < b.kids.length := fun i hi => (List.getElem?_eq_some_iff.mp (hold i _ (List.getElem?_eq_getElem hi))).1
  have hzero : ∀ i < a.kids.length, cost i (f i) = 0 := fun i hi =>
    facing_unique (hcost i (f i) _ _ (List.getElem?_eq_getElem hi) (hold i _ (List.getElem?_eq_getElem hi))) (facing_self text _)
  obtain ⟨l, hl, hle⟩ := align_inserts mono _ _ hin hzero
  have := Facing.containers ca cb hcost hl fun l' d' h' => (align_difference h').1
  rw [if_pos (.inl (by omega))] at this
  exact this

/-- **C137, for children that resemble no old one.** If the second document is the first one with children inserted into the outermost array or object (the child number `i` has become number `f i`), and none of the inserted ones would cost
nothing facing an old one, then the comparison shows exactly this: every old element faces itself and both are marked as equal, the inserted children and all that is in them are marked as added and have no counterpart. -/
theorem C137_inserted_partial (fmt : Bytes → Bytes) (a b : Json) (t : Table) (h : diff fmt a b = some t) (sa : ShortTexts (·.stringify fmt) (.value a)) (sb : ShortTexts (·.stringify fmt) (.value b))
    (hr : RoomFor (·.stringify fmt) (.value a) (.value b)) (order : List (Ptr × Ptr)) (hp : order.Perm t.equivalences) (ca : IsContainer a) (cb : IsContainer b)
    (f : Nat → Nat) (mono : ∀ i j, i < j → f i < f j) (hold : ∀ (i : Nat) (u : Elem), (Elem.value a).kids[i]? = some u → (Elem.value b).kids[f i]? = some u)
    (hnew : ∀ (i j : Nat) (u w : Elem), (Elem.value a).kids[i]? = some u → (Elem.value b).kids[j]? = some w → (∀ k < (Elem.value a).kids.length, f k ≠ j) → ¬ Facing (·.stringify fmt) u w 0) :
    (∀ i p u, (Elem.value a).at (i :: p) = some u → (Elem.value b).at (f i :: p) = some u ∧ scan order (.left (i :: p)) = some (.right (f i :: p)) ∧ scan order (.right (f i :: p)) = some (.left (i :: p)) ∧
      markOf t (.left (i :: p)) = .equ ∧ markOf t (.right (f i :: p)) = .equ) ∧
    ∀ j, (∀ k < (Elem.value a).kids.length, f k ≠ j) → ∀ p, (∀ q, scan order (.right (j :: p)) ≠ some (.left q)) ∧ markOf t (.right (j :: p)) = .add := by
  have ca' := (container_iff a).mpr ca
  have cb' := (container_iff b).mpr cb
  have hin : ∀ i < (Elem.value a).kids.length, f i < (Elem.value b).kids.length := fun i hi => (List.getElem?_eq_some_iff.mp (hold i _ (List.getElem?_eq_getElem hi))).1
  obtain ⟨h1, -, h3⟩ := shown_settled h sa sb hr hp (R := fun i j => i < (Elem.value a).kids.length ∧ j = f i) ca' cb' (by
    intro cost l hcost hch
    obtain ⟨l0, hl0, hle⟩ := align_inserts mono _ _ hin fun i hi =>
      facing_unique (hcost i (f i) _ _ (List.getElem?_eq_getElem hi) (hold i _ (List.getElem?_eq_getElem hi))) (facing_self _ _)
    obtain ⟨d, hd, hl⟩ := chosen_least hch hl0
    exact align_inserted mono (fun i hi j hj hno hz => hnew i j _ _ (List.getElem?_eq_getElem hi) (List.getElem?_eq_getElem hj) hno
      (hz ▸ hcost i j _ _ (List.getElem?_eq_getElem hi) (List.getElem?_eq_getElem hj))) hl hd hle)
    (by rintro i j ⟨hi, rfl⟩; exact ⟨_, List.getElem?_eq_getElem hi, hold i _ (List.getElem?_eq_getElem hi)⟩)
    (by rintro i j ⟨hi, rfl⟩; exact facing_inserted ca' cb' mono hold (by omega))
  refine ⟨fun i p u hu => h1 i (f i) p u ⟨?_, rfl⟩ hu, fun j hj p => h3 j ?_ p⟩
  · simp only [Elem.at, Option.bind_eq_some_iff] at hu
    obtain ⟨x, hx, _⟩ := hu
    exact (List.getElem?_eq_some_iff.mp hx).1
  · rintro i ⟨hi, e⟩
    exact hj i hi e.symm

/-- **C137, for children taken away** that resemble no remaining one: the same, from the point of view of the first document. (They too are marked as added.) -/
theorem C137_removed_partial (fmt : Bytes → Bytes) (a b : Json) (t : Table) (h : diff fmt a b = some t) (sa : ShortTexts (·.stringify fmt) (.value a)) (sb : ShortTexts (·.stringify fmt) (.value b))
    (hr : RoomFor (·.stringify fmt) (.value a) (.value b)) (order : List (Ptr × Ptr)) (hp : order.Perm t.equivalences) (ca : IsContainer a) (cb : IsContainer b)
    (f : Nat → Nat) (mono : ∀ i j, i < j → f i < f j) (hold : ∀ (i : Nat) (u : Elem), (Elem.value b).kids[i]? = some u → (Elem.value a).kids[f i]? = some u)
    (hnew : ∀ (i j : Nat) (u w : Elem), (Elem.value a).kids[i]? = some u → (Elem.value b).kids[j]? = some w → (∀ k < (Elem.value b).kids.length, f k ≠ i) → ¬ Facing (·.stringify fmt) u w 0) :
    (∀ i p u, (Elem.value b).at (i :: p) = some u → (Elem.value a).at (f i :: p) = some u ∧ scan order (.right (i :: p)) = some (.left (f i :: p)) ∧ scan order (.left (f i :: p)) = some (.right (i :: p)) ∧
      markOf t (.right (i :: p)) = .equ ∧ markOf t (.left (f i :: p)) = .equ) ∧
    ∀ j, (∀ k < (Elem.value b).kids.length, f k ≠ j) → ∀ p, (∀ q, scan order (.left (j :: p)) ≠ some (.right q)) ∧ markOf t (.left (j :: p)) = .add := by
  have ca' := (container_iff a).mpr ca
  have cb' := (container_iff b).mpr cb
  have hin : ∀ i < (Elem.value b).kids.length, f i < (Elem.value a).kids.length := fun i hi => (List.getElem?_eq_some_iff.mp (hold i _ (List.getElem?_eq_getElem hi))).1
  obtain ⟨h1, h2, -⟩ := shown_settled h sa sb hr hp (R := fun i j => j < (Elem.value b).kids.length ∧ i = f j) ca' cb' (by
    intro cost l hcost hch i j
    obtain ⟨l0, hl0, hle⟩ := align_inserts (cost := fun j i => cost i j) mono _ _ hin fun i hi =>
      facing_unique (hcost (f i) i _ _ (hold i _ (List.getElem?_eq_getElem hi)) (List.getElem?_eq_getElem hi)) (facing_self _ _)
    obtain ⟨d, hd, hl⟩ := chosen_least hch (align_swap hl0)
    rw [← mem_swap]
    exact align_inserted mono (fun i hi j hj hno hz => hnew j i _ _ (List.getElem?_eq_getElem hj) (List.getElem?_eq_getElem hi) hno
      (hz ▸ hcost j i _ _ (List.getElem?_eq_getElem hj) (List.getElem?_eq_getElem hi))) (align_swap hl) hd hle j i)
    (by rintro i j ⟨hi, rfl⟩; exact ⟨_, hold j _ (List.getElem?_eq_getElem hi), List.getElem?_eq_getElem hi⟩)
    (by rintro i j ⟨hi, rfl⟩; exact facing_symm (facing_inserted cb' ca' mono hold (by omega)))
  refine ⟨fun i p u hu => ?_, fun j hj p => h2 j ?_ p⟩
  · simp only [Elem.at, Option.bind_eq_some_iff] at hu
    obtain ⟨x, hx, hu⟩ := hu
    have ha : (Elem.value a).at (f i :: p) = some u := by rw [at_cons _ (hold i x hx)]; exact hu
    obtain ⟨g1, g2, g3, g4, g5⟩ := h1 (f i) i p u ⟨(List.getElem?_eq_some_iff.mp hx).1, rfl⟩ ha
    exact ⟨ha, g3, g2, g5, g4⟩
  · rintro i ⟨hi, e⟩
    exact hj i hi e.symm

/-- **C137, for objects**: members with new keys, inserted anywhere. -/
theorem C137_members_partial (fmt : Bytes → Bytes) (es fs : List (Bytes × Json)) (t : Table) (h : diff fmt (.obj es) (.obj fs) = some t) (sa : ShortTexts (·.stringify fmt) (.value (.obj es))) (sb : ShortTexts (·.stringify fmt) (.value (.obj fs)))
    (hr : RoomFor (·.stringify fmt) (.value (.obj es)) (.value (.obj fs))) (order : List (Ptr × Ptr)) (hp : order.Perm t.equivalences) (keys : (fs.map (·.1)).Nodup)
    (f : Nat → Nat) (mono : ∀ i j, i < j → f i < f j) (hold : ∀ (i : Nat) (m : Bytes × Json), es[i]? = some m → fs[f i]? = some m) :
    (∀ i p u, (Elem.value (.obj es)).at (i :: p) = some u → (Elem.value (.obj fs)).at (f i :: p) = some u ∧ scan order (.left (i :: p)) = some (.right (f i :: p)) ∧ scan order (.right (f i :: p)) = some (.left (i :: p)) ∧
      markOf t (.left (i :: p)) = .equ ∧ markOf t (.right (f i :: p)) = .equ) ∧
    ∀ j, (∀ k < es.length, f k ≠ j) → ∀ p, (∀ q, scan order (.right (j :: p)) ≠ some (.left q)) ∧ markOf t (.right (j :: p)) = .add := by
  have k1 : ∀ gs : List (Bytes × Json), (Elem.value (.obj gs)).kids = gs.map fun e => .entry e.1 e.2 := fun gs => rfl
  have hl : (Elem.value (.obj es)).kids.length = es.length := by rw [k1]; simp
  have key := C137_inserted_partial fmt (.obj es) (.obj fs) t h sa sb hr order hp trivial trivial f mono (by
    intro i u hu
    rw [k1, List.getElem?_map, Option.map_eq_some_iff] at hu
    obtain ⟨m, hm, rfl⟩ := hu
    rw [k1, List.getElem?_map, hold i m hm]; rfl) (by
    intro i j u w hu hw hno hz
    rw [k1, List.getElem?_map, Option.map_eq_some_iff] at hu hw
    obtain ⟨m, hm, rfl⟩ := hu
    obtain ⟨m', hm', rfl⟩ := hw
    have hk : m.1 = m'.1 := by
      obtain ⟨k, v⟩ := m
      obtain ⟨k', v'⟩ := m'
      dsimp only at hz ⊢
      by_cases hne : k = k'
      · exact hne
      · cases facing_unique hz (.otherKey hne)
    have hi := (List.getElem?_eq_some_iff.mp hm).1
    have g1 : (fs.map (·.1))[f i]? = some m.1 := by rw [List.getElem?_map, hold i m hm]; rfl
    have g2 : (fs.map (·.1))[j]? = some m.1 := by rw [List.getElem?_map, hm', hk]; rfl
    have hlt := (List.getElem?_eq_some_iff.mp g1).1
    exact hno i (by omega) ((List.getElem?_inj hlt keys).mp (g1.trans g2.symm)))
  rw [hl] at key
  exact key

theorem least_diag {cost : Nat → Nat → Nat} {n : Nat} (h0 : ∀ i < n, cost i i = 0) (k : Nat) : Least cost n (n + k) k ∧ Least cost (n + k) n k := by
  obtain ⟨l, hl, -⟩ := align_inserts (cost := cost) (f := fun i => i) (fun _ _ h => h) n n (fun _ h => h) h0
  rw [Nat.sub_self] at hl
  have h1 := align_more hl 0 k
  have h2 := align_more hl k 0
  simp only [Nat.zero_add, Nat.add_zero] at h1 h2
  exact ⟨⟨⟨_, h1⟩, fun l' d' h' => by have := align_difference h'; omega⟩, ⟨_, h2⟩, fun l' d' h' => by have := align_difference h'; omega⟩

theorem chosen_appended {cost : Nat → Nat → Nat} {n : Nat} (h0 : ∀ i < n, cost i i = 0) : ∀ k, ∃ l, Chosen cost n (n + k) l ∧ ∀ i j, (i, j) ∈ l ↔ i < n ∧ j = i
  | 0 => by
    obtain ⟨l, hl⟩ := chosen_exists cost n n
    exact ⟨l, hl, chosen_self h0 hl⟩
  | k + 1 => by
    obtain ⟨l, hl, hi⟩ := chosen_appended h0 k
    refine ⟨l, .aloneRight ?_ (least_diag h0 k).1 (least_diag h0 (k + 1)).1 hl, hi⟩
    intro i' d' e g1 g2
    obtain ⟨l1, hl1⟩ := g1.1
    have e1 : d' + 1 = k + 1 := least_unique g2 (least_diag h0 (k + 1)).1
    have e2 : n + k + 1 - i' ≤ d' := (align_difference hl1).1
    omega

theorem chosen_chopped {cost : Nat → Nat → Nat} {n : Nat} (h0 : ∀ i < n, cost i i = 0) : ∀ k, ∃ l, Chosen cost (n + k) n l ∧ ∀ i j, (i, j) ∈ l ↔ i < n ∧ j = i
  | 0 => by
    obtain ⟨l, hl⟩ := chosen_exists cost n n
    exact ⟨l, hl, chosen_self h0 hl⟩
  | k + 1 => by
    obtain ⟨l, hl, hi⟩ := chosen_chopped h0 k
    exact ⟨l, .aloneLeft (least_diag h0 k).2 (least_diag h0 (k + 1)).2 hl, hi⟩

/-- **C137, at the end.** Items appended to an array, whatever they are: exactly they are marked as added. -/
theorem C137_appended_partial (fmt : Bytes → Bytes) (xs ys : List Json) (t : Table) (h : diff fmt (.arr xs) (.arr (xs ++ ys)) = some t) (sa : ShortTexts (·.stringify fmt) (.value (.arr xs)))
    (sb : ShortTexts (·.stringify fmt) (.value (.arr (xs ++ ys)))) (hr : RoomFor (·.stringify fmt) (.value (.arr xs)) (.value (.arr (xs ++ ys)))) (order : List (Ptr × Ptr)) (hp : order.Perm t.equivalences) :
    (∀ i p u, (Elem.value (.arr xs)).at (i :: p) = some u → scan order (.left (i :: p)) = some (.right (i :: p)) ∧ scan order (.right (i :: p)) = some (.left (i :: p)) ∧
      markOf t (.left (i :: p)) = .equ ∧ markOf t (.right (i :: p)) = .equ) ∧
    ∀ j, xs.length ≤ j → ∀ p, (∀ q, scan order (.right (j :: p)) ≠ some (.left q)) ∧ markOf t (.right (j :: p)) = .add := by
  have k1 : ∀ zs : List Json, (Elem.value (.arr zs)).kids = zs.map .value := fun zs => rfl
  have hl : (Elem.value (.arr xs)).kids.length = xs.length := by rw [k1]; simp
  have hl' : (Elem.value (.arr (xs ++ ys))).kids.length = xs.length + ys.length := by rw [k1]; simp
  have hold : ∀ (i : Nat) (u : Elem), (Elem.value (.arr xs)).kids[i]? = some u → (Elem.value (.arr (xs ++ ys))).kids[i]? = some u := by
    intro i u hu
    have hi := (List.getElem?_eq_some_iff.mp hu).1
    rw [k1, List.map_append, List.getElem?_append_left (by simpa [k1] using hi)]
    exact hu
  obtain ⟨h1, -, h3⟩ := shown_settled h sa sb hr hp (R := fun i j => i < xs.length ∧ j = i) rfl rfl (by
    intro cost l hcost hch
    rw [hl, hl'] at hch
    obtain ⟨l', hl2, hi⟩ := chosen_appended (cost := cost) (n := xs.length) (fun i hi =>
      facing_unique (hcost i i _ _ (List.getElem?_eq_getElem (by omega)) (hold i _ (List.getElem?_eq_getElem (by omega)))) (facing_self _ _)) ys.length
    rw [chosen_unique hch hl2]
    exact hi)
    (by rintro i j ⟨hi, rfl⟩; exact ⟨_, List.getElem?_eq_getElem (by omega), hold _ _ (List.getElem?_eq_getElem (by omega))⟩)
    (by rintro i j ⟨hi, rfl⟩; exact facing_inserted (f := fun i => i) rfl rfl (fun _ _ h => h) hold (by omega))
  refine ⟨fun i p u hu => (h1 i i p u ⟨?_, rfl⟩ hu).2, fun j hj p => h3 j ?_ p⟩
  · simp only [Elem.at, Option.bind_eq_some_iff] at hu
    obtain ⟨x, hx, _⟩ := hu
    have := (List.getElem?_eq_some_iff.mp hx).1
    omega
  · rintro i ⟨hi, e⟩
    omega

/-- **C137, taken from the end.** Items cut off the end of an array, whatever they are: exactly they are marked, as added too. -/
theorem C137_cut_partial (fmt : Bytes → Bytes) (xs ys : List Json) (t : Table) (h : diff fmt (.arr (xs ++ ys)) (.arr xs) = some t) (sa : ShortTexts (·.stringify fmt) (.value (.arr (xs ++ ys))))
    (sb : ShortTexts (·.stringify fmt) (.value (.arr xs))) (hr : RoomFor (·.stringify fmt) (.value (.arr (xs ++ ys))) (.value (.arr xs))) (order : List (Ptr × Ptr)) (hp : order.Perm t.equivalences) :
    (∀ i p u, (Elem.value (.arr xs)).at (i :: p) = some u → scan order (.left (i :: p)) = some (.right (i :: p)) ∧ scan order (.right (i :: p)) = some (.left (i :: p)) ∧
      markOf t (.left (i :: p)) = .equ ∧ markOf t (.right (i :: p)) = .equ) ∧
    ∀ j, xs.length ≤ j → ∀ p, (∀ q, scan order (.left (j :: p)) ≠ some (.right q)) ∧ markOf t (.left (j :: p)) = .add := by
  have k1 : ∀ zs : List Json, (Elem.value (.arr zs)).kids = zs.map .value := fun zs => rfl
  have hl : (Elem.value (.arr xs)).kids.length = xs.length := by rw [k1]; simp
  have hl' : (Elem.value (.arr (xs ++ ys))).kids.length = xs.length + ys.length := by rw [k1]; simp
  have hold : ∀ (i : Nat) (u : Elem), (Elem.value (.arr xs)).kids[i]? = some u → (Elem.value (.arr (xs ++ ys))).kids[i]? = some u := by
    intro i u hu
    have hi := (List.getElem?_eq_some_iff.mp hu).1
    rw [k1, List.map_append, List.getElem?_append_left (by simpa [k1] using hi)]
    exact hu
  obtain ⟨h1, h2, -⟩ := shown_settled h sa sb hr hp (R := fun i j => i < xs.length ∧ j = i) rfl rfl (by
    intro cost l hcost hch
    rw [hl, hl'] at hch
    obtain ⟨l', hl2, hi⟩ := chosen_chopped (cost := cost) (n := xs.length) (fun i hi =>
      facing_unique (hcost i i _ _ (hold i _ (List.getElem?_eq_getElem (by omega))) (List.getElem?_eq_getElem (by omega))) (facing_self _ _)) ys.length
    rw [chosen_unique hch hl2]
    exact hi)
    (by rintro i j ⟨hi, rfl⟩; exact ⟨_, hold _ _ (List.getElem?_eq_getElem (by omega)), List.getElem?_eq_getElem (by omega)⟩)
    (by rintro i j ⟨hi, rfl⟩; exact facing_symm (facing_inserted (f := fun i => i) rfl rfl (fun _ _ h => h) hold (by omega)))
  refine ⟨fun i p u hu => ?_, fun j hj p => h2 j ?_ p⟩
  · simp only [Elem.at, Option.bind_eq_some_iff] at hu
    obtain ⟨x, hx, hu⟩ := hu
    have := (List.getElem?_eq_some_iff.mp hx).1
    exact (h1 i i p u ⟨by omega, rfl⟩ (by rw [at_cons _ (hold i x hx)]; exact hu)).2
  · rintro i ⟨hi, e⟩
    omega

/-- The hypotheses are met: an array is inserted between two numbers. -/
example : ∃ t, diff id (.arr [.int 1, .int 2]) (.arr [.int 1, .arr [.int 7], .int 2]) = some t ∧ ShortTexts (·.stringify id) (.value (.arr [.int 1, .int 2])) ∧
    ShortTexts (·.stringify id) (.value (.arr [.int 1, .arr [.int 7], .int 2])) ∧ RoomFor (·.stringify id) (.value (.arr [.int 1, .int 2])) (.value (.arr [.int 1, .arr [.int 7], .int 2])) ∧
    ∃ f : Nat → Nat, (∀ i j, i < j → f i < f j) ∧ (∀ (i : Nat) (u : Elem), (Elem.value (.arr [.int 1, .int 2])).kids[i]? = some u → (Elem.value (.arr [.int 1, .arr [.int 7], .int 2])).kids[f i]? = some u) ∧
      (∀ (i j : Nat) (u w : Elem), (Elem.value (.arr [.int 1, .int 2])).kids[i]? = some u → (Elem.value (.arr [.int 1, .arr [.int 7], .int 2])).kids[j]? = some w →
        (∀ k < (Elem.value (.arr [.int 1, .int 2])).kids.length, f k ≠ j) → ¬ Facing (·.stringify id) u w 0) ∧ f 1 = 2 ∧ markOf t (.right [1, 0]) = .add := by
  obtain ⟨t, h1, h2⟩ := any_some (o := diff id (.arr [.int 1, .int 2]) (.arr [.int 1, .arr [.int 7], .int 2])) (p := fun t => markOf t (.right [1, 0]) = .add) (by decide +kernel)
  have ma := modest_spec (fmt := id) (n := 5) (e := .value (.arr [.int 1, .int 2])) (by decide +kernel)
  have mb := modest_spec (fmt := id) (n := 5) (e := .value (.arr [.int 1, .arr [.int 7], .int 2])) (by decide +kernel)
  refine ⟨t, h1, ma.1, mb.1, room_small ma.2 mb.2, fun i => if i = 0 then 0 else i + 1, ?_, ?_, ?_, rfl, h2⟩
  · intro i j hij
    dsimp only
    by_cases hi : i = 0
    · rw [if_pos hi, if_neg (by omega)]; omega
    · rw [if_neg hi, if_neg (by omega)]; omega
  · intro i u hu
    match i, hu with
    | 0, hu => exact hu
    | 1, hu => exact hu
    | i + 2, hu => simp [Elem.kids] at hu
  · intro i j u w hu hw hno hz
    have hj : j = 1 := by
      have h3 := (List.getElem?_eq_some_iff.mp hw).1
      have h4 := hno 0 (by decide)
      have h5 := hno 1 (by decide)
      simp [Elem.kids] at h3 h4 h5
      omega
    subst hj
    cases hw
    match i, hu with
    | 0, hu => cases hu; cases facing_unique hz (.containerRight rfl rfl)
    | 1, hu => cases hu; cases facing_unique hz (.containerRight rfl rfl)
    | i + 2, hu => simp [Elem.kids] at hu

/-- The hypotheses are met: a member is inserted before the only one. -/
example : ∃ t, diff id (.obj [([97], .int 1)]) (.obj [([48], .int 5), ([97], .int 1)]) = some t ∧ ShortTexts (·.stringify id) (.value (.obj [([97], .int 1)])) ∧
    ShortTexts (·.stringify id) (.value (.obj [([48], .int 5), ([97], .int 1)])) ∧ RoomFor (·.stringify id) (.value (.obj [([97], .int 1)])) (.value (.obj [([48], .int 5), ([97], .int 1)])) ∧
    ([(([48] : Bytes), Json.int 5), ([97], .int 1)].map (·.1)).Nodup ∧ ∃ f : Nat → Nat, (∀ i j, i < j → f i < f j) ∧
      (∀ (i : Nat) (m : Bytes × Json), [(([97] : Bytes), Json.int 1)][i]? = some m → [(([48] : Bytes), Json.int 5), ([97], .int 1)][f i]? = some m) ∧ markOf t (.right [0]) = .add := by
  obtain ⟨t, h1, h2⟩ := any_some (o := diff id (.obj [([97], .int 1)]) (.obj [([48], .int 5), ([97], .int 1)])) (p := fun t => markOf t (.right [0]) = .add) (by decide +kernel)
  have ma := modest_spec (fmt := id) (n := 5) (e := .value (.obj [([97], .int 1)])) (by decide +kernel)
  have mb := modest_spec (fmt := id) (n := 5) (e := .value (.obj [([48], .int 5), ([97], .int 1)])) (by decide +kernel)
  refine ⟨t, h1, ma.1, mb.1, room_small ma.2 mb.2, by decide, (· + 1), fun i j h => Nat.succ_lt_succ h, ?_, h2⟩
  intro i m hm
  match i, hm with
  | 0, hm => exact hm
  | i + 1, hm => simp at hm

/-- The hypotheses are met: an item equal to the only one is appended, or cut off. -/
example : (∃ t, diff id (.arr [.int 1]) (.arr ([.int 1] ++ [.int 1])) = some t ∧ markOf t (.right [1]) = .add) ∧ (∃ t, diff id (.arr ([.int 1] ++ [.int 1])) (.arr [.int 1]) = some t ∧ markOf t (.left [1]) = .add) ∧
    ShortTexts (·.stringify id) (.value (.arr [.int 1])) ∧ ShortTexts (·.stringify id) (.value (.arr ([.int 1] ++ [.int 1]))) ∧
    RoomFor (·.stringify id) (.value (.arr [.int 1])) (.value (.arr ([.int 1] ++ [.int 1]))) ∧ RoomFor (·.stringify id) (.value (.arr ([.int 1] ++ [.int 1]))) (.value (.arr [.int 1])) := by
  have ma := modest_spec (fmt := id) (n := 5) (e := .value (.arr [.int 1])) (by decide +kernel)
  have mb := modest_spec (fmt := id) (n := 5) (e := .value (.arr ([.int 1] ++ [.int 1]))) (by decide +kernel)
  exact ⟨any_some (o := diff id (.arr [.int 1]) (.arr ([.int 1] ++ [.int 1]))) (p := fun t => markOf t (.right [1]) = .add) (by decide +kernel),
    any_some (o := diff id (.arr ([.int 1] ++ [.int 1])) (.arr [.int 1])) (p := fun t => markOf t (.left [1]) = .add) (by decide +kernel), ma.1, mb.1, room_small ma.2 mb.2, room_small mb.2 ma.2⟩

/-- **C137 is false as stated**: a number is inserted before one that differs from it in the last digit. The inserted one is marked as equal and faces the old one, which is marked as added in the second document. -/
theorem C137_inserted_false : ∃ t, diff id (.arr [.int 1000000001]) (.arr [.int 1000000000, .int 1000000001]) = some t ∧
    markOf t (.right [0]) = .equ ∧ markOf t (.right [1]) = .add ∧ scan t.equivalences (.left [0]) = some (.right [0]) :=
  any_some (o := diff id (.arr [.int 1000000001]) (.arr [.int 1000000000, .int 1000000001]))
    (p := fun t => markOf t (.right [0]) = .equ ∧ markOf t (.right [1]) = .add ∧ scan t.equivalences (.left [0]) = some (.right [0])) (by decide +kernel)

end Verif.Props
