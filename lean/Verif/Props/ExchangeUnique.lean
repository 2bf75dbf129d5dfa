import Verif.Props.Comparison
/-! # C133: exchanging the two documents when no two alignments cost the same -/
namespace Verif.Props
open Verif.Model Verif.Model.Diff Verif.Spec Verif.Lemmas.Diff

/-- No two cheapest alignments: in any two opposite containers, only one alignment of the children has the least cost. -/
def NoTies (text : Json → Bytes) (a b : Elem) : Prop :=
  ∀ p q x y cost, Opposed text a b p q → a.at p = some x → b.at q = some y → x.isContainer = true → y.isContainer = true →
    (∀ (i j : Nat) (u w : Elem), x.kids[i]? = some u → y.kids[j]? = some w → Facing text u w (cost i j)) →
    ∀ l l' d, Least cost x.kids.length y.kids.length d → Align cost x.kids.length y.kids.length l d → Align cost x.kids.length y.kids.length l' d → l = l'

theorem align_swap {cost : Nat → Nat → Nat} {n m d : Nat} {l : List (Nat × Nat)} (h : Align cost n m l d) : Align (fun j i => cost i j) m n (l.map fun e => (e.2, e.1)) d := by
  induction h with
  | done => exact .done
  | aloneLeft _ ih => exact .aloneRight ih
  | aloneRight _ ih => exact .aloneLeft ih
  | facing _ ih => exact .facing ih

theorem least_swap {cost : Nat → Nat → Nat} {n m d : Nat} (h : Least cost n m d) : Least (fun j i => cost i j) m n d := by
  obtain ⟨⟨l, hl⟩, h2⟩ := h
  exact ⟨⟨_, align_swap hl⟩, fun l' d' h' => h2 _ _ (align_swap h')⟩

theorem sameKind_symm (v v' : Json) : sameKind v v' = sameKind v' v := by cases v <;> cases v' <;> rfl

theorem comparable_symm (x y : Elem) : comparable x y = comparable y x := by
  cases x <;> cases y <;> first | rfl | exact sameKind_symm _ _

theorem facing_symm {text : Json → Bytes} {x y : Elem} {c : Nat} (h : Facing text x y c) : Facing text y x c := by
  induction h with
  | near h1 h2 h3 => exact .near h2 h1 (near_symm h3)
  | far h1 h2 h3 => exact .far h2 h1 fun h => h3 (near_symm h)
  | sameKey _ ih => exact .sameKey ih
  | otherKey h => exact .otherKey fun e => h e.symm
  | entryLeft h => exact .entryRight h
  | entryRight h => exact .entryLeft h
  | containerLeft h1 h2 => exact .containerRight h2 h1
  | containerRight h1 h2 => exact .containerLeft h2 h1
  | containers h1 h2 _ h4 h5 ih =>
    rw [Nat.max_comm]
    exact .containers h2 h1 (fun i j u w hu hw => ih j i w u hw hu) (align_swap h4) (fun l d h => h5 _ _ (align_swap h))

theorem signsFor_symm (c : Bool) (x y : Elem) : signsFor c y x = ((signsFor c x y).2, (signsFor c x y).1) := by
  unfold signsFor
  rw [comparable_symm y x]
  cases x.isContainer <;> cases y.isContainer <;> cases comparable x y <;> cases c <;> rfl

theorem room_symm {text : Json → Bytes} {a b : Elem} (h : RoomFor text a b) : RoomFor text b a := by
  intro p q x y cost hpq hx hy cx cy hf
  obtain ⟨h1, h2⟩ := h q p y x (fun i j => cost j i) hpq.symm hy hx cy cx fun i j u w hu hw => facing_symm (hf j i w u hw hu)
  have e : cellLimit x.kids.length y.kids.length = cellLimit y.kids.length x.kids.length := by unfold cellLimit; rw [Nat.max_comm]
  rw [e]
  refine ⟨by omega, fun i j d hi hj hd => ?_⟩
  obtain ⟨g1, g2⟩ := h2 j i d hj hi (least_swap hd)
  exact ⟨g1, fun k1 k2 => g2 k2 k1⟩

theorem noTies_kid {text : Json → Bytes} {a b x y : Elem} {i j : Nat} (h : NoTies text a b) (hx : a.kids[i]? = some x) (hy : b.kids[j]? = some y)
    (ho : ∀ p q, Opposed text x y p q → Opposed text a b (i :: p) (j :: q)) : NoTies text x y := by
  intro p q u w cost hp hu hw
  exact h (i :: p) (j :: q) u w cost (ho p q hp) (by rw [at_cons _ hx]; exact hu) (by rw [at_cons _ hy]; exact hw)

theorem mem_swap {l : List (Nat × Nat)} {i j : Nat} : (j, i) ∈ l.map (fun e => (e.2, e.1)) ↔ (i, j) ∈ l := by
  simp only [List.mem_map, Prod.mk.injEq, Prod.exists]
  constructor
  · rintro ⟨a, b, h, rfl, rfl⟩; exact h
  · intro h; exact ⟨i, j, h, rfl, rfl⟩

theorem opposed_symm {text : Json → Bytes} {a b : Elem} {p q : Path} (h : Opposed text a b p q) (hn : NoTies text a b) : Opposed text b a q p := by
  induction h with
  | here => exact .here
  | @values k v v' p q _ ih => exact .values (ih (noTies_kid (i := 0) (j := 0) hn rfl rfl fun p q h => .values h))
  | @children a b x y cost pairs i j p q c1 c2 hf hcost hch hm hx hy ho ih =>
    have hk := noTies_kid hn hx hy fun p q h => .children c1 c2 hf hcost hch hm hx hy h
    obtain ⟨l', hl'⟩ := chosen_exists (fun j i => cost i j) b.kids.length a.kids.length
    obtain ⟨d, g1, g2⟩ := chosen_align hch
    obtain ⟨d', g3, g4⟩ := chosen_align hl'
    have e : d' = d := least_unique g4 (least_swap g2)
    subst e
    have := hn [] [] a b cost .here rfl rfl c1 c2 hcost _ _ _ g2 g1 (align_swap g3)
    rw [this] at hm
    exact .children c2 c1 (facing_symm hf) (fun i j u w hu hw => facing_symm (hcost j i w u hw hu)) hl' (mem_swap.mp hm) hy hx (ih hk)

theorem opposed_symm' {text : Json → Bytes} {a b : Elem} {p q : Path} (h : Opposed text b a q p) (hn : NoTies text a b) : Opposed text a b p q := by
  induction h with
  | here => exact .here
  | @values k v v' p q _ ih => exact .values (ih (noTies_kid (i := 0) (j := 0) hn rfl rfl fun p q h => .values h))
  | @children b a y x cost pairs j i q p c2 c1 hf hcost hch hm hy hx ho ih =>
    obtain ⟨l', hl'⟩ := chosen_exists (fun i j => cost j i) a.kids.length b.kids.length
    obtain ⟨d, g1, g2⟩ := chosen_align hch
    obtain ⟨d', g3, g4⟩ := chosen_align hl'
    have e : d' = d := least_unique g4 (least_swap g2)
    subst e
    have hcost' : ∀ (i j : Nat) (u w : Elem), a.kids[i]? = some u → b.kids[j]? = some w → Facing text u w ((fun i j => cost j i) i j) :=
      fun i j u w hu hw => facing_symm (hcost j i w u hw hu)
    have := hn [] [] a b (fun i j => cost j i) .here rfl rfl c1 c2 hcost' _ _ _ g4 g3 (align_swap g1)
    have hm' : (i, j) ∈ l' := by rw [this]; exact mem_swap.mpr hm
    have hk := noTies_kid hn hx hy fun p q h => .children c1 c2 (facing_symm hf) hcost' hl' hm' hx hy h
    exact .children c1 c2 (facing_symm hf) hcost' hl' hm' hx hy (ih hk)

theorem isChild_opposed {text : Json → Bytes} {a b : Elem} {p q : Path} (h : Opposed text a b p q) : IsChild a p → IsChild b q := by
  induction h with
  | here => exact fun h => absurd h isChild_nil
  | @values k v v' p q ho ih =>
    intro h
    by_cases hp : p = []
    · subst hp
      cases isChild_single.mp h
    · have hq : q ≠ [] := by
        rintro rfl
        cases ho
        exact hp rfl
      exact (isChild_cons rfl hq).mpr (ih ((isChild_cons rfl hp).mp h))
  | @children a b x y cost pairs i j p q c1 c2 hf hcost hch hm hx hy ho ih =>
    intro h
    by_cases hp : p = []
    · have hq : q = [] := by
        subst hp
        cases ho
        rfl
      subst hq
      exact isChild_single.mpr c2
    · have hq : q ≠ [] := by
        rintro rfl
        cases ho
        exact hp rfl
      exact (isChild_cons hy hq).mpr (ih ((isChild_cons hx hp).mp h))

theorem matched_symm {text : Json → Bytes} {x y : Elem} (h : Matched text x y) : Matched text y x := by
  obtain ⟨h1, h2, h3⟩ | h := h
  · exact .inl ⟨h2, h1, facing_symm h3⟩
  · exact .inr (by rw [comparable_symm]; exact h)

/-- If what is opposite each other does not depend on the order of the documents, the comparison does not. -/
theorem exchanged (fmt : Bytes → Bytes) (a b : Json) (t t' : Table) (h : diff fmt a b = some t) (h' : diff fmt b a = some t')
    (sa : ShortTexts (·.stringify fmt) (.value a)) (sb : ShortTexts (·.stringify fmt) (.value b)) (hr : RoomFor (·.stringify fmt) (.value a) (.value b))
    (ho : ∀ p q, Opposed (·.stringify fmt) (.value a) (.value b) p q ↔ Opposed (·.stringify fmt) (.value b) (.value a) q p)
    (order order' : List (Ptr × Ptr)) (hp : order.Perm t.equivalences) (hp' : order'.Perm t'.equivalences) :
    (∀ p q, scan order (.left p) = some (.right q) ↔ scan order' (.left q) = some (.right p)) ∧
    (∀ p q, scan order (.right q) = some (.left p) ↔ scan order' (.right p) = some (.left q)) ∧
    (∀ p, markOf t (.left p) = markOf t' (.right p)) ∧ (∀ q, markOf t (.right q) = markOf t' (.left q)) := by
  obtain ⟨a1, a2, a3, a4, a5⟩ := C135_comparison fmt a b t h sa sb hr order hp
  obtain ⟨b1, b2, b3, b4, b5⟩ := C135_comparison fmt b a t' h' sb sa (room_symm hr) order' hp'
  have one : ∀ p q, scan order (.left p) = some (.right q) ↔ scan order' (.left q) = some (.right p) := by
    intro p q
    rw [a1, b1, ho]
    constructor
    · rintro ⟨h1, h2 | ⟨x, y, e1, e2, e3⟩⟩
      · exact ⟨h1, .inl (isChild_opposed ((ho p q).mpr h1) h2)⟩
      · exact ⟨h1, .inr ⟨y, x, e2, e1, matched_symm e3⟩⟩
    · rintro ⟨h1, h2 | ⟨x, y, e1, e2, e3⟩⟩
      · exact ⟨h1, .inl (isChild_opposed h1 h2)⟩
      · exact ⟨h1, .inr ⟨y, x, e2, e1, matched_symm e3⟩⟩
  have marks : ∀ p q, Opposed (·.stringify fmt) (.value a) (.value b) p q → markOf t (.left p) = markOf t' (.right p) ∧ markOf t (.right q) = markOf t' (.left q) := by
    intro p q hop
    obtain ⟨x, y, c, e1, e2, e3, e4⟩ := a3 p q hop
    obtain ⟨y', x', c', f1, f2, f3, f4⟩ := b3 q p ((ho p q).mp hop)
    rw [e1] at f2; cases f2
    rw [e2] at f1; cases f1
    rw [facing_unique (facing_symm f3) e3, signsFor_symm] at f4
    have g1 := congrArg Prod.fst e4
    have g2 := congrArg Prod.snd e4
    have k1 := congrArg Prod.fst f4
    have k2 := congrArg Prod.snd f4
    exact ⟨g1.trans k2.symm, g2.trans k1.symm⟩
  refine ⟨one, fun p q => by rw [a2, b2]; exact one p q, fun p => ?_, fun q => ?_⟩
  · by_cases hex : ∃ q, Opposed (·.stringify fmt) (.value a) (.value b) p q
    · obtain ⟨q, hop⟩ := hex
      exact (marks p q hop).1
    · rw [a4 p fun q hq => hex ⟨q, hq⟩, b5 p fun q hq => hex ⟨q, (ho p q).mpr hq⟩]
  · by_cases hex : ∃ p, Opposed (·.stringify fmt) (.value a) (.value b) p q
    · obtain ⟨p, hop⟩ := hex
      exact (marks p q hop).2
    · rw [a5 q fun p hp => hex ⟨p, hp⟩, b4 q fun p hp => hex ⟨p, (ho p q).mpr hp⟩]

/-- **C133, when there is only one cheapest alignment of the children of any two opposite containers** (and sums fit the cells, and texts are shorter than 16 MiB): comparing the documents the other way round shows the same with left and right
exchanged, counterparts and signs. -/
theorem C133_exchange_unique_partial (fmt : Bytes → Bytes) (a b : Json) (t t' : Table) (h : diff fmt a b = some t) (h' : diff fmt b a = some t')
    (sa : ShortTexts (·.stringify fmt) (.value a)) (sb : ShortTexts (·.stringify fmt) (.value b)) (hr : RoomFor (·.stringify fmt) (.value a) (.value b))
    (hn : NoTies (·.stringify fmt) (.value a) (.value b)) (order order' : List (Ptr × Ptr)) (hp : order.Perm t.equivalences) (hp' : order'.Perm t'.equivalences) :
    (∀ p q, scan order (.left p) = some (.right q) ↔ scan order' (.left q) = some (.right p)) ∧
    (∀ p q, scan order (.right q) = some (.left p) ↔ scan order' (.right p) = some (.left q)) ∧
    (∀ p, markOf t (.left p) = markOf t' (.right p)) ∧ (∀ q, markOf t (.right q) = markOf t' (.left q)) :=
  exchanged fmt a b t t' h h' sa sb hr (fun p q => ⟨fun h => opposed_symm h hn, fun h => opposed_symm' h hn⟩) order order' hp hp'

/-- All alignments of `n` children with `m` children, with their costs. -/
def everyAlign (cost : Nat → Nat → Nat) : Nat → Nat → List (List (Nat × Nat) × Nat)
  | 0, 0 => [([], 0)]
  | i + 1, 0 => (everyAlign cost i 0).map fun e => (e.1, e.2 + 1)
  | 0, j + 1 => (everyAlign cost 0 j).map fun e => (e.1, e.2 + 1)
  | i + 1, j + 1 => (everyAlign cost i (j + 1)).map (fun e => (e.1, e.2 + 1)) ++ (everyAlign cost (i + 1) j).map (fun e => (e.1, e.2 + 1)) ++
      (everyAlign cost i j).map fun e => ((i, j) :: e.1, e.2 + cost i j)

theorem everyAlign_complete {cost : Nat → Nat → Nat} {n m d : Nat} {l : List (Nat × Nat)} (h : Align cost n m l d) : (l, d) ∈ everyAlign cost n m := by
  induction h with
  | done => simp [everyAlign]
  | @aloneLeft i j t l _ ih =>
    cases j with
    | zero => rw [everyAlign]; exact List.mem_map.mpr ⟨_, ih, rfl⟩
    | succ j => rw [everyAlign]; exact List.mem_append_left _ (List.mem_append_left _ (List.mem_map.mpr ⟨_, ih, rfl⟩))
  | @aloneRight i j t l _ ih =>
    cases i with
    | zero => rw [everyAlign]; exact List.mem_map.mpr ⟨_, ih, rfl⟩
    | succ i => rw [everyAlign]; exact List.mem_append_left _ (List.mem_append_right _ (List.mem_map.mpr ⟨_, ih, rfl⟩))
  | facing _ ih => rw [everyAlign]; exact List.mem_append_right _ (List.mem_map.mpr ⟨_, ih, rfl⟩)

/-- The hypotheses of `C133_exchange_unique_partial` at work: `[1, 2, 3]` and `[2, 3]`, where the one cheapest alignment leaves the 1 alone. -/
example : ∃ t t', diff id (.arr [.int 1, .int 2, .int 3]) (.arr [.int 2, .int 3]) = some t ∧ diff id (.arr [.int 2, .int 3]) (.arr [.int 1, .int 2, .int 3]) = some t' ∧
    ShortTexts (·.stringify id) (.value (.arr [.int 1, .int 2, .int 3])) ∧ ShortTexts (·.stringify id) (.value (.arr [.int 2, .int 3])) ∧
    RoomFor (·.stringify id) (.value (.arr [.int 1, .int 2, .int 3])) (.value (.arr [.int 2, .int 3])) ∧ NoTies (·.stringify id) (.value (.arr [.int 1, .int 2, .int 3])) (.value (.arr [.int 2, .int 3])) ∧
    scan t.equivalences (.left [1]) = some (.right [0]) ∧ scan t'.equivalences (.left [0]) = some (.right [1]) ∧ markOf t (.left [0]) = .add ∧ markOf t' (.right [0]) = .add := by
  obtain ⟨t, h1, h2⟩ := any_some (o := diff id (.arr [.int 1, .int 2, .int 3]) (.arr [.int 2, .int 3]))
    (p := fun t => scan t.equivalences (.left [1]) = some (.right [0]) ∧ markOf t (.left [0]) = .add) (by decide +kernel)
  obtain ⟨t', h1', h2'⟩ := any_some (o := diff id (.arr [.int 2, .int 3]) (.arr [.int 1, .int 2, .int 3]))
    (p := fun t => scan t.equivalences (.left [0]) = some (.right [1]) ∧ markOf t (.right [0]) = .add) (by decide +kernel)
  have ma := modest_spec (fmt := id) (n := 5) (e := .value (.arr [.int 1, .int 2, .int 3])) (by decide +kernel)
  have mb := modest_spec (fmt := id) (n := 5) (e := .value (.arr [.int 2, .int 3])) (by decide +kernel)
  refine ⟨t, t', h1, h1', ma.1, mb.1, room_small ma.2 mb.2, ?_, h2.1, h2'.1, h2.2, h2'.2⟩
  intro p q x y cost hop hx hy cx cy hcost l l' d hl ha hb
  have leaf : ∀ (c : Nat) (p : Path) (x : Elem), (Elem.value (.int c)).at p = some x → x.isContainer = true → False := by
    intro c p x h hc
    cases p with
    | nil => cases h; cases hc
    | cons i p => simp [Elem.at, Elem.kids] at h
  have hp : p = [] := by
    match p with
    | [] => rfl
    | 0 :: p => exact (leaf 1 p x hx cx).elim
    | 1 :: p => exact (leaf 2 p x hx cx).elim
    | 2 :: p => exact (leaf 3 p x hx cx).elim
    | (n + 3) :: p => simp [Elem.at, Elem.kids] at hx
  have hq : q = [] := by
    match q with
    | [] => rfl
    | 0 :: p => exact (leaf 2 p y hy cy).elim
    | 1 :: p => exact (leaf 3 p y hy cy).elim
    | (n + 2) :: p => simp [Elem.at, Elem.kids] at hy
  subst hp hq
  cases hx
  cases hy
  have far : ∀ (u w : Nat), Json.stringify id (.int u) ≠ Json.stringify id (.int w) → (Json.stringify id (.int u)).length = 1 → (Json.stringify id (.int w)).length = 1 →
      Facing (·.stringify id) (.value (.int u)) (.value (.int w)) 1 := by
    intro u w hne e1 e2
    refine .far (by intro h; cases h) (by intro h; cases h) ?_
    rintro (h | ⟨n, h3, h4⟩)
    · exact hne h
    · rw [e1, e2] at h4
      have : n = 0 := by simp at h4; omega
      subst this
      generalize Json.stringify id (.int u) = s1 at h3 hne
      generalize Json.stringify id (.int w) = s2 at h3 hne
      cases h3
      exact hne rfl
  have near : ∀ u : Nat, Facing (·.stringify id) (.value (.int u)) (.value (.int u)) 0 := fun u => .near (by intro h; cases h) (by intro h; cases h) (.inl rfl)
  have e : ∀ i < 3, ∀ j < 2, cost i j = (fun i j => if i = j + 1 then 0 else 1) i j := by
    intro i hi j hj
    have c00 := facing_unique (hcost 0 0 _ _ rfl rfl) (far 1 2 (by decide +kernel) (by decide +kernel) (by decide +kernel))
    have c01 := facing_unique (hcost 0 1 _ _ rfl rfl) (far 1 3 (by decide +kernel) (by decide +kernel) (by decide +kernel))
    have c10 := facing_unique (hcost 1 0 _ _ rfl rfl) (near 2)
    have c11 := facing_unique (hcost 1 1 _ _ rfl rfl) (far 2 3 (by decide +kernel) (by decide +kernel) (by decide +kernel))
    have c20 := facing_unique (hcost 2 0 _ _ rfl rfl) (far 3 2 (by decide +kernel) (by decide +kernel) (by decide +kernel))
    have c21 := facing_unique (hcost 2 1 _ _ rfl rfl) (near 3)
    match i, j with
    | 0, 0 => exact c00
    | 0, 1 => exact c01
    | 1, 0 => exact c10
    | 1, 1 => exact c11
    | 2, 0 => exact c20
    | 2, 1 => exact c21
    | i + 3, _ => omega
    | _, j + 2 => omega
  have one : ∀ e ∈ everyAlign (fun i j => if i = j + 1 then 0 else 1) 3 2, e.2 ≤ 1 → e.1 = [(2, 1), (1, 0)] := by
    simp only [everyAlign]
    decide +kernel
  have low : d ≤ 1 := hl.2 [(2, 1), (1, 0)] 1 (align_cost (f := fun i j => if i = j + 1 then 0 else 1) (.facing (.facing (.aloneLeft .done))) fun i hi j hj => (e i hi j hj).symm)
  exact (one _ (everyAlign_complete (align_cost ha e)) low).trans (one _ (everyAlign_complete (align_cost hb e)) low).symm

end Verif.Props
