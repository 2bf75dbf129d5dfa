import Verif.Props.Edited
/-! # C140: arrays of records -/
namespace Verif.Props
open Verif.Model Verif.Model.Diff Verif.Spec Verif.Lemmas.Diff

theorem align_function {cost : Nat → Nat → Nat} {n m d : Nat} {l : List (Nat × Nat)} (h : Align cost n m l d) {i j i' j' : Nat} (h1 : (i, j) ∈ l) (h2 : (i', j') ∈ l) : i = i' ↔ j = j' := by
  induction h with
  | done => cases h1
  | aloneLeft _ ih => exact ih h1 h2
  | aloneRight _ ih => exact ih h1 h2
  | @facing n m t l h ih =>
    rcases List.mem_cons.mp h1 with e1 | g1 <;> rcases List.mem_cons.mp h2 with e2 | g2
    · cases e1; cases e2; exact ⟨fun _ => rfl, fun _ => rfl⟩
    · cases e1; have := align_range h g2; omega
    · cases e2; have := align_range h g1; omega
    · exact ih g1 g2

/-- What is opposite an element is determined. -/
theorem opposed_function {text : Json → Bytes} {a b : Elem} {p q : Path} (h : Opposed text a b p q) : ∀ {p' q'}, Opposed text a b p' q' → (p = p' ↔ q = q') := by
  induction h with
  | here =>
    intro p' q' h'
    have := opposed_length h'
    match p', q', this with
    | [], [], _ => exact ⟨fun _ => rfl, fun _ => rfl⟩
    | _ :: _, _ :: _, _ => exact ⟨fun e => (by cases e), fun e => by cases e⟩
  | values _ ih =>
    intro p' q' h'
    cases h' with
    | here => exact ⟨fun e => (by cases e), fun e => by cases e⟩
    | values h' => rw [List.cons.injEq, List.cons.injEq]; exact and_congr Iff.rfl (ih h')
    | children c1 => cases c1
  | @children a b x y cost pairs i j p q c1 c2 hf hc hch hm hx hy ho ih =>
    intro p' q' h'
    cases h' with
    | here => exact ⟨fun e => (by cases e), fun e => by cases e⟩
    | values => cases c1
    | @children _ _ x' y' cost' pairs' i' j' p' q' c1' c2' hf' hc' hch' hm' hx' hy' ho' =>
      have e : pairs' = pairs := chosen_unique (chosen_cost hch' fun i hi j hj =>
        facing_unique (hc' i j _ _ (List.getElem?_eq_getElem hi) (List.getElem?_eq_getElem hj)) (hc i j _ _ (List.getElem?_eq_getElem hi) (List.getElem?_eq_getElem hj))) hch
      subst e
      obtain ⟨d, hd, _⟩ := chosen_align hch
      have hij := align_function hd hm hm'
      rw [List.cons.injEq, List.cons.injEq]
      constructor
      · rintro ⟨rfl, e⟩
        have := hij.mp rfl
        subst this
        rw [hx] at hx'; cases hx'
        rw [hy] at hy'; cases hy'
        exact ⟨rfl, (ih ho').mp e⟩
      · rintro ⟨rfl, e⟩
        have := hij.mpr rfl
        subst this
        rw [hx] at hx'; cases hx'
        rw [hy] at hy'; cases hy'
        exact ⟨rfl, (ih ho').mpr e⟩

theorem opposed_prefix {text : Json → Bytes} {r s : Path} : ∀ (p q : Path) {a b : Elem}, p.length = q.length → Opposed text a b (p ++ r) (q ++ s) → Opposed text a b p q
  | [], [], _, _, _, _ => .here
  | [], _ :: _, _, _, e, _ => by cases e
  | _ :: _, [], _, _, e, _ => by cases e
  | i :: p, j :: q, a, b, e, h => by
    cases h with
    | values h => exact .values (opposed_prefix p q (by simpa using e) h)
    | children c1 c2 hf hc hch hm hx hy h => exact .children c1 c2 hf hc hch hm hx hy (opposed_prefix p q (by simpa using e) h)

/-- What is opposite a descendant of an element is a descendant of what is opposite the element. -/
theorem opposed_below {text : Json → Bytes} {a b x y : Elem} {p q r : Path} (h : Opposed text a b p q) (hx : a.at p = some x) (hy : b.at q = some y) :
    (∀ q', Opposed text a b (p ++ r) q' → ∃ s, q' = q ++ s ∧ Opposed text x y r s) ∧ (∀ p', Opposed text a b p' (q ++ r) → ∃ s, p' = p ++ s ∧ Opposed text x y s r) := by
  have hlen := opposed_length h
  constructor
  · intro q' h'
    have hl := opposed_length h'
    rw [List.length_append] at hl
    have e : q' = q'.take p.length ++ q'.drop p.length := (List.take_append_drop ..).symm
    have hl2 : p.length = (q'.take p.length).length := by rw [List.length_take]; omega
    rw [e] at h'
    have e2 : q = q'.take p.length := (opposed_function h (opposed_prefix p _ hl2 h')).mp rfl
    obtain ⟨u, w, h1, h2, h3⟩ := opposed_split p _ hl2 h'
    rw [hx] at h1; cases h1
    rw [← e2, hy] at h2; cases h2
    exact ⟨q'.drop p.length, by rw [← e2] at e; exact e, h3⟩
  · intro p' h'
    have hl := opposed_length h'
    rw [List.length_append] at hl
    have e : p' = p'.take q.length ++ p'.drop q.length := (List.take_append_drop ..).symm
    have hl2 : (p'.take q.length).length = q.length := by rw [List.length_take]; omega
    rw [e] at h'
    have e2 : p = p'.take q.length := (opposed_function h (opposed_prefix _ q hl2 h')).mpr rfl
    obtain ⟨u, w, h1, h2, h3⟩ := opposed_split _ q hl2 h'
    rw [← e2, hx] at h1; cases h1
    rw [hy] at h2; cases h2
    exact ⟨p'.drop q.length, by rw [← e2] at e; exact e, h3⟩

/-- Containers each child of which resembles the one in the same place. -/
theorem settled_places {text : Json → Bytes} {a b : Elem} (ca : a.isContainer = true) (cb : b.isContainer = true) (h0 : 0 < a.kids.length) (h0' : 0 < b.kids.length)
    (hz : ∀ (i : Nat) (u w : Elem), a.kids[i]? = some u → b.kids[i]? = some w → Facing text u w 0) : Settled text a b fun i j => i < min a.kids.length b.kids.length ∧ j = i := by
  by_cases hn : a.kids.length ≤ b.kids.length
  · rw [Nat.min_eq_left hn]; exact settled_appended ca cb h0 hn hz
  · rw [Nat.min_eq_right (by omega)]; exact settled_cut ca cb h0' (by omega) hz

/-- **C140, what is shown instead.** If each child of a container resembles the child with the same number of its counterpart (as in arrays of records, any two of which have a member in common), then they face each other, whatever was
inserted or removed where, and what is beyond the end of the shorter one is marked as added. (The documents themselves, or any two containers inside that are each other's counterparts.) -/
theorem C140_by_position_partial (fmt : Bytes → Bytes) (a b : Json) (t : Table) (h : diff fmt a b = some t) (sa : ShortTexts (·.stringify fmt) (.value a)) (sb : ShortTexts (·.stringify fmt) (.value b))
    (hr : RoomFor (·.stringify fmt) (.value a) (.value b)) (order : List (Ptr × Ptr)) (hp : order.Perm t.equivalences) (p q : Path) (x y : Elem)
    (ho : (p = [] ∧ q = []) ∨ scan order (.left p) = some (.right q)) (hx : (Elem.value a).at p = some x) (hy : (Elem.value b).at q = some y) (cx : x.isContainer = true) (cy : y.isContainer = true)
    (hz : ∀ (i : Nat) (u w : Elem), x.kids[i]? = some u → y.kids[i]? = some w → Facing (·.stringify fmt) u w 0) :
    (∀ (i : Nat) (u w : Elem), x.kids[i]? = some u → y.kids[i]? = some w → scan order (.left (p ++ [i])) = some (.right (q ++ [i])) ∧ scan order (.right (q ++ [i])) = some (.left (p ++ [i])) ∧
      (u.isContainer = true ∨ comparable u w = true → markOf t (.left (p ++ [i])) = .equ ∧ markOf t (.right (q ++ [i])) = .equ)) ∧
    (∀ i r, y.kids.length ≤ i → markOf t (.left (p ++ i :: r)) = .add ∧ ∀ q', scan order (.left (p ++ i :: r)) ≠ some (.right q')) ∧
    (∀ i r, x.kids.length ≤ i → markOf t (.right (q ++ i :: r)) = .add ∧ ∀ p', scan order (.right (q ++ i :: r)) ≠ some (.left p')) := by
  obtain ⟨a1, a2, a3, a4, a5⟩ := C135_comparison fmt a b t h sa sb hr order hp
  have hop : Opposed (·.stringify fmt) (.value a) (.value b) p q := by
    rcases ho with ⟨rfl, rfl⟩ | ho
    · exact .here
    · exact ((a1 p q).mp ho).1
  -- what is opposite below
  have hkids : ∀ r s, Opposed (·.stringify fmt) x y r s → ∀ i r', r = i :: r' → i < min x.kids.length y.kids.length ∧ ∃ s', s = i :: s' := by
    intro r s hrs i r' e
    subst e
    cases hrs with
    | values => cases cx
    | @children _ _ u w cost pairs _ j _ s _ _ _ hcost hch hm hu hw _ =>
      have h1 := (List.getElem?_eq_some_iff.mp hu).1
      have h2 := (List.getElem?_eq_some_iff.mp hw).1
      have := (settled_places cx cy (by omega) (by omega) hz).pairs cost pairs hcost hch i j
      obtain ⟨h3, rfl⟩ := this.mp hm
      exact ⟨h3, s, rfl⟩
  refine ⟨fun i u w hu hw => ?_, fun i r hi => ?_, fun i r hi => ?_⟩
  · have h1 := (List.getElem?_eq_some_iff.mp hu).1
    have h2 := (List.getElem?_eq_some_iff.mp hw).1
    have hs := settled_places cx cy (by omega) (by omega) hz
    have hii : Opposed (·.stringify fmt) x y [i] [i] := (opposed_places cx cy hs _ _).mpr (.inr ⟨i, i, [], [], u, w, ⟨by omega, rfl⟩, rfl, rfl, hu, hw, .here⟩)
    have hk := opposed_append hop hx hy hii
    have hsc := (a1 (p ++ [i]) (q ++ [i])).mpr ⟨hk, .inl ⟨p, i, x, rfl, hx, cx⟩⟩
    refine ⟨hsc, (a2 _ _).mpr hsc, fun hc => ?_⟩
    obtain ⟨u', w', c, e1, e2, e3, e4⟩ := a3 _ _ hk
    have au : (Elem.value a).at (p ++ [i]) = some u := at_append hx (by rw [at_cons _ hu]; rfl)
    have bw : (Elem.value b).at (q ++ [i]) = some w := at_append hy (by rw [at_cons _ hw]; rfl)
    rw [au] at e1; cases e1
    rw [bw] at e2; cases e2
    cases facing_unique e3 (hz i u w hu hw)
    have hsig : signsFor true u w = (.equ, .equ) := by
      unfold signsFor
      rcases hc with hc | hc
      · have hc' : w.isContainer = true := by
          by_cases hw' : w.isContainer = true
          · exact hw'
          · cases facing_unique (hz i u w hu hw) (.containerLeft hc (by simpa using hw'))
        rw [if_pos hc, if_pos hc']; rfl
      · have hn : u.isContainer = false ∧ w.isContainer = false := by
          match u, w, hc with
          | .entry _ _, .entry _ _, _ => exact ⟨rfl, rfl⟩
          | .value v, .value v', hc => cases v <;> cases v' <;> first | exact ⟨rfl, rfl⟩ | cases hc
        rw [hn.1, hn.2, hc]; rfl
    rw [decide_eq_true rfl, hsig] at e4
    exact ⟨congrArg Prod.fst e4, congrArg Prod.snd e4⟩
  · have hno : ∀ q', ¬ Opposed (·.stringify fmt) (.value a) (.value b) (p ++ i :: r) q' := by
      intro q' hq
      obtain ⟨s, _, hrs⟩ := (opposed_below (r := i :: r) hop hx hy).1 q' hq
      have := (hkids _ _ hrs i r rfl).1
      omega
    exact ⟨a4 _ hno, fun q' hq => hno q' ((a1 _ _).mp hq).1⟩
  · have hno : ∀ p', ¬ Opposed (·.stringify fmt) (.value a) (.value b) p' (q ++ i :: r) := by
      intro p' hq
      obtain ⟨s, _, hrs⟩ := (opposed_below (r := i :: r) hop hx hy).2 p' hq
      match s, opposed_length hrs with
      | i' :: s', _ =>
        obtain ⟨h1, s2, e⟩ := hkids _ _ hrs i' s' rfl
        cases e
        omega
    exact ⟨a5 _ hno, fun p' hq => hno p' ((a1 _ _).mp ((a2 _ _).mp hq)).1⟩

/-- Two records with the same member `k`. -/
def record140 (n : Int) : Json := .obj [(b!"id", .int n), (b!"k", .int 7)]

/-- **C140 is false as stated**: a record is inserted before another one. The new one faces the old one and is marked as equal, the old one is marked as added in the second document. -/
theorem C140_records_false : ∃ t, diff id (.arr [record140 1]) (.arr [record140 2, record140 1]) = some t ∧
    markOf t (.right [0]) = .equ ∧ scan t.equivalences (.left [0]) = some (.right [0]) ∧ markOf t (.right [1]) = .add ∧ markOf t (.left [0, 0]) = .mod :=
  any_some (o := diff id (.arr [record140 1]) (.arr [record140 2, record140 1]))
    (p := fun t => markOf t (.right [0]) = .equ ∧ scan t.equivalences (.left [0]) = some (.right [0]) ∧ markOf t (.right [1]) = .add ∧ markOf t (.left [0, 0]) = .mod) (by decide +kernel)

/-- Such records resemble each other. -/
theorem records140 (n m : Int) : Facing (·.stringify id) (.value (record140 n)) (.value (record140 m)) 0 := by
  have e : ∀ n, (Elem.value (record140 n)).kids = [.entry b!"id" (.int n), .entry b!"k" (.int 7)] := fun n => rfl
  obtain ⟨cost, hcost⟩ := costs_exist (·.stringify id) (.value (record140 n)) (.value (record140 m))
  refine facing_straight rfl rfl rfl hcost ?_ ⟨1, by rw [e]; exact Nat.lt_succ_self 1, facing_unique (hcost 1 1 _ _ rfl rfl) (facing_self _ _)⟩
  intro i hi
  match i, hi with
  | 0, _ =>
    have h := hcost 0 0 _ _ rfl rfl
    by_cases hn : Near ((Json.int n).stringify id) ((Json.int m).stringify id)
    · rw [facing_unique h (.sameKey (.near (fun h => h) (fun h => h) hn))]; omega
    · rw [facing_unique h (.sameKey (.far (fun h => h) (fun h => h) hn))]; exact Nat.le_refl _
  | 1, _ => rw [facing_unique (hcost 1 1 _ _ rfl rfl) (facing_self _ _)]; omega
  | i + 2, hi => rw [e] at hi; exact absurd hi (by simp only [List.length_cons, List.length_nil]; omega)

/-- The hypotheses are met, below the root: an object with an array of records, to which one was inserted at the front. -/
example : ∃ t, diff id (.obj [(b!"a", .arr [record140 1, record140 2])]) (.obj [(b!"a", .arr [record140 3, record140 1, record140 2])]) = some t ∧
    ShortTexts (·.stringify id) (.value (.obj [(b!"a", .arr [record140 1, record140 2])])) ∧ ShortTexts (·.stringify id) (.value (.obj [(b!"a", .arr [record140 3, record140 1, record140 2])])) ∧
    RoomFor (·.stringify id) (.value (.obj [(b!"a", .arr [record140 1, record140 2])])) (.value (.obj [(b!"a", .arr [record140 3, record140 1, record140 2])])) ∧
    scan t.equivalences (.left [0, 0]) = some (.right [0, 0]) ∧ (Elem.value (.obj [(b!"a", .arr [record140 1, record140 2])])).at [0, 0] = some (.value (.arr [record140 1, record140 2])) ∧
    (Elem.value (.obj [(b!"a", .arr [record140 3, record140 1, record140 2])])).at [0, 0] = some (.value (.arr [record140 3, record140 1, record140 2])) ∧
    (∀ (i : Nat) (u w : Elem), (Elem.value (.arr [record140 1, record140 2])).kids[i]? = some u → (Elem.value (.arr [record140 3, record140 1, record140 2])).kids[i]? = some w → Facing (·.stringify id) u w 0) ∧
    markOf t (.right [0, 0, 0]) = .equ ∧ markOf t (.right [0, 0, 2]) = .add := by
  obtain ⟨t, h1, h2, h3⟩ := any_some (o := diff id (.obj [(b!"a", .arr [record140 1, record140 2])]) (.obj [(b!"a", .arr [record140 3, record140 1, record140 2])]))
    (p := fun t => scan t.equivalences (.left [0, 0]) = some (.right [0, 0]) ∧ markOf t (.right [0, 0, 0]) = .equ ∧ markOf t (.right [0, 0, 2]) = .add) (by decide +kernel)
  have ma := modest_spec (fmt := id) (n := 8) (e := .value (.obj [(b!"a", .arr [record140 1, record140 2])])) (by decide +kernel)
  have mb := modest_spec (fmt := id) (n := 8) (e := .value (.obj [(b!"a", .arr [record140 3, record140 1, record140 2])])) (by decide +kernel)
  refine ⟨t, h1, ma.1, mb.1, room_small ma.2 mb.2, h2, rfl, rfl, ?_, h3⟩
  intro i u w hu hw
  match i, hu, hw with
  | 0, hu, hw => cases hu; cases hw; exact records140 1 3
  | 1, hu, hw => cases hu; cases hw; exact records140 2 1
  | i + 2, hu, _ => simp [Elem.kids] at hu

end Verif.Props
