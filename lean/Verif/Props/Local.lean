import Verif.Props.Records
import Verif.Props.DiffMeets
/-! # C141: counterparts are compared like documents -/
namespace Verif.Props
open Verif.Model Verif.Model.Diff Verif.Spec Verif.Lemmas.Diff

/-- What meets is at the same depth. -/
theorem Meets.level {a b x y : Elem} (h : Meets a b x y) : ∃ p q, p.length = q.length ∧ a.at p = some x ∧ b.at q = some y := by
  induction h with
  | here => exact ⟨[], [], rfl, rfl, rfl⟩
  | @kids x y u w i j _ _ _ h1 h2 ih =>
    obtain ⟨p, q, hl, hp, hq⟩ := ih
    exact ⟨p ++ [i], q ++ [j], by simp [hl], at_append hp (by rw [at_cons _ h1]; rfl), at_append hq (by rw [at_cons _ h2]; rfl)⟩
  | values _ ih =>
    obtain ⟨p, q, hl, hp, hq⟩ := ih
    exact ⟨p ++ [0], q ++ [0], by simp [hl], at_append hp rfl, at_append hq rfl⟩

theorem opposed_meets {text : Json → Bytes} {a b : Elem} {p q : Path} (h : Opposed text a b p q) : ∀ x y, a.at p = some x → b.at q = some y → Meets a b x y := by
  induction h with
  | here => intro x y hx hy; cases hx; cases hy; exact .here
  | values _ ih =>
    intro x y hx hy
    rw [at_cons (i := 0) _ rfl] at hx hy
    exact Meets.trans (.values .here) (ih x y hx hy)
  | children c1 c2 _ _ _ _ hu hw _ ih =>
    intro x y hx hy
    rw [at_cons _ hu] at hx
    rw [at_cons _ hw] at hy
    exact Meets.trans (.kids .here c1 c2 hu hw) (ih x y hx hy)

theorem room_below {text : Json → Bytes} {a b x y : Elem} {p q : Path} (h : RoomFor text a b) (hl : p.length = q.length) (hx : a.at p = some x) (hy : b.at q = some y) : RoomFor text x y :=
  fun p' q' u w cost hl' hu hw => h (p ++ p') (q ++ q') u w cost (by simp [hl, hl']) (at_append hx hu) (at_append hy hw)

theorem short_below {text : Json → Bytes} {a x : Elem} {p : Path} (h : ShortTexts text a) (hx : a.at p = some x) : ShortTexts text x := fun p' v hv => h (p ++ p') v (at_append hx hv)

theorem at_below {a x : Elem} {p : Path} (hx : a.at p = some x) (r : Path) : a.at (p ++ r) = x.at r := by
  cases h : x.at r with
  | some u => exact at_append hx h
  | none =>
    cases h' : a.at (p ++ r) with
    | none => rfl
    | some u =>
      exfalso
      have : ∀ (p : Path) (a : Elem), a.at p = some x → a.at (p ++ r) = some u → x.at r = some u := by
        intro p
        induction p with
        | nil => intro a h1 h2; cases h1; exact h2
        | cons i p ih =>
          intro a h1 h2
          simp only [Elem.at, Option.bind_eq_some_iff, List.cons_append] at h1 h2
          obtain ⟨w, hw, h1⟩ := h1
          obtain ⟨w', hw', h2⟩ := h2
          rw [hw] at hw'; cases hw'
          exact ih w h1 h2
      rw [this p a hx h'] at h
      cases h

theorem isChild_below {a x : Elem} {p r : Path} (hx : a.at p = some x) (hr : r ≠ []) : IsChild a (p ++ r) ↔ IsChild x r := by
  constructor
  · rintro ⟨p', i, u, e, hu, cu⟩
    have hr2 : r = r.dropLast ++ [r.getLast hr] := (List.dropLast_concat_getLast hr).symm
    rw [hr2, ← List.append_assoc] at e
    obtain ⟨e1, e2⟩ := List.append_inj' e rfl
    subst e1
    rw [at_below hx] at hu
    exact ⟨_, _, u, hr2, hu, cu⟩
  · rintro ⟨r', i, u, rfl, hu, cu⟩
    exact ⟨p ++ r', i, u, by rw [List.append_assoc], by rw [at_below hx]; exact hu, cu⟩

/-- If the comparison of the documents is defined, so is that of what is opposite each other in them. -/
theorem diff_below {fmt : Bytes → Bytes} {a b v v' : Json} {t : Table} (h : diff fmt a b = some t) (hr : RoomFor (·.stringify fmt) (.value v) (.value v')) (hm : Meets (.value a) (.value b) (.value v) (.value v')) :
    ∃ t', diff fmt v v' = some t' := by
  refine build_meets fmt (.value v) (.value v') [] [] fun x y hxy cx cy => ?_
  obtain ⟨pa, pb, t1, h1⟩ := meets_build (Meets.trans hm hxy) (pa := []) (pb := []) h
  obtain ⟨sub, _, h2⟩ := build_containers cx cy h1
  refine ⟨?_, ?_⟩
  · rw [Nat.pos_iff_ne_zero]
    intro h0
    have kx : x.kids = [] := List.length_eq_zero_iff.mp (by omega)
    have ky : y.kids = [] := List.length_eq_zero_iff.mp (by omega)
    rw [kx, ky] at h2
    simp [containers] at h2
  · obtain ⟨p, q, hl, hp, hq⟩ := Meets.level hxy
    obtain ⟨cost, hcost⟩ := costs_exist (·.stringify fmt) x y
    exact (hr p q x y cost hl hp hq cx cy hcost).1

/-- **C141.** Values that are each other's counterparts are compared as if they were documents on their own: the comparison of these documents is defined, and below the two values it shows the same signs and counterparts as the
comparison of the documents they are in; what is below one of them has its counterpart below the other. -/
theorem C141_local (fmt : Bytes → Bytes) (a b : Json) (t : Table) (h : diff fmt a b = some t) (sa : ShortTexts (·.stringify fmt) (.value a)) (sb : ShortTexts (·.stringify fmt) (.value b))
    (hr : RoomFor (·.stringify fmt) (.value a) (.value b)) (order : List (Ptr × Ptr)) (hp : order.Perm t.equivalences) (p q : Path) (v v' : Json)
    (hx : (Elem.value a).at p = some (.value v)) (hy : (Elem.value b).at q = some (.value v')) (ho : scan order (.left p) = some (.right q)) :
    ∃ t', diff fmt v v' = some t' ∧ (∀ r, markOf t (.left (p ++ r)) = markOf t' (.left r)) ∧ (∀ r, markOf t (.right (q ++ r)) = markOf t' (.right r)) ∧
      ∀ order' : List (Ptr × Ptr), order'.Perm t'.equivalences →
        (∀ r, r ≠ [] → ∀ q', scan order (.left (p ++ r)) = some (.right q') ↔ ∃ s, q' = q ++ s ∧ scan order' (.left r) = some (.right s)) ∧
        (∀ s, s ≠ [] → ∀ p', scan order (.right (q ++ s)) = some (.left p') ↔ ∃ r, p' = p ++ r ∧ scan order' (.right s) = some (.left r)) := by
  obtain ⟨a1, a2, a3, a4, a5⟩ := C135_comparison fmt a b t h sa sb hr order hp
  have hop := ((a1 p q).mp ho).1
  have hl := opposed_length hop
  have hr' := room_below hr hl hx hy
  have sv := short_below sa hx
  have sv' := short_below sb hy
  obtain ⟨t', h'⟩ := diff_below h hr' (opposed_meets hop _ _ hx hy)
  obtain ⟨-, -, b3, b4, b5⟩ := C135_comparison fmt v v' t' h' sv sv' hr' _ (.refl _)
  have hsame : ∀ r s, Opposed (·.stringify fmt) (.value v) (.value v') r s → markOf t (.left (p ++ r)) = markOf t' (.left r) ∧ markOf t (.right (q ++ s)) = markOf t' (.right s) := by
    intro r s hrs
    obtain ⟨x, y, c, e1, e2, e3, e4⟩ := a3 _ _ (opposed_append hop hx hy hrs)
    obtain ⟨x', y', c', f1, f2, f3, f4⟩ := b3 r s hrs
    rw [at_below hx, f1] at e1; cases e1
    rw [at_below hy, f2] at e2; cases e2
    cases facing_unique e3 f3
    rw [← f4] at e4
    exact ⟨congrArg Prod.fst e4, congrArg Prod.snd e4⟩
  refine ⟨t', h', fun r => ?_, fun s => ?_, fun order' hp' => ?_⟩
  · by_cases hex : ∃ s, Opposed (·.stringify fmt) (.value v) (.value v') r s
    · obtain ⟨s, hs⟩ := hex
      exact (hsame r s hs).1
    · rw [b4 r fun s hs => hex ⟨s, hs⟩, a4 _ fun q' hq => ?_]
      obtain ⟨s, _, hs⟩ := (opposed_below (r := r) hop hx hy).1 q' hq
      exact hex ⟨s, hs⟩
  · by_cases hex : ∃ r, Opposed (·.stringify fmt) (.value v) (.value v') r s
    · obtain ⟨r, hs⟩ := hex
      exact (hsame r s hs).2
    · rw [b5 s fun r hs => hex ⟨r, hs⟩, a5 _ fun p' hq => ?_]
      obtain ⟨r, _, hs⟩ := (opposed_below (r := s) hop hx hy).2 p' hq
      exact hex ⟨r, hs⟩
  · obtain ⟨c1, c2, -, -, -⟩ := C135_comparison fmt v v' t' h' sv sv' hr' order' hp'
    have key : ∀ r s, r ≠ [] → (scan order (.left (p ++ r)) = some (.right (q ++ s)) ↔ scan order' (.left r) = some (.right s)) := by
      intro r s hne
      rw [a1, c1, isChild_below hx hne, at_below hx, at_below hy]
      refine and_congr_left' ⟨fun hs => ?_, fun hs => opposed_append hop hx hy hs⟩
      obtain ⟨s', e, hs'⟩ := (opposed_below (r := r) hop hx hy).1 _ hs
      cases List.append_cancel_left e
      exact hs'
    refine ⟨fun r hne q' => ⟨fun hs => ?_, ?_⟩, fun s hne p' => ⟨fun hs => ?_, ?_⟩⟩
    · obtain ⟨s, rfl, _⟩ := (opposed_below (r := r) hop hx hy).1 q' ((a1 _ _).mp hs).1
      exact ⟨s, rfl, (key r s hne).mp hs⟩
    · rintro ⟨s, rfl, hs⟩
      exact (key r s hne).mpr hs
    · have hs' := (a2 _ _).mp hs
      obtain ⟨r, rfl, hrs⟩ := (opposed_below (r := s) hop hx hy).2 p' ((a1 _ _).mp hs').1
      have hne' : r ≠ [] := by
        rintro rfl
        have := opposed_length hrs
        exact hne (List.length_eq_zero_iff.mp this.symm)
      exact ⟨r, rfl, (c2 _ _).mpr ((key r s hne').mp hs')⟩
    · rintro ⟨r, rfl, hs⟩
      have hs' := (c2 _ _).mp hs
      have hne' : r ≠ [] := by
        rintro rfl
        have := opposed_length ((c1 _ _).mp hs').1
        exact hne (List.length_eq_zero_iff.mp this.symm)
      exact (a2 _ _).mpr ((key r s hne').mpr hs')

/-- The hypotheses are met: two arrays inside. -/
example : ∃ t, diff id (.arr [.int 9, .arr [.int 1, .int 2]]) (.arr [.arr [.int 1, .int 3]]) = some t ∧
    ShortTexts (·.stringify id) (.value (.arr [.int 9, .arr [.int 1, .int 2]])) ∧ ShortTexts (·.stringify id) (.value (.arr [.arr [.int 1, .int 3]])) ∧
    RoomFor (·.stringify id) (.value (.arr [.int 9, .arr [.int 1, .int 2]])) (.value (.arr [.arr [.int 1, .int 3]])) ∧
    (Elem.value (.arr [.int 9, .arr [.int 1, .int 2]])).at [1] = some (.value (.arr [.int 1, .int 2])) ∧ (Elem.value (.arr [.arr [.int 1, .int 3]])).at [0] = some (.value (.arr [.int 1, .int 3])) ∧
    scan t.equivalences (.left [1]) = some (.right [0]) ∧ markOf t (.left [1, 1]) = .mod ∧ scan t.equivalences (.left [1, 0]) = some (.right [0, 0]) := by
  obtain ⟨t, h1, h2⟩ := any_some (o := diff id (.arr [.int 9, .arr [.int 1, .int 2]]) (.arr [.arr [.int 1, .int 3]]))
    (p := fun t => scan t.equivalences (.left [1]) = some (.right [0]) ∧ markOf t (.left [1, 1]) = .mod ∧ scan t.equivalences (.left [1, 0]) = some (.right [0, 0])) (by decide +kernel)
  have ma := modest_spec (fmt := id) (n := 5) (e := .value (.arr [.int 9, .arr [.int 1, .int 2]])) (by decide +kernel)
  have mb := modest_spec (fmt := id) (n := 5) (e := .value (.arr [.arr [.int 1, .int 3]])) (by decide +kernel)
  exact ⟨t, h1, ma.1, mb.1, room_small ma.2 mb.2, rfl, rfl, h2⟩

end Verif.Props
