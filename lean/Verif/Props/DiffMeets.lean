import Verif.Spec.Meets
import Verif.Props.Diff
/-! # C27, C28: exactly when a comparison crashes -/
namespace Verif.Props
open Verif.Model Verif.Model.Diff Verif.Spec Verif.Lemmas.Diff

theorem Meets.trans {a b x y u w : Elem} (h : Meets a b x y) (h' : Meets x y u w) : Meets a b u w := by
  induction h' with
  | here => exact h
  | kids _ c1 c2 h1 h2 ih => exact .kids ih c1 c2 h1 h2
  | values _ ih => exact .values ih

/-- What is met is somewhere in the two documents. -/
theorem Meets.placed {a b x y : Elem} (h : Meets a b x y) : ∃ p q, a.at p = some x ∧ b.at q = some y := by
  have snoc : ∀ (p : Path) (a x u : Elem) (i : Nat), a.at p = some x → x.kids[i]? = some u → a.at (p ++ [i]) = some u := by
    intro p
    induction p with
    | nil => intro a x u i h hu; cases h; simp [Elem.at, hu]
    | cons j p ih =>
      intro a x u i h hu
      rw [List.cons_append]
      cases hk : a.kids[j]? with
      | none => simp [Elem.at, hk] at h
      | some c =>
        rw [at_cons _ hk] at h ⊢
        exact ih _ _ _ _ h hu
  induction h with
  | here => exact ⟨[], [], rfl, rfl⟩
  | kids _ _ _ h1 h2 ih =>
    obtain ⟨p, q, hp, hq⟩ := ih
    exact ⟨_, _, snoc _ _ _ _ _ hp h1, snoc _ _ _ _ _ hq h2⟩
  | values _ ih =>
    obtain ⟨p, q, hp, hq⟩ := ih
    exact ⟨_, _, snoc _ _ _ _ 0 hp rfl, snoc _ _ _ _ 0 hq rfl⟩

/-- If no two hollow containers meet, the comparison is defined. -/
theorem build_meets (fmt : Bytes → Bytes) (a b : Elem) (pa pb : Path)
    (h : ∀ x y, Meets a b x y → x.isContainer = true → y.isContainer = true → 0 < max x.kids.length y.kids.length ∧ x.kids.length + y.kids.length < 4294967296) :
    ∃ t, buildE fmt a pa b pb = some t := by
  by_cases hc : a.isContainer = true ∧ b.isContainer = true
  · obtain ⟨sub, _, e⟩ := containers_build (fmt := fmt) (pa := pa) (pb := pb) hc.1 hc.2 fun i j x y hx hy => by
      have := kid_size (List.mem_of_getElem? hx)
      exact build_meets fmt x y _ _ fun x' y' hm => h x' y' (Meets.trans (.kids .here hc.1 hc.2 hx hy) hm)
    have := h a b .here hc.1 hc.2
    rw [e]
    exact containers_some sub this.1 this.2
  · obtain ⟨k, v, v', rfl, rfl, e⟩ | ⟨n, e, _⟩ | ⟨n, e, _⟩ | ⟨s, e, _⟩ | ⟨e, _⟩ | ⟨v, v', rfl, rfl, h1, h2, h3, e⟩ := build_other (fmt := fmt) (pa := pa) (pb := pb) hc
    · have : sizeOf (Elem.value v) < sizeOf (Elem.entry k v) := kid_size (by simp [Elem.kids])
      rw [e]
      exact build_meets fmt _ _ _ _ fun x' y' hm => h x' y' (Meets.trans (.values .here) hm)
    all_goals exact ⟨_, e⟩
termination_by sizeOf a

/-- If the comparison is defined, so are all the comparisons of elements that meet. -/
theorem meets_build {fmt : Bytes → Bytes} {a b x y : Elem} (h : Meets a b x y) {pa pb : Path} {t : Table} (ht : buildE fmt a pa b pb = some t) :
    ∃ pa' pb' t', buildE fmt x pa' y pb' = some t' := by
  induction h with
  | here => exact ⟨_, _, _, ht⟩
  | kids _ c1 c2 h1 h2 ih =>
    obtain ⟨pa', pb', t', h'⟩ := ih
    obtain ⟨sub, hs, _⟩ := build_containers c1 c2 h'
    exact ⟨_, _, _, hs _ _ _ _ h1 h2⟩
  | values _ ih =>
    obtain ⟨pa', pb', t', h'⟩ := ih
    exact ⟨pa' ++ [0], pb' ++ [0], t', by simpa [buildE, entryWith] using h'⟩

/-- **C28, exactly.** Comparing two documents crashes exactly if two empty containers are compared with each other on the way. Missing for C28: these crashes (`C28_no_crash_false`), and containers
with `2^31` children or more. -/
theorem C28_exactly_partial (fmt : Bytes → Bytes) (a b : Json) (ha : NotHuge a) (hb : NotHuge b) :
    diff fmt a b = none ↔ ∃ x y, Meets (.value a) (.value b) x y ∧ Hollow x ∧ Hollow y := by
  constructor
  · intro h
    apply Classical.byContradiction
    intro hn
    obtain ⟨t, ht⟩ := build_meets fmt (.value a) (.value b) [] [] (by
      intro x y hm cx cy
      obtain ⟨p, q, hp, hq⟩ := Meets.placed hm
      have h1 := ha p x hp
      have h2 := hb q y hq
      refine ⟨?_, by omega⟩
      apply Classical.byContradiction
      intro h0
      exact hn ⟨x, y, hm, ⟨cx, List.length_eq_zero_iff.mp (by omega)⟩, cy, List.length_eq_zero_iff.mp (by omega)⟩)
    rw [diff, show build fmt a [] (.value b) [] = buildE fmt (.value a) [] (.value b) [] from rfl, ht] at h
    cases h
  · rintro ⟨x, y, hm, ⟨cx, kx⟩, cy, ky⟩
    cases hd : diff fmt a b with
    | none => rfl
    | some t =>
      obtain ⟨pa', pb', t', h'⟩ := meets_build (pa := []) (pb := []) hm hd
      obtain ⟨sub, _, h2⟩ := build_containers cx cy h'
      rw [kx, ky] at h2
      simp [containers] at h2

/-- Every element of a document meets its copy. -/
theorem meets_self (a : Elem) : ∀ (p : Path) (x : Elem), a.at p = some x → Meets a a x x := by
  have : ∀ (p : Path) (b x : Elem), Meets a a b b → b.at p = some x → Meets a a x x := by
    intro p
    induction p with
    | nil => intro b x hm h; cases h; exact hm
    | cons i p ih =>
      intro b x hm h
      cases hk : b.kids[i]? with
      | none => simp [Elem.at, hk] at h
      | some c =>
        rw [at_cons _ hk] at h
        refine ih c x ?_ h
        by_cases hc : b.isContainer = true
        · exact .kids hm hc hc hk hk
        · match b, hc with
          | .entry k v, _ =>
            have : c = .value v := by
              cases i with
              | zero => simpa [Elem.kids] using hk.symm
              | succ i => simp [Elem.kids] at hk
            subst this
            exact .values hm
          | .value v, hc =>
            cases v <;> first | exact (hc rfl).elim | simp [Elem.kids] at hk
  intro p x h
  exact this p a x .here h

/-- **C27, exactly.** Comparing a document with itself crashes exactly if there is an empty container in it; and whenever it does not crash, every element of both copies is marked equal, and its
counterpart is the element at the same position. Missing for C27: documents with empty containers (`C27_self_false`); containers with `2^31` children or more. -/
theorem C27_exactly_partial (fmt : Bytes → Bytes) (a : Json) (ha : NotHuge a) :
    (diff fmt a a = none ↔ ∃ p x, (Elem.value a).at p = some x ∧ Hollow x) ∧
    ∀ t, diff fmt a a = some t → ∀ p x, (Elem.value a).at p = some x →
      t.get (.left p) = some .equ ∧ t.get (.right p) = some .equ ∧
      ∀ order, order.Perm t.equivalences → scan order (.left p) = some (.right p) ∧ scan order (.right p) = some (.left p) := by
  refine ⟨?_, ?_⟩
  · rw [C28_exactly_partial fmt a a ha ha]
    constructor
    · rintro ⟨x, y, hm, hx, _⟩
      obtain ⟨p, _, hp, _⟩ := Meets.placed hm
      exact ⟨p, x, hp, hx⟩
    · rintro ⟨p, x, hp, hx⟩
      exact ⟨x, x, meets_self _ p x hp, hx, hx⟩
  · intro t ht p x hx
    have hs := (build_self fmt (.value a) [] [] t ht).equ p x hx (.inl rfl)
    have hg := build_good fmt (.value a) (.value a) [] [] t ht
    refine ⟨hs.1, hs.2.1, fun order hp => ?_⟩
    have := scan_rel hg hp p p
    exact ⟨this.1.mpr hs.2.2, this.2.mpr hs.2.2⟩

/-- Two documents that each hold an empty container, which do not meet: no crash. -/
example : (diff id (.arr [.obj []]) (.arr [.int 1, .arr [.null]])).isSome = true ∧ (diff id (.obj [(b!"a", .arr [])]) (.obj [(b!"b", .arr [])])).isSome = true := by decide +kernel

/-- Two that meet although they are at different places. -/
example : diff id (.arr [.int 1, .int 2, .arr []]) (.arr [.obj []]) = none := by decide +kernel

/-- The hypothesis is met. -/
example : NotHuge (.arr [.int 1, .obj []]) ∧ ∃ p x, (Elem.value (.arr [.int 1, .obj []])).at p = some x ∧ Hollow x := by
  refine ⟨?_, [1], .value (.obj []), rfl, rfl, rfl⟩
  intro p x h
  match p with
  | [] => cases h; decide
  | 0 :: [] => cases h; decide
  | 0 :: i :: p => simp [Elem.at, Elem.kids] at h
  | 1 :: [] => cases h; decide
  | 1 :: i :: p => simp [Elem.at, Elem.kids] at h
  | (i + 2) :: p => simp [Elem.at, Elem.kids] at h

end Verif.Props
