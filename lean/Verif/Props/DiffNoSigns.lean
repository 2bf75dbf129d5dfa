import Verif.Lemmas.DiffIndistinct
import Verif.Props.DiffMeets
/-! # C132: a comparison without signs -/
namespace Verif.Props
open Verif.Model Verif.Model.Diff Verif.Spec Verif.Lemmas.Diff

/-- No element of the two documents has a sign. -/
def NoSigns (a b : Json) (t : Table) : Prop :=
  (∀ p x, (Elem.value a).at p = some x → t.get (.left p) = some .equ) ∧ ∀ q y, (Elem.value b).at q = some y → t.get (.right q) = some .equ

theorem at_last {a x u : Elem} {i : Nat} (p : Path) (h : a.at p = some x) : a.at (p ++ [i]) = some u ↔ x.kids[i]? = some u := by
  induction p generalizing a with
  | nil => cases h; simp [Elem.at]
  | cons j p ih =>
    rw [List.cons_append]
    cases hk : a.kids[j]? with
    | none => simp [Elem.at, hk] at h
    | some c =>
      rw [at_cons _ hk] at h ⊢
      exact ih h

theorem at_front {a u : Elem} {i : Nat} (p : Path) (h : a.at (p ++ [i]) = some u) : ∃ x, a.at p = some x := by
  induction p generalizing a with
  | nil => exact ⟨a, rfl⟩
  | cons j p ih =>
    rw [List.cons_append] at h
    cases hk : a.kids[j]? with
    | none => simp [Elem.at, hk] at h
    | some c =>
      rw [at_cons _ hk] at h ⊢
      exact ih h

theorem kinds_plain {v v' : Json} (h : sameKind v v' = true) : ¬ IsContainer v ∧ ¬ IsContainer v' := by
  cases v <;> cases v' <;> first | exact ⟨id, id⟩ | cases h

/-- Where all elements have counterparts, each faces the one at the same position. -/
theorem matching_same {a b : Elem} {R : Path → Path → Prop} (hm : TreeMatching R)
    (hl : ∀ p x, a.at p = some x → ∃ q, R p q) (hr : ∀ q y, b.at q = some y → ∃ p, R p q) (he : ∀ p q, R p q → ∃ x y, a.at p = some x ∧ b.at q = some y) :
    ∀ n (p q : Path), p.length = n → R p q → p = q := by
  intro n
  induction n with
  | zero =>
    intro p q hn h
    rcases hm.parents h with ⟨rfl, rfl⟩ | ⟨p', i, q', j, rfl, rfl, h'⟩
    · rfl
    · simp at hn
  | succ n ihn =>
    intro p q hn h
    rcases hm.parents h with ⟨rfl, rfl⟩ | ⟨p', i, q', j, rfl, rfl, h'⟩
    · rfl
    · have hn' : p'.length = n := by simpa using hn
      have := ihn p' q' hn' h'
      subst this
      suffices hs : ∀ i j, R (p' ++ [i]) (p' ++ [j]) → i = j by rw [hs i j h]
      have side : ∀ i q, R (p' ++ [i]) q → ∃ j, q = p' ++ [j] := by
        intro i q hq
        rcases hm.parents hq with ⟨hc, _⟩ | ⟨p1, i1, q1, j1, e1, rfl, h1⟩
        · simp at hc
        · obtain ⟨rfl, -⟩ := List.append_inj' e1 rfl
          exact ⟨j1, by rw [ihn p' q1 hn' h1]⟩
      have side' : ∀ j p, R p (p' ++ [j]) → ∃ i, p = p' ++ [i] := by
        intro j p hq
        rcases hm.parents hq with ⟨_, hc⟩ | ⟨p1, i1, q1, j1, rfl, e1, h1⟩
        · simp at hc
        · obtain ⟨rfl, -⟩ := List.append_inj' e1 rfl
          exact ⟨i1, by rw [hm.right_unique h1 h']⟩
      intro i
      induction i using Nat.strongRecOn with
      | ind i ih =>
        intro j hij
        obtain ⟨u, w, hu, hw⟩ := he _ _ hij
        obtain ⟨x, hx⟩ := at_front _ hu
        obtain ⟨y, hy⟩ := at_front _ hw
        rw [at_last _ hx] at hu
        rw [at_last _ hy] at hw
        have hil := (List.getElem?_eq_some_iff.mp hu).1
        have hjl := (List.getElem?_eq_some_iff.mp hw).1
        rcases Nat.lt_trichotomy i j with hlt | rfl | hgt
        · obtain ⟨p, hp⟩ := hr (p' ++ [i]) _ ((at_last _ hy).mpr (List.getElem?_eq_getElem (by omega)))
          obtain ⟨k, rfl⟩ := side' _ _ hp
          have hki : k < i := (hm.ordered hp hij).mpr hlt
          have := ih k hki i hp
          omega
        · rfl
        · obtain ⟨q, hq⟩ := hl (p' ++ [j]) _ ((at_last _ hx).mpr (List.getElem?_eq_getElem (by omega)))
          obtain ⟨k, rfl⟩ := side _ _ hq
          have hkj : k < j := (hm.ordered hq hij).mp hgt
          have := ih j hgt k hq
          omega

/-- **C132 is false as stated**: two texts that differ in one character of ten; no element has a sign. -/
theorem C132_no_signs_false : ∃ t, diff id (.arr [.str b!"abcdefghij"]) (.arr [.str b!"abcdefghik"]) = some t ∧
    NoSigns (.arr [.str b!"abcdefghij"]) (.arr [.str b!"abcdefghik"]) t := by
  obtain ⟨t, h1, h2⟩ := any_some (o := diff id (.arr [.str b!"abcdefghij"]) (.arr [.str b!"abcdefghik"]))
    (p := fun t => (t.get (.left []) = some .equ ∧ t.get (.left [0]) = some .equ) ∧ t.get (.right []) = some .equ ∧ t.get (.right [0]) = some .equ) (by decide +kernel)
  refine ⟨t, h1, ?_, ?_⟩
  · intro p x hx
    match p with
    | [] => exact h2.1.1
    | [0] => exact h2.1.2
    | 0 :: _ :: _ => simp [Elem.at, Elem.kids] at hx
    | (i + 1) :: _ => simp [Elem.at, Elem.kids] at hx
  · intro p x hx
    match p with
    | [] => exact h2.2.1
    | [0] => exact h2.2.2
    | 0 :: _ :: _ => simp [Elem.at, Elem.kids] at hx
    | (i + 1) :: _ => simp [Elem.at, Elem.kids] at hx

/-- **C132, what holds.** No element of the two documents has a sign exactly if the documents are built alike, with the same keys in the same order, and their primitives are one by one of the same type and
nearly the same; then each element faces the one at the same position, whatever the addresses are. Missing: that the texts are the same (`C132_no_signs_false`), texts of 16 MiB or more. -/
theorem C132_no_signs_partial (fmt : Bytes → Bytes) (a b : Json) (t : Table) (h : diff fmt a b = some t)
    (sa : ShortTexts (·.stringify fmt) (.value a)) (sb : ShortTexts (·.stringify fmt) (.value b)) :
    (NoSigns a b t ↔ Indistinct (·.stringify fmt) a b) ∧
    (NoSigns a b t → ∀ order, order.Perm t.equivalences → ∀ p, ((Elem.value a).at p).isSome = true ∨ ((Elem.value b).at p).isSome = true →
      scan order (.left p) = some (.right p) ∧ scan order (.right p) = some (.left p)) := by
  have facts : NoSigns a b t → ∀ order, order.Perm t.equivalences →
      (∀ p x, (Elem.value a).at p = some x → scan order (.left p) = some (.right p) ∧ ∃ y, (Elem.value b).at p = some y ∧ Resembles (Json.stringify fmt) x y) ∧
      (∀ p y, (Elem.value b).at p = some y → scan order (.left p) = some (.right p) ∧ ∃ x, (Elem.value a).at p = some x ∧ Resembles (Json.stringify fmt) x y) := by
    rintro ⟨hl, hr⟩ order hp
    obtain ⟨hm, hsym, hex⟩ := C30_tree_matching fmt a b t h order hp
    obtain ⟨el, er⟩ := C31_equal_partial fmt a b t h order hp
    have same := matching_same (a := .value a) (b := .value b) hm
      (fun p x hx => by obtain ⟨q, _, _, h1, _⟩ := el p (hl p x hx); exact ⟨q, h1⟩)
      (fun q y hy => by obtain ⟨p, _, _, h1, _⟩ := er q (hr q y hy); exact ⟨p, (hsym _ _).mp h1⟩)
      (fun p q hpq => by obtain ⟨q', x, y, h1, h2, h3⟩ := hex p _ hpq; cases h1; exact ⟨x, y, h2, h3⟩)
    constructor
    · intro p x hx
      obtain ⟨q, x', y, h1, h2, h3, h4⟩ := el p (hl p x hx)
      have := same _ p q rfl h1
      subst this
      rw [hx] at h2
      cases h2
      exact ⟨h1, y, h3, h4⟩
    · intro q y hy
      obtain ⟨p, x, y', h1, h2, h3, h4⟩ := er q (hr q y hy)
      have h1 := (hsym _ _).mp h1
      have := same _ p q rfl h1
      subst this
      rw [hy] at h3
      cases h3
      exact ⟨h1, x, h2, h4⟩
  refine ⟨⟨fun hn => ?_, fun hi => ?_⟩, fun hn order hp p hpos => ?_⟩
  · obtain ⟨hl, hr⟩ := facts hn t.equivalences (.refl _)
    have key : ∀ n (p : Path) (v v' : Json), sizeOf v < n → (Elem.value a).at p = some (.value v) → (Elem.value b).at p = some (.value v') →
        Meets (.value a) (.value b) (.value v) (.value v') → Indistinct (·.stringify fmt) v v' := by
      intro n
      induction n with
      | zero => intro p v v' hn; omega
      | succ n ih =>
        intro p v v' hsz hp hq hmeet
        obtain ⟨_, y, hy, hres⟩ := hl p _ hp
        rw [hq] at hy
        cases hy
        have hkl : ∀ i : Nat, ((Elem.value v).kids[i]?).isSome = ((Elem.value v').kids[i]?).isSome := by
          intro i
          have e1 : (Elem.value v).kids[i]? = (Elem.value a).at (p ++ [i]) := Option.ext fun u => (at_last p hp).symm
          have e2 : (Elem.value v').kids[i]? = (Elem.value b).at (p ++ [i]) := Option.ext fun u => (at_last p hq).symm
          rw [e1, e2, Bool.eq_iff_iff, Option.isSome_iff_exists, Option.isSome_iff_exists]
          constructor
          · rintro ⟨u, hu⟩; obtain ⟨_, y, hy, _⟩ := hl _ _ hu; exact ⟨y, hy⟩
          · rintro ⟨u, hu⟩; obtain ⟨_, y, hy, _⟩ := hr _ _ hu; exact ⟨y, hy⟩
        have hlen : (Elem.value v).kids.length = (Elem.value v').kids.length := by
          have h1 := hkl (Elem.value v).kids.length
          have h2 := hkl (Elem.value v').kids.length
          rw [List.getElem?_eq_none (Nat.le_refl _)] at h1 h2
          simp at h1 h2
          omega
        have hkres : ∀ (i : Nat) (u w : Elem), (Elem.value v).kids[i]? = some u → (Elem.value v').kids[i]? = some w → Resembles (Json.stringify fmt) u w := by
          intro i u w hu hw
          obtain ⟨_, y, hy, hre⟩ := hl _ _ ((at_last p hp).mpr hu)
          rw [(at_last p hq).mpr hw] at hy
          cases hy
          exact hre
        rcases hres with ⟨c1, c2⟩ | ⟨hk, hnear⟩
        · -- containers
          have cc1 : (Elem.value v).isContainer = true := by cases v <;> simp_all [IsContainer, Elem.isContainer]
          have cc2 : (Elem.value v').isContainer = true := by cases v' <;> simp_all [IsContainer, Elem.isContainer]
          have hpos : 0 < (Elem.value v).kids.length := by
            apply Nat.pos_of_ne_zero
            intro h0
            obtain ⟨pa', pb', t', h'⟩ := meets_build (pa := []) (pb := []) hmeet h
            obtain ⟨sub, _, h2⟩ := build_containers cc1 cc2 h'
            rw [← hlen, h0] at h2
            simp [containers] at h2
          have m0 := hkres 0 _ _ (List.getElem?_eq_getElem hpos) (List.getElem?_eq_getElem (by omega))
          cases v with
          | arr xs =>
            cases v' with
            | arr ys =>
              refine .arrays (by simpa [Elem.kids] using hlen) fun i x y hx hy => ?_
              have hx' : (Elem.value (.arr xs)).kids[i]? = some (.value x) := by simp [Elem.kids, hx]
              have hy' : (Elem.value (.arr ys)).kids[i]? = some (.value y) := by simp [Elem.kids, hy]
              have := List.sizeOf_lt_of_mem (List.mem_of_getElem? hx)
              exact ih (p ++ [i]) x y (by simp at hsz; omega) ((at_last p hp).mpr hx') ((at_last p hq).mpr hy') (.kids hmeet rfl rfl hx' hy')
            | obj fs => simp [Elem.kids, Resembles] at m0
            | _ => exact c2.elim
          | obj es =>
            cases v' with
            | arr ys => simp [Elem.kids, Resembles] at m0
            | obj fs =>
              have hk : ∀ (i : Nat) (k : Bytes) (x : Json) (k' : Bytes) (y : Json), es[i]? = some (k, x) → fs[i]? = some (k', y) → k = k' := by
                intro i k x k' y hx hy
                exact hkres i (.entry k x) (.entry k' y) (by simp [Elem.kids, hx]) (by simp [Elem.kids, hy])
              refine .objects ?_ fun i k k' x y hx hy => ?_
              · apply List.ext_getElem?
                intro i
                have := hkl i
                simp only [Elem.kids, List.getElem?_map] at this
                simp only [List.getElem?_map]
                cases hx : es[i]? with
                | none => cases hy : fs[i]? with
                  | none => rfl
                  | some f => rw [hx, hy] at this; cases this
                | some e => cases hy : fs[i]? with
                  | none => rw [hx, hy] at this; cases this
                  | some f => simp only [Option.map_some]; rw [hk i e.1 e.2 f.1 f.2 hx hy]
              · have e := hk i k x k' y hx hy
                subst e
                have hx' : (Elem.value (.obj es)).kids[i]? = some (.entry k x) := by simp [Elem.kids, hx]
                have hy' : (Elem.value (.obj fs)).kids[i]? = some (.entry k y) := by simp [Elem.kids, hy]
                have h1 := List.sizeOf_lt_of_mem (List.mem_of_getElem? hx)
                have hx2 := (at_last p hp).mpr hx'
                have hy2 := (at_last p hq).mpr hy'
                exact ih (p ++ [i] ++ [0]) x y (by simp at hsz h1; omega) ((at_last _ hx2).mpr rfl) ((at_last _ hy2).mpr rfl)
                  (.values (.kids hmeet rfl rfl hx' hy'))
            | _ => exact c2.elim
          | _ => exact c1.elim
        · have s1 := sa p v hp
          have s2 := sb p v' hq
          obtain ⟨n1, n2⟩ := kinds_plain hk
          exact .primitives n1 n2 hk (hnear (by simp only at s1 s2; omega))
    exact key _ [] a b (Nat.lt_succ_self _) rfl rfl .here
  · have hs := build_same fmt (.value a) (.value b) [] [] t h hi sa sb
    have hb : ∀ q y, (Elem.value b).at q = some y → ∃ x, (Elem.value a).at q = some x := by
      have : ∀ (q : Path) (a b y : Elem), IndE (·.stringify fmt) a b → b.at q = some y → ∃ x, a.at q = some x := by
        intro q
        induction q with
        | nil => intro a b y _ _; exact ⟨a, rfl⟩
        | cons i q ih =>
          intro a b y hi hy
          obtain ⟨hl, hk⟩ := hi.kids
          cases hkb : b.kids[i]? with
          | none => simp [Elem.at, hkb] at hy
          | some w =>
            rw [at_cons _ hkb] at hy
            have hlt : i < a.kids.length := by rw [hl]; exact (List.getElem?_eq_some_iff.mp hkb).1
            have hka := List.getElem?_eq_getElem hlt
            rw [at_cons _ hka]
            exact ih _ _ _ (hk i _ _ hka hkb) hy
      exact fun q y hy => this q (.value a) (.value b) y hi hy
    refine ⟨fun p x hx => (hs.equ p x hx (.inl rfl)).1, fun q y hy => ?_⟩
    obtain ⟨x, hx⟩ := hb q y hy
    exact (hs.equ q x hx (.inl rfl)).2.1
  · obtain ⟨hl, hr⟩ := facts hn order hp
    have h1 : scan order (.left p) = some (.right p) := by
      rcases hpos with hpos | hpos
      · obtain ⟨x, hx⟩ := Option.isSome_iff_exists.mp hpos; exact (hl p x hx).1
      · obtain ⟨x, hx⟩ := Option.isSome_iff_exists.mp hpos; exact (hr p x hx).1
    exact ⟨h1, ((C30_tree_matching fmt a b t h order hp).2.1 _ _).mp h1⟩

/-- The hypotheses of `C132_no_signs_partial` at work, on both sides of the equivalence: `{"k": [1234567]}`, compared with `{"k": [1234568]}`, has no signs; compared with `{"k": [7654321]}` it has. -/
example : ∃ t u, diff id (.obj [(b!"k", .arr [.int 1234567])]) (.obj [(b!"k", .arr [.int 1234568])]) = some t ∧
    diff id (.obj [(b!"k", .arr [.int 1234567])]) (.obj [(b!"k", .arr [.int 7654321])]) = some u ∧
    (∀ n : Int, n = 1234567 ∨ n = 1234568 ∨ n = 7654321 → ShortTexts (·.stringify id) (.value (.obj [(b!"k", .arr [.int n])]))) ∧
    Indistinct (·.stringify id) (.obj [(b!"k", .arr [.int 1234567])]) (.obj [(b!"k", .arr [.int 1234568])]) ∧
    NoSigns (.obj [(b!"k", .arr [.int 1234567])]) (.obj [(b!"k", .arr [.int 1234568])]) t ∧
    ¬ Indistinct (·.stringify id) (.obj [(b!"k", .arr [.int 1234567])]) (.obj [(b!"k", .arr [.int 7654321])]) := by
  have short : ∀ n : Int, n = 1234567 ∨ n = 1234568 ∨ n = 7654321 → ShortTexts (·.stringify id) (.value (.obj [(b!"k", .arr [.int n])])) := by
    intro n hn p v hv
    match p with
    | [] => cases hv; show (b!"{ }").length < 2 ^ 24; decide
    | [0] => cases hv
    | [0, 0] => cases hv; show (b!"[ ]").length < 2 ^ 24; decide
    | [0, 0, 0] => cases hv; rcases hn with rfl | rfl | rfl <;> decide +kernel
    | 0 :: 0 :: 0 :: i :: p => simp [Elem.at, Elem.kids] at hv
    | 0 :: 0 :: (i + 1) :: p => simp [Elem.at, Elem.kids] at hv
    | 0 :: (i + 1) :: p => simp [Elem.at, Elem.kids] at hv
    | (i + 1) :: p => simp [Elem.at, Elem.kids] at hv
  obtain ⟨t, ht, _⟩ := any_some (o := diff id (.obj [(b!"k", .arr [.int 1234567])]) (.obj [(b!"k", .arr [.int 1234568])])) (p := fun _ => True) (by decide +kernel)
  obtain ⟨u, hu, hm⟩ := any_some (o := diff id (.obj [(b!"k", .arr [.int 1234567])]) (.obj [(b!"k", .arr [.int 7654321])])) (p := fun u => u.get (.left [0, 0]) ≠ some .equ) (by decide +kernel)
  have ind : Indistinct (·.stringify id) (.obj [(b!"k", .arr [.int 1234567])]) (.obj [(b!"k", .arr [.int 1234568])]) := by
    refine .objects rfl fun i k k' x y hx hy => ?_
    match i with
    | 0 =>
      cases hx
      cases hy
      refine .arrays rfl fun i x y hx hy => ?_
      match i with
      | 0 =>
        cases hx
        cases hy
        exact .primitives id id rfl ((percent_near (by decide +kernel) (by decide +kernel)).mp (by decide +kernel))
      | i + 1 => cases hx
    | i + 1 => cases hx
  refine ⟨t, u, ht, hu, short, ind, (C132_no_signs_partial id _ _ t ht (short _ (by simp)) (short _ (by simp))).1.mpr ind, fun hi => ?_⟩
  exact hm (((C132_no_signs_partial id _ _ u hu (short _ (by simp)) (short _ (by simp))).1.mpr hi).1 [0, 0] _ rfl)

end Verif.Props
