import Verif.Lemmas.HeapBasic
import Verif.Model.Navigate
/-!
# Lemmas: pointers and positions
-/
namespace Verif.Lemmas.Heap
open Verif.Model Verif.Model.Heap Verif.Spec.Heap

/-- `Stores` for elements. -/
def StoresElem (m : Mem) (parent : Option Addr) : Elem → Addr → List Addr → Prop
  | .value v, a, as => Stores m parent v a as
  | .entry k v, a, as => ∃ x b, m.get a = some ⟨parent, .entry k x⟩ ∧ Stores m (some a) v x b ∧ as = a :: b

theorem elem_root {m : Mem} {p : Option Addr} {e : Elem} {a : Addr} {as : List Addr} (h : StoresElem m p e a as) :
    ∃ b t, m.get a = some ⟨p, b⟩ ∧ as = a :: t := by
  cases e with
  | value v => exact stores_root h
  | entry k v => obtain ⟨x, b, h1, _, rfl⟩ := h; exact ⟨_, _, h1, rfl⟩

theorem elem_object {m : Mem} {p : Option Addr} {e : Elem} {a : Addr} {as : List Addr} (h : StoresElem m p e a as) : IsObject m a e := by
  cases e with
  | value v =>
    cases v with
    | arr xs => obtain ⟨l, bs, h1, _⟩ := h; exact ⟨p, l, h1⟩
    | obj es => obtain ⟨o, l, bs, h1, _⟩ := h; exact ⟨p, o, l, h1⟩
    | _ => exact ⟨p, h.1⟩
  | entry k v => obtain ⟨x, b, h1, _⟩ := h; exact ⟨p, x, h1⟩

/-- The children of an element: pointers and blocks. -/
def Kids (m : Mem) (a : Addr) (es : List Elem) (l : List Addr) (bs : List (List Addr)) : Prop :=
  l.length = es.length ∧ bs.length = es.length ∧ ∀ (i : Nat) (e : Elem), es[i]? = some e → ∃ (x : Addr) (b : List Addr), l[i]? = some x ∧ bs[i]? = some b ∧ StoresElem m (some a) e x b

theorem kids_cons {m : Mem} {a : Addr} {e : Elem} {es : List Elem} {x : Addr} {l b : List Addr} {bs : List (List Addr)} (h1 : StoresElem m (some a) e x b) (h : Kids m a es l bs) :
    Kids m a (e :: es) (x :: l) (b :: bs) := by
  obtain ⟨h2, h3, h4⟩ := h
  refine ⟨by simp [h2], by simp [h3], fun i e' hi => ?_⟩
  cases i with
  | zero =>
    simp only [List.getElem?_cons_zero, Option.some.injEq] at hi
    subst hi
    exact ⟨x, b, rfl, rfl, h1⟩
  | succ i =>
    simp only [List.getElem?_cons_succ] at hi
    obtain ⟨x', b', h5, h6, h7⟩ := h4 i e' hi
    exact ⟨x', b', by simpa using h5, by simpa using h6, h7⟩

theorem kids_items {m : Mem} {a : Addr} (xs : List Json) {l bs : List Addr} (h : StoresItems m a xs l bs) : ∃ bss, Kids m a (xs.map .value) l bss ∧ bs = bss.flatten := by
  induction xs generalizing l bs with
  | nil => obtain ⟨rfl, rfl⟩ := h; exact ⟨[], ⟨rfl, rfl, by simp⟩, rfl⟩
  | cons x xs ih =>
    obtain ⟨y, l', b1, b2, rfl, rfl, h1, h2⟩ := h
    obtain ⟨bss, h3, rfl⟩ := ih h2
    exact ⟨b1 :: bss, kids_cons (e := .value x) h1 h3, by simp⟩

theorem kids_entries {m : Mem} {a : Addr} (es : List (Bytes × Json)) {l bs : List Addr} (h : StoresEntries m a es l bs) :
    ∃ bss, Kids m a (es.map fun e => .entry e.1 e.2) l bss ∧ bs = bss.flatten := by
  induction es generalizing l bs with
  | nil => obtain ⟨rfl, rfl⟩ := h; exact ⟨[], ⟨rfl, rfl, by simp⟩, rfl⟩
  | cons x es ih =>
    obtain ⟨k, v⟩ := x
    obtain ⟨e, y, l', b1, b2, rfl, rfl, h0, h1, h2⟩ := h
    obtain ⟨bss, h3, rfl⟩ := ih h2
    exact ⟨(e :: b1) :: bss, kids_cons (e := .entry k v) ⟨y, b1, h0, h1, rfl⟩ h3, by simp⟩

theorem elem_kids {m : Mem} {p : Option Addr} {e : Elem} {a : Addr} {as : List Addr} (h : StoresElem m p e a as) :
    ∃ bss, Kids m a e.kids (below m a) bss ∧ as = a :: bss.flatten := by
  cases e with
  | value v =>
    cases v with
    | arr xs =>
      obtain ⟨l, bs, h1, h2, rfl⟩ := h
      obtain ⟨bss, h3, rfl⟩ := kids_items xs h2
      exact ⟨bss, by simpa [below, h1, Elem.kids] using h3, rfl⟩
    | obj es =>
      obtain ⟨o, l, bs, h1, h2, rfl⟩ := h
      obtain ⟨bss, h3, rfl⟩ := kids_entries es h2
      exact ⟨bss, by simpa [below, h1, Elem.kids] using h3, rfl⟩
    | _ =>
      obtain ⟨h1, rfl⟩ := h
      exact ⟨[], by simp [below, h1, Elem.kids, Kids], rfl⟩
  | entry k v =>
    obtain ⟨x, b, h1, h2, rfl⟩ := h
    refine ⟨[b], ?_, by simp⟩
    simp only [below, h1, Elem.kids]
    exact kids_cons (e := .value v) h2 ⟨rfl, rfl, by simp⟩

theorem mem_block {bss : List (List Addr)} {i : Nat} {b : List Addr} (h : bss[i]? = some b) : ∀ x ∈ b, x ∈ bss.flatten :=
  fun x hx => List.mem_flatten.mpr ⟨b, List.mem_of_getElem? h, hx⟩

theorem block_nodup {bss : List (List Addr)} {i : Nat} {b : List Addr} (hn : bss.flatten.Nodup) (h : bss[i]? = some b) : b.Nodup := by
  induction bss generalizing i with
  | nil => simp at h
  | cons c bss ih =>
    simp only [List.flatten_cons] at hn
    have hd := List.nodup_append.mp hn
    cases i with
    | zero => simp only [List.getElem?_cons_zero, Option.some.injEq] at h; subst h; exact hd.1
    | succ i => simp only [List.getElem?_cons_succ] at h; exact ih hd.2.1 h

theorem block_disjoint {bss : List (List Addr)} {i j : Nat} {b c : List Addr} (hn : bss.flatten.Nodup) (hi : bss[i]? = some b) (hj : bss[j]? = some c) (hij : i ≠ j) :
    ∀ x ∈ b, x ∉ c := by
  induction bss generalizing i j with
  | nil => simp at hi
  | cons d bss ih =>
    simp only [List.flatten_cons] at hn
    have hd := List.nodup_append.mp hn
    cases i with
    | zero =>
      simp only [List.getElem?_cons_zero, Option.some.injEq] at hi
      subst hi
      cases j with
      | zero => exact absurd rfl hij
      | succ j =>
        simp only [List.getElem?_cons_succ] at hj
        intro x hx hx'
        exact hd.2.2 x hx x (mem_block hj x hx') rfl
    | succ i =>
      simp only [List.getElem?_cons_succ] at hi
      cases j with
      | zero =>
        simp only [List.getElem?_cons_zero, Option.some.injEq] at hj
        subst hj
        intro x hx hx'
        exact hd.2.2 x hx' x (mem_block hi x hx) rfl
      | succ j =>
        simp only [List.getElem?_cons_succ] at hj
        exact ih hd.2.1 hi hj (by omega)

/-- The element at a position is stored at the address that is reached by its child numbers. -/
theorem follow_elem {m : Mem} (q : Path) : ∀ {par : Option Addr} {e : Elem} {a : Addr} {as : List Addr}, StoresElem m par e a as → as.Nodup →
    (∀ e', e.at q = some e' → ∃ x b par', follow m a q = some x ∧ StoresElem m par' e' x b ∧ b.Nodup ∧ (∀ y ∈ b, y ∈ as) ∧
      (q = [] → par' = par) ∧ ∀ r i, q = r ++ [i] → par' = follow m a r) ∧
    (e.at q = none → follow m a q = none) := by
  induction q with
  | nil =>
    intro par e a as h hn
    refine ⟨fun e' he => ?_, fun he => by simp [Elem.at] at he⟩
    simp only [Elem.at, Option.some.injEq] at he
    subst he
    exact ⟨a, as, par, rfl, h, hn, fun _ h => h, fun _ => rfl, fun r i hr => by simp at hr⟩
  | cons i q ih =>
    intro par e a as h hn
    obtain ⟨bss, ⟨hl1, hl2, hk⟩, rfl⟩ := elem_kids h
    have hd := List.nodup_cons.mp hn
    cases hi : e.kids[i]? with
    | none =>
      have hb : (below m a)[i]? = none := by
        rw [List.getElem?_eq_none_iff] at hi ⊢
        omega
      refine ⟨fun e' he => ?_, fun _ => by simp [follow, hb]⟩
      simp [Elem.at, hi] at he
    | some c =>
      obtain ⟨x, b, h1, h2, h3⟩ := hk i c hi
      obtain ⟨ih1, ih2⟩ := ih h3 (block_nodup hd.2 h2)
      refine ⟨fun e' he => ?_, fun he => ?_⟩
      · simp only [Elem.at, hi, Option.bind_some] at he
        obtain ⟨y, b', par', h4, h5, h6, h7, h8, h9⟩ := ih1 e' he
        refine ⟨y, b', par', by simp [follow, h1, h4], h5, h6, fun z hz => List.mem_cons_of_mem _ (mem_block h2 z (h7 z hz)), by simp, ?_⟩
        intro r j hr
        cases r with
        | nil =>
          simp only [List.nil_append, List.cons.injEq] at hr
          exact h8 hr.2
        | cons k r =>
          simp only [List.cons_append, List.cons.injEq] at hr
          rw [h9 r j hr.2]
          simp [follow, ← hr.1, h1]
      · simp only [Elem.at, hi, Option.bind_some] at he
        simp [follow, h1, ih2 he]

/-- Different positions have different addresses. -/
theorem follow_inj {m : Mem} (p q : Path) : ∀ {par : Option Addr} {e : Elem} {a : Addr} {as : List Addr}, StoresElem m par e a as → as.Nodup →
    ∀ {x}, follow m a p = some x → follow m a q = some x → p = q := by
  have hroot : ∀ {par : Option Addr} {e : Elem} {a : Addr} {as : List Addr} (i : Nat) (q : Path), StoresElem m par e a as → as.Nodup → follow m a (i :: q) ≠ some a := by
    intro par e a as i q h hn hf
    obtain ⟨bss, ⟨hl1, hl2, hk⟩, rfl⟩ := elem_kids h
    have hd := List.nodup_cons.mp hn
    cases hi : e.kids[i]? with
    | none => rw [(follow_elem (i :: q) h hn).2 (by simp [Elem.at, hi])] at hf; simp at hf
    | some c =>
      obtain ⟨x, b, h1, h2, h3⟩ := hk i c hi
      simp only [follow, h1, Option.bind_some] at hf
      obtain ⟨g1, g2⟩ := follow_elem q h3 (block_nodup hd.2 h2)
      cases hc : c.at q with
      | none => rw [g2 hc] at hf; simp at hf
      | some e' =>
        obtain ⟨y, b', par', h4, h5, h6, h7, _⟩ := g1 e' hc
        rw [hf, Option.some.injEq] at h4
        subst h4
        obtain ⟨_, t, _, rfl⟩ := elem_root h5
        exact hd.1 (mem_block h2 _ (h7 _ (by simp)))
  induction p generalizing q with
  | nil =>
    intro par e a as h hn x h1 h2
    cases q with
    | nil => rfl
    | cons j q =>
      simp only [follow, Option.some.injEq] at h1
      subst h1
      exact absurd h2 (hroot j q h hn)
  | cons i p ih =>
    intro par e a as h hn x h1 h2
    cases q with
    | nil =>
      simp only [follow, Option.some.injEq] at h2
      subst h2
      exact absurd h1 (hroot i p h hn)
    | cons j q =>
      obtain ⟨bss, ⟨hl1, hl2, hk⟩, rfl⟩ := elem_kids h
      have hd := List.nodup_cons.mp hn
      have step : ∀ (i : Nat) (p : Path), follow m a (i :: p) = some x → ∃ y b c par' , (below m a)[i]? = some y ∧ bss[i]? = some b ∧ StoresElem m par' c y b ∧ follow m y p = some x ∧ x ∈ b := by
        intro i p h1
        cases hi : e.kids[i]? with
        | none => rw [(follow_elem (i :: p) h hn).2 (by simp [Elem.at, hi])] at h1; simp at h1
        | some c =>
          obtain ⟨y, b, h3, h4, h5⟩ := hk i c hi
          simp only [follow, h3, Option.bind_some] at h1
          refine ⟨y, b, c, _, h3, h4, h5, h1, ?_⟩
          obtain ⟨g1, g2⟩ := follow_elem p h5 (block_nodup hd.2 h4)
          cases hc : c.at p with
          | none => rw [g2 hc] at h1; simp at h1
          | some e' =>
            obtain ⟨z, b', par', h6, h7, h8, h9, _⟩ := g1 e' hc
            rw [h1, Option.some.injEq] at h6
            subst h6
            obtain ⟨_, t, _, rfl⟩ := elem_root h7
            exact h9 _ (by simp)
      obtain ⟨y, b, c, par1, h3, h4, h5, h6, h7⟩ := step i p h1
      obtain ⟨y', b', c', par2, h3', h4', h5', h6', h7'⟩ := step j q h2
      by_cases hij : i = j
      · subst hij
        rw [h3, Option.some.injEq] at h3'
        subst h3'
        rw [ih q h5 (block_nodup hd.2 h4) h6 h6']
      · exact absurd h7' (block_disjoint hd.2 h4 h4' hij x h7)

theorem follow_append (m : Mem) (p q : Path) (a : Addr) : follow m a (p ++ q) = (follow m a p).bind fun x => follow m x q := by
  induction p generalizing a with
  | nil => rfl
  | cons i p ih =>
    simp only [List.cons_append, follow]
    cases (below m a)[i]? with
    | none => rfl
    | some x => simp [ih]

theorem at_append (p q : Path) (e : Elem) : e.at (p ++ q) = (e.at p).bind fun x => x.at q := by
  induction p generalizing e with
  | nil => rfl
  | cons i p ih =>
    simp only [List.cons_append, Elem.at]
    cases e.kids[i]? with
    | none => rfl
    | some x => simp [ih]

/-- The pointers to the children are different. -/
theorem below_nodup {m : Mem} {p : Option Addr} {e : Elem} {a : Addr} {as : List Addr} (h : StoresElem m p e a as) (hn : as.Nodup) : (below m a).Nodup := by
  unfold List.Nodup
  rw [List.pairwise_iff_getElem]
  intro i j hi hj hij he
  have h1 : follow m a [i] = some (below m a)[i] := by simp [follow, hi]
  have h2 : follow m a [j] = some (below m a)[i] := by simp [follow, hj, he]
  have := follow_inj [i] [j] h hn h1 h2
  simp at this
  omega

theorem before_spec {l : List Addr} {x : Addr} : ∀ {y : Addr} {i : Nat}, (y :: l).Nodup → l[i]? = some x → before x y l = (y :: l)[i]? := by
  induction l with
  | nil => intro y i _ h; simp at h
  | cons z l ih =>
    intro y i hn h
    have hd := List.nodup_cons.mp hn
    cases i with
    | zero =>
      simp only [List.getElem?_cons_zero, Option.some.injEq] at h
      subst h
      simp [before]
    | succ i =>
      simp only [List.getElem?_cons_succ] at h
      have hne : z ≠ x := fun e => (List.nodup_cons.mp hd.2).1 (e ▸ List.mem_of_getElem? h)
      simp only [before, hne, if_false, List.getElem?_cons_succ]
      exact ih hd.2 h

theorem after_spec {l : List Addr} {x : Addr} : ∀ {i : Nat}, l.Nodup → l[i]? = some x → after x l = l[i + 1]? := by
  induction l with
  | nil => intro i _ h; simp at h
  | cons z l ih =>
    intro i hn h
    have hd := List.nodup_cons.mp hn
    cases i with
    | zero =>
      simp only [List.getElem?_cons_zero, Option.some.injEq] at h
      subst h
      simp [after, List.head?_eq_getElem?]
    | succ i =>
      simp only [List.getElem?_cons_succ] at h
      have hne : z ≠ x := fun e => hd.1 (e ▸ List.mem_of_getElem? h)
      simp only [after, hne, if_false, List.getElem?_cons_succ]
      exact ih hd.2 h

theorem items_elem {m : Mem} {p : Option Addr} {e : Elem} {a : Addr} {as : List Addr} (h : StoresElem m p e a as) :
    items m a = if e.isContainer then some (below m a) else none := by
  cases e with
  | value v =>
    cases v with
    | arr xs => obtain ⟨l, bs, h1, _⟩ := h; simp [items, below, h1, Elem.isContainer]
    | obj es => obtain ⟨o, l, bs, h1, _⟩ := h; simp [items, below, h1, Elem.isContainer]
    | _ => simp [items, h.1, Elem.isContainer]
  | entry k v => obtain ⟨x, b, h1, _⟩ := h; simp [items, h1, Elem.isContainer]

theorem snoc_induction {motive : Path → Prop} (nil : motive []) (snoc : ∀ p i, motive p → motive (p ++ [i])) (p : Path) : motive p := by
  have : ∀ r : Path, motive r.reverse := by
    intro r
    induction r with
    | nil => exact nil
    | cons i r ih => simpa using snoc r.reverse i ih
  simpa using this p.reverse

section
variable {m : Mem} {v : Json} {a : Addr} {as : List Addr} (h : Stores m none v a as) (hn : as.Nodup)
include h hn

/-- The element at a position, with its parent. -/
theorem elem_parent (p : Path) {e : Elem} (he : (Elem.value v).at p = some e) :
    ∃ x b par, follow m a p = some x ∧ StoresElem m par e x b ∧ b.Nodup ∧ (m.get x).bind (·.parent) = par ∧ (∀ y ∈ b, y ∈ as) ∧ (p = [] → par = none) ∧ ∀ r i, p = r ++ [i] → par = follow m a r := by
  obtain ⟨x, b, par, h1, h2, h3, h4, h5, h6⟩ := (follow_elem p (e := .value v) h hn).1 e he
  obtain ⟨_, t, h7, _⟩ := elem_root h2
  exact ⟨x, b, par, h1, h2, h3, by simp [h7], h4, h5, h6⟩

theorem level_spec (p : Path) {x : Addr} (hx : follow m a p = some x) : ∀ n, p.length < n → getLevel m n (some x) = some (p.length + 1) := by
  induction p using snoc_induction generalizing x with
  | nil =>
    intro n hn'
    obtain ⟨n, rfl⟩ : ∃ k, n = k + 1 := ⟨n - 1, by omega⟩
    simp only [follow, Option.some.injEq] at hx
    subst hx
    obtain ⟨b, t, h1, _⟩ := stores_root h
    simp [getLevel, h1]
  | snoc p i ih =>
    intro n hn'
    simp only [List.length_append, List.length_cons, List.length_nil] at hn'
    obtain ⟨n, rfl⟩ : ∃ k, n = k + 1 := ⟨n - 1, by omega⟩
    cases he : (Elem.value v).at (p ++ [i]) with
    | none => rw [(follow_elem _ (e := .value v) h hn).2 he] at hx; simp at hx
    | some e =>
      obtain ⟨y, b, par, h1, h2, h3, h4, h5, h6, h7⟩ := elem_parent h hn _ he
      rw [hx, Option.some.injEq] at h1
      subst h1
      obtain ⟨b', t, h8, _⟩ := elem_root h2
      have hpar := h7 p i rfl
      rw [follow_append] at hx
      cases hp : follow m a p with
      | none => simp [hp] at hx
      | some z =>
        rw [hpar, hp] at h8
        simp only [getLevel, h8, Option.bind_some]
        rw [ih hp n (by omega)]
        simp

theorem findPrev_spec (p : Path) {x : Addr} (hx : follow m a p = some x) : Heap.findPrev m x = (Nav.findPrev v p).bind (follow m a) := by
  cases he : (Elem.value v).at p with
  | none => rw [(follow_elem _ (e := .value v) h hn).2 he] at hx; simp at hx
  | some e =>
    obtain ⟨y, b, par, h1, h2, h3, h4, h5, h6, h7⟩ := elem_parent h hn _ he
    rw [hx, Option.some.injEq] at h1
    subst h1
    simp only [Heap.findPrev, h4, Nav.findPrev]
    cases hl : p.getLast? with
    | none =>
      simp only [List.getLast?_eq_none_iff] at hl
      simp [h6 hl]
    | some i =>
      obtain ⟨r, rfl⟩ := List.getLast?_eq_some_iff.mp hl
      simp only [List.dropLast_concat]
      have hpar := h7 r i rfl
      rw [at_append] at he
      cases hr : (Elem.value v).at r with
      | none => simp [hr] at he
      | some c =>
        obtain ⟨z, b', par', g1, g2, g3, g4, g5, g6, g7⟩ := elem_parent h hn _ hr
        rw [hpar, g1]
        dsimp only
        rw [items_elem g2]
        cases hc : c.isContainer with
        | false => simp
        | true =>
          simp only [if_true, Bool.not_true, Bool.false_eq_true, if_false]
          have hxi : (below m z)[i]? = some x := by
            rw [follow_append, g1] at hx
            simpa [follow] using hx
          have hnd := below_nodup g2 g3
          cases hbl : below m z with
          | nil => rw [hbl] at hxi; simp at hxi
          | cons w l =>
            rw [hbl] at hxi hnd
            dsimp only
            cases i with
            | zero =>
              simp only [List.getElem?_cons_zero, Option.some.injEq] at hxi
              simp [hxi]
            | succ i =>
              simp only [List.getElem?_cons_succ] at hxi
              have hne : w ≠ x := fun e => (List.nodup_cons.mp hnd).1 (e ▸ List.mem_of_getElem? hxi)
              rw [if_neg hne, before_spec hnd hxi, if_neg (by omega)]
              simp only [Option.bind_some, Nat.add_sub_cancel]
              rw [follow_append, g1]
              simp only [Option.bind_some, follow, hbl]
              cases (w :: l)[i]? <;> rfl

theorem findNext_spec (p : Path) {x : Addr} (hx : follow m a p = some x) : ∀ n, p.length < n → Heap.findNext m n x = (Nav.findNext v p).bind (follow m a) := by
  unfold Nav.findNext
  induction p using snoc_induction generalizing x with
  | nil =>
    intro n hn'
    obtain ⟨n, rfl⟩ : ∃ k, n = k + 1 := ⟨n - 1, by omega⟩
    simp only [follow, Option.some.injEq] at hx
    subst hx
    obtain ⟨b, t, h1, _⟩ := stores_root h
    simp [Heap.findNext, h1, Nav.findNextRev]
  | snoc r i ih =>
    intro n hn'
    simp only [List.length_append, List.length_cons, List.length_nil] at hn'
    obtain ⟨n, rfl⟩ : ∃ k, n = k + 1 := ⟨n - 1, by omega⟩
    cases he : (Elem.value v).at (r ++ [i]) with
    | none => rw [(follow_elem _ (e := .value v) h hn).2 he] at hx; simp at hx
    | some e =>
      obtain ⟨y, b, par, h1, h2, h3, h4, h5, h6, h7⟩ := elem_parent h hn _ he
      rw [hx, Option.some.injEq] at h1
      subst h1
      simp only [Heap.findNext, h4, List.reverse_append, List.reverse_cons, List.reverse_nil, List.nil_append, List.cons_append, Nav.findNextRev, List.reverse_reverse]
      have hpar := h7 r i rfl
      rw [at_append] at he
      cases hr : (Elem.value v).at r with
      | none => simp [hr] at he
      | some c =>
        obtain ⟨z, b', par', g1, g2, g3, g4, g5, g6, g7⟩ := elem_parent h hn _ hr
        rw [hpar, g1]
        dsimp only
        rw [items_elem g2]
        cases hc : c.isContainer with
        | false => simp
        | true =>
          simp only [if_true, Bool.not_true, Bool.false_eq_true, if_false]
          have hxi : (below m z)[i]? = some x := by
            rw [follow_append, g1] at hx
            simpa [follow] using hx
          have hnd := below_nodup g2 g3
          obtain ⟨bss, ⟨hl1, hl2, hk⟩, _⟩ := elem_kids g2
          rw [after_spec hnd hxi]
          by_cases hlt : i + 1 < c.kids.length
          · rw [if_pos hlt]
            have hlt' : i + 1 < (below m z).length := by omega
            simp only [Option.bind_some, follow_append, g1, follow, List.getElem?_eq_getElem hlt']
          · rw [if_neg hlt]
            have : (below m z)[i + 1]? = none := by rw [List.getElem?_eq_none_iff]; omega
            rw [this]
            exact ih g1 n (by omega)
end

end Verif.Lemmas.Heap
