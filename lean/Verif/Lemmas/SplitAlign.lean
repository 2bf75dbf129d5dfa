import Verif.Lemmas.SplitItems
import Verif.Spec.Correspondence
/-!
# The lines of two documents that have counterparts
-/
namespace Verif.Lemmas.Split
open Verif.Model Verif.Model.Diff Verif.Model.Split Verif.Spec
open Verif.Model.Tui (isEmptyJ)

/-- What is drawn for an element after its own line. -/
def below (c : Path → Bool) (p : Path) (x : Nat) : Elem → List Item
  | .value v => itemsBelow c p x v
  | .entry _ v => if isEmptyJ v then [] else itemsBelow c (p ++ [0]) x v

theorem kidsFrom_next {c : Path → Bool} {p : Path} {i x : Nat} {e k : Elem} (hc : e.isContainer = true) (hk : e.kids[i]? = some k) :
    kidsFrom c p i x e = ⟨p ++ [i], false, x⟩ :: (below c (p ++ [i]) x k ++ kidsFrom c p (i + 1) x e) := by
  cases e with
  | entry k v => cases hc
  | value v =>
    cases v with
    | arr xs =>
      simp only [Elem.kids, List.getElem?_map, Option.map_eq_some_iff] at hk
      obtain ⟨v, hv, rfl⟩ := hk
      obtain ⟨hi, rfl⟩ := List.getElem?_eq_some_iff.mp hv
      simp only [kidsFrom]
      rw [List.drop_eq_getElem_cons hi, itemsItems]
      rfl
    | obj es =>
      simp only [Elem.kids, List.getElem?_map, Option.map_eq_some_iff] at hk
      obtain ⟨⟨ky, v⟩, hv, rfl⟩ := hk
      obtain ⟨hi, hv⟩ := List.getElem?_eq_some_iff.mp hv
      simp only [kidsFrom]
      rw [List.drop_eq_getElem_cons hi, hv, itemsEntries]
      rfl
    | _ => cases hc

theorem kidsFrom_end {c : Path → Bool} {p : Path} {i x : Nat} {e : Elem} (hk : e.kids[i]? = none) : kidsFrom c p i x e = [] := by
  cases e with
  | entry k v => rfl
  | value v =>
    cases v with
    | arr xs =>
      simp only [Elem.kids, List.getElem?_eq_none_iff, List.length_map] at hk
      simp only [kidsFrom]
      rw [List.drop_eq_nil_of_le hk, itemsItems]
    | obj es =>
      simp only [Elem.kids, List.getElem?_eq_none_iff, List.length_map] at hk
      simp only [kidsFrom]
      rw [List.drop_eq_nil_of_le hk, itemsEntries]
    | _ => rfl

theorem below_open {c : Path → Bool} {p : Path} {x : Nat} {v : Json} (hc : v.isContainer = true) :
    itemsBelow c p x v = if c p then [] else kidsFrom c p 0 (x + 4) (.value v) ++ [⟨p, true, x⟩] := by
  cases v with
  | arr xs => rw [itemsBelow]; rfl
  | obj es => rw [itemsBelow]; rfl
  | _ => cases hc

theorem below_leaf {c : Path → Bool} {p : Path} {x : Nat} {v : Json} (hc : v.isContainer = false) : itemsBelow c p x v = [] := by
  cases v with
  | arr xs => cases hc
  | obj es => cases hc
  | _ => rw [itemsBelow] <;> simp

theorem kids_size {e k : Elem} {i : Nat} (h : e.kids[i]? = some k) : sizeOf k < sizeOf e := by
  cases e with
  | entry ky v =>
    cases i with
    | zero => cases h; cases ky <;> simp <;> omega
    | succ i => cases h
  | value v =>
    cases v with
    | arr xs =>
      simp only [Elem.kids, List.getElem?_map, Option.map_eq_some_iff] at h
      obtain ⟨v, hv, rfl⟩ := h
      have := List.sizeOf_lt_of_mem (List.mem_of_getElem? hv)
      simp; omega
    | obj es =>
      simp only [Elem.kids, List.getElem?_map, Option.map_eq_some_iff] at h
      obtain ⟨⟨ky, v⟩, hv, rfl⟩ := h
      have := List.sizeOf_lt_of_mem (List.mem_of_getElem? hv)
      simp at this ⊢; omega
    | _ => cases h

/-- What is drawn below an element is below it, or its closing bracket. -/
theorem below_prefix (n : Nat) : ∀ (e : Elem), sizeOf e ≤ n → ∀ (c : Path → Bool) (p : Path) (x : Nat) (it : Item), it ∈ below c p x e →
    p <+: it.path ∧ (it.path = p → it.closing = true) := by
  induction n with
  | zero => intro e he; cases e <;> simp at he
  | succ n ih =>
    intro e he c p x it hit
    have hkids : ∀ (e' : Elem), sizeOf e' ≤ n + 1 → ∀ (m i y : Nat) (p : Path), e'.isContainer = true → e'.kids.length - i ≤ m → it ∈ kidsFrom c p i y e' →
        p <+: it.path ∧ it.path ≠ p := by
      intro e' he' m
      induction m with
      | zero =>
        intro i y p hc hm h
        rw [kidsFrom_end (List.getElem?_eq_none (by omega))] at h
        cases h
      | succ m ihm =>
        intro i y p hc hm h
        cases hk : e'.kids[i]? with
        | none => rw [kidsFrom_end hk] at h; cases h
        | some k =>
          have hsz := kids_size hk
          rw [kidsFrom_next hc hk] at h
          have key : p ++ [i] <+: it.path → p <+: it.path ∧ it.path ≠ p := by
            rintro ⟨r, hr⟩
            refine ⟨⟨i :: r, by rw [← hr]; simp⟩, fun h => ?_⟩
            rw [h] at hr
            have := congrArg List.length hr
            simp at this
          rcases List.mem_cons.mp h with rfl | h
          · exact key (List.prefix_refl _)
          · rcases List.mem_append.mp h with h | h
            · exact key (ih k (by omega) c _ y it h).1
            · exact ihm (i + 1) y p hc (by omega) h
    have hval : ∀ v : Json, sizeOf (Elem.value v) ≤ n + 1 → ∀ p, it ∈ itemsBelow c p x v → p <+: it.path ∧ (it.path = p → it.closing = true) := by
      intro v hv p h
      cases hc : v.isContainer with
      | false => rw [below_leaf hc] at h; cases h
      | true =>
        rw [below_open hc] at h
        split at h
        · cases h
        · rcases List.mem_append.mp h with h | h
          · have := hkids (.value v) hv _ 0 _ p (by cases v <;> first | rfl | cases hc) (Nat.le_refl _) h
            exact ⟨this.1, fun h => absurd h this.2⟩
          · rw [List.mem_singleton.mp h]
            exact ⟨List.prefix_refl _, fun _ => rfl⟩
    cases e with
    | value v => exact hval v he p hit
    | entry k v =>
      rw [below] at hit
      split at hit
      · cases hit
      · obtain ⟨⟨r, hr⟩, _⟩ := hval v (by cases k <;> simp at he ⊢ <;> omega) _ hit
        refine ⟨⟨0 :: r, by rw [← hr]; simp⟩, fun h => ?_⟩
        rw [h] at hr
        have := congrArg List.length hr
        simp at this

theorem kidsFrom_prefix (e : Elem) (c : Path → Bool) (p : Path) (x : Nat) (hc : e.isContainer = true) (m : Nat) : ∀ (i : Nat), e.kids.length - i ≤ m →
    ∀ it ∈ kidsFrom c p i x e, ∃ j, i ≤ j ∧ p ++ [j] <+: it.path := by
  induction m with
  | zero =>
    intro i hm it h
    rw [kidsFrom_end (List.getElem?_eq_none (by omega))] at h
    cases h
  | succ m ih =>
    intro i hm it h
    cases hk : e.kids[i]? with
    | none => rw [kidsFrom_end hk] at h; cases h
    | some k =>
      rw [kidsFrom_next hc hk] at h
      rcases List.mem_cons.mp h with rfl | h
      · exact ⟨i, Nat.le_refl _, List.prefix_refl _⟩
      · rcases List.mem_append.mp h with h | h
        · exact ⟨i, Nat.le_refl _, (below_prefix _ k (Nat.le_refl _) c _ x it h).1⟩
        · obtain ⟨j, hj, h⟩ := ih (i + 1) (by omega) it h
          exact ⟨j, by omega, h⟩

/-- Two different items. -/
def Apart (a b : Item) : Prop := a.path ≠ b.path ∨ a.closing ≠ b.closing

theorem prefix_apart {p r s : Path} {i j : Nat} (h : i ≠ j) (hr : p ++ [i] <+: r) (hs : p ++ [j] <+: s) : r ≠ s := by
  rintro rfl
  obtain ⟨a, ha⟩ := hr
  obtain ⟨b, hb⟩ := hs
  rw [← hb] at ha
  simp only [List.append_assoc, List.append_cancel_left_eq, List.singleton_append, List.cons.injEq] at ha
  exact h ha.1

theorem below_apart (n : Nat) : ∀ (e : Elem), sizeOf e ≤ n → ∀ (c : Path → Bool) (p : Path) (x : Nat), (below c p x e).Pairwise Apart := by
  induction n with
  | zero => intro e he; cases e <;> simp at he
  | succ n ih =>
    intro e he c p x
    have hkids : ∀ (e' : Elem), sizeOf e' ≤ n + 1 → ∀ (m i y : Nat) (p : Path), e'.isContainer = true → e'.kids.length - i ≤ m →
        (kidsFrom c p i y e').Pairwise Apart := by
      intro e' he' m
      induction m with
      | zero =>
        intro i y p hc hm
        rw [kidsFrom_end (List.getElem?_eq_none (by omega))]
        exact .nil
      | succ m ihm =>
        intro i y p hc hm
        cases hk : e'.kids[i]? with
        | none => rw [kidsFrom_end hk]; exact .nil
        | some k =>
          have hsz := kids_size hk
          rw [kidsFrom_next hc hk, List.pairwise_cons, List.pairwise_append]
          refine ⟨?_, ih k (by omega) c _ y, ihm (i + 1) y p hc (by omega), ?_⟩
          · intro it hit
            rcases List.mem_append.mp hit with h | h
            · have := (below_prefix _ k (Nat.le_refl _) c _ y it h).2
              by_cases hp : it.path = p ++ [i]
              · right; rw [this hp]; exact Bool.false_ne_true
              · left; exact fun hc => hp hc.symm
            · obtain ⟨j, hj, h⟩ := kidsFrom_prefix e' c p y hc _ (i + 1) (Nat.le_refl _) it h
              left
              exact prefix_apart (by omega) (List.prefix_refl _) h
          · intro a ha b hb
            obtain ⟨j, hj, h⟩ := kidsFrom_prefix e' c p y hc _ (i + 1) (Nat.le_refl _) b hb
            left
            exact prefix_apart (by omega) (below_prefix _ k (Nat.le_refl _) c _ y a ha).1 h
    have hval : ∀ v : Json, sizeOf (Elem.value v) ≤ n + 1 → ∀ p, (itemsBelow c p x v).Pairwise Apart := by
      intro v hv p
      cases hc : v.isContainer with
      | false => rw [below_leaf hc]; exact .nil
      | true =>
        have hc' : (Elem.value v).isContainer = true := by cases v <;> first | rfl | cases hc
        rw [below_open hc]
        split
        · exact .nil
        · rw [List.pairwise_append]
          refine ⟨hkids (.value v) hv _ 0 _ p hc' (Nat.le_refl _), List.pairwise_singleton _ _, ?_⟩
          intro a ha b hb
          rw [List.mem_singleton.mp hb]
          obtain ⟨j, _, ⟨r, hr⟩⟩ := kidsFrom_prefix _ c p (x + 4) hc' _ 0 (Nat.le_refl _) a ha
          left
          intro h
          have := congrArg List.length hr
          rw [show a.path = p from h] at this
          simp at this
    cases e with
    | value v => exact hval v he p
    | entry k v =>
      simp only [below]
      split
      · exact .nil
      · exact hval v (by cases k <;> simp at he ⊢ <;> omega) _

/-- No two items of a document are the same. -/
theorem items_apart (c : Path → Bool) (root : Json) : (itemsAll c root).Pairwise Apart := by
  unfold itemsAll
  rw [List.pairwise_cons]
  refine ⟨?_, below_apart _ (.value root) (Nat.le_refl _) c [] 2⟩
  intro it hit
  have := (below_prefix _ (.value root) (Nat.le_refl _) c [] 2 it hit).2
  by_cases hp : it.path = []
  · right; rw [this hp]; exact Bool.false_ne_true
  · left; exact fun hc => hp hc.symm

/-- What is known about a comparison. -/
structure Match (R : Path → Path → Prop) (a b : Json) (c0 c1 m0 m1 : Path → Bool) : Prop where
  tree : TreeMatching R
  left : ∀ p, m0 p = true ↔ ∃ q, R p q
  right : ∀ q, m1 q = true ↔ ∃ p, R p q
  ex : ∀ p q, R p q → ∃ x y, (Elem.value a).at p = some x ∧ (Elem.value b).at q = some y
  hidden : ∀ p q, R p q → c0 p = c1 q
  cont : ∀ p q x y, R p q → (Elem.value a).at p = some x → (Elem.value b).at q = some y → x.isContainer = y.isContainer
  empty : ∀ p q k k' v v', R (p ++ [0]) (q ++ [0]) → (Elem.value a).at p = some (.entry k v) → (Elem.value b).at q = some (.entry k' v') → isEmptyJ v = isEmptyJ v'

/-- Two items facing each other. -/
def Facing (R : Path → Path → Prop) (a b : Item) : Prop := R a.path b.path ∧ a.closing = b.closing ∧ a.col = b.col

/-- Two lists of items facing each other, one by one. -/
inductive Level (R : Path → Path → Prop) : List Item → List Item → Prop where
  | nil : Level R [] []
  | cons {a b : Item} {l m : List Item} : Facing R a b → Level R l m → Level R (a :: l) (b :: m)

theorem Level.append {R : Path → Path → Prop} {a b c d : List Item} (h : Level R a b) (h' : Level R c d) : Level R (a ++ c) (b ++ d) := by
  induction h with
  | nil => exact h'
  | cons hf _ ih => exact .cons hf ih

theorem Level.get {R : Path → Path → Prop} {a b : List Item} (h : Level R a b) : ∀ (i : Nat) (x y : Item), a[i]? = some x → b[i]? = some y → Facing R x y := by
  induction h with
  | nil => intro i x y hx; simp at hx
  | cons hf _ ih =>
    intro i x y hx hy
    cases i with
    | zero => cases hx; cases hy; exact hf
    | succ i => exact ih i x y hx hy

theorem Level.length {R : Path → Path → Prop} {a b : List Item} (h : Level R a b) : a.length = b.length := by
  induction h with
  | nil => rfl
  | cons _ _ ih => simp [ih]

section
variable {R : Path → Path → Prop} {a b : Json} {c0 c1 m0 m1 : Path → Bool}

theorem Match.up (hm : Match R a b c0 c1 m0 m1) : ∀ (r p q : Path), R (p ++ r) q → ∃ q', R p q' := by
  intro r
  induction r with
  | nil => intro p q h; exact ⟨q, by simpa using h⟩
  | cons i r ih =>
    intro p q h
    obtain ⟨q', h'⟩ := ih (p ++ [i]) q (by simpa using h)
    rcases hm.tree.parents h' with ⟨h1, _⟩ | ⟨p', i', q'', j, h1, _, h2⟩
    · simp at h1
    · obtain ⟨h3, _⟩ := List.append_inj' h1 rfl
      rw [← h3] at h2
      exact ⟨_, h2⟩

theorem Match.up' (hm : Match R a b c0 c1 m0 m1) : ∀ (r q p : Path), R p (q ++ r) → ∃ p', R p' q := by
  intro r
  induction r with
  | nil => intro q p h; exact ⟨p, by simpa using h⟩
  | cons i r ih =>
    intro q p h
    obtain ⟨p', h'⟩ := ih (q ++ [i]) p (by simpa using h)
    rcases hm.tree.parents h' with ⟨_, h1⟩ | ⟨p'', i', q', j, _, h1, h2⟩
    · simp at h1
    · obtain ⟨h3, _⟩ := List.append_inj' h1 rfl
      rw [← h3] at h2
      exact ⟨_, h2⟩

def keep (m : Path → Bool) (l : List Item) : List Item := l.filter fun it => m it.path

theorem keep_cons {m : Path → Bool} {it : Item} (l : List Item) (h : m it.path = true) : keep m (it :: l) = it :: keep m l := by
  unfold keep
  rw [List.filter_cons, if_pos h]

theorem keep_append (m : Path → Bool) (l l' : List Item) : keep m (l ++ l') = keep m l ++ keep m l' := List.filter_append ..

theorem keep_nil {m : Path → Bool} {l : List Item} (h : ∀ it ∈ l, m it.path = false) : keep m l = [] := by
  unfold keep
  rw [List.filter_eq_nil_iff]
  intro it hit
  rw [h it hit]
  exact Bool.false_ne_true

theorem Match.none0 (hm : Match R a b c0 c1 m0 m1) {p : Path} (h : m0 p = false) {l : List Item} (hl : ∀ it ∈ l, p <+: it.path) : keep m0 l = [] := by
  refine keep_nil fun it hit => ?_
  obtain ⟨r, hr⟩ := hl it hit
  cases hx : m0 it.path with
  | false => rfl
  | true =>
    obtain ⟨q, hq⟩ := (hm.left _).mp hx
    rw [← hr] at hq
    rw [(hm.left p).mpr (hm.up r p q hq)] at h
    cases h

theorem Match.none1 (hm : Match R a b c0 c1 m0 m1) {p : Path} (h : m1 p = false) {l : List Item} (hl : ∀ it ∈ l, p <+: it.path) : keep m1 l = [] := by
  refine keep_nil fun it hit => ?_
  obtain ⟨r, hr⟩ := hl it hit
  cases hx : m1 it.path with
  | false => rfl
  | true =>
    obtain ⟨q, hq⟩ := (hm.right _).mp hx
    rw [← hr] at hq
    rw [(hm.right p).mpr (hm.up' r p q hq)] at h
    cases h

/-- A counterpart of a child is a child of the counterpart. -/
theorem Match.child0 (hm : Match R a b c0 c1 m0 m1) {p q r : Path} {i : Nat} (h : R p q) (hc : R (p ++ [i]) r) : ∃ j, r = q ++ [j] := by
  rcases hm.tree.parents hc with ⟨h1, _⟩ | ⟨p', i', q', j, h1, h2, h3⟩
  · simp at h1
  · obtain ⟨h4, _⟩ := List.append_inj' h1 rfl
    rw [← h4] at h3
    rw [hm.tree.left_unique h h3]
    exact ⟨j, h2⟩

theorem Match.child1 (hm : Match R a b c0 c1 m0 m1) {p q r : Path} {i : Nat} (h : R p q) (hc : R r (q ++ [i])) : ∃ j, r = p ++ [j] := by
  rcases hm.tree.parents hc with ⟨_, h1⟩ | ⟨p', i', q', j, h2, h1, h3⟩
  · simp at h1
  · obtain ⟨h4, _⟩ := List.append_inj' h1 rfl
    rw [← h4] at h3
    rw [hm.tree.right_unique h h3]
    exact ⟨i', h2⟩

/-- The children, if what is below those that face each other is level. -/
theorem level_kids (hm : Match R a b c0 c1 m0 m1) {p q : Path} {e e' : Elem} (h : R p q) (he : (Elem.value a).at p = some e) (he' : (Elem.value b).at q = some e')
    (hc : e.isContainer = true) (hc' : e'.isContainer = true) (x : Nat)
    (ih : ∀ i j k k', R (p ++ [i]) (q ++ [j]) → e.kids[i]? = some k → e'.kids[j]? = some k' → Level R (keep m0 (below c0 (p ++ [i]) x k)) (keep m1 (below c1 (q ++ [j]) x k')))
    (n : Nat) : ∀ i j, (e.kids.length - i) + (e'.kids.length - j) ≤ n → (∀ s t, R (p ++ [s]) (q ++ [t]) → (i ≤ s ↔ j ≤ t)) →
    Level R (keep m0 (kidsFrom c0 p i x e)) (keep m1 (kidsFrom c1 q j x e')) := by
  induction n with
  | zero =>
    intro i j hn _
    rw [kidsFrom_end (List.getElem?_eq_none (by omega)), kidsFrom_end (List.getElem?_eq_none (by omega))]
    exact .nil
  | succ n ihn =>
    intro i j hn hij
    have skip0 : ∀ k, e.kids[i]? = some k → m0 (p ++ [i]) = false → Level R (keep m0 (kidsFrom c0 p i x e)) (keep m1 (kidsFrom c1 q j x e')) := by
      intro k hk hf
      have hi := (List.getElem?_eq_some_iff.mp hk).1
      rw [kidsFrom_next hc hk, ← List.cons_append, keep_append, hm.none0 hf (l := _ :: _), List.nil_append]
      · refine ihn (i + 1) j (by omega) fun s t hst => ?_
        rw [← hij s t hst]
        have : s ≠ i := by
          rintro rfl
          rw [(hm.left _).mpr ⟨_, hst⟩] at hf
          cases hf
        omega
      · intro it hit
        rcases List.mem_cons.mp hit with rfl | hit
        · exact List.prefix_refl _
        · exact (below_prefix _ k (Nat.le_refl _) c0 _ x it hit).1
    have skip1 : ∀ k, e'.kids[j]? = some k → m1 (q ++ [j]) = false → Level R (keep m0 (kidsFrom c0 p i x e)) (keep m1 (kidsFrom c1 q j x e')) := by
      intro k hk hf
      have hj := (List.getElem?_eq_some_iff.mp hk).1
      rw [kidsFrom_next hc' hk, ← List.cons_append, keep_append, hm.none1 hf (l := _ :: _), List.nil_append]
      · refine ihn i (j + 1) (by omega) fun s t hst => ?_
        rw [hij s t hst]
        have : t ≠ j := by
          rintro rfl
          rw [(hm.right _).mpr ⟨_, hst⟩] at hf
          cases hf
        omega
      · intro it hit
        rcases List.mem_cons.mp hit with rfl | hit
        · exact List.prefix_refl _
        · exact (below_prefix _ k (Nat.le_refl _) c1 _ x it hit).1
    cases hk : e.kids[i]? with
    | none =>
      cases hk' : e'.kids[j]? with
      | none => rw [kidsFrom_end hk, kidsFrom_end hk']; exact .nil
      | some k' =>
        refine skip1 k' hk' ?_
        cases hx : m1 (q ++ [j]) with
        | false => rfl
        | true =>
          obtain ⟨r, hr⟩ := (hm.right _).mp hx
          obtain ⟨s, rfl⟩ := hm.child1 h hr
          have h1 := (hij s j hr).mpr (Nat.le_refl _)
          obtain ⟨y, _, hy, _⟩ := hm.ex _ _ hr
          rw [at_child he] at hy
          have h2 := (List.getElem?_eq_some_iff.mp hy).1
          have h3 := List.getElem?_eq_none_iff.mp hk
          omega
    | some k =>
      cases hf : m0 (p ++ [i]) with
      | false => exact skip0 k hk hf
      | true =>
        obtain ⟨r, hr⟩ := (hm.left _).mp hf
        obtain ⟨t, rfl⟩ := hm.child0 h hr
        have h1 := (hij i t hr).mp (Nat.le_refl _)
        obtain ⟨_, y, _, hy⟩ := hm.ex _ _ hr
        rw [at_child he'] at hy
        have h2 := (List.getElem?_eq_some_iff.mp hy).1
        have hj : j < e'.kids.length := by omega
        cases hf' : m1 (q ++ [j]) with
        | false => exact skip1 _ (List.getElem?_eq_getElem hj) hf'
        | true =>
          obtain ⟨r, hr'⟩ := (hm.right _).mp hf'
          obtain ⟨s, rfl⟩ := hm.child1 h hr'
          have h3 := (hij s j hr').mpr (Nat.le_refl _)
          have h4 := hm.tree.ordered hr hr'
          have h5 := hm.tree.ordered hr' hr
          have htj : t = j := by omega
          subst htj
          rw [kidsFrom_next hc hk, kidsFrom_next hc' hy, ← List.cons_append, ← List.cons_append, keep_append, keep_append]
          refine .append ?_ (ihn (i + 1) (t + 1) (by omega) fun s' t' hst => ?_)
          · rw [keep_cons _ hf, keep_cons _ hf']
            exact .cons ⟨hr, rfl, rfl⟩ (ih i t k y hr hk hy)
          · have := hm.tree.ordered hr hst
            omega

/-- What is below two elements facing each other is level. -/
theorem level_below (hm : Match R a b c0 c1 m0 m1) (n : Nat) : ∀ (p q : Path) (e e' : Elem) (x : Nat), sizeOf e ≤ n → R p q → (Elem.value a).at p = some e →
    (Elem.value b).at q = some e' → Level R (keep m0 (below c0 p x e)) (keep m1 (below c1 q x e')) := by
  induction n with
  | zero => intro p q e e' x he; cases e <;> simp at he
  | succ n ih =>
    have hval : ∀ (p q : Path) (v v' : Json) (x : Nat), sizeOf (Elem.value v) ≤ n + 1 → R p q → (Elem.value a).at p = some (.value v) → (Elem.value b).at q = some (.value v') →
        Level R (keep m0 (itemsBelow c0 p x v)) (keep m1 (itemsBelow c1 q x v')) := by
      intro p q v v' x hs h he he'
      have hcc := hm.cont p q _ _ h he he'
      have hcv : ∀ u : Json, (Elem.value u).isContainer = u.isContainer := fun u => by cases u <;> rfl
      rw [hcv, hcv] at hcc
      cases hc : v.isContainer with
      | false =>
        rw [hc] at hcc
        rw [below_leaf hc, below_leaf hcc.symm]
        exact .nil
      | true =>
        rw [hc] at hcc
        rw [below_open hc, below_open hcc.symm, ← hm.hidden p q h]
        split
        · exact .nil
        · rw [keep_append, keep_append]
          refine .append ?_ ?_
          · refine level_kids hm h he he' (by rw [hcv]; exact hc) (by rw [hcv]; exact hcc.symm) (x + 4) ?_ _ 0 0 (Nat.le_refl _) (fun s t _ => by simp)
            intro i j k k' hr hk hk'
            have := kids_size hk
            exact ih _ _ k k' _ (by omega) hr ((at_child he).trans hk) ((at_child he').trans hk')
          · rw [keep_cons [] (it := ⟨p, true, x⟩) ((hm.left p).mpr ⟨q, h⟩), keep_cons [] (it := ⟨q, true, x⟩) ((hm.right q).mpr ⟨p, h⟩)]
            exact .cons ⟨h, rfl, rfl⟩ .nil
    intro p q e e' x hs h he he'
    have kid0 : ∀ {ky : Bytes} {v : Json}, (Elem.value a).at p = some (.entry ky v) → ∀ i y, (Elem.value a).at (p ++ [i]) = some y → i = 0 ∧ y = .value v := by
      intro ky v he i y hy
      rw [at_child he] at hy
      cases i with
      | zero => cases hy; exact ⟨rfl, rfl⟩
      | succ i => cases hy
    have kid1 : ∀ {ky : Bytes} {v : Json}, (Elem.value b).at q = some (.entry ky v) → ∀ i y, (Elem.value b).at (q ++ [i]) = some y → i = 0 ∧ y = .value v := by
      intro ky v he i y hy
      rw [at_child he] at hy
      cases i with
      | zero => cases hy; exact ⟨rfl, rfl⟩
      | succ i => cases hy
    -- nothing is kept below an element whose children have no counterparts
    have no0 : (∀ i r, ¬ R (p ++ [i]) r) → e.isContainer = false → keep m0 (below c0 p x e) = [] := by
      intro hno hc
      cases e with
      | value v =>
        have hc' : v.isContainer = false := by cases v <;> first | rfl | cases hc
        rw [below]; rw [below_leaf hc']; rfl
      | entry ky v =>
        simp only [below]
        split
        · rfl
        · refine hm.none0 (p := p ++ [0]) ?_ (fun it hit => (below_prefix _ (.value v) (Nat.le_refl _) c0 _ x it hit).1)
          cases hx : m0 (p ++ [0]) with
          | false => rfl
          | true => obtain ⟨r, hr⟩ := (hm.left _).mp hx; exact absurd hr (hno 0 r)
    have no1 : (∀ i r, ¬ R r (q ++ [i])) → e'.isContainer = false → keep m1 (below c1 q x e') = [] := by
      intro hno hc
      cases e' with
      | value v =>
        have hc' : v.isContainer = false := by cases v <;> first | rfl | cases hc
        rw [below]; rw [below_leaf hc']; rfl
      | entry ky v =>
        simp only [below]
        split
        · rfl
        · refine hm.none1 (p := q ++ [0]) ?_ (fun it hit => (below_prefix _ (.value v) (Nat.le_refl _) c1 _ x it hit).1)
          cases hx : m1 (q ++ [0]) with
          | false => rfl
          | true => obtain ⟨r, hr⟩ := (hm.right _).mp hx; exact absurd hr (hno 0 r)
    have hcc := hm.cont p q e e' h he he'
    by_cases hpair : ∃ i j, R (p ++ [i]) (q ++ [j])
    · obtain ⟨i, j, hr⟩ := hpair
      obtain ⟨y, y', hy, hy'⟩ := hm.ex _ _ hr
      cases e with
      | value v =>
        cases e' with
        | value v' => exact hval p q v v' x hs h he he'
        | entry k' v' =>
          rw [at_child he] at hy
          have : v.isContainer = true := by cases v <;> first | rfl | cases hy
          have hcv : (Elem.value v).isContainer = v.isContainer := by cases v <;> rfl
          rw [hcv, this] at hcc
          cases hcc
      | entry k v =>
        cases e' with
        | value v' =>
          rw [at_child he'] at hy'
          have : v'.isContainer = true := by cases v' <;> first | rfl | cases hy'
          have hcv : (Elem.value v').isContainer = v'.isContainer := by cases v' <;> rfl
          rw [hcv, this] at hcc
          cases hcc
        | entry k' v' =>
          obtain ⟨rfl, rfl⟩ := kid0 he i y hy
          obtain ⟨rfl, rfl⟩ := kid1 he' j y' hy'
          have hem := hm.empty p q k k' v v' hr he he'
          simp only [below]
          rw [← hem]
          split
          · exact .nil
          · exact hval _ _ v v' x (by cases k <;> simp at hs ⊢ <;> omega) hr hy hy'
    · have n0 : ∀ i r, ¬ R (p ++ [i]) r := by
        intro i r hr
        obtain ⟨j, rfl⟩ := hm.child0 h hr
        exact hpair ⟨i, j, hr⟩
      have n1 : ∀ i r, ¬ R r (q ++ [i]) := by
        intro i r hr
        obtain ⟨j, rfl⟩ := hm.child1 h hr
        exact hpair ⟨j, i, hr⟩
      cases hc : e.isContainer with
      | false =>
        rw [hc] at hcc
        rw [no0 n0 hc, no1 n1 hcc.symm]
        exact .nil
      | true =>
        cases e with
        | entry k v => cases hc
        | value v =>
          rw [hc] at hcc
          cases e' with
          | entry k v => cases hcc
          | value v' => exact hval p q v v' x hs h he he'

/-- The items with counterparts of two documents face each other. -/
theorem level_all (hm : Match R a b c0 c1 m0 m1) : Level R (keep m0 (itemsAll c0 a)) (keep m1 (itemsAll c1 b)) := by
  unfold itemsAll
  by_cases h : R [] []
  · have h0 := (hm.left []).mpr ⟨_, h⟩
    have h1 := (hm.right []).mpr ⟨_, h⟩
    rw [keep_cons _ h0, keep_cons _ h1]
    exact .cons ⟨h, rfl, rfl⟩ (level_below hm _ [] [] (.value a) (.value b) 2 (Nat.le_refl _) h rfl rfl)
  · have f0 : m0 [] = false := by
      cases hx : m0 [] with
      | false => rfl
      | true =>
        obtain ⟨q, hq⟩ := (hm.left []).mp hx
        rcases hm.tree.parents hq with ⟨_, rfl⟩ | ⟨_, _, _, _, h1, _⟩
        · exact absurd hq h
        · simp at h1
    have f1 : m1 [] = false := by
      cases hx : m1 [] with
      | false => rfl
      | true =>
        obtain ⟨q, hq⟩ := (hm.right []).mp hx
        rcases hm.tree.parents hq with ⟨rfl, _⟩ | ⟨_, _, _, _, _, h1, _⟩
        · exact absurd hq h
        · simp at h1
    rw [hm.none0 f0 (fun _ _ => List.nil_prefix), hm.none1 f1 (fun _ _ => List.nil_prefix)]
    exact .nil
end

end Verif.Lemmas.Split
