import Verif.Lemmas.DiffBuild
import Verif.Spec.Correspondence
/-! # Maps, cells and the walk of `shortestPath` -/
namespace Verif.Lemmas.Diff
open Verif.Model Verif.Model.Diff Verif.Spec

variable {V : Type}

/-- Keys are unique. -/
def Uniq (m : List (Ptr × V)) : Prop := (m.map (·.1)).Nodup

theorem look_filter {m : List (Ptr × V)} {k k' : Ptr} (h : k' ≠ k) : look (m.filter (fun e => decide (e.1 ≠ k))) k' = look m k' := by
  induction m with
  | nil => rfl
  | cons e m ih =>
    by_cases he : e.1 = k
    · rw [List.filter_cons_of_neg (by simp [he]), ih]
      simp only [look]
      rw [if_neg (by rw [he]; exact fun h' => h h'.symm)]
    · rw [List.filter_cons_of_pos (by simpa using he)]
      simp only [look, ih]

theorem look_setKey (m : List (Ptr × V)) (k k' : Ptr) (v : V) :
    look (setKey m k v) k' = if k = k' then some v else look m k' := by
  simp only [setKey, look]
  split
  · rfl
  · exact look_filter (fun h => ‹¬ k = k'› h.symm)

theorem look_none {m : List (Ptr × V)} {k : Ptr} : look m k = none ↔ k ∉ m.map (·.1) := by
  induction m with
  | nil => simp [look]
  | cons e m ih =>
    simp only [look, List.map_cons, List.mem_cons, not_or]
    split
    · simp_all
    · rw [ih]
      constructor
      · exact fun h => ⟨fun h' => ‹¬ e.1 = k› h'.symm, h⟩
      · exact fun h => h.2

theorem look_setAll {o : List (Ptr × V)} (ho : Uniq o) (m : List (Ptr × V)) (k : Ptr) :
    look (setAll m o) k = (look o k).or (look m k) := by
  induction o generalizing m with
  | nil => simp [setAll, look]
  | cons e o ih =>
    simp only [Uniq, List.map_cons, List.nodup_cons] at ho
    have := ih ho.2 (setKey m e.1 e.2)
    rw [show setAll m (e :: o) = setAll (setKey m e.1 e.2) o from rfl, this, look_setKey]
    simp only [look]
    by_cases h : e.1 = k
    · have : look o k = none := look_none.mpr (h ▸ ho.1)
      simp [this, h]
    · simp [h]

theorem uniq_setKey {m : List (Ptr × V)} (h : Uniq m) (k : Ptr) (v : V) : Uniq (setKey m k v) := by
  simp only [Uniq, setKey, List.map_cons, List.nodup_cons]
  refine ⟨?_, ?_⟩
  · simp
  · exact h.sublist ((List.filter_sublist).map _)

theorem uniq_setAll {m : List (Ptr × V)} (h : Uniq m) (o : List (Ptr × V)) : Uniq (setAll m o) := by
  induction o generalizing m with
  | nil => exact h
  | cons e o ih => exact ih (uniq_setKey h e.1 e.2)

theorem uniq_nil : Uniq ([] : List (Ptr × V)) := by simp [Uniq]

theorem mem_iff_look {m : List (Ptr × V)} (h : Uniq m) (k : Ptr) (v : V) : (k, v) ∈ m ↔ look m k = some v := by
  induction m with
  | nil => simp [look]
  | cons e m ih =>
    simp only [Uniq, List.map_cons, List.nodup_cons] at h
    simp only [List.mem_cons, look]
    split
    · rename_i he
      constructor
      · rintro (h' | h')
        · simp [← h']
        · exact absurd (List.mem_map_of_mem (f := (·.1)) h') (he ▸ h.1)
      · intro h'
        obtain ⟨a, b⟩ := e
        simp_all
    · rename_i he
      rw [← ih h.2]
      constructor
      · rintro (h' | h')
        · simp [← h'] at he
        · exact h'
      · exact .inr

/-! ## The walk -/

/-- The child numbers of the turns go down, on each side. -/
inductive Desc : Nat → Nat → List Step → Prop where
  | nil (i j : Nat) : Desc i j []
  | dropLeft {i j i' : Nat} {s : List Step} : i' < i → Desc i' j s → Desc i j (.dropLeft i' :: s)
  | dropRight {i j j' : Nat} {s : List Step} : j' < j → Desc i j' s → Desc i j (.dropRight j' :: s)
  | pair {i j i' j' : Nat} {op : Op} {s : List Step} : i' < i → j' < j → Desc i' j' s → Desc i j (.pair i' j' op :: s)

theorem trace_desc {w : Nat} {cost : Nat → Nat → Nat} (i j : Nat) {s : List Step} (h : trace w cost i j = some s) : Desc i j s := by
  fun_induction trace generalizing s with
  | case1 => simp at h; subst h; exact .nil _ _
  | case2 i ih =>
    simp only [Option.map_eq_some_iff] at h
    obtain ⟨s', h', rfl⟩ := h
    exact .dropLeft (by omega) (ih h')
  | case3 j ih =>
    simp only [Option.map_eq_some_iff] at h
    obtain ⟨s', h', rfl⟩ := h
    exact .dropRight (by omega) (ih h')
  | case4 i j _ ih =>
    simp only [Option.map_eq_some_iff] at h
    obtain ⟨s', h', rfl⟩ := h
    exact .dropLeft (by omega) (ih h')
  | case5 i j _ _ ih =>
    simp only [Option.map_eq_some_iff] at h
    obtain ⟨s', h', rfl⟩ := h
    exact .dropRight (by omega) (ih h')
  | case6 i j _ _ _ ih =>
    simp only [Option.map_eq_some_iff] at h
    obtain ⟨s', h', rfl⟩ := h
    exact .pair (by omega) (by omega) (ih h')
  | case7 => simp at h

/-- The part of the two documents that a turn concerns. -/
def Touch (pa pb : Path) : Step → Ptr → Prop
  | .dropLeft i, k => ∃ r, k = .left (pa ++ i :: r)
  | .dropRight j, k => ∃ r, k = .right (pb ++ j :: r)
  | .pair i j _, k => (∃ r, k = .left (pa ++ i :: r)) ∨ ∃ r, k = .right (pb ++ j :: r)

theorem desc_touch {pa pb : Path} {i j : Nat} {s : List Step} (h : Desc i j s) {x : Step} (hx : x ∈ s) {k : Ptr} (ht : Touch pa pb x k) :
    (∃ i' r, i' < i ∧ k = .left (pa ++ i' :: r)) ∨ ∃ j' r, j' < j ∧ k = .right (pb ++ j' :: r) := by
  have mono : ∀ {i i' j j' : Nat}, i' ≤ i → j' ≤ j →
      ((∃ a r, a < i' ∧ k = .left (pa ++ a :: r)) ∨ ∃ a r, a < j' ∧ k = .right (pb ++ a :: r)) →
      ((∃ a r, a < i ∧ k = .left (pa ++ a :: r)) ∨ ∃ a r, a < j ∧ k = .right (pb ++ a :: r)) := by
    rintro i i' j j' hi hj (⟨a, r, h1, h2⟩ | ⟨a, r, h1, h2⟩)
    · exact .inl ⟨a, r, by omega, h2⟩
    · exact .inr ⟨a, r, by omega, h2⟩
  induction h with
  | nil => simp at hx
  | @dropLeft i j i' s hi hd ih =>
    cases hx with
    | head => obtain ⟨r, hr⟩ := ht; exact .inl ⟨i', r, hi, hr⟩
    | tail _ hx => exact mono (Nat.le_of_lt hi) (Nat.le_refl _) (ih hx)
  | @dropRight i j j' s hj hd ih =>
    cases hx with
    | head => obtain ⟨r, hr⟩ := ht; exact .inr ⟨j', r, hj, hr⟩
    | tail _ hx => exact mono (Nat.le_refl _) (Nat.le_of_lt hj) (ih hx)
  | @pair i j i' j' op s hi hj hd ih =>
    cases hx with
    | head =>
      obtain ⟨r, hr⟩ | ⟨r, hr⟩ := ht
      · exact .inl ⟨i', r, hi, hr⟩
      · exact .inr ⟨j', r, hj, hr⟩
    | tail _ hx => exact mono (Nat.le_of_lt hi) (Nat.le_of_lt hj) (ih hx)

theorem left_inj {pa r r' : Path} {i i' : Nat} (h : Ptr.left (pa ++ i :: r) = .left (pa ++ i' :: r')) : i = i' ∧ r = r' := by
  have := List.append_cancel_left (Ptr.left.inj h)
  exact ⟨(List.cons.inj this).1, (List.cons.inj this).2⟩

theorem right_inj {pa r r' : Path} {i i' : Nat} (h : Ptr.right (pa ++ i :: r) = .right (pa ++ i' :: r')) : i = i' ∧ r = r' := by
  have := List.append_cancel_left (Ptr.right.inj h)
  exact ⟨(List.cons.inj this).1, (List.cons.inj this).2⟩

/-- Two different turns concern different parts. -/
theorem desc_disjoint {pa pb : Path} {i j : Nat} {s : List Step} (h : Desc i j s) :
    s.Pairwise (fun x y => ∀ k, Touch pa pb x k → ¬ Touch pa pb y k) := by
  induction h with
  | nil => exact .nil
  | dropLeft hi hd ih =>
    refine .cons ?_ ih
    rintro y hy k ⟨r, rfl⟩ ht
    obtain ⟨a, r', h1, h2⟩ | ⟨a, r', h1, h2⟩ := desc_touch hd hy ht
    · have := (left_inj h2).1; omega
    · cases h2
  | dropRight hi hd ih =>
    refine .cons ?_ ih
    rintro y hy k ⟨r, rfl⟩ ht
    obtain ⟨a, r', h1, h2⟩ | ⟨a, r', h1, h2⟩ := desc_touch hd hy ht
    · cases h2
    · have := (right_inj h2).1; omega
  | pair hi hj hd ih =>
    refine .cons ?_ ih
    rintro y hy k (⟨r, rfl⟩ | ⟨r, rfl⟩) ht
    · obtain ⟨a, r', h1, h2⟩ | ⟨a, r', h1, h2⟩ := desc_touch hd hy ht
      · have := (left_inj h2).1; omega
      · cases h2
    · obtain ⟨a, r', h1, h2⟩ | ⟨a, r', h1, h2⟩ := desc_touch hd hy ht
      · cases h2
      · have := (right_inj h2).1; omega

/-- What one turn alone records. -/
def local' (pa pb : Path) (sub : Nat → Nat → Table) (x : Step) : List (Ptr × Op) × List (Ptr × Ptr) := applyStep pa pb sub ([], []) x

/-- The tables of the children are maps that concern these children only. -/
structure SubOk (pa pb : Path) (t : Table) : Prop where
  uniqO : Uniq t.operations
  uniqE : Uniq t.equivalences
  domO : ∀ k v, look t.operations k = some v → (∃ r, k = .left (pa ++ r)) ∨ ∃ r, k = .right (pb ++ r)
  domE : ∀ k v, look t.equivalences k = some v →
    (∃ r s, k = .left (pa ++ r) ∧ v = .right (pb ++ s)) ∨ ∃ r s, k = .right (pb ++ s) ∧ v = .left (pa ++ r)

/-- The pairs of a list of turns compare well-formed tables. -/
def StepsOk (pa pb : Path) (sub : Nat → Nat → Table) (s : List Step) : Prop :=
  ∀ i j op, Step.pair i j op ∈ s → SubOk (pa ++ [i]) (pb ++ [j]) (sub i j)

theorem applyStep_local {pa pb : Path} {sub : Nat → Nat → Table} {x : Step} (hx : StepsOk pa pb sub [x])
    (acc : List (Ptr × Op) × List (Ptr × Ptr)) (k : Ptr) :
    look (applyStep pa pb sub acc x).1 k = (look (local' pa pb sub x).1 k).or (look acc.1 k) ∧
    look (applyStep pa pb sub acc x).2 k = (look (local' pa pb sub x).2 k).or (look acc.2 k) := by
  cases x with
  | dropLeft i => simp only [applyStep, local', look_setKey, look]; split <;> simp
  | dropRight j => simp only [applyStep, local', look_setKey, look]; split <;> simp
  | pair i j op =>
    have h := hx i j op (by simp)
    simp only [applyStep, local', look_setKey, look_setAll h.uniqO, look_setAll h.uniqE, look]
    constructor
    · cases look (sub i j).operations k with
      | some v => simp
      | none => 
        simp only [Option.none_or]
        split
        · simp
        · split <;> simp
    · split
      · simp
      · cases look (sub i j).equivalences k <;> simp

theorem local_dropLeft {pa pb : Path} {sub : Nat → Nat → Table} (i : Nat) (k : Ptr) :
    (∀ v, look (local' pa pb sub (.dropLeft i)).1 k = some v ↔ k = .left (pa ++ [i]) ∧ v = .add) ∧
    look (local' pa pb sub (.dropLeft i)).2 k = none := by
  refine ⟨fun v => ?_, rfl⟩
  simp only [local', applyStep, look_setKey, look]
  split
  · simp_all [eq_comm]
  · simp_all [eq_comm]

theorem local_dropRight {pa pb : Path} {sub : Nat → Nat → Table} (i : Nat) (k : Ptr) :
    (∀ v, look (local' pa pb sub (.dropRight i)).1 k = some v ↔ k = .right (pb ++ [i]) ∧ v = .add) ∧
    look (local' pa pb sub (.dropRight i)).2 k = none := by
  refine ⟨fun v => ?_, rfl⟩
  simp only [local', applyStep, look_setKey, look]
  split
  · simp_all [eq_comm]
  · simp_all [eq_comm]

theorem local_pair {pa pb : Path} {sub : Nat → Nat → Table} {i j : Nat} (op : Op) (h : SubOk (pa ++ [i]) (pb ++ [j]) (sub i j)) (k : Ptr) :
    (∀ v, look (local' pa pb sub (.pair i j op)).1 k = some v ↔
      look (sub i j).operations k = some v ∨
      (look (sub i j).operations k = none ∧ (k = .left (pa ++ [i]) ∨ k = .right (pb ++ [j])) ∧ v = op)) ∧
    (∀ v, look (local' pa pb sub (.pair i j op)).2 k = some v ↔
      (k = .left (pa ++ [i]) ∧ v = .right (pb ++ [j])) ∨
      (k ≠ .left (pa ++ [i]) ∧ look (sub i j).equivalences k = some v)) := by
  simp only [local', applyStep, look_setKey, look_setAll h.uniqO, look_setAll h.uniqE, look]
  constructor
  · intro v
    cases look (sub i j).operations k with
    | some v' => simp
    | none =>
      simp only [Option.none_or]
      by_cases h1 : Ptr.left (pa ++ [i]) = k
      · simp [h1, eq_comm]
      · by_cases h2 : Ptr.right (pb ++ [j]) = k
        · simp [h2, eq_comm]
        · simp [h1, h2, eq_comm (a := k)]
  · intro v
    by_cases h1 : Ptr.left (pa ++ [i]) = k
    · simp [h1, eq_comm]
    · simp [h1, eq_comm (a := k)]

theorem local_touch {pa pb : Path} {sub : Nat → Nat → Table} {x : Step} (hx : StepsOk pa pb sub [x]) {k : Ptr} :
    (∀ v, look (local' pa pb sub x).1 k = some v → Touch pa pb x k) ∧ (∀ v, look (local' pa pb sub x).2 k = some v → Touch pa pb x k) := by
  cases x with
  | dropLeft i =>
    refine ⟨fun v h => ?_, fun v h => ?_⟩
    · exact ⟨[], (((local_dropLeft i k).1 v).mp h).1⟩
    · rw [(local_dropLeft i k).2] at h; cases h
  | dropRight i =>
    refine ⟨fun v h => ?_, fun v h => ?_⟩
    · exact ⟨[], (((local_dropRight i k).1 v).mp h).1⟩
    · rw [(local_dropRight i k).2] at h; cases h
  | pair i j op =>
    have hs := hx i j op (by simp)
    refine ⟨fun v h => ?_, fun v h => ?_⟩
    · obtain h | ⟨_, h | h, _⟩ := ((local_pair op hs k).1 v).mp h
      · obtain ⟨r, h⟩ | ⟨r, h⟩ := hs.domO _ _ h
        · exact .inl ⟨r, by simp [h]⟩
        · exact .inr ⟨r, by simp [h]⟩
      · exact .inl ⟨[], h⟩
      · exact .inr ⟨[], h⟩
    · obtain ⟨h, _⟩ | ⟨_, h⟩ := ((local_pair op hs k).2 v).mp h
      · exact .inl ⟨[], h⟩
      · obtain ⟨r, s, h, _⟩ | ⟨r, s, h, _⟩ := hs.domE _ _ h
        · exact .inl ⟨r, by simp [h]⟩
        · exact .inr ⟨s, by simp [h]⟩

theorem uniq_applyStep {pa pb : Path} {sub : Nat → Nat → Table} {acc : List (Ptr × Op) × List (Ptr × Ptr)} (x : Step)
    (h : Uniq acc.1 ∧ Uniq acc.2) : Uniq (applyStep pa pb sub acc x).1 ∧ Uniq (applyStep pa pb sub acc x).2 := by
  cases x with
  | dropLeft i => exact ⟨uniq_setKey h.1 _ _, h.2⟩
  | dropRight i => exact ⟨uniq_setKey h.1 _ _, h.2⟩
  | pair i j op => exact ⟨uniq_setAll (uniq_setKey (uniq_setKey h.1 _ _) _ _) _, uniq_setKey (uniq_setAll h.2 _) _ _⟩

theorem uniq_steps {pa pb : Path} {sub : Nat → Nat → Table} (s : List Step) {acc : List (Ptr × Op) × List (Ptr × Ptr)}
    (h : Uniq acc.1 ∧ Uniq acc.2) : Uniq (s.foldl (applyStep pa pb sub) acc).1 ∧ Uniq (s.foldl (applyStep pa pb sub) acc).2 := by
  induction s generalizing acc with
  | nil => exact h
  | cons x s ih => exact ih (uniq_applyStep x h)

/-- What a list of turns records: what one of them records. -/
theorem look_steps {pa pb : Path} {sub : Nat → Nat → Table} {s : List Step} (hs : StepsOk pa pb sub s)
    (hd : s.Pairwise (fun x y => ∀ k, Touch pa pb x k → ¬ Touch pa pb y k)) (acc : List (Ptr × Op) × List (Ptr × Ptr)) (k : Ptr) :
    (∀ v, look (s.foldl (applyStep pa pb sub) acc).1 k = some v ↔
      (∃ x ∈ s, look (local' pa pb sub x).1 k = some v) ∨
      ((∀ x ∈ s, look (local' pa pb sub x).1 k = none) ∧ look acc.1 k = some v)) ∧
    (∀ v, look (s.foldl (applyStep pa pb sub) acc).2 k = some v ↔
      (∃ x ∈ s, look (local' pa pb sub x).2 k = some v) ∨
      ((∀ x ∈ s, look (local' pa pb sub x).2 k = none) ∧ look acc.2 k = some v)) := by
  induction s generalizing acc with
  | nil => simp
  | cons x s ih =>
    have hx : StepsOk pa pb sub [x] := fun i j op h => hs i j op (by simp_all)
    have hs' : StepsOk pa pb sub s := fun i j op h => hs i j op (.tail _ h)
    obtain ⟨ih1, ih2⟩ := ih hs' (List.pairwise_cons.mp hd).2 (applyStep pa pb sub acc x)
    have hd1 := (List.pairwise_cons.mp hd).1
    obtain ⟨e1, e2⟩ := applyStep_local hx acc k
    obtain ⟨t1, t2⟩ := local_touch hx (k := k)
    constructor
    · intro v
      rw [List.foldl_cons, ih1 v, e1]
      cases hl : look (local' pa pb sub x).1 k with
      | none => simp [hl]
      | some u =>
        have hn : ∀ y ∈ s, look (local' pa pb sub y).1 k = none := by
          intro y hy
          cases hy' : look (local' pa pb sub y).1 k with
          | none => rfl
          | some v' =>
            exact absurd ((local_touch (fun i j op h => hs' i j op (by simp_all)) (k := k)).1 _ hy') (hd1 y hy k (t1 _ hl))
        constructor
        · rintro (⟨y, hy, h⟩ | ⟨_, h⟩)
          · rw [hn y hy] at h; cases h
          · exact .inl ⟨x, by simp, by simpa [hl] using h⟩
        · rintro (⟨y, hy, h⟩ | ⟨h, _⟩)
          · cases hy with
            | head => exact .inr ⟨hn, by simpa [hl] using h⟩
            | tail _ hy => rw [hn y hy] at h; cases h
          · rw [h x (by simp)] at hl; cases hl
    · intro v
      rw [List.foldl_cons, ih2 v, e2]
      cases hl : look (local' pa pb sub x).2 k with
      | none => simp [hl]
      | some u =>
        have hn : ∀ y ∈ s, look (local' pa pb sub y).2 k = none := by
          intro y hy
          cases hy' : look (local' pa pb sub y).2 k with
          | none => rfl
          | some v' =>
            exact absurd ((local_touch (fun i j op h => hs' i j op (by simp_all)) (k := k)).2 _ hy') (hd1 y hy k (t2 _ hl))
        constructor
        · rintro (⟨y, hy, h⟩ | ⟨_, h⟩)
          · rw [hn y hy] at h; cases h
          · exact .inl ⟨x, by simp, by simpa [hl] using h⟩
        · rintro (⟨y, hy, h⟩ | ⟨h, _⟩)
          · cases hy with
            | head => exact .inr ⟨hn, by simpa [hl] using h⟩
            | tail _ hy => rw [hn y hy] at h; cases h
          · rw [h x (by simp)] at hl; cases hl

/-- Which turns a walk can contain: the pairs are strictly increasing on both sides together. -/
theorem desc_pairs {i j : Nat} {s : List Step} (h : Desc i j s) :
    (∀ a b op, Step.pair a b op ∈ s → a < i ∧ b < j) ∧
    (∀ a b op a' b' op', Step.pair a b op ∈ s → Step.pair a' b' op' ∈ s → (a < a' ↔ b < b') ∧ (a = a' ↔ b = b')) := by
  induction h with
  | nil => simp
  | dropLeft hi hd ih =>
    obtain ⟨h1, h2⟩ := ih
    refine ⟨fun a b op h => ?_, fun a b op a' b' op' h h' => ?_⟩
    · cases h with | tail _ h => have := h1 a b op h; omega
    · cases h with | tail _ h => cases h' with | tail _ h' => exact h2 _ _ _ _ _ _ h h'
  | dropRight hi hd ih =>
    obtain ⟨h1, h2⟩ := ih
    refine ⟨fun a b op h => ?_, fun a b op a' b' op' h h' => ?_⟩
    · cases h with | tail _ h => have := h1 a b op h; omega
    · cases h with | tail _ h => cases h' with | tail _ h' => exact h2 _ _ _ _ _ _ h h'
  | pair hi hj hd ih =>
    obtain ⟨h1, h2⟩ := ih
    refine ⟨fun a b op h => ?_, fun a b op a' b' op' h h' => ?_⟩
    · cases h with
      | head => exact ⟨hi, hj⟩
      | tail _ h => have := h1 a b op h; omega
    · cases h with
      | head =>
        cases h' with
        | head => simp
        | tail _ h' => have := h1 _ _ _ h'; omega
      | tail _ h =>
        cases h' with
        | head => have := h1 _ _ _ h; omega
        | tail _ h' => exact h2 _ _ _ _ _ _ h h'

/-- The table of two similar containers, as a lookup. -/
theorem look_containers {pa pb : Path} {n m : Nat} {sub : Nat → Nat → Table} {t : Table}
    (h : containers pa pb n m sub = some t) (hs : ∀ i j, i < n → j < m → SubOk (pa ++ [i]) (pb ++ [j]) (sub i j)) :
    (t.similar = false ∧ t.equivalences = [] ∧ Uniq t.operations ∧
      ∀ k v, look t.operations k = some v ↔ (k = .left pa ∨ k = .right pb) ∧ v = .add) ∨
    (t.similar = true ∧ Uniq t.operations ∧ Uniq t.equivalences ∧
      ∃ s, trace (cellSize n m) (fun i j => if (sub i j).similar then 0 else (sub i j).result) n m = some s ∧ Desc n m s ∧ StepsOk pa pb sub s ∧
      (∀ k v, look t.operations k = some v ↔
        ((k = .left pa ∨ k = .right pb) ∧ v = .equ) ∨
        (k ≠ .left pa ∧ k ≠ .right pb ∧ ∃ x ∈ s, look (local' pa pb sub x).1 k = some v)) ∧
      (∀ k v, look t.equivalences k = some v ↔
        (k = .left pa ∧ v = .right pb) ∨ (k = .right pb ∧ v = .left pa) ∨
        (k ≠ .left pa ∧ k ≠ .right pb ∧ ∃ x ∈ s, look (local' pa pb sub x).2 k = some v))) := by
  simp only [containers] at h
  split at h
  · cases h
  · split at h
    · cases h
      refine .inl ⟨rfl, rfl, uniq_setKey (uniq_setKey uniq_nil _ _) _ _, fun k v => ?_⟩
      simp only [look_setKey, look]
      by_cases h1 : Ptr.right pb = k
      · simp [h1, eq_comm]
      · by_cases h2 : Ptr.left pa = k
        · simp [h2, eq_comm]
        · simp [h1, h2, eq_comm (a := k)]
    · split at h
      · cases h
      · rename_i s hs'
        cases h
        have hd := trace_desc n m hs'
        have hok : StepsOk pa pb sub s := fun i j op hp => by
          have := (desc_pairs hd).1 i j op hp
          exact hs i j this.1 this.2
        have hu := uniq_steps (pa := pa) (pb := pb) (sub := sub) s (acc := ([], [])) ⟨uniq_nil, uniq_nil⟩
        have hl := look_steps hok (desc_disjoint hd) ([], [])
        refine .inr ⟨rfl, uniq_setKey (uniq_setKey hu.1 _ _) _ _, uniq_setKey (uniq_setKey hu.2 _ _) _ _, s, hs', hd, hok, ?_, ?_⟩
        · intro k v
          have := (hl k).1 v
          simp only [look, reduceCtorEq, and_false, or_false] at this
          simp only [look_setKey]
          by_cases h1 : Ptr.left pa = k
          · simp [h1, eq_comm]
          · by_cases h2 : Ptr.right pb = k
            · simp [h2, eq_comm]
            · simp [h1, h2, eq_comm (a := k), this]
        · intro k v
          have := (hl k).2 v
          simp only [look, reduceCtorEq, and_false, or_false] at this
          simp only [look_setKey]
          by_cases h2 : Ptr.right pb = k
          · subst h2; simp [eq_comm]
          · by_cases h1 : Ptr.left pa = k
            · subst h1; simp [eq_comm]
            · simp [h1, h2, eq_comm (a := k), this]
end Verif.Lemmas.Diff
