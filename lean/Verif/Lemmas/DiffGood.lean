import Verif.Lemmas.DiffMaps
/-! # Every difference table is a correspondence of the two trees -/
namespace Verif.Lemmas.Diff
open Verif.Model Verif.Model.Diff Verif.Spec

/-- The position `r` below `pa` is paired with the position `s` below `pb`. -/
def Rel (pa pb : Path) (t : Table) (r s : Path) : Prop :=
  look t.equivalences (.left (pa ++ r)) = some (.right (pb ++ s)) ∨ look t.equivalences (.right (pb ++ s)) = some (.left (pa ++ r))

/-- Two elements of the same kind with, for entries, the same key and, for primitives, the same type and similar texts. -/
def Alike (fmt : Bytes → Bytes) : Elem → Elem → Prop
  | .entry k _, .entry k' _ => k = k'
  | .value v, .value v' =>
    (v.isContainer = true ∧ v'.isContainer = true) ∨
    (v.isContainer = false ∧ v'.isContainer = false ∧ typeStr v = typeStr v' ∧
      percentSimilar (v.stringify fmt) (v'.stringify fmt) = true)
  | _, _ => False

/-- A correspondence below a pair of elements. -/
structure Corr (R : Path → Path → Prop) : Prop where
  len : ∀ {r s}, R r s → r.length = s.length
  one : ∀ {r s s'}, R r s → R r s' → s = s'
  one' : ∀ {r r' s}, R r s → R r' s → r = r'
  parent : ∀ {r s i j}, R (r ++ [i]) (s ++ [j]) → (r = [] ∧ s = []) ∨ R r s
  order : ∀ {r s i j i' j'}, R (r ++ [i]) (s ++ [j]) → R (r ++ [i']) (s ++ [j']) → (i < i' ↔ j < j')

theorem corr_empty {R : Path → Path → Prop} (h : ∀ r s, ¬ R r s) : Corr R :=
  ⟨fun h' => (h _ _ h').elim, fun h' => (h _ _ h').elim, fun h' => (h _ _ h').elim, fun h' => (h _ _ h').elim, fun h' => (h _ _ h').elim⟩

theorem corr_nil {R : Path → Path → Prop} (hr : ∀ r s, R r s ↔ r = [] ∧ s = []) : Corr R := by
  refine ⟨?_, ?_, ?_, ?_, ?_⟩
  · intro r q h; obtain ⟨rfl, rfl⟩ := (hr _ _).mp h; rfl
  · intro r q q' h h'; rw [hr] at h h'; rw [h.2, h'.2]
  · intro r r' q h h'; rw [hr] at h h'; rw [h.1, h'.1]
  · intro r q i j h; rw [hr] at h; simp at h
  · intro r q i j i' j' h; rw [hr] at h; simp at h

/-- Pairs of children, and the pairs below them. -/
theorem corr_compose {R : Path → Path → Prop} {P : Nat → Nat → Prop} {S : Nat → Nat → Path → Path → Prop}
    (hr : ∀ r q, R r q → (r = [] ∧ q = []) ∨ ∃ i j r' q', P i j ∧ r = i :: r' ∧ q = j :: q' ∧ ((r' = [] ∧ q' = []) ∨ S i j r' q'))
    (hr' : ∀ i j r q, P i j → ((r = [] ∧ q = []) ∨ S i j r q) → R (i :: r) (j :: q))
    (hP : ∀ i j i' j', P i j → P i' j' → (i < i' ↔ j < j') ∧ (i = i' ↔ j = j')) (hS : ∀ i j, P i j → Corr (S i j)) : Corr R := by
  have hlen : ∀ {r q}, R r q → r.length = q.length := by
    intro r q h
    obtain ⟨rfl, rfl⟩ | ⟨i, j, r', q', hm, rfl, rfl, h'⟩ := hr _ _ h
    · rfl
    · obtain ⟨rfl, rfl⟩ | h' := h'
      · rfl
      · simpa using (hS i j hm).len h'
  have nil_of : ∀ {l : Path}, l.length = 0 → l = [] := fun h => List.length_eq_zero_iff.mp h
  refine ⟨hlen, ?_, ?_, ?_, ?_⟩
  · intro r q q' h1 h2
    have l1 := hlen h1
    have l2 := hlen h2
    obtain ⟨rfl, rfl⟩ | ⟨i, j, r', q1, hm, rfl, rfl, g1⟩ := hr _ _ h1
    · exact (nil_of l2.symm).symm
    · obtain ⟨e, _⟩ | ⟨i', j', r'', q2, hm', e, rfl, g2⟩ := hr _ _ h2
      · cases e
      · cases e
        have := ((hP _ _ _ _ hm hm').2.mp rfl)
        subst this
        by_cases hn : r' = []
        · subst hn
          simp only [List.length_cons, Nat.add_right_cancel_iff] at l1 l2
          rw [nil_of l1.symm, nil_of l2.symm]
        · obtain ⟨e, _⟩ | g1 := g1
          · exact absurd e hn
          · obtain ⟨e, _⟩ | g2 := g2
            · exact absurd e hn
            · rw [(hS i j hm).one g1 g2]
  · intro r r' q h1 h2
    have l1 := hlen h1
    have l2 := hlen h2
    obtain ⟨rfl, rfl⟩ | ⟨i, j, r1, q1, hm, rfl, rfl, g1⟩ := hr _ _ h1
    · exact (nil_of l2).symm
    · obtain ⟨_, e⟩ | ⟨i', j', r2, q2, hm', rfl, e, g2⟩ := hr _ _ h2
      · cases e
      · cases e
        have := ((hP _ _ _ _ hm hm').2.mpr rfl)
        subst this
        by_cases hn : q1 = []
        · subst hn
          simp only [List.length_cons, Nat.add_right_cancel_iff] at l1 l2
          rw [nil_of l1, nil_of l2]
        · obtain ⟨_, e⟩ | g1 := g1
          · exact absurd e hn
          · obtain ⟨_, e⟩ | g2 := g2
            · exact absurd e hn
            · rw [(hS i j hm).one' g1 g2]
  · intro r q i j h1
    have l1 := hlen h1
    obtain ⟨e, _⟩ | ⟨i', j', r', q', hm, e1, e2, h1⟩ := hr _ _ h1
    · simp at e
    · cases r with
      | nil => exact .inl ⟨rfl, by simpa using l1.symm⟩
      | cons x r =>
        cases q with
        | nil => simp at l1
        | cons y q =>
          rw [List.cons_append] at e1 e2
          cases e1; cases e2
          obtain ⟨e, _⟩ | h1 := h1
          · simp at e
          · exact .inr (hr' _ _ _ _ hm ((hS _ _ hm).parent h1))
  · intro r q i j i' j' h1 h2
    have l1 := hlen h1
    obtain ⟨e, _⟩ | ⟨x, y, r', q', hm, e1, e2, h1⟩ := hr _ _ h1
    · simp at e
    · obtain ⟨e, _⟩ | ⟨x', y', r'', q'', hm', e1', e2', h2⟩ := hr _ _ h2
      · simp at e
      · cases r with
        | nil =>
          have : q = [] := by simpa using l1.symm
          subst this
          cases e1; cases e2; cases e1'; cases e2'
          exact (hP _ _ _ _ hm hm').1
        | cons z r =>
          cases q with
          | nil => simp at l1
          | cons z' q =>
            rw [List.cons_append] at e1 e2 e1' e2'
            cases e1; cases e2; cases e1'; cases e2'
            obtain ⟨e, _⟩ | h1 := h1
            · simp at e
            · obtain ⟨e, _⟩ | h2 := h2
              · simp at e
              · exact (hS _ _ hm).order h1 h2

/-- The pairs below two entries. -/
theorem corr_below {R S : Path → Path → Prop} (hr : ∀ r q, R r q ↔ ∃ r' q', r = 0 :: r' ∧ q = 0 :: q' ∧ S r' q')
    (hS : Corr S) (top : ∀ r q, S r q → S [] []) : Corr R := by
  have hlen : ∀ {r q}, R r q → r.length = q.length := by
    intro r q h
    obtain ⟨r', q', rfl, rfl, g⟩ := (hr _ _).mp h
    simpa using hS.len g
  refine ⟨hlen, ?_, ?_, ?_, ?_⟩
  · intro r q q' h1 h2
    obtain ⟨r1, q1, rfl, rfl, g1⟩ := (hr _ _).mp h1
    obtain ⟨r2, q2, e, rfl, g2⟩ := (hr _ _).mp h2
    cases e
    rw [hS.one g1 g2]
  · intro r r' q h1 h2
    obtain ⟨r1, q1, rfl, rfl, g1⟩ := (hr _ _).mp h1
    obtain ⟨r2, q2, rfl, e, g2⟩ := (hr _ _).mp h2
    cases e
    rw [hS.one' g1 g2]
  · intro r q i j h1
    have l1 := hlen h1
    obtain ⟨r1, q1, e1, e2, h1⟩ := (hr _ _).mp h1
    cases r with
    | nil => exact .inl ⟨rfl, by simpa using l1.symm⟩
    | cons x r =>
      cases q with
      | nil => simp at l1
      | cons y q =>
        rw [List.cons_append] at e1 e2
        cases e1; cases e2
        obtain ⟨rfl, rfl⟩ | h' := hS.parent h1
        · exact .inr ((hr _ _).mpr ⟨[], [], rfl, rfl, top _ _ h1⟩)
        · exact .inr ((hr _ _).mpr ⟨_, _, rfl, rfl, h'⟩)
  · intro r q i j i' j' h1 h2
    have l1 := hlen h1
    obtain ⟨r1, q1, e1, e2, h1⟩ := (hr _ _).mp h1
    obtain ⟨r2, q2, e1', e2', h2⟩ := (hr _ _).mp h2
    cases r with
    | nil =>
      have : q = [] := by simpa using l1.symm
      subst this
      cases e1; cases e2; cases e1'; cases e2'
      simp
    | cons x r =>
      cases q with
      | nil => simp at l1
      | cons y q =>
        rw [List.cons_append] at e1 e2 e1' e2'
        cases e1; cases e2; cases e1'; cases e2'
        exact hS.order h1 h2

structure Good (fmt : Bytes → Bytes) (a : Elem) (pa : Path) (b : Elem) (pb : Path) (t : Table) : Prop where
  ok : SubOk pa pb t
  corr : Corr (Rel pa pb t)
  ex : ∀ {r s}, Rel pa pb t r s → ∃ x y, a.at r = some x ∧ b.at s = some y
  equL : ∀ {r}, look t.operations (.left (pa ++ r)) = some .equ →
    ∃ s x y, Rel pa pb t r s ∧ a.at r = some x ∧ b.at s = some y ∧ Alike fmt x y
  equR : ∀ {s}, look t.operations (.right (pb ++ s)) = some .equ →
    ∃ r x y, Rel pa pb t r s ∧ a.at r = some x ∧ b.at s = some y ∧ Alike fmt x y
  root : look t.operations (.left pa) = none ∨ look t.operations (.right pb) = none → Alike fmt a b
  /-- some children are paired only below paired roots, or the roots are entries -/
  top : a.isEntry = false → ∀ {r s}, Rel pa pb t r s → Rel pa pb t [] []

theorem uniq_pair {V : Type} (k k' : Ptr) (v v' : V) : Uniq (setKey (setKey [] k v) k' v') :=
  uniq_setKey (uniq_setKey uniq_nil _ _) _ _

theorem append_left_self {pa r : Path} : Ptr.left pa = .left (pa ++ r) ↔ r = [] := by
  constructor
  · intro h; simpa using Ptr.left.inj h
  · rintro rfl; simp

theorem append_right_self {pa r : Path} : Ptr.right pa = .right (pa ++ r) ↔ r = [] := by
  constructor
  · intro h; simpa using Ptr.right.inj h
  · rintro rfl; simp

/-- A table that records only the two roots and no pair. -/
theorem good_flat {fmt : Bytes → Bytes} {a b : Elem} {pa pb : Path} {t : Table} (hu : Uniq t.operations) (he : t.equivalences = [])
    (hl : ∀ k v, look t.operations k = some v → (k = .left pa ∨ k = .right pb) ∧ v ≠ .equ)
    (h1 : look t.operations (.left pa) ≠ none) (h2 : look t.operations (.right pb) ≠ none) : Good fmt a pa b pb t := by
  have hr : ∀ r s, ¬ Rel pa pb t r s := by intro r s; simp [Rel, he, look]
  refine ⟨⟨hu, by rw [he]; exact uniq_nil, ?_, ?_⟩, corr_empty hr, fun h => (hr _ _ h).elim, ?_, ?_, ?_, fun _ _ _ h => (hr _ _ h).elim⟩
  · intro k v h
    obtain ⟨rfl | rfl, _⟩ := hl k v h
    · exact .inl ⟨[], by simp⟩
    · exact .inr ⟨[], by simp⟩
  · intro k v h; simp [he, look] at h
  · intro r h; exact absurd rfl (hl _ _ h).2
  · intro r h; exact absurd rfl (hl _ _ h).2
  · rintro (h | h)
    · exact absurd h h1
    · exact absurd h h2

/-- A table that records a pair of two roots. -/
theorem good_pair {fmt : Bytes → Bytes} {a b : Elem} {pa pb : Path} (s : Bool) (h : s = true → Alike fmt a b) :
    Good fmt a pa b pb (score s (.left pa) (.right pb) true) := by
  have hl : ∀ k v, look (score s (.left pa) (.right pb) true).equivalences k = some v ↔ k = .left pa ∧ v = .right pb := by
    intro k v
    simp only [score, if_true, look]
    split <;> simp_all [eq_comm]
  have ho : ∀ k v, look (score s (.left pa) (.right pb) true).operations k = some v ↔
      (k = .left pa ∨ k = .right pb) ∧ v = if s then .equ else .mod := by
    intro k v
    simp only [score, if_true, look_setKey, look]
    by_cases h1 : Ptr.left pa = k
    · simp [h1, eq_comm]
    · by_cases h2 : Ptr.right pb = k
      · simp [h2, eq_comm]
      · simp [h1, h2, eq_comm (a := k)]
  have hr : ∀ r q, Rel pa pb (score s (.left pa) (.right pb) true) r q ↔ r = [] ∧ q = [] := by
    intro r q
    simp only [Rel, hl]
    constructor
    · rintro (⟨h, h'⟩ | ⟨h, h'⟩)
      · exact ⟨append_left_self.mp h.symm, append_right_self.mp h'.symm⟩
      · cases h
    · rintro ⟨rfl, rfl⟩; simp
  refine ⟨⟨?_, ?_, ?_, ?_⟩, corr_nil hr, ?_, ?_, ?_, ?_, ?_⟩
  · simp only [score, if_true]; exact uniq_pair _ _ _ _
  · simp [score, Uniq]
  · intro k v h
    obtain ⟨rfl | rfl, _⟩ := (ho k v).mp h
    · exact .inl ⟨[], by simp⟩
    · exact .inr ⟨[], by simp⟩
  · intro k v h
    obtain ⟨rfl, rfl⟩ := (hl k v).mp h
    exact .inl ⟨[], [], by simp, by simp⟩
  · intro r q h'; obtain ⟨rfl, rfl⟩ := (hr _ _).mp h'; exact ⟨a, b, rfl, rfl⟩
  · intro r h'
    rw [ho] at h'
    obtain ⟨h1 | h1, h2⟩ := h'
    · have : r = [] := append_left_self.mp h1.symm
      subst this
      have hs : s = true := by cases s <;> simp at h2 ⊢
      exact ⟨[], a, b, (hr _ _).mpr ⟨rfl, rfl⟩, rfl, rfl, h hs⟩
    · cases h1
  · intro r h'
    rw [ho] at h'
    obtain ⟨h1 | h1, h2⟩ := h'
    · cases h1
    · have : r = [] := append_right_self.mp h1.symm
      subst this
      have hs : s = true := by cases s <;> simp at h2 ⊢
      exact ⟨[], a, b, (hr _ _).mpr ⟨rfl, rfl⟩, rfl, rfl, h hs⟩
  · have h1 := (ho (.left pa) (if s then .equ else .mod)).mpr ⟨.inl rfl, rfl⟩
    have h2 := (ho (.right pb) (if s then .equ else .mod)).mpr ⟨.inr rfl, rfl⟩
    rintro (h' | h')
    · rw [h1] at h'; cases h'
    · rw [h2] at h'; cases h'
  · intro _ r q _; exact (hr _ _).mpr ⟨rfl, rfl⟩

/-- Entries with the same key are compared by their values. -/
theorem good_entries {fmt : Bytes → Bytes} {k : Bytes} {v v' : Json} {pa pb : Path} {t : Table}
    (h : Good fmt (.value v) (pa ++ [0]) (.value v') (pb ++ [0]) t) : Good fmt (.entry k v) pa (.entry k v') pb t := by
  have hr : ∀ r s, Rel pa pb t (0 :: r) (0 :: s) ↔ Rel (pa ++ [0]) (pb ++ [0]) t r s := by
    intro r s; simp [Rel]
  have hd : ∀ r s, Rel pa pb t r s → ∃ r' s', r = 0 :: r' ∧ s = 0 :: s' := by
    rintro r s (h' | h')
    · obtain ⟨r', s', h1, h2⟩ | ⟨r', s', h1, h2⟩ := h.ok.domE _ _ h'
      · exact ⟨r', s', by simpa using Ptr.left.inj h1, by simpa using Ptr.right.inj h2⟩
      · cases h1
    · obtain ⟨r', s', h1, h2⟩ | ⟨r', s', h1, h2⟩ := h.ok.domE _ _ h'
      · cases h1
      · exact ⟨r', s', by simpa using Ptr.left.inj h2, by simpa using Ptr.right.inj h1⟩
  refine ⟨⟨h.ok.uniqO, h.ok.uniqE, ?_, ?_⟩, corr_below (S := Rel (pa ++ [0]) (pb ++ [0]) t) ?_ h.corr (fun r s => h.top rfl), ?_, ?_, ?_, ?_, ?_⟩
  · intro k v h'
    obtain ⟨r, rfl⟩ | ⟨r, rfl⟩ := h.ok.domO k v h'
    · exact .inl ⟨0 :: r, by simp⟩
    · exact .inr ⟨0 :: r, by simp⟩
  · intro k v h'
    obtain ⟨r, s, rfl, rfl⟩ | ⟨r, s, rfl, rfl⟩ := h.ok.domE k v h'
    · exact .inl ⟨0 :: r, 0 :: s, by simp⟩
    · exact .inr ⟨0 :: r, 0 :: s, by simp⟩
  · intro r q
    constructor
    · intro h'
      obtain ⟨r, s, rfl, rfl⟩ := hd _ _ h'
      exact ⟨r, s, rfl, rfl, (hr _ _).mp h'⟩
    · rintro ⟨r, s, rfl, rfl, h'⟩
      exact (hr _ _).mpr h'
  · intro r q h'
    obtain ⟨r, q, rfl, rfl⟩ := hd _ _ h'
    obtain ⟨x, y, h1, h2⟩ := h.ex ((hr _ _).mp h')
    exact ⟨x, y, by simpa [Elem.at, Elem.kids] using h1, by simpa [Elem.at, Elem.kids] using h2⟩
  · intro r h'
    obtain ⟨r', e⟩ | ⟨r', e⟩ := h.ok.domO _ _ h'
    · have : r = 0 :: r' := by simpa using Ptr.left.inj e
      subst this
      rw [e] at h'
      obtain ⟨s, x, y, h1, h2, h3, h4⟩ := h.equL h'
      exact ⟨0 :: s, x, y, (hr _ _).mpr h1, by simpa [Elem.at, Elem.kids] using h2, by simpa [Elem.at, Elem.kids] using h3, h4⟩
    · cases e
  · intro r h'
    obtain ⟨r', e⟩ | ⟨r', e⟩ := h.ok.domO _ _ h'
    · cases e
    · have : r = 0 :: r' := by simpa using Ptr.right.inj e
      subst this
      rw [e] at h'
      obtain ⟨s, x, y, h1, h2, h3, h4⟩ := h.equR h'
      exact ⟨0 :: s, x, y, (hr _ _).mpr h1, by simpa [Elem.at, Elem.kids] using h2, by simpa [Elem.at, Elem.kids] using h3, h4⟩
  · intro _; rfl
  · intro h'; cases h'

/-- Two containers. -/
theorem good_containers {fmt : Bytes → Bytes} {a b : Elem} {pa pb : Path} {t : Table} {sub : Nat → Nat → Table}
    (ha : a.isContainer = true) (hb : b.isContainer = true)
    (h : containers pa pb a.kids.length b.kids.length sub = some t)
    (hg : ∀ (i j : Nat) (x y : Elem), a.kids[i]? = some x → b.kids[j]? = some y → Good fmt x (pa ++ [i]) y (pb ++ [j]) (sub i j)) :
    Good fmt a pa b pb t := by
  have hg' : ∀ i j, i < a.kids.length → j < b.kids.length →
      ∃ x y, a.kids[i]? = some x ∧ b.kids[j]? = some y ∧ Good fmt x (pa ++ [i]) y (pb ++ [j]) (sub i j) :=
    fun i j hi hj => ⟨_, _, List.getElem?_eq_getElem hi, List.getElem?_eq_getElem hj,
      hg i j _ _ (List.getElem?_eq_getElem hi) (List.getElem?_eq_getElem hj)⟩
  have hab : Alike fmt a b := by
    have f : ∀ e : Elem, e.isContainer = true → ∃ v, e = .value v ∧ v.isContainer = true := by
      intro e he
      match e, he with
      | .value (.arr xs), _ => exact ⟨_, rfl, rfl⟩
      | .value (.obj xs), _ => exact ⟨_, rfl, rfl⟩
    obtain ⟨v, rfl, hv⟩ := f a ha
    obtain ⟨v', rfl, hv'⟩ := f b hb
    exact .inl ⟨hv, hv'⟩
  obtain ⟨h1, h2, h3, h4⟩ | ⟨_, hu1, hu2, s, _, hd, hok, hO, hE⟩ :=
    look_containers h (fun i j hi hj => by obtain ⟨_, _, _, _, g⟩ := hg' i j hi hj; exact g.ok)
  · refine good_flat h3 h2 (fun k v hk => ?_) ?_ ?_
    · have := (h4 k v).mp hk
      exact ⟨this.1, by simp [this.2]⟩
    · rw [(h4 _ .add).mpr ⟨.inl rfl, rfl⟩]; simp
    · rw [(h4 _ .add).mpr ⟨.inr rfl, rfl⟩]; simp
  · have hp := desc_pairs hd
    have good : ∀ i j op, Step.pair i j op ∈ s → ∃ x y, a.kids[i]? = some x ∧ b.kids[j]? = some y ∧ Good fmt x (pa ++ [i]) y (pb ++ [j]) (sub i j) :=
      fun i j op hm => hg' i j (hp.1 i j op hm).1 (hp.1 i j op hm).2
    -- which turn records a key
    have hEx : ∀ k v, (∃ x ∈ s, look (local' pa pb sub x).2 k = some v) ↔
        ∃ i j op, Step.pair i j op ∈ s ∧ ((k = .left (pa ++ [i]) ∧ v = .right (pb ++ [j])) ∨
          (k ≠ .left (pa ++ [i]) ∧ look (sub i j).equivalences k = some v)) := by
      intro k v
      constructor
      · rintro ⟨x, hx, hl⟩
        cases x with
        | dropLeft i => rw [(local_dropLeft i k).2] at hl; cases hl
        | dropRight i => rw [(local_dropRight i k).2] at hl; cases hl
        | pair i j op => exact ⟨i, j, op, hx, ((local_pair op (hok i j op hx) k).2 v).mp hl⟩
      · rintro ⟨i, j, op, hx, hl⟩
        exact ⟨_, hx, ((local_pair op (hok i j op hx) k).2 v).mpr hl⟩
    -- the pairs
    have hr : ∀ r q, Rel pa pb t r q ↔ (r = [] ∧ q = []) ∨
        ∃ i j op r' q', Step.pair i j op ∈ s ∧ r = i :: r' ∧ q = j :: q' ∧ ((r' = [] ∧ q' = []) ∨ Rel (pa ++ [i]) (pb ++ [j]) (sub i j) r' q') := by
      intro r q
      have aux : ∀ k v, look t.equivalences k = some v ↔ (k = .left pa ∧ v = .right pb) ∨ (k = .right pb ∧ v = .left pa) ∨
          (k ≠ .left pa ∧ k ≠ .right pb ∧ ∃ i j op, Step.pair i j op ∈ s ∧ ((k = .left (pa ++ [i]) ∧ v = .right (pb ++ [j])) ∨
          (k ≠ .left (pa ++ [i]) ∧ look (sub i j).equivalences k = some v))) := by
        intro k v; rw [hE, hEx]
      constructor
      · rintro (h' | h')
        · rw [aux] at h'
          obtain ⟨e1, e2⟩ | ⟨e1, e2⟩ | ⟨e1, e2, i, j, op, hm, h'⟩ := h'
          · exact .inl ⟨append_left_self.mp e1.symm, append_right_self.mp e2.symm⟩
          · cases e1
          · obtain ⟨_, _, _, _, g⟩ := good i j op hm
            obtain ⟨e1, e2⟩ | ⟨_, h'⟩ := h'
            · have e1 : r = [i] := by simpa using Ptr.left.inj e1
              have e2 : q = [j] := by simpa using Ptr.right.inj e2
              exact .inr ⟨i, j, op, [], [], hm, e1, e2, .inl ⟨rfl, rfl⟩⟩
            · obtain ⟨r', q', e1, e2⟩ | ⟨r', q', e1, e2⟩ := g.ok.domE _ _ h'
              · have e1' : r = i :: r' := by simpa using Ptr.left.inj e1
                have e2' : q = j :: q' := by simpa using Ptr.right.inj e2
                exact .inr ⟨i, j, op, r', q', hm, e1', e2', .inr (.inl (by rw [← e1, ← e2]; exact h'))⟩
              · cases e1
        · rw [aux] at h'
          obtain ⟨e1, e2⟩ | ⟨e1, e2⟩ | ⟨e1, e2, i, j, op, hm, h'⟩ := h'
          · cases e1
          · exact .inl ⟨append_left_self.mp e2.symm, append_right_self.mp e1.symm⟩
          · obtain ⟨_, _, _, _, g⟩ := good i j op hm
            obtain ⟨e1, e2⟩ | ⟨_, h'⟩ := h'
            · cases e1
            · obtain ⟨r', q', e1, e2⟩ | ⟨r', q', e1, e2⟩ := g.ok.domE _ _ h'
              · cases e1
              · have e1' : q = j :: q' := by simpa using Ptr.right.inj e1
                have e2' : r = i :: r' := by simpa using Ptr.left.inj e2
                exact .inr ⟨i, j, op, r', q', hm, e2', e1', .inr (.inr (by rw [← e1, ← e2]; exact h'))⟩
      · rintro (⟨rfl, rfl⟩ | ⟨i, j, op, r', q', hm, rfl, rfl, h'⟩)
        · exact .inl ((aux _ _).mpr (.inl (by simp)))
        · have n1 : Ptr.left (pa ++ i :: r') ≠ .left pa := fun h => by simpa using append_left_self.mp h.symm
          have n2 : Ptr.right (pb ++ j :: q') ≠ .right pb := fun h => by simpa using append_right_self.mp h.symm
          obtain ⟨_, _, _, _, g⟩ := good i j op hm
          obtain ⟨rfl, rfl⟩ | hh := h'
          · exact .inl ((aux _ _).mpr (.inr (.inr ⟨n1, by simp, i, j, op, hm, .inl ⟨rfl, rfl⟩⟩)))
          · have hlen := g.corr.len hh
            by_cases hr' : r' = []
            · subst hr'
              have : q' = [] := by simpa using hlen.symm
              subst this
              exact .inl ((aux _ _).mpr (.inr (.inr ⟨n1, by simp, i, j, op, hm, .inl ⟨rfl, rfl⟩⟩)))
            · have n3 : Ptr.left (pa ++ i :: r') ≠ .left (pa ++ [i]) := fun h => hr' (left_inj h).2
              obtain hh | hh := hh
              · refine .inl ((aux _ _).mpr (.inr (.inr ⟨n1, by simp, i, j, op, hm, .inr ⟨n3, ?_⟩⟩)))
                simpa using hh
              · refine .inr ((aux _ _).mpr (.inr (.inr ⟨by simp, n2, i, j, op, hm, .inr ⟨by simp, ?_⟩⟩)))
                simpa using hh
    have hat : ∀ (e : Elem) (i : Nat) (x : Elem) (r : Path), e.kids[i]? = some x → e.at (i :: r) = x.at r := by
      intro e i x r hx; simp [Elem.at, hx]
    have hnil : Rel pa pb t [] [] := (hr _ _).mpr (.inl ⟨rfl, rfl⟩)
    have hcorr : Corr (Rel pa pb t) := by
      refine corr_compose (P := fun i j => ∃ op, Step.pair i j op ∈ s) (S := fun i j => Rel (pa ++ [i]) (pb ++ [j]) (sub i j)) ?_ ?_ ?_ ?_
      · intro r q h'
        obtain h' | ⟨i, j, op, r', q', hm, h'⟩ := (hr r q).mp h'
        · exact .inl h'
        · exact .inr ⟨i, j, r', q', ⟨op, hm⟩, h'⟩
      · rintro i j r q ⟨op, hm⟩ h'
        exact (hr _ _).mpr (.inr ⟨i, j, op, r, q, hm, rfl, rfl, h'⟩)
      · rintro i j i' j' ⟨op, hm⟩ ⟨op', hm'⟩
        exact hp.2 _ _ _ _ _ _ hm hm'
      · rintro i j ⟨op, hm⟩
        obtain ⟨_, _, _, _, g⟩ := good i j op hm
        exact g.corr
    refine ⟨⟨hu1, hu2, ?_, ?_⟩, hcorr, ?_, ?_, ?_, ?_, fun _ _ _ _ => hnil⟩
    · intro k v hk
      rw [hO] at hk
      obtain ⟨rfl | rfl, _⟩ | ⟨_, _, x, hx, hl⟩ := hk
      · exact .inl ⟨[], by simp⟩
      · exact .inr ⟨[], by simp⟩
      · have ht := (local_touch (fun i j op h => hok i j op (by simp_all)) (k := k)).1 _ hl
        obtain ⟨i', r, _, rfl⟩ | ⟨j', r, _, rfl⟩ := desc_touch hd hx ht
        · exact .inl ⟨_, rfl⟩
        · exact .inr ⟨_, rfl⟩
    · intro k v hk
      rw [hE] at hk
      obtain ⟨rfl, rfl⟩ | ⟨rfl, rfl⟩ | ⟨_, _, hx⟩ := hk
      · exact .inl ⟨[], [], by simp⟩
      · exact .inr ⟨[], [], by simp⟩
      · obtain ⟨i, j, op, hm, ⟨rfl, rfl⟩ | ⟨_, hx⟩⟩ := (hEx k v).mp hx
        · exact .inl ⟨_, _, rfl, rfl⟩
        · obtain ⟨_, _, _, _, g⟩ := good i j op hm
          obtain ⟨r, q, rfl, rfl⟩ | ⟨r, q, rfl, rfl⟩ := g.ok.domE _ _ hx
          · exact .inl ⟨i :: r, j :: q, by simp⟩
          · exact .inr ⟨i :: r, j :: q, by simp⟩
    · intro r q h'
      obtain ⟨rfl, rfl⟩ | ⟨i, j, op, r', q', hm, rfl, rfl, g'⟩ := (hr _ _).mp h'
      · exact ⟨a, b, rfl, rfl⟩
      · obtain ⟨x, y, hx, hy, g⟩ := good i j op hm
        rw [hat a i x _ hx, hat b j y _ hy]
        obtain ⟨rfl, rfl⟩ | g' := g'
        · exact ⟨x, y, rfl, rfl⟩
        · exact g.ex g'
    · -- equL
      intro r h'
      rw [hO] at h'
      obtain ⟨e | e, _⟩ | ⟨_, _, x, hx, hl⟩ := h'
      · have : r = [] := append_left_self.mp e.symm
        subst this
        exact ⟨[], a, b, hnil, rfl, rfl, hab⟩
      · cases e
      · cases x with
        | dropLeft i => have := ((local_dropLeft i _).1 _).mp hl; cases this.2
        | dropRight i => have := ((local_dropRight i _).1 _).mp hl; cases this.2
        | pair i j op =>
          obtain ⟨x, y, hxk, hyk, g⟩ := good i j op hx
          obtain hl | ⟨hl, e | e, _⟩ := ((local_pair op (hok i j op hx) _).1 _).mp hl
          · obtain ⟨r', e⟩ | ⟨r', e⟩ := g.ok.domO _ _ hl
            · have e' : r = i :: r' := by simpa using Ptr.left.inj e
              subst e'
              rw [e] at hl
              obtain ⟨q, x', y', h1, h2, h3, h4⟩ := g.equL hl
              exact ⟨j :: q, x', y', (hr _ _).mpr (.inr ⟨i, j, op, r', q, hx, rfl, rfl, .inr h1⟩), by rw [hat a i x _ hxk, h2],
                by rw [hat b j y _ hyk, h3], h4⟩
            · cases e
          · have e' : r = [i] := by simpa using Ptr.left.inj e
            subst e'
            exact ⟨[j], x, y, (hr _ _).mpr (.inr ⟨i, j, op, [], [], hx, rfl, rfl, .inl ⟨rfl, rfl⟩⟩), by rw [hat a i x _ hxk]; rfl,
                by rw [hat b j y _ hyk]; rfl, g.root (.inl hl)⟩
          · cases e
    · -- equR
      intro r h'
      rw [hO] at h'
      obtain ⟨e | e, _⟩ | ⟨_, _, x, hx, hl⟩ := h'
      · cases e
      · have : r = [] := append_right_self.mp e.symm
        subst this
        exact ⟨[], a, b, hnil, rfl, rfl, hab⟩
      · cases x with
        | dropLeft i => have := ((local_dropLeft i _).1 _).mp hl; cases this.2
        | dropRight i => have := ((local_dropRight i _).1 _).mp hl; cases this.2
        | pair i j op =>
          obtain ⟨x, y, hxk, hyk, g⟩ := good i j op hx
          obtain hl | ⟨hl, e | e, _⟩ := ((local_pair op (hok i j op hx) _).1 _).mp hl
          · obtain ⟨r', e⟩ | ⟨r', e⟩ := g.ok.domO _ _ hl
            · cases e
            · have e' : r = j :: r' := by simpa using Ptr.right.inj e
              subst e'
              rw [e] at hl
              obtain ⟨q, x', y', h1, h2, h3, h4⟩ := g.equR hl
              exact ⟨i :: q, x', y', (hr _ _).mpr (.inr ⟨i, j, op, q, r', hx, rfl, rfl, .inr h1⟩), by rw [hat a i x _ hxk, h2],
                by rw [hat b j y _ hyk, h3], h4⟩
          · cases e
          · have e' : r = [j] := by simpa using Ptr.right.inj e
            subst e'
            exact ⟨[i], x, y, (hr _ _).mpr (.inr ⟨i, j, op, [], [], hx, rfl, rfl, .inl ⟨rfl, rfl⟩⟩), by rw [hat a i x _ hxk]; rfl,
                by rw [hat b j y _ hyk]; rfl, g.root (.inr hl)⟩
    · -- root
      intro _; exact hab

theorem build_good (fmt : Bytes → Bytes) (a : Elem) (b : Elem) (pa pb : Path) (t : Table) (h : buildE fmt a pa b pb = some t) :
    Good fmt a pa b pb t := by
  by_cases hc : a.isContainer = true ∧ b.isContainer = true
  · obtain ⟨sub, hs, hcon⟩ := build_containers hc.1 hc.2 h
    refine good_containers hc.1 hc.2 hcon fun i j x y hx hy => ?_
    have := kid_size (List.mem_of_getElem? hx)
    exact build_good fmt x y _ _ _ (hs i j x y hx hy)
  · obtain ⟨k, v, v', rfl, rfl, e⟩ | ⟨n, e, _⟩ | ⟨n, e, _⟩ | ⟨s, e, _⟩ | ⟨e, _⟩ | ⟨v, v', rfl, rfl, h1, h2, h3, e⟩ := build_other (fmt := fmt) (pa := pa) (pb := pb) hc
    · have : sizeOf (Elem.value v) < sizeOf (Elem.entry k v) := kid_size (by simp [Elem.kids])
      rw [e] at h
      exact good_entries (build_good fmt _ _ _ _ _ h)
    · rw [e] at h; cases h
      refine good_flat (uniq_pair _ _ _ _) rfl ?_ ?_ ?_
      · intro k v
        simp only [manual, look_setKey, look]
        grind
      · simp [manual, look_setKey]
      · simp [manual, look_setKey]
    · rw [e] at h; cases h
      refine good_flat (uniq_pair _ _ _ _) rfl ?_ ?_ ?_
      · intro k v
        simp only [manual, look_setKey, look]
        grind
      · simp [manual, look_setKey]
      · simp [manual, look_setKey]
    · rw [e] at h; cases h
      refine good_flat (uniq_pair _ _ _ _) rfl ?_ ?_ ?_
      · intro k v
        simp only [score, Bool.false_eq_true, if_false, look_setKey, look]
        grind
      · simp [score, look_setKey]
      · simp [score, look_setKey]
    · rw [e] at h; cases h
      exact good_pair false (by simp)
    · rw [e] at h; cases h
      exact good_pair _ fun hs => .inr ⟨h1, h2, h3, hs⟩
termination_by sizeOf a
end Verif.Lemmas.Diff
