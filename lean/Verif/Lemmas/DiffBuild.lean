import Verif.Model.Diff
/-! # The comparison of two elements from the comparisons of their children -/
namespace Verif.Lemmas.Diff
open Verif.Model Verif.Model.Diff

/-- The comparisons of all pairs of children. -/
def Subs (fmt : Bytes → Bytes) (a : Elem) (pa : Path) (b : Elem) (pb : Path) (sub : Nat → Nat → Table) : Prop :=
  ∀ (i j : Nat) (x y : Elem), a.kids[i]? = some x → b.kids[j]? = some y → buildE fmt x (pa ++ [i]) y (pb ++ [j]) = some (sub i j)

theorem row_get {f : Nat → Elem → Option Table} : ∀ {ys : List Elem} {j0 : Nat} {r : List Table}, row f j0 ys = some r →
    ∀ (j : Nat) (y : Elem), ys[j]? = some y → f (j0 + j) y = r[j]?
  | [], _, _, _, _, _, h => by simp at h
  | y :: ys, j0, r, h, j, y', hy => by
    simp only [row, Option.bind_eq_some_iff, Option.map_eq_some_iff] at h
    obtain ⟨t, ht, r', hr, rfl⟩ := h
    cases j with
    | zero =>
      have : y = y' := by simpa using hy
      subst this
      simpa using ht
    | succ j =>
      have := row_get hr j y' (by simpa using hy)
      rw [Nat.add_assoc, Nat.add_comm 1 j] at this
      simpa using this

theorem row_some {f : Nat → Elem → Option Table} : ∀ {ys : List Elem} {j0 : Nat},
    (∀ (j : Nat) (y : Elem), ys[j]? = some y → ∃ t, f (j0 + j) y = some t) → ∃ r, row f j0 ys = some r
  | [], _, _ => ⟨[], rfl⟩
  | y :: ys, j0, h => by
    obtain ⟨t, ht⟩ := h 0 y rfl
    obtain ⟨r, hr⟩ := row_some (f := f) (ys := ys) (j0 := j0 + 1) fun j y' hy => by
      have := h (j + 1) y' (by simpa using hy)
      rwa [Nat.add_assoc, Nat.add_comm 1 j]
    exact ⟨t :: r, by simp [row, hr, show f j0 y = some t from ht]⟩

theorem row_length {f : Nat → Elem → Option Table} : ∀ {ys : List Elem} {j0 : Nat} {r : List Table}, row f j0 ys = some r →
    r.length = ys.length
  | [], _, _, h => by simp [row] at h; simp [← h]
  | y :: ys, j0, r, h => by
    simp only [row, Option.bind_eq_some_iff, Option.map_eq_some_iff] at h
    obtain ⟨t, ht, r', hr, rfl⟩ := h
    simp [row_length hr]

theorem buildItems_get {fmt : Bytes → Bytes} {pa pb : Path} {ys : List Elem} : ∀ {xs : List Json} {i0 : Nat} {t : List (List Table)},
    buildItems fmt xs pa i0 ys pb = some t → ∀ (i j : Nat) (x : Json) (y : Elem), xs[i]? = some x → ys[j]? = some y →
    build fmt x (pa ++ [i0 + i]) y (pb ++ [j]) = some (atIndex t i j)
  | [], _, _, _, _, _, _, _, h, _ => by simp at h
  | x :: xs, i0, t, h, i, j, x', y, hx, hy => by
    simp only [buildItems, Option.bind_eq_some_iff, Option.map_eq_some_iff] at h
    obtain ⟨r, hr, t', ht, rfl⟩ := h
    cases i with
    | zero =>
      have : x = x' := by simpa using hx
      subst this
      have := row_get hr j y hy
      have hl := row_length hr
      have hj : j < r.length := by
        have := (List.getElem?_eq_some_iff.mp hy).1
        omega
      simp only [Nat.zero_add] at this
      simp [atIndex, this, List.getElem?_eq_getElem hj]
    | succ i =>
      have := buildItems_get ht i j x' y (by simpa using hx) hy
      rw [Nat.add_assoc, Nat.add_comm 1 i] at this
      simpa [atIndex] using this

theorem buildItems_some {fmt : Bytes → Bytes} {pa pb : Path} {ys : List Elem} : ∀ {xs : List Json} {i0 : Nat},
    (∀ (i j : Nat) (x : Json) (y : Elem), xs[i]? = some x → ys[j]? = some y → ∃ t, build fmt x (pa ++ [i0 + i]) y (pb ++ [j]) = some t) →
    ∃ t, buildItems fmt xs pa i0 ys pb = some t
  | [], _, _ => ⟨[], rfl⟩
  | x :: xs, i0, h => by
    obtain ⟨r, hr⟩ := row_some (f := fun j y => build fmt x (pa ++ [i0]) y (pb ++ [j])) (ys := ys) (j0 := 0)
      fun j y hy => by simpa using h 0 j x y rfl hy
    obtain ⟨t, ht⟩ := buildItems_some (xs := xs) (i0 := i0 + 1) fun i j x' y hx hy => by
      have := h (i + 1) j x' y (by simpa using hx) hy
      rwa [Nat.add_assoc, Nat.add_comm 1 i]
    exact ⟨r :: t, by simp only [buildItems, hr, ht, Option.bind_some, Option.map_some]⟩

theorem buildEntries_get {fmt : Bytes → Bytes} {pa pb : Path} {ys : List Elem} : ∀ {es : List (Bytes × Json)} {i0 : Nat} {t : List (List Table)},
    buildEntries fmt es pa i0 ys pb = some t → ∀ (i j : Nat) (e : Bytes × Json) (y : Elem), es[i]? = some e → ys[j]? = some y →
    buildE fmt (.entry e.1 e.2) (pa ++ [i0 + i]) y (pb ++ [j]) = some (atIndex t i j)
  | [], _, _, _, _, _, _, _, h, _ => by simp at h
  | (k, v) :: es, i0, t, h, i, j, e, y, hx, hy => by
    simp only [buildEntries, Option.bind_eq_some_iff, Option.map_eq_some_iff] at h
    obtain ⟨r, hr, t', ht, rfl⟩ := h
    cases i with
    | zero =>
      have : (k, v) = e := by simpa using hx
      subst this
      have := row_get hr j y hy
      have hl := row_length hr
      have hj : j < r.length := by
        have := (List.getElem?_eq_some_iff.mp hy).1
        omega
      simp only [Nat.zero_add] at this
      simp [atIndex, buildE, this, List.getElem?_eq_getElem hj]
    | succ i =>
      have := buildEntries_get ht i j e y (by simpa using hx) hy
      rw [Nat.add_assoc, Nat.add_comm 1 i] at this
      simpa [atIndex] using this

theorem buildEntries_some {fmt : Bytes → Bytes} {pa pb : Path} {ys : List Elem} : ∀ {es : List (Bytes × Json)} {i0 : Nat},
    (∀ (i j : Nat) (e : Bytes × Json) (y : Elem), es[i]? = some e → ys[j]? = some y →
      ∃ t, buildE fmt (.entry e.1 e.2) (pa ++ [i0 + i]) y (pb ++ [j]) = some t) →
    ∃ t, buildEntries fmt es pa i0 ys pb = some t
  | [], _, _ => ⟨[], rfl⟩
  | (k, v) :: es, i0, h => by
    obtain ⟨r, hr⟩ := row_some (f := fun j y => entryWith k (pa ++ [i0]) y (pb ++ [j])
        (fun v' => build fmt v (pa ++ [i0, 0]) (.value v') (pb ++ [j, 0]))) (ys := ys) (j0 := 0)
      fun j y hy => by simpa [buildE] using h 0 j (k, v) y rfl hy
    obtain ⟨t, ht⟩ := buildEntries_some (es := es) (i0 := i0 + 1) fun i j x' y hx hy => by
      have := h (i + 1) j x' y (by simpa using hx) hy
      rwa [Nat.add_assoc, Nat.add_comm 1 i]
    exact ⟨r :: t, by simp only [buildEntries, hr, ht, Option.bind_some, Option.map_some]⟩

/-- Two containers: the table is `containers` of the comparisons of the children. -/
theorem build_containers {fmt : Bytes → Bytes} {a b : Elem} {pa pb : Path} {t : Table}
    (ha : a.isContainer = true) (hb : b.isContainer = true) (h : buildE fmt a pa b pb = some t) :
    ∃ sub, Subs fmt a pa b pb sub ∧ containers pa pb a.kids.length b.kids.length sub = some t := by
  match a, ha with
  | .value (.arr xs), _ =>
    simp only [buildE, build, hb, if_true, Option.bind_eq_some_iff] at h
    obtain ⟨tt, h1, h2⟩ := h
    refine ⟨atIndex tt, ?_, by simpa [Elem.kids] using h2⟩
    intro i j x y hx hy
    simp only [Elem.kids, List.getElem?_map, Option.map_eq_some_iff] at hx
    obtain ⟨v, hv, rfl⟩ := hx
    simpa [buildE] using buildItems_get h1 i j v y hv hy
  | .value (.obj es), _ =>
    simp only [buildE, build, hb, if_true, Option.bind_eq_some_iff] at h
    obtain ⟨tt, h1, h2⟩ := h
    refine ⟨atIndex tt, ?_, by simpa [Elem.kids] using h2⟩
    intro i j x y hx hy
    simp only [Elem.kids, List.getElem?_map, Option.map_eq_some_iff] at hx
    obtain ⟨v, hv, rfl⟩ := hx
    simpa using buildEntries_get h1 i j v y hv hy

/-- And conversely, when all the comparisons of children are defined. -/
theorem containers_build {fmt : Bytes → Bytes} {a b : Elem} {pa pb : Path}
    (ha : a.isContainer = true) (hb : b.isContainer = true)
    (h : ∀ (i j : Nat) (x y : Elem), a.kids[i]? = some x → b.kids[j]? = some y → ∃ t, buildE fmt x (pa ++ [i]) y (pb ++ [j]) = some t) :
    ∃ sub, Subs fmt a pa b pb sub ∧ buildE fmt a pa b pb = containers pa pb a.kids.length b.kids.length sub := by
  match a, ha with
  | .value (.arr xs), _ =>
    obtain ⟨tt, h1⟩ := buildItems_some (fmt := fmt) (pa := pa) (pb := pb) (xs := xs) (ys := b.kids) (i0 := 0) fun i j x y hx hy => by
      have := h i j (.value x) y (by simp [Elem.kids, hx]) hy
      simpa [buildE] using this
    refine ⟨atIndex tt, ?_, by rw [show (Elem.value (.arr xs)).kids.length = xs.length by simp [Elem.kids]]; simp [buildE, build, hb, h1]⟩
    intro i j x y hx hy
    simp only [Elem.kids, List.getElem?_map, Option.map_eq_some_iff] at hx
    obtain ⟨v, hv, rfl⟩ := hx
    simpa [buildE] using buildItems_get h1 i j v y hv hy
  | .value (.obj es), _ =>
    obtain ⟨tt, h1⟩ := buildEntries_some (fmt := fmt) (pa := pa) (pb := pb) (es := es) (ys := b.kids) (i0 := 0) fun i j e y hx hy => by
      have := h i j (.entry e.1 e.2) y (by simp [Elem.kids, hx]) hy
      simpa using this
    refine ⟨atIndex tt, ?_, by rw [show (Elem.value (.obj es)).kids.length = es.length by simp [Elem.kids]]; simp [buildE, build, hb, h1]⟩
    intro i j x y hx hy
    simp only [Elem.kids, List.getElem?_map, Option.map_eq_some_iff] at hx
    obtain ⟨v, hv, rfl⟩ := hx
    simpa using buildEntries_get h1 i j v y hv hy

theorem kid_size {a x : Elem} (h : x ∈ a.kids) : sizeOf x < sizeOf a := by
  match a with
  | .value (.arr xs) =>
    simp only [Elem.kids, List.mem_map] at h
    obtain ⟨v, hv, rfl⟩ := h
    have := List.sizeOf_lt_of_mem hv
    simp; omega
  | .value (.obj es) =>
    simp only [Elem.kids, List.mem_map] at h
    obtain ⟨v, hv, rfl⟩ := h
    have := List.sizeOf_lt_of_mem hv
    have h2 : sizeOf v = 1 + sizeOf v.1 + sizeOf v.2 := rfl
    simp; omega
  | .entry k v =>
    simp only [Elem.kids, List.mem_singleton] at h
    subst h
    have : 0 < sizeOf k := by cases k <;> simp <;> omega
    simp; omega
  | .value (.str _) | .value (.bool _) | .value .null | .value (.int _) | .value (.long _) | .value (.dbl _) => simp [Elem.kids] at h

/-- How two elements that are not both containers are compared. -/
theorem build_other {fmt : Bytes → Bytes} {a b : Elem} {pa pb : Path} (h : ¬ (a.isContainer = true ∧ b.isContainer = true)) :
    (∃ k v v', a = .entry k v ∧ b = .entry k v' ∧ buildE fmt a pa b pb = buildE fmt (.value v) (pa ++ [0]) (.value v') (pb ++ [0])) ∨
    (∃ n, buildE fmt a pa b pb = some (manual (.left pa) (.right pb) n) ∧ a.isContainer = true ∧ n = a.kids.length) ∨
    (∃ n, buildE fmt a pa b pb = some (manual (.right pb) (.left pa) n) ∧ b.isContainer = true ∧ n = b.kids.length) ∨
    (∃ s, buildE fmt a pa b pb = some (score s (.left pa) (.right pb) false) ∧ a.isContainer = false ∧ b.isContainer = false) ∨
    (buildE fmt a pa b pb = some (score false (.left pa) (.right pb) true) ∧ a.isContainer = false ∧ b.isContainer = false) ∨
    (∃ v v', a = .value v ∧ b = .value v' ∧ v.isContainer = false ∧ v'.isContainer = false ∧ typeStr v = typeStr v' ∧
      buildE fmt a pa b pb = some (score (percentSimilar (v.stringify fmt) (v'.stringify fmt)) (.left pa) (.right pb) true)) := by
  have prim : ∀ v : Json, v.isContainer = false → a = .value v → buildE fmt a pa b pb = some (primitive fmt v pa b pb) := by
    intro v hv ha
    subst ha
    cases v <;> first | rfl | simp [Json.isContainer] at hv
  by_cases ha : a.isContainer = true
  · have hb : b.isContainer = false := by simpa using fun hb => h ⟨ha, hb⟩
    refine .inr (.inl ⟨_, ?_, ha, rfl⟩)
    match a, ha with
    | .value (.arr xs), _ => simp [buildE, build, hb, Elem.kids]
    | .value (.obj es), _ => simp [buildE, build, hb, Elem.kids]
  · have ha' : a.isContainer = false := by simpa using ha
    match a with
    | .entry k v =>
      match b with
      | .entry k' v' =>
        by_cases hk : k = k'
        · subst hk
          exact .inl ⟨k, v, v', rfl, rfl, by simp [buildE, entryWith]⟩
        · exact .inr (.inr (.inr (.inr (.inl ⟨by simp [buildE, entryWith, hk], rfl, rfl⟩))))
      | .value v' =>
        by_cases hc : v'.isContainer = true
        · refine .inr (.inr (.inl ⟨_, by simp only [buildE, entryWith, if_pos hc], ?_, rfl⟩))
          cases v' <;> first | rfl | simp [Json.isContainer] at hc
        · refine .inr (.inr (.inr (.inl ⟨false, by simp only [buildE, entryWith, if_neg hc], rfl, ?_⟩)))
          cases v' <;> first | rfl | simp [Json.isContainer] at hc
    | .value v =>
      have hv : v.isContainer = false := by cases v <;> first | rfl | simp [Elem.isContainer] at ha'
      have e := prim v hv rfl
      match b with
      | .entry k' v' =>
        exact .inr (.inr (.inr (.inl ⟨false, by rw [e]; rfl, ha', rfl⟩)))
      | .value v' =>
        by_cases hc : v'.isContainer = true
        · refine .inr (.inr (.inl ⟨_, by rw [e]; simp only [primitive, if_pos hc], ?_, rfl⟩))
          cases v' <;> first | rfl | simp [Json.isContainer] at hc
        · have hc' : v'.isContainer = false := by simpa using hc
          by_cases ht : typeStr v = typeStr v'
          · exact .inr (.inr (.inr (.inr (.inr ⟨v, v', rfl, rfl, hv, hc', ht, by rw [e]; simp [primitive, hc', ht]⟩))))
          · refine .inr (.inr (.inr (.inl ⟨percentSimilar (v.stringify fmt) (v'.stringify fmt), by rw [e]; simp only [primitive, if_neg hc, decide_eq_false ht], ha', ?_⟩)))
            cases v' <;> first | rfl | simp [Json.isContainer] at hc
end Verif.Lemmas.Diff
