import Verif.Props.DiffNoSigns
/-! # C133: exchanging the two documents of a comparison -/
namespace Verif.Props
open Verif.Model Verif.Model.Diff Verif.Spec Verif.Lemmas.Diff

theorem cell_transposed {w : Nat} {f g : Nat → Nat → Nat} {n m : Nat} (h : ∀ i < n, ∀ j < m, f i j = g j i) (k : Nat) :
    ∀ i j, i + j = k → i ≤ n → j ≤ m → cell w f i j = cell w g j i := by
  induction k using Nat.strongRecOn with
  | ind k ih =>
    intro i j hk hi hj
    match i, j with
    | 0, 0 => simp [cell]
    | 0, j + 1 => simp [cell]
    | i + 1, 0 => simp [cell]
    | i + 1, j + 1 =>
      have h1 := ih (i + (j + 1)) (by omega) i (j + 1) rfl (by omega) hj
      have h2 := ih (i + 1 + j) (by omega) (i + 1) j rfl hi (by omega)
      have h3 := ih (i + j) (by omega) i j rfl (by omega) (by omega)
      rw [cell_step, cell_step]
      unfold kept
      rw [h1, h2, h3, h i (by omega) j (by omega), Nat.min_comm]
      unfold takes
      rw [Bool.and_comm]

/-- What does not depend on the order of the two documents. -/
structure Exchanged (pa pb : Path) (t t' : Table) : Prop where
  similar : t.similar = t'.similar
  result : t.result = t'.result
  left : t.get (.left pa) = t'.get (.right pa)
  right : t.get (.right pb) = t'.get (.left pb)

theorem percent_symm (a b : Bytes) : percentSimilar a b = percentSimilar b a := by
  unfold percentSimilar levenshteinPercent
  rw [(C25_metric a b a).2.1, Nat.max_comm, Bool.and_comm]

theorem containers_get {pa pb : Path} {n m : Nat} {sub : Nat → Nat → Table} {t : Table} (h : containers pa pb n m sub = some t) :
    let cost := fun i j => if (sub i j).similar then 0 else (sub i j).result
    t.result = cell (cellSize n m) cost n m ∧ t.similar = !decide (relative (cell (cellSize n m) cost n m) n m = 0) ∧
    t.get (.left pa) = some (if t.similar then .equ else .add) ∧ t.get (.right pb) = some (if t.similar then .equ else .add) := by
  intro cost
  simp only [containers] at h
  split at h
  · cases h
  · split at h
    · rename_i h0
      cases h
      refine ⟨rfl, ?_, ?_, ?_⟩
      · show false = _
        rw [decide_eq_true h0]; rfl
      · simp [Table.get, look_setKey]
      · simp [Table.get, look_setKey]
    · rename_i h0
      split at h
      · cases h
      · cases h
        refine ⟨rfl, ?_, ?_, ?_⟩
        · show true = _
          rw [decide_eq_false h0]; rfl
        · simp [Table.get, look_setKey]
        · simp [Table.get, look_setKey]

theorem build_exchanged (fmt : Bytes → Bytes) (a b : Elem) (pa pb : Path) (t t' : Table) (h : buildE fmt a pa b pb = some t) (h' : buildE fmt b pb a pa = some t') :
    Exchanged pa pb t t' := by
  by_cases hc : a.isContainer = true ∧ b.isContainer = true
  · obtain ⟨sub, hs, hcon⟩ := build_containers hc.1 hc.2 h
    obtain ⟨sub', hs', hcon'⟩ := build_containers hc.2 hc.1 h'
    have hsub : ∀ i < a.kids.length, ∀ j < b.kids.length, (fun i j => if (sub i j).similar then 0 else (sub i j).result) i j =
        (fun i j => if (sub' i j).similar then 0 else (sub' i j).result) j i := by
      intro i hi j hj
      have hx := List.getElem?_eq_getElem hi
      have hy := List.getElem?_eq_getElem hj
      have := kid_size (List.mem_of_getElem? hx)
      have e := build_exchanged fmt _ _ _ _ _ _ (hs i j _ _ hx hy) (hs' j i _ _ hy hx)
      show (if (sub i j).similar then 0 else (sub i j).result) = if (sub' j i).similar then 0 else (sub' j i).result
      rw [e.similar, e.result]
    obtain ⟨r1, s1, l1, l2⟩ := containers_get hcon
    obtain ⟨r2, s2, m1, m2⟩ := containers_get hcon'
    have ew : cellSize a.kids.length b.kids.length = cellSize b.kids.length a.kids.length := by
      unfold cellSize
      repeat' split
      all_goals omega
    have er : t.result = t'.result := by rw [r1, r2, ← ew]; exact cell_transposed hsub _ _ _ rfl (Nat.le_refl _) (Nat.le_refl _)
    have es : t.similar = t'.similar := by
      rw [s1, s2, ← r1, ← r2, er]
      unfold relative
      rw [Nat.max_comm]
    exact ⟨es, er, by rw [l1, m2, es], by rw [l2, m1, es]⟩
  · match a, b with
    | .entry k v, .entry k' v' =>
      by_cases hk : k = k'
      · subst hk
        have e : buildE fmt (.value v) (pa ++ [0]) (.value v') (pb ++ [0]) = some t := by simpa [buildE, entryWith] using h
        have e' : buildE fmt (.value v') (pb ++ [0]) (.value v) (pa ++ [0]) = some t' := by simpa [buildE, entryWith] using h'
        have : 0 < sizeOf k := by cases k <;> simp <;> omega
        have hx := build_exchanged fmt _ _ _ _ _ _ e e'
        have g := build_good fmt _ _ _ _ _ e
        have g' := build_good fmt _ _ _ _ _ e'
        have out : ∀ {p q : Path} {t : Table} {x y : Elem}, Good fmt x (p ++ [0]) y (q ++ [0]) t → t.get (.left p) = none ∧ t.get (.right q) = none := by
          intro p q t x y g
          constructor
          · cases hl : t.get (.left p) with
            | none => rfl
            | some v =>
              obtain ⟨r, e⟩ | ⟨r, e⟩ := g.ok.domO _ _ hl
              · simp at e
              · cases e
          · cases hl : t.get (.right q) with
            | none => rfl
            | some v =>
              obtain ⟨r, e⟩ | ⟨r, e⟩ := g.ok.domO _ _ hl
              · cases e
              · simp at e
        exact ⟨hx.similar, hx.result, by rw [(out g).1, (out g').2], by rw [(out g).2, (out g').1]⟩
      · have hk' : ¬ k' = k := fun h => hk h.symm
        have e : some (score false (.left pa) (.right pb) true) = some t := by rw [← h]; simp [buildE, entryWith, hk]
        have e' : some (score false (.left pb) (.right pa) true) = some t' := by rw [← h']; simp [buildE, entryWith, hk']
        cases e
        cases e'
        refine ⟨rfl, rfl, ?_, ?_⟩ <;> simp [Table.get, score, look_setKey]
    | .entry k v, .value v' =>
      by_cases hv : v'.isContainer = true
      · have e : some (manual (.right pb) (.left pa) (Elem.kids (.value v')).length) = some t := by rw [← h]; simp [buildE, entryWith, hv]
        have e' : some (manual (.left pb) (.right pa) (Elem.kids (.value v')).length) = some t' := by
          rw [← h']
          cases v' <;> first | (simp [Json.isContainer] at hv; done) | simp [buildE, build, Elem.isContainer, Elem.kids]
        cases e
        cases e'
        refine ⟨rfl, rfl, ?_, ?_⟩ <;> simp [Table.get, manual, look_setKey]
      · have e : some (score false (.left pa) (.right pb) false) = some t := by rw [← h]; simp [buildE, entryWith, hv]
        have e' : some (score false (.left pb) (.right pa) false) = some t' := by
          rw [← h']
          cases v' <;> first | rfl | simp [Json.isContainer] at hv
        cases e
        cases e'
        refine ⟨rfl, rfl, ?_, ?_⟩ <;> simp [Table.get, score, look_setKey]
    | .value v, .entry k' v' =>
      by_cases hv : v.isContainer = true
      · have e' : some (manual (.right pa) (.left pb) (Elem.kids (.value v)).length) = some t' := by rw [← h']; simp [buildE, entryWith, hv]
        have e : some (manual (.left pa) (.right pb) (Elem.kids (.value v)).length) = some t := by
          rw [← h]
          cases v <;> first | (simp [Json.isContainer] at hv; done) | simp [buildE, build, Elem.isContainer, Elem.kids]
        cases e
        cases e'
        refine ⟨rfl, rfl, ?_, ?_⟩ <;> simp [Table.get, manual, look_setKey]
      · have e' : some (score false (.left pb) (.right pa) false) = some t' := by rw [← h']; simp [buildE, entryWith, hv]
        have e : some (score false (.left pa) (.right pb) false) = some t := by
          rw [← h]
          cases v <;> first | rfl | simp [Json.isContainer] at hv
        cases e
        cases e'
        refine ⟨rfl, rfl, ?_, ?_⟩ <;> simp [Table.get, score, look_setKey]
    | .value v, .value v' =>
      have prim : ∀ (v : Json) (b : Elem) (p q : Path), v.isContainer = false → buildE fmt (.value v) p b q = some (primitive fmt v p b q) := by
        intro v b p q hv
        cases v <;> first | rfl | simp [Json.isContainer] at hv
      have cont : ∀ (v : Json) (b : Elem) (p q : Path), v.isContainer = true → b.isContainer = false →
          buildE fmt (.value v) p b q = some (manual (.left p) (.right q) (Elem.kids (.value v)).length) := by
        intro v b p q hv hb
        cases v <;> first | (simp [Json.isContainer] at hv; done) | simp [buildE, build, hb, Elem.kids]
      have ec : ∀ v : Json, (Elem.value v).isContainer = v.isContainer := by intro v; cases v <;> rfl
      rw [ec, ec] at hc
      cases h1 : v.isContainer with
      | true =>
        have h2 : v'.isContainer = false := by
          cases h2 : v'.isContainer with
          | true => exact absurd ⟨h1, h2⟩ hc
          | false => rfl
        rw [cont v _ _ _ h1 (by rw [ec, h2])] at h
        rw [prim v' _ _ _ h2] at h'
        simp only [primitive, h1, if_true] at h'
        cases h
        cases h'
        refine ⟨rfl, rfl, ?_, ?_⟩ <;> simp [Table.get, manual, look_setKey]
      | false =>
        rw [prim v _ _ _ h1] at h
        cases h2 : v'.isContainer with
        | true =>
          rw [cont v' _ _ _ h2 (by rw [ec, h1])] at h'
          simp only [primitive, h2, if_true] at h
          cases h
          cases h'
          refine ⟨rfl, rfl, ?_, ?_⟩ <;> simp [Table.get, manual, look_setKey]
        | false =>
          rw [prim v' _ _ _ h2] at h'
          simp only [primitive, h1, h2, Bool.false_eq_true, if_false] at h h'
          rw [percent_symm, show decide (typeStr v' = typeStr v) = decide (typeStr v = typeStr v') from by rw [Bool.eq_iff_iff]; simp [eq_comm]] at h'
          cases h
          cases h'
          refine ⟨rfl, rfl, ?_, ?_⟩ <;> cases decide (typeStr v = typeStr v') <;> simp [Table.get, score, look_setKey]
termination_by sizeOf a

theorem near_symm {x y : Bytes} (h : Near x y) : Near y x := by
  rcases h with rfl | ⟨n, h1, h2⟩
  · exact .inl rfl
  · refine .inr ⟨levenshtein y x, (C24_edit_distance y x).1, ?_⟩
    have := (C24_edit_distance x y).2 n h1
    rw [(C25_metric x y x).2.1] at this
    rw [Nat.max_comm]
    omega

theorem indistinct_symm {text : Json → Bytes} {a b : Json} (h : Indistinct text a b) : Indistinct text b a := by
  induction h with
  | primitives h1 h2 h3 h4 =>
    refine .primitives h2 h1 ?_ (near_symm h4)
    rename_i v v'
    cases v <;> cases v' <;> first | rfl | cases h3
  | arrays h1 _ ih => exact .arrays h1.symm fun i x y hx hy => ih i y x hy hx
  | objects h1 _ ih => exact .objects h1.symm fun i k k' x y hx hy => ih i k' k y x hy hx

theorem meets_symm {a b x y : Elem} (h : Meets a b x y) : Meets b a y x := by
  induction h with
  | here => exact .here
  | kids _ c1 c2 h1 h2 ih => exact .kids ih c2 c1 h2 h1
  | values _ ih => exact .values ih

/-- **C133 is false as stated**: `[1, 2, 9]` and `[2, 1, 9]`. One way round the two 1 face each other and the 2 are alone, the other way round it is the two 2. -/
theorem C133_exchange_false : ∃ t t', diff id (.arr [.int 1, .int 2, .int 9]) (.arr [.int 2, .int 1, .int 9]) = some t ∧
    diff id (.arr [.int 2, .int 1, .int 9]) (.arr [.int 1, .int 2, .int 9]) = some t' ∧
    t.get (.left [0]) = some .equ ∧ t'.get (.right [0]) = some .add ∧ scan t.equivalences (.left [0]) = some (.right [1]) ∧ scan t'.equivalences (.right [0]) = none := by
  obtain ⟨t, h1, h2⟩ := any_some (o := diff id (.arr [.int 1, .int 2, .int 9]) (.arr [.int 2, .int 1, .int 9]))
    (p := fun t => t.get (.left [0]) = some .equ ∧ scan t.equivalences (.left [0]) = some (.right [1])) (by decide +kernel)
  obtain ⟨t', h3, h4⟩ := any_some (o := diff id (.arr [.int 2, .int 1, .int 9]) (.arr [.int 1, .int 2, .int 9]))
    (p := fun t => t.get (.right [0]) = some .add ∧ scan t.equivalences (.right [0]) = none) (by decide +kernel)
  exact ⟨t, t', h1, h3, h2.1, h4.1, h2.2, h4.2⟩

/-- **C133, what holds.** Whether the comparison crashes does not depend on the order of the two documents, nor does whether they count as similar, how far apart they are, the signs of the two roots, and whether
there is any sign at all. Missing: which of several cheapest alignments is shown (`C133_exchange_false`). -/
theorem C133_exchange_partial (fmt : Bytes → Bytes) (a b : Json) :
    (NotHuge a → NotHuge b → (diff fmt a b = none ↔ diff fmt b a = none)) ∧
    ∀ t t', diff fmt a b = some t → diff fmt b a = some t' →
      t.similar = t'.similar ∧ t.result = t'.result ∧ t.get (.left []) = t'.get (.right []) ∧ t.get (.right []) = t'.get (.left []) ∧
      (ShortTexts (·.stringify fmt) (.value a) → ShortTexts (·.stringify fmt) (.value b) → (NoSigns a b t ↔ NoSigns b a t')) := by
  refine ⟨fun ha hb => ?_, fun t t' h h' => ?_⟩
  · rw [C28_exactly_partial fmt a b ha hb, C28_exactly_partial fmt b a hb ha]
    constructor
    · rintro ⟨x, y, hm, hx, hy⟩; exact ⟨y, x, meets_symm hm, hy, hx⟩
    · rintro ⟨x, y, hm, hx, hy⟩; exact ⟨y, x, meets_symm hm, hy, hx⟩
  · have e := build_exchanged fmt (.value a) (.value b) [] [] t t' h h'
    refine ⟨e.similar, e.result, e.left, e.right, fun sa sb => ?_⟩
    rw [(C132_no_signs_partial fmt a b t h sa sb).1, (C132_no_signs_partial fmt b a t' h' sb sa).1]
    exact ⟨indistinct_symm, indistinct_symm⟩

/-- `C133_exchange_partial` at work: `[[1, 2], 3]` and `[3, {"k": 1}]`, both ways round. -/
example : ∃ t t', diff id (.arr [.arr [.int 1, .int 2], .int 3]) (.arr [.int 3, .obj [(b!"k", .int 1)]]) = some t ∧
    diff id (.arr [.int 3, .obj [(b!"k", .int 1)]]) (.arr [.arr [.int 1, .int 2], .int 3]) = some t' ∧ t.result = 2 ∧ t'.result = 2 ∧ t.get (.left []) = some .add := by
  obtain ⟨t, h1, h2⟩ := any_some (o := diff id (.arr [.arr [.int 1, .int 2], .int 3]) (.arr [.int 3, .obj [(b!"k", .int 1)]])) (p := fun t => t.result = 2 ∧ t.get (.left []) = some .add) (by decide +kernel)
  obtain ⟨t', h3, _⟩ := any_some (o := diff id (.arr [.int 3, .obj [(b!"k", .int 1)]]) (.arr [.arr [.int 1, .int 2], .int 3])) (p := fun _ => True) (by decide +kernel)
  exact ⟨t, t', h1, h3, h2.1, by rw [← ((C133_exchange_partial id _ _).2 t t' h1 h3).2.1]; exact h2.1, h2.2⟩

end Verif.Props
