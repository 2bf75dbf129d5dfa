import Verif.Lemmas.DiffGood
/-! # Values of the cells -/
namespace Verif.Lemmas.Diff
open Verif.Model Verif.Model.Diff Verif.Spec

theorem cellSize_cases (n m : Nat) : cellSize n m = 256 ∨ cellSize n m = 65536 ∨ cellSize n m = 4294967296 := by
  unfold cellSize; split
  · exact .inl rfl
  · split
    · exact .inr (.inl rfl)
    · exact .inr (.inr rfl)

theorem succ_le (w x : Nat) : succ w x ≤ x + 1 := by
  unfold succ; split
  · exact Nat.mod_le _ _
  · exact Nat.le_refl _

/-- The value of an inner cell. -/
theorem cell_step (w : Nat) (cost : Nat → Nat → Nat) (i j : Nat) :
    cell w cost (i + 1) (j + 1) = if kept w cost i j then chCost w (cell w cost i j) (cost i j)
      else succ w (min (cell w cost i (j + 1)) (cell w cost (i + 1) j)) % w := by
  rw [cell]; rfl

theorem cell_le (w : Nat) (cost : Nat → Nat → Nat) (i j : Nat) : cell w cost i j ≤ i + j := by
  fun_induction cell with
  | case1 j => simpa using Nat.mod_le j w
  | case2 i => exact Nat.mod_le _ _
  | case3 i j up left ch h ih2 ih1 ih3 =>
    simp only [takes, Bool.and_eq_true, decide_eq_true_eq] at h
    have h1 := succ_le w up
    have h2 : up ≤ i + (j + 1) := ih2
    have h3 := h.1
    simp only [Nat.succ_eq_add_one]
    omega
  | case4 i j up left ch h ih2 ih1 ih3 =>
    have h1 : succ w (min up left) % w ≤ succ w (min up left) := Nat.mod_le _ _
    have h2 := succ_le w (min up left)
    have : up ≤ i + (j + 1) := ih2
    have : min up left ≤ up := Nat.min_le_left _ _
    simp only [Nat.succ_eq_add_one]
    omega

/-- A cell whose change is not taken exceeds one of its neighbours. -/
theorem cell_not_kept {w : Nat} (hw : w = 256 ∨ w = 65536 ∨ w = 4294967296) {cost : Nat → Nat → Nat} {i j : Nat}
    (hn : w = 4294967296 → i + j + 2 < 4294967296) (h : kept w cost i j = false) :
    cell w cost (i + 1) (j + 1) > cell w cost i (j + 1) ∨ cell w cost (i + 1) (j + 1) > cell w cost (i + 1) j := by
  have e := cell_step w cost i j
  rw [h] at e
  simp only [Bool.false_eq_true, if_false] at e
  have hu := cell_le w cost i (j + 1)
  have hl := cell_le w cost (i + 1) j
  rw [e]
  simp only [kept, takes] at h
  generalize cell w cost i (j + 1) = u at *
  generalize cell w cost (i + 1) j = l at *
  have hm : (min u l = u ∨ min u l = l) ∧ min u l ≤ u ∧ min u l ≤ l := by omega
  generalize min u l = x at *
  have hlt : succ w x < w ∧ succ w x = x + 1 := by
    by_cases hw' : w = 4294967296
    · have hn := hn hw'
      have : (x + 1) % w = x + 1 := Nat.mod_eq_of_lt (by omega)
      rw [succ, if_pos hw', this]
      omega
    · have hs : ∀ y, succ w y = y + 1 := fun y => by rw [succ, if_neg hw']
      have hch : chCost w (cell w cost i j) (cost i j) < w := Nat.mod_lt _ (by omega)
      generalize chCost w (cell w cost i j) (cost i j) = c at *
      simp only [hs, Bool.and_eq_false_iff, decide_eq_false_iff_not] at h
      rw [hs]
      omega
  rw [Nat.mod_eq_of_lt hlt.1, hlt.2]
  omega

/-- The walk never meets a null pointer. -/
theorem trace_some {w : Nat} (hw : w = 256 ∨ w = 65536 ∨ w = 4294967296) (cost : Nat → Nat → Nat) (i j : Nat)
    (hn : w = 4294967296 → i + j < 4294967296) : ∃ s, trace w cost i j = some s := by
  fun_induction trace with
  | case1 => exact ⟨_, rfl⟩
  | case2 i ih =>
    obtain ⟨s, h⟩ := ih (fun h => by have := hn h; omega)
    exact ⟨_, by rw [h]; rfl⟩
  | case3 j ih =>
    obtain ⟨s, h⟩ := ih (fun h => by have := hn h; omega)
    exact ⟨_, by rw [h]; rfl⟩
  | case4 i j _ ih =>
    obtain ⟨s, h⟩ := ih (fun h => by have := hn h; omega)
    exact ⟨_, by rw [h]; rfl⟩
  | case5 i j _ _ ih =>
    obtain ⟨s, h⟩ := ih (fun h => by have := hn h; omega)
    exact ⟨_, by rw [h]; rfl⟩
  | case6 i j _ _ _ ih =>
    obtain ⟨s, h⟩ := ih (fun h => by have := hn h; omega)
    exact ⟨_, by rw [h]; rfl⟩
  | case7 i j h1 h2 h3 =>
    have := cell_not_kept hw (cost := cost) (i := i) (j := j) (fun h => by have := hn h; omega) (by simpa using h3)
    omega

theorem containers_some {pa pb : Path} {n m : Nat} (sub : Nat → Nat → Table) (h0 : 0 < max n m) (hn : n + m < 4294967296) :
    ∃ t, containers pa pb n m sub = some t := by
  simp only [containers]
  rw [if_neg (by omega)]
  split
  · exact ⟨_, rfl⟩
  · obtain ⟨s, hs⟩ := trace_some (cellSize_cases n m) (fun i j => if (sub i j).similar then 0 else (sub i j).result) n m (fun _ => hn)
    rw [hs]
    exact ⟨_, rfl⟩

theorem at_cons {e x : Elem} {i : Nat} (r : Path) (h : e.kids[i]? = some x) : e.at (i :: r) = x.at r := by simp [Elem.at, h]

/-- Two containers that can be compared: not both empty, and not absurdly large. -/
def Fits (a b : Elem) : Prop := ∀ p q x y, a.at p = some x → b.at q = some y → x.isContainer = true → y.isContainer = true →
  0 < max x.kids.length y.kids.length ∧ x.kids.length + y.kids.length < 4294967296

theorem Fits.kid {a b x y : Elem} {i j : Nat} (h : Fits a b) (hx : a.kids[i]? = some x) (hy : b.kids[j]? = some y) : Fits x y :=
  fun p q x' y' hx' hy' => h (i :: p) (j :: q) x' y' (by rw [at_cons p hx, hx']) (by rw [at_cons q hy, hy'])

/-- Comparing never fails. -/
theorem build_some (fmt : Bytes → Bytes) (a b : Elem) (pa pb : Path) (h : Fits a b) : ∃ t, buildE fmt a pa b pb = some t := by
  by_cases hc : a.isContainer = true ∧ b.isContainer = true
  · obtain ⟨sub, _, e⟩ := containers_build (fmt := fmt) (pa := pa) (pb := pb) hc.1 hc.2 fun i j x y hx hy => by
      have := kid_size (List.mem_of_getElem? hx)
      exact build_some fmt x y _ _ (h.kid hx hy)
    have := h [] [] a b rfl rfl hc.1 hc.2
    rw [e]
    exact containers_some sub this.1 this.2
  · obtain ⟨k, v, v', rfl, rfl, e⟩ | ⟨n, e, _⟩ | ⟨n, e, _⟩ | ⟨s, e, _⟩ | ⟨e, _⟩ | ⟨v, v', rfl, rfl, h1, h2, h3, e⟩ := build_other (fmt := fmt) (pa := pa) (pb := pb) hc
    · have : sizeOf (Elem.value v) < sizeOf (Elem.entry k v) := kid_size (by simp [Elem.kids])
      rw [e]
      exact build_some fmt _ _ _ _ (h.kid (i := 0) (j := 0) rfl rfl)
    all_goals exact ⟨_, e⟩
termination_by sizeOf a

/-! ## A document and itself -/

theorem cell_diag {w : Nat} {cost : Nat → Nat → Nat} {n : Nat} (hc : ∀ i < n, cost i i = 0) (i : Nat) (hi : i ≤ n) : cell w cost i i = 0 := by
  induction i with
  | zero => simp [cell]
  | succ i ih =>
    have h0 := ih (by omega)
    rw [cell_step, if_pos]
    · simp [chCost, h0, hc i (by omega)]
    · simp [kept, takes, chCost, h0, hc i (by omega)]

theorem trace_diag {w : Nat} {cost : Nat → Nat → Nat} {n : Nat} (hc : ∀ i < n, cost i i = 0) (i : Nat) (hi : i ≤ n) :
    ∃ s, trace w cost i i = some s ∧ ∀ k < i, Step.pair k k .equ ∈ s := by
  induction i with
  | zero => exact ⟨[], by simp [trace], by simp⟩
  | succ i ih =>
    obtain ⟨s, hs, hk⟩ := ih (by omega)
    have h1 := cell_diag (w := w) hc i (by omega)
    have h2 := cell_diag (w := w) hc (i + 1) hi
    refine ⟨.pair i i .equ :: s, ?_, ?_⟩
    · rw [trace, if_neg (by omega), if_neg (by omega), if_pos, hs]
      · simp [h1, h2]
      · simp [kept, takes, chCost, h1, hc i (by omega)]
    · intro k hk'
      by_cases h : k = i
      · subst h; exact .head _
      · exact .tail _ (hk k (by omega))

theorem percent_self (a : Bytes) : percentSimilar a a = true := by
  have h0 : levenshtein a a = 0 := by simp [levenshtein]
  unfold percentSimilar levenshteinPercent
  split
  · decide
  · have : F32.div (F32.ofNat (levenshtein a a)) (F32.ofNat (max a.length a.length)) = ⟨0, 0⟩ := by
      rw [h0]
      have : F32.ofNat 0 = ⟨0, 0⟩ := by decide
      rw [this, F32.div]
      split <;> simp [F32.ofRatio]
    rw [this]
    decide

/-- In the table of two equal elements everything is equal and paired. -/
structure Self (a : Elem) (pa pb : Path) (t : Table) : Prop where
  similar : t.similar = true
  equ : ∀ r x, a.at r = some x → (a.isEntry = false ∨ r ≠ []) →
    look t.operations (.left (pa ++ r)) = some .equ ∧ look t.operations (.right (pb ++ r)) = some .equ ∧ Rel pa pb t r r
  top : a.isEntry = true → look t.operations (.left pa) = none ∧ look t.operations (.right pb) = none

theorem build_self (fmt : Bytes → Bytes) (a : Elem) (pa pb : Path) (t : Table) (h : buildE fmt a pa a pb = some t) :
    Self a pa pb t := by
  have good := build_good fmt a a pa pb t h
  by_cases hc : a.isContainer = true
  · obtain ⟨sub, hs, hcon⟩ := build_containers hc hc h
    have hself : ∀ (i : Nat) (x : Elem), a.kids[i]? = some x → Self x (pa ++ [i]) (pb ++ [i]) (sub i i) := fun i x hx => by
      have := kid_size (List.mem_of_getElem? hx)
      exact build_self fmt x _ _ _ (hs i i x x hx hx)
    have hcost : ∀ i < a.kids.length, (if (sub i i).similar then 0 else (sub i i).result) = 0 := by
      intro i hi
      simp [(hself i _ (List.getElem?_eq_getElem hi)).similar]
    obtain ⟨s, hs1, hs2⟩ := trace_diag (w := cellSize a.kids.length a.kids.length)
      (cost := fun i j => if (sub i j).similar then 0 else (sub i j).result) hcost a.kids.length (Nat.le_refl _)
    have hdist := cell_diag (w := cellSize a.kids.length a.kids.length)
      (cost := fun i j => if (sub i j).similar then 0 else (sub i j).result) hcost a.kids.length (Nat.le_refl _)
    have hne : a.isEntry = false := by match a, hc with | .value _, _ => rfl
    obtain ⟨h1, _, _, _⟩ | ⟨h1, _, _, s', hs', hd, hok, hO, hE⟩ :=
      look_containers hcon (fun i j hi hj => (build_good fmt _ _ _ _ _
        (hs i j _ _ (List.getElem?_eq_getElem hi) (List.getElem?_eq_getElem hj))).ok)
    · exfalso
      simp only [containers] at hcon
      split at hcon
      · cases hcon
      · rename_i hpos
        rw [hdist] at hcon
        rw [if_neg] at hcon
        · rw [hs1] at hcon
          cases hcon
          cases h1
        · simp [relative]
    · rw [hs1] at hs'
      cases hs'
      refine ⟨h1, ?_, fun h' => by rw [hne] at h'; cases h'⟩
      intro r x hx _
      cases r with
      | nil =>
        simp only [List.append_nil]
        exact ⟨(hO _ _).mpr (.inl ⟨.inl rfl, rfl⟩), (hO _ _).mpr (.inl ⟨.inr rfl, rfl⟩), .inl ((hE _ _).mpr (.inl (by simp)))⟩
      | cons i r =>
        obtain ⟨y, hy, hx⟩ : ∃ y, a.kids[i]? = some y ∧ y.at r = some x := by
          simp only [Elem.at, Option.bind_eq_some_iff] at hx
          exact hx
        have hi : i < a.kids.length := (List.getElem?_eq_some_iff.mp hy).1
        have hm := hs2 i hi
        have hself := hself i y hy
        have hl := fun k => local_pair (pa := pa) (pb := pb) (sub := sub) .equ (hok i i .equ hm) k
        have n1 : Ptr.left (pa ++ i :: r) ≠ .left pa := fun h => by simpa using append_left_self.mp h.symm
        have n2 : Ptr.right (pb ++ i :: r) ≠ .right pb := fun h => by simpa using append_right_self.mp h.symm
        have f1 : ∀ (l : Path), pa ++ i :: l = pa ++ [i] ++ l := by simp
        have f2 : ∀ (l : Path), pb ++ i :: l = pb ++ [i] ++ l := by simp
        have key : look (sub i i).operations (.left (pa ++ i :: r)) = some .equ ∧ look (sub i i).operations (.right (pb ++ i :: r)) = some .equ ∧
              Rel (pa ++ [i]) (pb ++ [i]) (sub i i) r r ∨
            (r = [] ∧ look (sub i i).operations (.left (pa ++ [i])) = none ∧ look (sub i i).operations (.right (pb ++ [i])) = none) := by
          by_cases hcase : y.isEntry = false ∨ r ≠ []
          · rw [f1, f2]; exact .inl (hself.equ r x hx hcase)
          · simp only [not_or, Bool.not_eq_false, ne_eq, Decidable.not_not] at hcase
            exact .inr ⟨hcase.2, hself.top hcase.1⟩
        refine ⟨(hO _ _).mpr (.inr ⟨n1, by simp, _, hm, ((hl _).1 _).mpr ?_⟩), (hO _ _).mpr (.inr ⟨by simp, n2, _, hm, ((hl _).1 _).mpr ?_⟩), ?_⟩
        · obtain ⟨k1, _, _⟩ | ⟨rfl, k1, _⟩ := key
          · exact .inl k1
          · exact .inr ⟨k1, .inl rfl, rfl⟩
        · obtain ⟨_, k1, _⟩ | ⟨rfl, _, k1⟩ := key
          · exact .inl k1
          · exact .inr ⟨k1, .inr rfl, rfl⟩
        · by_cases hr : r = []
          · subst hr
            exact .inl ((hE _ _).mpr (.inr (.inr ⟨n1, by simp, _, hm, ((hl _).2 _).mpr (.inl ⟨rfl, rfl⟩)⟩)))
          · obtain ⟨_, _, k1⟩ | ⟨rfl, _, _⟩ := key
            · have n3 : Ptr.left (pa ++ i :: r) ≠ .left (pa ++ [i]) := fun h => hr (left_inj h).2
              obtain k1 | k1 := k1
              · exact .inl ((hE _ _).mpr (.inr (.inr ⟨n1, by simp, _, hm, ((hl _).2 _).mpr (.inr ⟨n3, by simpa using k1⟩)⟩)))
              · exact .inr ((hE _ _).mpr (.inr (.inr ⟨by simp, n2, _, hm, ((hl _).2 _).mpr (.inr ⟨by simp, by simpa using k1⟩)⟩)))
            · exact absurd rfl hr
  · have hc' : ¬ (a.isContainer = true ∧ a.isContainer = true) := fun h => hc h.1
    match a with
    | .entry k v =>
      have e : buildE fmt (.entry k v) pa (.entry k v) pb = buildE fmt (.value v) (pa ++ [0]) (.value v) (pb ++ [0]) := by
        simp [buildE, entryWith]
      rw [e] at h
      have : 0 < sizeOf k := by cases k <;> simp <;> omega
      have hself := build_self fmt _ _ _ _ h
      have hg := build_good fmt _ _ _ _ _ h
      refine ⟨hself.similar, ?_, fun _ => ⟨?_, ?_⟩⟩
      · intro r x hx hr
        simp only [Elem.isEntry, Bool.true_eq_false, false_or] at hr
        cases r with
        | nil => exact absurd rfl hr
        | cons i r =>
          cases i with
          | zero =>
            have := hself.equ r x (by simpa [Elem.at, Elem.kids] using hx) (.inl rfl)
            simpa [Rel] using this
          | succ i => simp [Elem.at, Elem.kids] at hx
      · cases hl : look t.operations (.left pa) with
        | none => rfl
        | some v =>
          obtain ⟨r, e⟩ | ⟨r, e⟩ := hg.ok.domO _ _ hl
          · simp at e
          · cases e
      · cases hl : look t.operations (.right pb) with
        | none => rfl
        | some v =>
          obtain ⟨r, e⟩ | ⟨r, e⟩ := hg.ok.domO _ _ hl
          · cases e
          · simp at e
    | .value v =>
      have hv : v.isContainer = false := by cases v <;> first | rfl | simp [Elem.isContainer] at hc
      have e : buildE fmt (.value v) pa (.value v) pb = some (score true (.left pa) (.right pb) true) := by
        have : buildE fmt (.value v) pa (.value v) pb = some (primitive fmt v pa (.value v) pb) := by
          cases v <;> first | rfl | simp [Json.isContainer] at hv
        rw [this, primitive, hv]
        simp [percent_self]
      rw [e] at h
      cases h
      refine ⟨rfl, ?_, fun h => by cases h⟩
      intro r x hx _
      cases r with
      | nil => simp [score, look_setKey, Rel, look]
      | cons i r => cases v <;> first | (simp [Json.isContainer] at hv; done) | simp [Elem.at, Elem.kids] at hx
termination_by sizeOf a

/-! ## Optimality -/

/-- The pairs among the turns. -/
def pairsOf : List Step → List (Nat × Nat)
  | [] => []
  | .pair i j _ :: s => (i, j) :: pairsOf s
  | _ :: s => pairsOf s

theorem mem_pairsOf {s : List Step} {i j : Nat} : (i, j) ∈ pairsOf s ↔ ∃ op, Step.pair i j op ∈ s := by
  induction s with
  | nil => simp [pairsOf]
  | cons x s ih => cases x <;> simp [pairsOf, ih, exists_or]

/-- Every sum of this alignment fits the cells. -/
structure NoWrap (w : Nat) (cost : Nat → Nat → Nat) (n m : Nat) : Prop where
  left : n < w
  right : m < w
  both : w = 4294967296 → n + m < w
  next : ∀ i ≤ n, ∀ j ≤ m, cell w cost i j + 1 < w
  sum : ∀ i < n, ∀ j < m, cell w cost i j + cost i j < w

theorem cell_here {w : Nat} {cost : Nat → Nat → Nat} {i j : Nat} (h4 : cell w cost i j + cost i j < w) (h2 : cell w cost i (j + 1) + 1 < w) (h3 : cell w cost (i + 1) j + 1 < w) :
    cell w cost (i + 1) (j + 1) = min (min (cell w cost i (j + 1) + 1) (cell w cost (i + 1) j + 1)) (cell w cost i j + cost i j) ∧
    (kept w cost i j = true ↔ cell w cost i j + cost i j ≤ min (cell w cost i (j + 1) + 1) (cell w cost (i + 1) j + 1)) := by
  have e := cell_step w cost i j
  have hs : ∀ x, x + 1 < w → succ w x = x + 1 := by
    intro x hx
    rw [succ]; split
    · exact Nat.mod_eq_of_lt hx
    · rfl
  have hch : chCost w (cell w cost i j) (cost i j) = cell w cost i j + cost i j := Nat.mod_eq_of_lt (by omega)
  have hk : kept w cost i j = true ↔ cell w cost i j + cost i j ≤ min (cell w cost i (j + 1) + 1) (cell w cost (i + 1) j + 1) := by
    rw [kept, takes, hch, hs _ (by omega), hs _ (by omega)]
    simp only [Bool.and_eq_true, decide_eq_true_eq]
    omega
  refine ⟨?_, hk⟩
  rw [e, hch]
  by_cases hkept : kept w cost i j = true
  · rw [if_pos hkept]
    have := hk.mp hkept
    omega
  · rw [if_neg hkept, hs _ (by omega), Nat.mod_eq_of_lt (by omega)]
    have hnot : ¬ (cell w cost i j + cost i j ≤ min (cell w cost i (j + 1) + 1) (cell w cost (i + 1) j + 1)) := fun h => hkept (hk.mpr h)
    generalize cell w cost i (j + 1) = u at *
    generalize cell w cost (i + 1) j = l at *
    generalize cell w cost i j + cost i j = d at *
    clear e hs hch hk
    omega

theorem cell_min {w : Nat} {cost : Nat → Nat → Nat} {n m i j : Nat} (h : NoWrap w cost n m) (hi : i < n) (hj : j < m) :
    cell w cost (i + 1) (j + 1) = min (min (cell w cost i (j + 1) + 1) (cell w cost (i + 1) j + 1)) (cell w cost i j + cost i j) ∧
    (kept w cost i j = true ↔ cell w cost i j + cost i j ≤ min (cell w cost i (j + 1) + 1) (cell w cost (i + 1) j + 1)) :=
  cell_here (h.sum i hi j hj) (h.next i (by omega) (j + 1) (by omega)) (h.next (i + 1) (by omega) j (by omega))

theorem cell_left {w : Nat} {cost : Nat → Nat → Nat} {i : Nat} (h : i < w) : cell w cost i 0 = i := by
  cases i with
  | zero => simp [cell]
  | succ i => rw [cell]; exact Nat.mod_eq_of_lt h

theorem cell_right {w : Nat} {cost : Nat → Nat → Nat} {j : Nat} (h : j < w) : cell w cost 0 j = j := by
  rw [cell]; exact Nat.mod_eq_of_lt h

theorem least_left (cost : Nat → Nat → Nat) : ∀ i, Least cost i 0 i
  | 0 => ⟨⟨_, .done⟩, fun _ _ _ => Nat.zero_le _⟩
  | i + 1 => by
    obtain ⟨⟨l, hl⟩, h⟩ := least_left cost i
    refine ⟨⟨l, hl.aloneLeft⟩, fun l' d' h' => ?_⟩
    cases h' with
    | aloneLeft h' => have := h _ _ h'; omega

theorem least_right (cost : Nat → Nat → Nat) : ∀ j, Least cost 0 j j
  | 0 => ⟨⟨_, .done⟩, fun _ _ _ => Nat.zero_le _⟩
  | j + 1 => by
    obtain ⟨⟨l, hl⟩, h⟩ := least_right cost j
    refine ⟨⟨l, hl.aloneRight⟩, fun l' d' h' => ?_⟩
    cases h' with
    | aloneRight h' => have := h _ _ h'; omega

theorem least_step {cost : Nat → Nat → Nat} {i j u l d : Nat} (hu : Least cost i (j + 1) u) (hl : Least cost (i + 1) j l) (hd : Least cost i j d) :
    Least cost (i + 1) (j + 1) (min (min (u + 1) (l + 1)) (d + cost i j)) := by
  obtain ⟨⟨lu, au⟩, hu⟩ := hu
  obtain ⟨⟨ll, al⟩, hl⟩ := hl
  obtain ⟨⟨ld, ad⟩, hd⟩ := hd
  refine ⟨?_, fun l' d' h' => ?_⟩
  · by_cases h1 : d + cost i j ≤ min (u + 1) (l + 1)
    · rw [Nat.min_eq_right h1]; exact ⟨_, ad.facing⟩
    · rw [Nat.min_eq_left (by omega)]
      by_cases h2 : u ≤ l
      · rw [Nat.min_eq_left (by omega)]; exact ⟨_, au.aloneLeft⟩
      · rw [Nat.min_eq_right (by omega)]; exact ⟨_, al.aloneRight⟩
  · cases h' with
    | aloneLeft h' => have := hu _ _ h'; omega
    | aloneRight h' => have := hl _ _ h'; omega
    | facing h' => have := hd _ _ h'; omega

/-- If the least costs fit the cells, then the cells hold them. -/
theorem noWrap_of_least {w : Nat} {cost : Nat → Nat → Nat} {n m : Nat} (h32 : w = 4294967296 → n + m < w)
    (h : ∀ i ≤ n, ∀ j ≤ m, ∀ d, Least cost i j d → d + 1 < w ∧ (i < n → j < m → d + cost i j < w)) : NoWrap w cost n m := by
  have h1 := (h n (Nat.le_refl _) 0 (Nat.zero_le _) n (least_left cost n)).1
  have h2 := (h 0 (Nat.zero_le _) m (Nat.le_refl _) m (least_right cost m)).1
  have key : ∀ k i j, i + j = k → i ≤ n → j ≤ m → Least cost i j (cell w cost i j) := by
    intro k
    induction k using Nat.strongRecOn with
    | ind k ih =>
      intro i j hk hi hj
      match i, j with
      | i, 0 => rw [cell_left (by omega)]; exact least_left cost i
      | 0, j + 1 => rw [cell_right (by omega)]; exact least_right cost (j + 1)
      | i + 1, j + 1 =>
        have g1 := ih (i + (j + 1)) (by omega) i (j + 1) rfl (by omega) hj
        have g2 := ih (i + 1 + j) (by omega) (i + 1) j rfl hi (by omega)
        have g3 := ih (i + j) (by omega) i j rfl (by omega) (by omega)
        rw [(cell_here ((h i (by omega) j (by omega) _ g3).2 (by omega) (by omega)) (h _ (by omega) _ hj _ g1).1 (h _ hi _ (by omega) _ g2).1).1]
        exact least_step g1 g2 g3
  exact ⟨by omega, by omega, h32, fun i hi j hj => (h i hi j hj _ (key _ i j rfl hi hj)).1,
    fun i hi j hj => (h i (by omega) j (by omega) _ (key _ i j rfl (by omega) (by omega))).2 hi hj⟩

theorem cell_optimal {w : Nat} {cost : Nat → Nat → Nat} {n m : Nat} (h : NoWrap w cost n m) {i j t : Nat} {l : List (Nat × Nat)}
    (ha : Align cost i j l t) (hi : i ≤ n) (hj : j ≤ m) : cell w cost i j ≤ t := by
  induction ha with
  | done => simp [cell]
  | @aloneLeft i j t l ha ih =>
    have := ih (by omega) hj
    cases j with
    | zero =>
      have := cell_le w cost (i + 1) 0
      have h0 : cell w cost i 0 = i := by
        cases i with
        | zero => simp [cell]
        | succ i => rw [cell]; exact Nat.mod_eq_of_lt (by have := h.left; have := h.right; omega)
      omega
    | succ j =>
      have := (cell_min h (i := i) (j := j) (by omega) (by omega)).1
      omega
  | @aloneRight i j t l ha ih =>
    have := ih hi (by omega)
    cases i with
    | zero =>
      have := cell_le w cost 0 (j + 1)
      have h0 : cell w cost 0 j = j := by rw [cell]; exact Nat.mod_eq_of_lt (by have := h.left; have := h.right; omega)
      omega
    | succ i =>
      have := (cell_min h (i := i) (j := j) (by omega) (by omega)).1
      omega
  | @facing i j t l ha ih =>
    have := ih (by omega) (by omega)
    have := (cell_min h (i := i) (j := j) (by omega) (by omega)).1
    omega

theorem trace_align {w : Nat} {cost : Nat → Nat → Nat} {n m : Nat} (h : NoWrap w cost n m) (i j : Nat) (hi : i ≤ n) (hj : j ≤ m)
    {s : List Step} (hs : trace w cost i j = some s) : Align cost i j (pairsOf s) (cell w cost i j) := by
  fun_induction trace generalizing s with
  | case1 => simp at hs; subst hs; simpa [cell, pairsOf] using Align.done
  | case2 i ih =>
    simp only [Option.map_eq_some_iff] at hs
    obtain ⟨s', hs', rfl⟩ := hs
    have h1 := (ih (by omega) hj hs').aloneLeft
    have e : cell w cost (i + 1) 0 = cell w cost i 0 + 1 := by
      rw [cell, Nat.mod_eq_of_lt (by have := h.left; have := h.right; omega)]
      cases i with
      | zero => simp [cell]
      | succ i => rw [cell, Nat.mod_eq_of_lt (by have := h.left; have := h.right; omega)]
    rw [e]; exact h1
  | case3 j ih =>
    simp only [Option.map_eq_some_iff] at hs
    obtain ⟨s', hs', rfl⟩ := hs
    have h1 := (ih hi (by omega) hs').aloneRight
    have e : cell w cost 0 (j + 1) = cell w cost 0 j + 1 := by
      rw [cell, cell, Nat.mod_eq_of_lt (by have := h.left; have := h.right; omega), Nat.mod_eq_of_lt (by have := h.left; have := h.right; omega)]
    rw [e]; exact h1
  | case4 i j hgt ih =>
    simp only [Option.map_eq_some_iff] at hs
    obtain ⟨s', hs', rfl⟩ := hs
    have h1 := (ih (by omega) hj hs').aloneLeft
    have := (cell_min h (i := i) (j := j) (by omega) (by omega)).1
    have e : cell w cost (i + 1) (j + 1) = cell w cost i (j + 1) + 1 := by omega
    rw [e]; exact h1
  | case5 i j _ hgt ih =>
    simp only [Option.map_eq_some_iff] at hs
    obtain ⟨s', hs', rfl⟩ := hs
    have h1 := (ih hi (by omega) hs').aloneRight
    have := (cell_min h (i := i) (j := j) (by omega) (by omega)).1
    have e : cell w cost (i + 1) (j + 1) = cell w cost (i + 1) j + 1 := by omega
    rw [e]; exact h1
  | case6 i j _ _ hk ih =>
    simp only [Option.map_eq_some_iff] at hs
    obtain ⟨s', hs', rfl⟩ := hs
    have h1 := (ih (by omega) (by omega) hs').facing
    have hm := cell_min h (i := i) (j := j) (by omega) (by omega)
    have := hm.2.mp hk
    have e : cell w cost (i + 1) (j + 1) = cell w cost i j + cost i j := by omega
    rw [e]; exact h1
  | case7 => simp at hs

/-! ## `getEquivalence` -/

theorem scan_iff {m order : List (Ptr × Ptr)} (hu : Uniq m) (hp : order.Perm m) (e e' : Ptr)
    (huniq : ∀ x, (look m e = some x ∨ look m x = some e) → x = e') (hex : look m e = some e' ∨ look m e' = some e) :
    scan order e = some e' := by
  have mem : ∀ x ∈ order, look m x.1 = some x.2 := fun x hx => (mem_iff_look hu x.1 x.2).mp (hp.mem_iff.mp hx)
  have key : ∀ l : List (Ptr × Ptr), (∀ x ∈ l, look m x.1 = some x.2) → ((e, e') ∈ l ∨ (e', e) ∈ l) → scan l e = some e' := by
    intro l
    induction l with
    | nil => simp
    | cons x l ih =>
      intro hm hor
      have hx := hm x (by simp)
      simp only [scan]
      split
      · rename_i h; rw [h] at hx; rw [huniq _ (.inl hx)]
      · split
        · rename_i h; rw [h] at hx; rw [huniq _ (.inr hx)]
        · refine ih (fun y hy => hm y (.tail _ hy)) ?_
          obtain h | h := hor
          · cases h with
            | head => simp_all
            | tail _ h => exact .inl h
          · cases h with
            | head => simp_all
            | tail _ h => exact .inr h
  refine key order mem ?_
  obtain h | h := hex
  · exact .inl (hp.mem_iff.mpr ((mem_iff_look hu _ _).mpr h))
  · exact .inr (hp.mem_iff.mpr ((mem_iff_look hu _ _).mpr h))

theorem scan_some {m order : List (Ptr × Ptr)} (hu : Uniq m) (hp : order.Perm m) {e e' : Ptr} (h : scan order e = some e') :
    look m e = some e' ∨ look m e' = some e := by
  have mem : ∀ x ∈ order, look m x.1 = some x.2 := fun x hx => (mem_iff_look hu x.1 x.2).mp (hp.mem_iff.mp hx)
  have key : ∀ l : List (Ptr × Ptr), (∀ x ∈ l, look m x.1 = some x.2) → scan l e = some e' → look m e = some e' ∨ look m e' = some e := by
    intro l
    induction l with
    | nil => simp [scan]
    | cons x l ih =>
      intro hm h
      have hx := hm x (by simp)
      simp only [scan] at h
      split at h
      · rename_i h'; cases h; rw [h'] at hx; exact .inl hx
      · split at h
        · rename_i h'; cases h; rw [h'] at hx; exact .inr hx
        · exact ih (fun y hy => hm y (.tail _ hy)) h
  exact key order mem h

/-- `getEquivalence` does not depend on the order of addresses: it finds the partner. -/
theorem scan_rel {fmt : Bytes → Bytes} {a b : Elem} {t : Table} (g : Good fmt a [] b [] t) {order : List (Ptr × Ptr)} (hp : order.Perm t.equivalences)
    (p q : Path) : (scan order (.left p) = some (.right q) ↔ Rel [] [] t p q) ∧ (scan order (.right q) = some (.left p) ↔ Rel [] [] t p q) := by
  have hu := g.ok.uniqE
  refine ⟨⟨fun h => ?_, fun h => ?_⟩, ⟨fun h => ?_, fun h => ?_⟩⟩
  · simpa [Rel] using scan_some hu hp h
  · refine scan_iff hu hp _ _ ?_ (by simpa [Rel] using h)
    intro x hx
    have : ∃ q', x = .right q' := by
      obtain hx | hx := hx
      · obtain ⟨_, s, _, e⟩ | ⟨_, _, e, _⟩ := g.ok.domE _ _ hx
        · exact ⟨_, e⟩
        · cases e
      · obtain ⟨_, _, _, e⟩ | ⟨_, s, e, _⟩ := g.ok.domE _ _ hx
        · cases e
        · exact ⟨_, e⟩
    obtain ⟨q', rfl⟩ := this
    rw [g.corr.one h (s' := q') (by simpa [Rel] using hx)]
  · simpa [Rel, or_comm] using scan_some hu hp h
  · refine scan_iff hu hp _ _ ?_ (by simpa [Rel, or_comm] using h)
    intro x hx
    have : ∃ q', x = .left q' := by
      obtain hx | hx := hx
      · obtain ⟨_, s, e, _⟩ | ⟨_, _, _, e⟩ := g.ok.domE _ _ hx
        · cases e
        · exact ⟨_, e⟩
      · obtain ⟨_, _, e, _⟩ | ⟨_, s, _, e⟩ := g.ok.domE _ _ hx
        · exact ⟨_, e⟩
        · cases e
    obtain ⟨q', rfl⟩ := this
    rw [g.corr.one' h (r' := q') (by simpa [Rel, or_comm] using hx)]

theorem scan_side {fmt : Bytes → Bytes} {a b : Elem} {t : Table} (g : Good fmt a [] b [] t) {order : List (Ptr × Ptr)} (hp : order.Perm t.equivalences)
    {e e' : Ptr} (h : scan order e = some e') :
    (∃ p q, e = .left p ∧ e' = .right q) ∨ ∃ p q, e = .right p ∧ e' = .left q := by
  obtain h | h := scan_some g.ok.uniqE hp h
  · obtain ⟨r, s, h1, h2⟩ | ⟨r, s, h1, h2⟩ := g.ok.domE _ _ h
    · exact .inl ⟨_, _, h1, h2⟩
    · exact .inr ⟨_, _, h1, h2⟩
  · obtain ⟨r, s, h1, h2⟩ | ⟨r, s, h1, h2⟩ := g.ok.domE _ _ h
    · exact .inr ⟨_, _, h2, h1⟩
    · exact .inl ⟨_, _, h2, h1⟩
end Verif.Lemmas.Diff
