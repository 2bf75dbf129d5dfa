import Verif.Lemmas.FindNext
/-! # C35, C36, C37, C43: search results and neighbours -/
namespace Verif.Props
open Verif.Model Verif.Model.Search Verif.Model.Nav Verif.Spec Verif.Lemmas

/-- A document: `{"a":["x",{"b":"a"}],"c":"c"}`. -/
def navExample : Json := .obj [(b!"a", .arr [.str b!"x", .obj [(b!"b", .str b!"a")]]), (b!"c", .str b!"c")]

/-- Looking for a text, nothing else. -/
def plainPattern (s : Bytes) : Pattern := ⟨s, false, false, false, false, 0⟩

/-! ## C35 -/

/-- **C35 does not hold**: an entry whose key and value both match is in the list twice (and counted twice). -/
theorem C35_results_false (rx : Rx) (fmt : Bytes → Bytes) :
    search rx fmt (plainPattern b!"c") (.obj [(b!"c", .str b!"c")]) = ([[0], [0]], 2) ∧ items (.obj [(b!"c", .str b!"c")]) = [[], [0]] := ⟨rfl, rfl⟩

/-- **C35, the part that holds.** The list of results is made of the displayed items in document order, each as often as it is a hit: never if
neither its text, nor its key, nor its value matches; twice if key and value match; otherwise once. The count is the length of the
list. The displayed items are the root, the items of arrays and the entries of objects. Missing: items that are hits twice are
listed twice. -/
theorem C35_results_partial (rx : Rx) (fmt : Bytes → Bytes) (pat : Pattern) (root : Json) :
    let hit := fun q => ((elem root q).map (hits (fun text e => «match» rx pat text e) fmt)).getD 0
    (search rx fmt pat root).1 = (items root).flatMap (fun q => List.replicate (hit q) q) ∧
    (search rx fmt pat root).2 = (search rx fmt pat root).1.length ∧
    (items root).Pairwise (· < ·) ∧
    ∀ q, q ∈ items root ↔ (∃ e, elem root q = some e) ∧ (q = [] ∨ ∃ c, elem root q.dropLast = some c ∧ c.isContainer = true) := by
  refine ⟨?_, rfl, visible_sorted _ root, mem_items root⟩
  have h := (search_value rx fmt pat root root [] rfl).1
  simp only [Nav.search, h, items, visible, List.flatMap_cons]
  rfl

example (rx : Rx) (fmt : Bytes → Bytes) : search rx fmt (plainPattern b!"a") navExample = ([[0], [0, 0, 1, 0]], 2) ∧
    items navExample = [[], [0], [0, 0, 0], [0, 0, 1], [0, 0, 1, 0], [1]] := ⟨rfl, rfl⟩

/-! ## C36 -/

/-- The results are elements of the document, and no containers. -/
theorem results_elems (rx : Rx) (fmt : Bytes → Bytes) (pat : Pattern) (root : Json) (q : Path) (hq : q ∈ (search rx fmt pat root).1) :
    q ∈ items root ∧ ∃ e, elem root q = some e ∧ e.isContainer = false := by
  rw [(C35_results_partial rx fmt pat root).1, List.mem_flatMap] at hq
  obtain ⟨r, hr, hq⟩ := hq
  rw [List.mem_replicate] at hq
  obtain ⟨hn, rfl⟩ := hq
  refine ⟨hr, ?_⟩
  cases he : elem root q with
  | none => simp [he] at hn
  | some e =>
    refine ⟨e, rfl, ?_⟩
    simp only [he, Option.map_some, Option.getD_some] at hn
    cases e with
    | entry k v => rfl
    | value v => cases v <;> simp [hits, Json.isContainer] at hn <;> rfl

theorem results_sorted (rx : Rx) (fmt : Bytes → Bytes) (pat : Pattern) (root : Json) :
    (search rx fmt pat root).1.Pairwise (fun a b => a = b ∨ a < b) := by
  obtain ⟨h, -, hs, -⟩ := C35_results_partial rx fmt pat root
  rw [h]
  generalize (fun q => ((elem root q).map (hits (fun text e => «match» rx pat text e) fmt)).getD 0) = hit
  clear h
  generalize items root = l at hs ⊢
  induction l with
  | nil => simp
  | cons a l ih =>
    rw [List.pairwise_cons] at hs
    rw [List.flatMap_cons, List.pairwise_append]
    refine ⟨?_, ih hs.2, ?_⟩
    · rw [List.pairwise_replicate]; right; left; rfl
    · intro x hx y hy
      rw [List.mem_replicate] at hx
      obtain ⟨-, rfl⟩ := hx
      rw [List.mem_flatMap] at hy
      obtain ⟨z, hz, hy⟩ := hy
      rw [List.mem_replicate] at hy
      obtain ⟨-, rfl⟩ := hy
      exact .inr (hs.1 _ hz)

/-- **C36.** When there are results, N selects the first result after the selection in document order, or the first result of all if there
is none after it. -/
theorem C36_next_result (rx : Rx) (fmt : Bytes → Bytes) (pat : Pattern) (root : Json) (sel : Path) (collapsed : List Path)
    (hsel : ∃ e, elem root sel = some e) (hne : (search rx fmt pat root).1 ≠ []) :
    let results := (search rx fmt pat root).1
    ∃ q c after, jump root results sel collapsed = some (q, c, after) ∧ q ∈ results ∧
      if ∃ r ∈ results, sel < r then after = true ∧ sel < q ∧ ∀ r ∈ results, sel < r → q = r ∨ q < r
      else after = false ∧ ∀ r ∈ results, q = r ∨ q < r := by
  intro results
  have hj := jump_next root results (fun q hq => (results_elems rx fmt pat root q hq).2) sel hsel
  unfold jump
  rcases hj with ⟨q, h1, h2, h3, h4⟩ | ⟨h1, h2⟩
  · rw [h1]
    refine ⟨q, _, _, rfl, h2, ?_⟩
    rw [if_pos ⟨q, h2, h3⟩]
    exact ⟨rfl, h3, h4⟩
  · rw [h1]
    cases hr : results with
    | nil => exact absurd hr hne
    | cons q l =>
      refine ⟨q, _, _, rfl, by simp, ?_⟩
      rw [← hr, if_neg (by rintro ⟨r, hr1, hr2⟩; exact h2 r hr1 hr2)]
      refine ⟨rfl, fun r hr1 => ?_⟩
      have hs := results_sorted rx fmt pat root
      change results.Pairwise _ at hs
      rw [hr, List.pairwise_cons] at hs
      rw [hr] at hr1
      rcases List.mem_cons.mp hr1 with rfl | hr1
      · exact .inl rfl
      · exact hs.1 r hr1

/-- The selection after pressing N `n` times (each time with whatever is collapsed then). -/
inductive Pressed (root : Json) (results : List Path) : Nat → Path → Path → Prop
  | zero (s) : Pressed root results 0 s s
  | more {n s s' s'' c c' b} : Pressed root results n s s' → jump root results s' c = some (s'', c', b) → Pressed root results (n + 1) s s''

/-- **C36, consequence.** If `ds` are the distinct results in document order, pressing N `n` times from the `i`-th result leads to the
`(i + n)`-th, counted cyclically: all results are visited and after as many presses as there are results the selection is back. -/
theorem C36_cycle (rx : Rx) (fmt : Bytes → Bytes) (pat : Pattern) (root : Json) (ds : List Path) (hs : ds.Pairwise (· < ·))
    (hm : ∀ q, q ∈ ds ↔ q ∈ (search rx fmt pat root).1) (n i : Nat) (hi : i < ds.length) :
    ∀ q, Pressed root (search rx fmt pat root).1 n (ds[i]) q → ∃ h : (i + n) % ds.length < ds.length, q = ds[(i + n) % ds.length] := by
  have hpos : 0 < ds.length := by omega
  induction n with
  | zero =>
    intro q hq
    cases hq
    refine ⟨Nat.mod_lt _ hpos, ?_⟩
    simp [Nat.mod_eq_of_lt hi]
  | succ n ih =>
    intro q hq
    cases hq with
    | more hp hj =>
      obtain ⟨hlt, rfl⟩ := ih _ hp
      refine ⟨Nat.mod_lt _ hpos, ?_⟩
      generalize hk : (i + n) % ds.length = k at *
      have hmemk : ds[k] ∈ (search rx fmt pat root).1 := (hm _).mp (List.getElem_mem hlt)
      obtain ⟨-, e, he, -⟩ := results_elems rx fmt pat root _ hmemk
      have hne : (search rx fmt pat root).1 ≠ [] := fun h => by rw [h] at hmemk; simp at hmemk
      obtain ⟨q', c, b, h1, h2, h3⟩ := C36_next_result rx fmt pat root ds[k] _ ⟨e, he⟩ hne
      rw [hj] at h1
      simp only [Option.some.injEq, Prod.mk.injEq] at h1
      obtain ⟨rfl, rfl, rfl⟩ := h1
      rw [List.pairwise_iff_getElem] at hs
      have hstep : (i + (n + 1)) % ds.length = if k + 1 < ds.length then k + 1 else 0 := by
        rw [← Nat.add_assoc, Nat.add_mod, hk]
        by_cases hkl : k + 1 < ds.length
        · rw [if_pos hkl]
          by_cases h1l : 1 < ds.length
          · rw [Nat.mod_eq_of_lt h1l, Nat.mod_eq_of_lt hkl]
          · omega
        · rw [if_neg hkl]
          have : k + 1 = ds.length := by omega
          by_cases h1l : 1 < ds.length
          · rw [Nat.mod_eq_of_lt h1l, this, Nat.mod_self]
          · have : ds.length = 1 := by omega
            rw [this]; omega
      obtain ⟨j, hj1, hj2⟩ := List.mem_iff_getElem.mp ((hm _).mpr h2)
      rw [← hj2]
      by_cases hkl : k + 1 < ds.length
      · rw [if_pos hkl] at hstep
        rw [if_pos ⟨ds[k + 1], (hm _).mp (List.getElem_mem hkl), hs k (k + 1) hlt hkl (by omega)⟩] at h3
        obtain ⟨-, h4, h5⟩ := h3
        have hjk : k < j := by
          rcases Nat.lt_trichotomy k j with h | h | h
          · exact h
          · subst h; rw [hj2] at h4; exact absurd h4 (path_lt_irrefl _)
          · have := hs j k hj1 hlt h
            rw [hj2] at this
            exact absurd h4 fun h' => path_asymm h' this
        have hjk1 : ¬ k + 1 < j := fun h => by
          have h6 := hs (k + 1) j hkl hj1 h
          rcases h5 _ ((hm _).mp (List.getElem_mem hkl)) (hs k (k + 1) hlt hkl (by omega)) with h7 | h7
          · rw [hj2, h7] at h6; exact path_lt_irrefl _ h6
          · rw [hj2] at h6; exact path_asymm h6 h7
        have : j = k + 1 := by omega
        subst this
        simp only [hstep]
      · rw [if_neg hkl] at hstep
        have hno : ¬ ∃ r ∈ (search rx fmt pat root).1, ds[k] < r := by
          rintro ⟨r, hr1, hr2⟩
          obtain ⟨l, hl1, hl2⟩ := List.mem_iff_getElem.mp ((hm _).mpr hr1)
          rcases Nat.lt_trichotomy k l with h | h | h
          · omega
          · subst h; rw [hl2] at hr2; exact path_lt_irrefl _ hr2
          · have := hs l k hl1 hlt h
            rw [hl2] at this
            exact path_asymm this hr2
        rw [if_neg hno] at h3
        have hj0 : ¬ 0 < j := fun h => by
          have h6 := hs 0 j hpos hj1 h
          rcases h3.2 _ ((hm _).mp (List.getElem_mem hpos)) with h7 | h7
          · rw [hj2, h7] at h6; exact path_lt_irrefl _ h6
          · rw [hj2] at h6; exact path_asymm h6 h7
        have : j = 0 := by omega
        subst this
        simp only [hstep]

example (rx : Rx) (fmt : Bytes → Bytes) : jump navExample (search rx fmt (plainPattern b!"a") navExample).1 [0] [[0, 0]] =
    some ([0, 0, 1, 0], [], true) ∧
    jump navExample (search rx fmt (plainPattern b!"a") navExample).1 [0, 0, 1, 0] [[0, 0, 1]] = some ([0], [[0, 0, 1]], false) := ⟨rfl, rfl⟩

/-! ## C37 -/

/-- **C37.** After N no container around the selected result is collapsed, and nothing else has been changed in what is collapsed. -/
theorem C37_revealed (root : Json) (results : List Path) (sel : Path) (collapsed : List Path) (q : Path) (c : List Path) (after : Bool)
    (h : jump root results sel collapsed = some (q, c, after)) :
    (∀ a ∈ c, ¬ (a <+: q ∧ a ≠ q)) ∧ ∀ a, ¬ (a <+: q ∧ a ≠ q) → (a ∈ c ↔ a ∈ collapsed) := by
  have key : c = unfold collapsed q := by
    unfold jump at h
    split at h
    · simp at h; obtain ⟨rfl, rfl, -⟩ := h; rfl
    · split at h
      · simp at h
      · simp at h; obtain ⟨rfl, rfl, -⟩ := h; rfl
  subst key
  constructor
  · rintro a ha ⟨h1, h2⟩
    simp [unfold, List.isPrefixOf_iff_prefix.mpr h1, h2] at ha
  · intro a ha
    simp only [unfold, List.mem_filter, Bool.not_eq_true', Bool.and_eq_false_iff, decide_eq_false_iff_not, and_iff_left_iff_imp]
    intro _
    by_cases h1 : a <+: q
    · right; intro h2; exact ha ⟨h1, h2⟩
    · left; rw [← Bool.not_eq_true, List.isPrefixOf_iff_prefix]; exact h1

/-! ## C43 -/

/-- **C43 does not hold**: the last item of a container that is the value of an object entry has no next element, whatever follows. -/
theorem C43_next_false :
    ∃ root p r, (∃ e, elem root p = some e) ∧ (∃ e, elem root r = some e) ∧ p < r ∧ ¬ p <+: r ∧ findNext root p = none :=
  ⟨navExample, [0, 0, 1], [1], ⟨_, rfl⟩, ⟨_, rfl⟩, by decide, by decide, rfl⟩

/-- **C43, the part that holds.** What `findNext` finds is the first element, in document order, behind the whole subtree of the element.
If it finds nothing, then every element behind it lies outside the value of an object entry that contains the element; so without object entries
around it, nothing lies behind. `findPrev` finds exactly the previous element in the same container, and `findNext` of that is the
element again. Missing: the elements after the value of an entry are not found from inside it. -/
theorem C43_next_partial (root : Json) (p : Path) (hp : ∃ e, elem root p = some e) :
    (∀ q, findNext root p = some q → ((∃ e, elem root q = some e) ∧ p < q ∧ ¬ p <+: q) ∧
      ∀ r, (∃ e, elem root r = some e) → p < r → ¬ p <+: r → q = r ∨ q < r) ∧
    (findNext root p = none → ∀ r, (∃ e, elem root r = some e) → p < r → ¬ p <+: r →
      ∃ a k v, a ++ [0] <+: p ∧ elem root a = some (.entry k v) ∧ ¬ a ++ [0] <+: r) ∧
    (∀ q, findPrev root p = some q ↔ ∃ a i c, p = a ++ [i + 1] ∧ q = a ++ [i] ∧ elem root a = some c ∧ c.isContainer = true) ∧
    (∀ q, findPrev root p = some q → findNext root q = some p) := by
  have hp' : ∃ e, elem root p.reverse.reverse = some e := by simpa using hp
  have hprev : ∀ q, findPrev root p = some q ↔ ∃ a i c, p = a ++ [i + 1] ∧ q = a ++ [i] ∧ elem root a = some c ∧ c.isContainer = true := by
    intro q
    unfold findPrev
    cases hl : p.getLast? with
    | none =>
      simp at hl
      subst hl
      simp
    | some i =>
      obtain ⟨a, rfl⟩ : ∃ a, p = a ++ [i] := List.getLast?_eq_some_iff.mp hl
      simp only [List.dropLast_concat]
      cases ha : (Elem.value root).at a with
      | none =>
        simp only [false_iff, reduceCtorEq]
        rintro ⟨a', i', c, h1, -, h3, -⟩
        obtain ⟨rfl, -⟩ := List.append_inj' h1 rfl
        rw [elem, ha] at h3
        simp at h3
      | some c =>
        simp only
        constructor
        · intro h
          split at h
          · simp at h
          split at h
          · simp at h
          · next h1 h2 =>
            simp at h h1
            exact ⟨a, i - 1, c, by rw [show i - 1 + 1 = i by omega], h.symm, ha, h1⟩
        · rintro ⟨a', i', c', h1, rfl, h3, h4⟩
          obtain ⟨rfl, h5⟩ := List.append_inj' h1 rfl
          simp at h5
          subst h5
          rw [elem, ha] at h3
          cases h3
          simp [h4]
  refine ⟨fun q hq => ?_, fun hn r h1 h2 h3 => ?_, hprev, fun q hq => ?_⟩
  · obtain ⟨h1, h2⟩ := findNextRev_some root p.reverse q hp' hq
    rw [List.reverse_reverse] at h1 h2
    exact ⟨h1, fun r g1 g2 g3 => h2 r ⟨g1, g2, g3⟩⟩
  · have := findNextRev_none root p.reverse hp' hn r (by rw [List.reverse_reverse]; exact ⟨h1, h2, h3⟩)
    simpa using this
  · obtain ⟨a, i, c, rfl, rfl, h3, h4⟩ := (hprev q).mp hq
    obtain ⟨e, he⟩ := hp
    rw [elem] at h3
    rw [elem, at_concat, h3] at he
    have hlen : i + 1 < c.kids.length := by
      by_cases h : i + 1 < c.kids.length
      · exact h
      · simp only [Option.bind_some] at he
        rw [List.getElem?_eq_none (by omega)] at he; simp at he
    rw [findNext, List.reverse_append, List.reverse_singleton, List.singleton_append, findNextRev]
    simp [h3, h4, hlen]

example : findNext navExample [0, 0, 0] = some [0, 0, 1] ∧ findNext navExample [0] = some [1] ∧ findNext navExample [1] = none ∧
    findPrev navExample [1] = some [0] ∧ findPrev navExample [0, 0, 0] = none := by decide

/-- **C43, exactly.** `findNext` finds an element if and only if it is the first one, in document order, behind the whole subtree, and it lies in the value of every object
entry in whose value the given element lies. -/
theorem C43_exactly_partial (root : Json) (p q : Path) (hp : ∃ e, elem root p = some e) :
    findNext root p = some q ↔
      ((∃ e, elem root q = some e) ∧ p < q ∧ ¬ p <+: q) ∧ (∀ r, (∃ e, elem root r = some e) → p < r → ¬ p <+: r → q = r ∨ q < r) ∧
      ∀ a k v, elem root a = some (.entry k v) → a ++ [0] <+: p → a ++ [0] <+: q := by
  constructor
  · intro h
    refine ⟨((C43_next_partial root p hp).1 q h).1, ((C43_next_partial root p hp).1 q h).2, fun a k v h1 h2 => ?_⟩
    exact findNextRev_inside root p.reverse q h a k v (by rwa [List.reverse_reverse]) h1
  · rintro ⟨⟨h1, h2, h3⟩, h4, h5⟩
    cases hf : findNext root p with
    | none =>
      obtain ⟨a, k, v, g1, g2, g3⟩ := (C43_next_partial root p hp).2.1 hf q h1 h2 h3
      exact absurd (h5 a k v g2 g1) g3
    | some q' =>
      obtain ⟨⟨g1, g2, g3⟩, g4⟩ := (C43_next_partial root p hp).1 q' hf
      rcases h4 q' g1 g2 g3 with h | h
      · rw [h]
      · rcases g4 q h1 h2 h3 with g | g
        · rw [g]
        · exact absurd g (path_asymm h)

end Verif.Props
