import Verif.Model.Navigate
import Verif.Spec.Document
/-! # Lemmas about positions -/
namespace Verif.Lemmas
open Verif.Model Verif.Model.Search Verif.Model.Nav Verif.Spec

theorem at_append (p q : Path) : ∀ e : Elem, e.at (p ++ q) = (e.at p).bind (·.at q) := by
  induction p with
  | nil => intro e; simp [Elem.at]
  | cons i p ih =>
    intro e
    simp only [List.cons_append, Elem.at]
    cases e.kids[i]? with
    | none => rfl
    | some k => simp [ih]

theorem at_concat (e : Elem) (p : Path) (i : Nat) : e.at (p ++ [i]) = (e.at p).bind (·.kids[i]?) := by
  rw [at_append]
  congr 1
  funext k
  simp [Elem.at]

theorem at_prefix {e x : Elem} {p q : Path} (h : e.at (p ++ q) = some x) : ∃ y, e.at p = some y := by
  rw [at_append] at h
  cases hp : e.at p with
  | none => simp [hp] at h
  | some y => exact ⟨y, rfl⟩

/-! ## Document order -/

theorem lt_append_of_lt (p : Path) {a b : Path} (h : a < b) : p ++ a < p ++ b := by
  induction p with
  | nil => exact h
  | cons i p ih => exact List.Lex.cons ih

theorem lt_append_cons (p : Path) (i : Nat) (q : Path) : p < p ++ i :: q := by
  induction p with
  | nil => exact List.Lex.nil
  | cons j p ih => exact List.Lex.cons ih

theorem lt_branch (p : Path) {i j : Nat} (h : i < j) (a b : Path) : p ++ [i] ++ a < p ++ [j] ++ b := by
  rw [List.append_assoc, List.append_assoc]
  exact lt_append_of_lt p (List.Lex.rel h)

theorem path_trans {a b c : Path} (h1 : a < b) (h2 : b < c) : a < c := List.lt_trans h1 h2

/-- What is inside a value lies below it. -/
def Below (p q : Path) : Prop := ∃ i r, q = p ++ i :: r

theorem Below.lt {p q : Path} (h : Below p q) : p < q := by
  obtain ⟨i, r, rfl⟩ := h
  exact lt_append_cons p i r

theorem below_of_below {p : Path} {i : Nat} {q : Path} (h : Below (p ++ [i]) q) : Below p q := by
  obtain ⟨j, r, rfl⟩ := h
  exact ⟨i, j :: r, by simp⟩

mutual
theorem inside_below (hidden : Path → Bool) : ∀ (v : Json) (p q : Path), q ∈ inside hidden p v → Below p q
  | .arr xs, p, q, h => by
    rw [inside] at h
    split at h
    · simp at h
    · obtain ⟨j, r, _, rfl⟩ := insideItems_below hidden xs p 0 q h; exact ⟨j, r, by simp⟩
  | .obj es, p, q, h => by
    rw [inside] at h
    split at h
    · simp at h
    · obtain ⟨j, r, _, rfl⟩ := insideEntries_below hidden es p 0 q h; exact ⟨j, r, by simp⟩
  | .str _, p, q, h => by simp [inside] at h
  | .bool _, p, q, h => by simp [inside] at h
  | .null, p, q, h => by simp [inside] at h
  | .int _, p, q, h => by simp [inside] at h
  | .long _, p, q, h => by simp [inside] at h
  | .dbl _, p, q, h => by simp [inside] at h
theorem insideItems_below (hidden : Path → Bool) : ∀ (xs : List Json) (p : Path) (i : Nat) (q : Path), q ∈ insideItems hidden p i xs →
    ∃ j r, i ≤ j ∧ q = p ++ [j] ++ r
  | [], p, i, q, h => by simp [insideItems] at h
  | x :: xs, p, i, q, h => by
    simp only [insideItems, List.cons_append, List.mem_cons, List.mem_append] at h
    rcases h with rfl | h | h
    · exact ⟨i, [], Nat.le_refl _, by simp⟩
    · obtain ⟨j, r, rfl⟩ := inside_below hidden x _ q h
      exact ⟨i, j :: r, Nat.le_refl _, rfl⟩
    · obtain ⟨j, r, h1, h2⟩ := insideItems_below hidden xs p (i + 1) q h
      exact ⟨j, r, by omega, h2⟩
theorem insideEntries_below (hidden : Path → Bool) : ∀ (es : List (Bytes × Json)) (p : Path) (i : Nat) (q : Path), q ∈ insideEntries hidden p i es →
    ∃ j r, i ≤ j ∧ q = p ++ [j] ++ r
  | [], p, i, q, h => by simp [insideEntries] at h
  | (k, v) :: es, p, i, q, h => by
    simp only [insideEntries, List.cons_append, List.mem_cons, List.mem_append] at h
    rcases h with rfl | h | h
    · exact ⟨i, [], Nat.le_refl _, by simp⟩
    · obtain ⟨j, r, rfl⟩ := inside_below hidden v _ q h
      exact ⟨i, 0 :: j :: r, Nat.le_refl _, by simp⟩
    · obtain ⟨j, r, h1, h2⟩ := insideEntries_below hidden es p (i + 1) q h
      exact ⟨j, r, by omega, h2⟩
end

mutual
theorem inside_sorted (hidden : Path → Bool) : ∀ (v : Json) (p : Path), (inside hidden p v).Pairwise (· < ·)
  | .arr xs, p => by
    rw [inside]; split
    · simp
    · exact insideItems_sorted hidden xs p 0
  | .obj es, p => by
    rw [inside]; split
    · simp
    · exact insideEntries_sorted hidden es p 0
  | .str _, p => by simp [inside]
  | .bool _, p => by simp [inside]
  | .null, p => by simp [inside]
  | .int _, p => by simp [inside]
  | .long _, p => by simp [inside]
  | .dbl _, p => by simp [inside]
theorem insideItems_sorted (hidden : Path → Bool) : ∀ (xs : List Json) (p : Path) (i : Nat), (insideItems hidden p i xs).Pairwise (· < ·)
  | [], p, i => by simp [insideItems]
  | x :: xs, p, i => by
    rw [insideItems, List.cons_append, List.pairwise_cons, List.pairwise_append]
    refine ⟨fun q hq => ?_, inside_sorted hidden x _, insideItems_sorted hidden xs p (i + 1), fun a ha b hb => ?_⟩
    · rcases List.mem_append.mp hq with h | h
      · exact (inside_below hidden x _ q h).lt
      · obtain ⟨j, r, h1, rfl⟩ := insideItems_below hidden xs p (i + 1) q h
        simpa using lt_branch p (show i < j by omega) [] r
    · obtain ⟨j, r, rfl⟩ := inside_below hidden x _ a ha
      obtain ⟨j', r', h1, rfl⟩ := insideItems_below hidden xs p (i + 1) b hb
      exact lt_branch p (by omega) _ _
theorem insideEntries_sorted (hidden : Path → Bool) : ∀ (es : List (Bytes × Json)) (p : Path) (i : Nat), (insideEntries hidden p i es).Pairwise (· < ·)
  | [], p, i => by simp [insideEntries]
  | (k, v) :: es, p, i => by
    rw [insideEntries, List.cons_append, List.pairwise_cons, List.pairwise_append]
    refine ⟨fun q hq => ?_, inside_sorted hidden v _, insideEntries_sorted hidden es p (i + 1), fun a ha b hb => ?_⟩
    · rcases List.mem_append.mp hq with h | h
      · exact (below_of_below (inside_below hidden v _ q h)).lt
      · obtain ⟨j, r, h1, rfl⟩ := insideEntries_below hidden es p (i + 1) q h
        simpa using lt_branch p (show i < j by omega) [] r
    · obtain ⟨j, r, rfl⟩ := below_of_below (inside_below hidden v _ a ha)
      obtain ⟨j', r', h1, rfl⟩ := insideEntries_below hidden es p (i + 1) b hb
      exact lt_branch p (by omega) _ _
end

theorem visible_sorted (hidden : Path → Bool) (root : Json) : (visible hidden root).Pairwise (· < ·) := by
  rw [visible, List.pairwise_cons]
  refine ⟨fun q hq => (inside_below hidden root [] q hq).lt, inside_sorted hidden root []⟩

/-! ## The search list -/

/-- How often the item at `q` is in the list. -/
def times (root : Json) (m : Bytes → Elem → Bool) (fmt : Bytes → Bytes) (q : Path) : Nat := ((elem root q).map (hits m fmt)).getD 0

theorem kid_item {root : Json} {p : Path} {done : List Json} {x : Json} {xs : List Json}
    (h : elem root p = some (.value (.arr (done ++ x :: xs)))) : elem root (p ++ [done.length]) = some (.value x) := by
  simp [elem] at h ⊢
  rw [at_concat, h]
  simp [Elem.kids]

theorem kid_entry {root : Json} {p : Path} {done : List (Bytes × Json)} {k : Bytes} {v : Json} {es : List (Bytes × Json)}
    (h : elem root p = some (.value (.obj (done ++ (k, v) :: es)))) :
    elem root (p ++ [done.length]) = some (.entry k v) ∧ elem root (p ++ [done.length] ++ [0]) = some (.value v) := by
  simp only [elem] at h ⊢
  have h1 : (Elem.value root).at (p ++ [done.length]) = some (.entry k v) := by rw [at_concat, h]; simp [Elem.kids]
  refine ⟨h1, ?_⟩
  rw [at_concat, h1]
  simp [Elem.kids]

/-- The list `q, …, q`. -/
def copies (root : Json) (m : Bytes → Elem → Bool) (fmt : Bytes → Bytes) (q : Path) : List Path := List.replicate (times root m fmt q) q

mutual
theorem search_value (rx : Rx) (fmt : Bytes → Bytes) (pat : Pattern) (root : Json) : ∀ (v : Json) (p : Path), elem root p = some (.value v) →
    (searchValue rx fmt pat p false v = copies root (fun t e => «match» rx pat t e) fmt p ++
      (inside (fun _ => false) p v).flatMap (copies root (fun t e => «match» rx pat t e) fmt)) ∧
    ∀ p' i k, p = p' ++ [i] → elem root p' = some (.entry k v) →
      (if «match» rx pat k (.entry k v) then [p'] else []) ++ searchValue rx fmt pat p true v = copies root (fun t e => «match» rx pat t e) fmt p' ++
        (inside (fun _ => false) p v).flatMap (copies root (fun t e => «match» rx pat t e) fmt)
  | .arr xs, p, h => by
    have hi := search_items rx fmt pat root xs [] p h
    constructor
    · simp [searchValue, inside, copies, times, h, hits, Json.isContainer]
      simpa [copies] using hi
    · intro p' i k hp hk
      simp only [searchValue, inside, copies, times, hk]
      simp only [List.length_nil] at hi
      rw [hi]
      by_cases hm : «match» rx pat k (.entry k (.arr xs)) <;> simp [hm, hits, Json.isContainer]
  | .obj es, p, h => by
    have hi := search_entries rx fmt pat root es [] p h
    constructor
    · simp [searchValue, inside, copies, times, h, hits, Json.isContainer]
      simpa [copies] using hi
    · intro p' i k hp hk
      simp only [searchValue, inside, copies, times, hk]
      simp only [List.length_nil] at hi
      rw [hi]
      by_cases hm : «match» rx pat k (.entry k (.obj es)) <;> simp [hm, hits, Json.isContainer]
  | .str s, p, h => by
    refine ⟨?_, fun p' i k hp hk => ?_⟩
    · by_cases hm : «match» rx pat (Json.stringify fmt (.str s)) (.value (.str s)) <;> simp [searchValue, inside, copies, times, h, hits, Json.isContainer, hm]
    · subst hp
      by_cases hm : «match» rx pat (Json.stringify fmt (.str s)) (.value (.str s)) <;> by_cases hm' : «match» rx pat k (.entry k (.str s)) <;>
        simp [searchValue, inside, copies, times, hk, hits, Json.isContainer, hm, hm', List.replicate]
  | .bool s, p, h => by
    refine ⟨?_, fun p' i k hp hk => ?_⟩
    · by_cases hm : «match» rx pat (Json.stringify fmt (.bool s)) (.value (.bool s)) <;> simp [searchValue, inside, copies, times, h, hits, Json.isContainer, hm]
    · subst hp
      by_cases hm : «match» rx pat (Json.stringify fmt (.bool s)) (.value (.bool s)) <;> by_cases hm' : «match» rx pat k (.entry k (.bool s)) <;>
        simp [searchValue, inside, copies, times, hk, hits, Json.isContainer, hm, hm', List.replicate]
  | .null, p, h => by
    refine ⟨?_, fun p' i k hp hk => ?_⟩
    · by_cases hm : «match» rx pat (Json.stringify fmt .null) (.value .null) <;> simp [searchValue, inside, copies, times, h, hits, Json.isContainer, hm]
    · subst hp
      by_cases hm : «match» rx pat (Json.stringify fmt .null) (.value .null) <;> by_cases hm' : «match» rx pat k (.entry k .null) <;>
        simp [searchValue, inside, copies, times, hk, hits, Json.isContainer, hm, hm', List.replicate]
  | .int s, p, h => by
    refine ⟨?_, fun p' i k hp hk => ?_⟩
    · by_cases hm : «match» rx pat (Json.stringify fmt (.int s)) (.value (.int s)) <;> simp [searchValue, inside, copies, times, h, hits, Json.isContainer, hm]
    · subst hp
      by_cases hm : «match» rx pat (Json.stringify fmt (.int s)) (.value (.int s)) <;> by_cases hm' : «match» rx pat k (.entry k (.int s)) <;>
        simp [searchValue, inside, copies, times, hk, hits, Json.isContainer, hm, hm', List.replicate]
  | .long s, p, h => by
    refine ⟨?_, fun p' i k hp hk => ?_⟩
    · by_cases hm : «match» rx pat (Json.stringify fmt (.long s)) (.value (.long s)) <;> simp [searchValue, inside, copies, times, h, hits, Json.isContainer, hm]
    · subst hp
      by_cases hm : «match» rx pat (Json.stringify fmt (.long s)) (.value (.long s)) <;> by_cases hm' : «match» rx pat k (.entry k (.long s)) <;>
        simp [searchValue, inside, copies, times, hk, hits, Json.isContainer, hm, hm', List.replicate]
  | .dbl s, p, h => by
    refine ⟨?_, fun p' i k hp hk => ?_⟩
    · by_cases hm : «match» rx pat (Json.stringify fmt (.dbl s)) (.value (.dbl s)) <;> simp [searchValue, inside, copies, times, h, hits, Json.isContainer, hm]
    · subst hp
      by_cases hm : «match» rx pat (Json.stringify fmt (.dbl s)) (.value (.dbl s)) <;> by_cases hm' : «match» rx pat k (.entry k (.dbl s)) <;>
        simp [searchValue, inside, copies, times, hk, hits, Json.isContainer, hm, hm', List.replicate]
theorem search_items (rx : Rx) (fmt : Bytes → Bytes) (pat : Pattern) (root : Json) : ∀ (xs done : List Json) (p : Path),
    elem root p = some (.value (.arr (done ++ xs))) →
    searchItems rx fmt pat p done.length xs =
      (insideItems (fun _ => false) p done.length xs).flatMap (copies root (fun t e => «match» rx pat t e) fmt)
  | [], done, p, h => by simp [searchItems, insideItems]
  | x :: xs, done, p, h => by
    have h1 := (search_value rx fmt pat root x _ (kid_item h)).1
    have h2 := search_items rx fmt pat root xs (done ++ [x]) p (by simpa using h)
    simp only [List.length_append, List.length_singleton] at h2
    simp [searchItems, insideItems, h1, h2]
theorem search_entries (rx : Rx) (fmt : Bytes → Bytes) (pat : Pattern) (root : Json) : ∀ (es done : List (Bytes × Json)) (p : Path),
    elem root p = some (.value (.obj (done ++ es))) →
    searchEntries rx fmt pat p done.length es =
      (insideEntries (fun _ => false) p done.length es).flatMap (copies root (fun t e => «match» rx pat t e) fmt)
  | [], done, p, h => by simp [searchEntries, insideEntries]
  | (k, v) :: es, done, p, h => by
    obtain ⟨g1, g2⟩ := kid_entry h
    have h1 := (search_value rx fmt pat root v _ g2).2 (p ++ [done.length]) 0 k rfl g1
    have h2 := search_entries rx fmt pat root es (done ++ [(k, v)]) p (by simpa using h)
    simp only [List.length_append, List.length_singleton] at h2
    rw [searchEntries, h1, h2]
    simp [insideEntries]
end

/-! ## The jump -/

mutual
/-- All positions in the order `jumpToNextSearch` visits them, with whether it may stop there. -/
def walk (p : Path) : Json → List (Path × Bool)
  | .arr xs => (p, false) :: walkItems p 0 xs
  | .obj es => (p, false) :: walkEntries p 0 es
  | _ => [(p, true)]
def walkItems (p : Path) (i : Nat) : List Json → List (Path × Bool)
  | [] => []
  | x :: xs => walk (p ++ [i]) x ++ walkItems p (i + 1) xs
def walkEntries (p : Path) (i : Nat) : List (Bytes × Json) → List (Path × Bool)
  | [] => []
  | (_, v) :: es => (p ++ [i], true) :: walk (p ++ [i] ++ [0]) v ++ walkEntries p (i + 1) es
end

/-- The jump on the list of positions. -/
def scanJump (results : List Path) (sel : Path) : Bool → List (Path × Bool) → Bool × Option Path
  | f, [] => (f, none)
  | f, (q, c) :: l =>
    if c && results.contains q && decide (q ≠ sel) && (f || decide (sel = q)) then (f || decide (sel = q), some q)
    else scanJump results sel (f || decide (sel = q)) l

theorem scanJump_append (results : List Path) (sel : Path) (l1 l2 : List (Path × Bool)) : ∀ f,
    scanJump results sel f (l1 ++ l2) = match scanJump results sel f l1 with
      | (f, some q) => (f, some q)
      | (f, none) => scanJump results sel f l2 := by
  induction l1 with
  | nil => intro f; rfl
  | cons a l1 ih =>
    intro f
    simp only [List.cons_append, scanJump]
    split
    · rfl
    · exact ih _

mutual
theorem jumpValue_scan (results : List Path) (sel : Path) : ∀ (v : Json) (p : Path) (f : Bool),
    jumpValue results sel p f v = scanJump results sel f (walk p v)
  | .arr xs, p, f => by simp [jumpValue, walk, scanJump, jumpItems_scan results sel xs p 0]
  | .obj es, p, f => by simp [jumpValue, walk, scanJump, jumpEntries_scan results sel es p 0]
  | .str _, p, f => by simp only [jumpValue, walk, scanJump, Bool.true_and]; split <;> simp_all
  | .bool _, p, f => by simp only [jumpValue, walk, scanJump, Bool.true_and]; split <;> simp_all
  | .null, p, f => by simp only [jumpValue, walk, scanJump, Bool.true_and]; split <;> simp_all
  | .int _, p, f => by simp only [jumpValue, walk, scanJump, Bool.true_and]; split <;> simp_all
  | .long _, p, f => by simp only [jumpValue, walk, scanJump, Bool.true_and]; split <;> simp_all
  | .dbl _, p, f => by simp only [jumpValue, walk, scanJump, Bool.true_and]; split <;> simp_all
theorem jumpItems_scan (results : List Path) (sel : Path) : ∀ (xs : List Json) (p : Path) (i : Nat) (f : Bool),
    jumpItems results sel p i f xs = scanJump results sel f (walkItems p i xs)
  | [], p, i, f => rfl
  | x :: xs, p, i, f => by
    rw [jumpItems, walkItems, scanJump_append, jumpValue_scan results sel x]
    split
    · next h => rw [h]
    · next h => rw [h, jumpItems_scan results sel xs]
theorem jumpEntries_scan (results : List Path) (sel : Path) : ∀ (es : List (Bytes × Json)) (p : Path) (i : Nat) (f : Bool),
    jumpEntries results sel p i f es = scanJump results sel f (walkEntries p i es)
  | [], p, i, f => rfl
  | (k, v) :: es, p, i, f => by
    rw [jumpEntries, walkEntries, List.cons_append, scanJump, Bool.true_and]
    split
    · rfl
    · rw [scanJump_append, jumpValue_scan results sel v]
      split
      · next h => rw [h]
      · next h => rw [h, jumpEntries_scan results sel es]
end

theorem getElem?_cons_cases {α : Type} (x : α) (xs : List α) (i : Nat) : (x :: xs)[i]? = if i = 0 then some x else xs[i - 1]? := by
  cases i <;> simp

mutual
theorem walk_mem : ∀ (v : Json) (p q : Path) (e : Elem), (Elem.value v).at q = some e → (p ++ q, !e.isContainer) ∈ walk p v
  | .arr xs, p, [], e, h => by simp [Elem.at] at h; subst h; simp [walk, Elem.isContainer]
  | .arr xs, p, i :: q, e, h => by
    simp only [Elem.at, Elem.kids] at h
    rw [walk, List.mem_cons]
    right
    have := walkItems_mem xs p 0 i q e h
    simpa using this
  | .obj es, p, [], e, h => by simp [Elem.at] at h; subst h; simp [walk, Elem.isContainer]
  | .obj es, p, i :: q, e, h => by
    simp only [Elem.at, Elem.kids] at h
    rw [walk, List.mem_cons]
    right
    have := walkEntries_mem es p 0 i q e h
    simpa using this
  | .str _, p, [], e, h => by simp [Elem.at] at h; subst h; simp [walk, Elem.isContainer]
  | .bool _, p, [], e, h => by simp [Elem.at] at h; subst h; simp [walk, Elem.isContainer]
  | .null, p, [], e, h => by simp [Elem.at] at h; subst h; simp [walk, Elem.isContainer]
  | .int _, p, [], e, h => by simp [Elem.at] at h; subst h; simp [walk, Elem.isContainer]
  | .long _, p, [], e, h => by simp [Elem.at] at h; subst h; simp [walk, Elem.isContainer]
  | .dbl _, p, [], e, h => by simp [Elem.at] at h; subst h; simp [walk, Elem.isContainer]
  | .str _, p, _ :: _, e, h => by simp [Elem.at, Elem.kids] at h
  | .bool _, p, _ :: _, e, h => by simp [Elem.at, Elem.kids] at h
  | .null, p, _ :: _, e, h => by simp [Elem.at, Elem.kids] at h
  | .int _, p, _ :: _, e, h => by simp [Elem.at, Elem.kids] at h
  | .long _, p, _ :: _, e, h => by simp [Elem.at, Elem.kids] at h
  | .dbl _, p, _ :: _, e, h => by simp [Elem.at, Elem.kids] at h
theorem walkItems_mem : ∀ (xs : List Json) (p : Path) (i j : Nat) (q : Path) (e : Elem),
    ((xs.map Elem.value)[j]?).bind (·.at q) = some e → (p ++ [i + j] ++ q, !e.isContainer) ∈ walkItems p i xs
  | [], p, i, j, q, e, h => by simp at h
  | x :: xs, p, i, j, q, e, h => by
    rw [walkItems, List.mem_append]
    cases j with
    | zero => simp at h; left; exact walk_mem x (p ++ [i]) q e h
    | succ j =>
      right
      have := walkItems_mem xs p (i + 1) j q e (by simpa using h)
      rw [show i + (j + 1) = i + 1 + j by omega]
      exact this
theorem walkEntries_mem : ∀ (es : List (Bytes × Json)) (p : Path) (i j : Nat) (q : Path) (e : Elem),
    ((es.map fun e => Elem.entry e.1 e.2)[j]?).bind (·.at q) = some e → (p ++ [i + j] ++ q, !e.isContainer) ∈ walkEntries p i es
  | [], p, i, j, q, e, h => by simp at h
  | (k, v) :: es, p, i, j, q, e, h => by
    rw [walkEntries, List.cons_append, List.mem_cons, List.mem_append]
    cases j with
    | zero =>
      simp at h
      cases q with
      | nil => simp [Elem.at] at h; subst h; left; simp [Elem.isContainer]
      | cons a q =>
        simp only [Elem.at, Elem.kids] at h
        cases a with
        | zero =>
          right; left
          have := walk_mem v (p ++ [i] ++ [0]) q e (by simpa using h)
          simpa using this
        | succ a => simp at h
    | succ j =>
      right; right
      have := walkEntries_mem es p (i + 1) j q e (by simpa using h)
      rw [show i + (j + 1) = i + 1 + j by omega]
      exact this
end

mutual
theorem walk_from : ∀ (v : Json) (p : Path) (x : Path × Bool), x ∈ walk p v → ∃ r, x.1 = p ++ r
  | .arr xs, p, x, h => by
    rcases List.mem_cons.mp h with rfl | h
    · exact ⟨[], by simp⟩
    · obtain ⟨j, r, _, h2⟩ := walkItems_from xs p 0 x h; exact ⟨j :: r, by simpa using h2⟩
  | .obj es, p, x, h => by
    rcases List.mem_cons.mp h with rfl | h
    · exact ⟨[], by simp⟩
    · obtain ⟨j, r, _, h2⟩ := walkEntries_from es p 0 x h; exact ⟨j :: r, by simpa using h2⟩
  | .str _, p, x, h => by simp [walk] at h; subst h; exact ⟨[], by simp⟩
  | .bool _, p, x, h => by simp [walk] at h; subst h; exact ⟨[], by simp⟩
  | .null, p, x, h => by simp [walk] at h; subst h; exact ⟨[], by simp⟩
  | .int _, p, x, h => by simp [walk] at h; subst h; exact ⟨[], by simp⟩
  | .long _, p, x, h => by simp [walk] at h; subst h; exact ⟨[], by simp⟩
  | .dbl _, p, x, h => by simp [walk] at h; subst h; exact ⟨[], by simp⟩
theorem walkItems_from : ∀ (xs : List Json) (p : Path) (i : Nat) (x : Path × Bool), x ∈ walkItems p i xs → ∃ j r, i ≤ j ∧ x.1 = p ++ [j] ++ r
  | [], p, i, x, h => by simp [walkItems] at h
  | y :: ys, p, i, x, h => by
    rcases List.mem_append.mp h with h | h
    · obtain ⟨r, h⟩ := walk_from y _ x h; exact ⟨i, r, Nat.le_refl _, h⟩
    · obtain ⟨j, r, h1, h2⟩ := walkItems_from ys p (i + 1) x h; exact ⟨j, r, by omega, h2⟩
theorem walkEntries_from : ∀ (es : List (Bytes × Json)) (p : Path) (i : Nat) (x : Path × Bool), x ∈ walkEntries p i es → ∃ j r, i ≤ j ∧ x.1 = p ++ [j] ++ r
  | [], p, i, x, h => by simp [walkEntries] at h
  | (k, v) :: es, p, i, x, h => by
    rw [walkEntries, List.cons_append, List.mem_cons, List.mem_append] at h
    rcases h with rfl | h | h
    · exact ⟨i, [], Nat.le_refl _, by simp⟩
    · obtain ⟨r, h⟩ := walk_from v _ x h; exact ⟨i, 0 :: r, Nat.le_refl _, by simpa using h⟩
    · obtain ⟨j, r, h1, h2⟩ := walkEntries_from es p (i + 1) x h; exact ⟨j, r, by omega, h2⟩
end

mutual
theorem walk_sorted : ∀ (v : Json) (p : Path), (walk p v).Pairwise (fun a b => a.1 < b.1)
  | .arr xs, p => by
    rw [walk, List.pairwise_cons]
    refine ⟨fun x hx => ?_, walkItems_sorted xs p 0⟩
    obtain ⟨j, r, _, h⟩ := walkItems_from xs p 0 x hx
    rw [h]; simpa using lt_append_cons p j r
  | .obj es, p => by
    rw [walk, List.pairwise_cons]
    refine ⟨fun x hx => ?_, walkEntries_sorted es p 0⟩
    obtain ⟨j, r, _, h⟩ := walkEntries_from es p 0 x hx
    rw [h]; simpa using lt_append_cons p j r
  | .str _, p => by simp [walk]
  | .bool _, p => by simp [walk]
  | .null, p => by simp [walk]
  | .int _, p => by simp [walk]
  | .long _, p => by simp [walk]
  | .dbl _, p => by simp [walk]
theorem walkItems_sorted : ∀ (xs : List Json) (p : Path) (i : Nat), (walkItems p i xs).Pairwise (fun a b => a.1 < b.1)
  | [], p, i => by simp [walkItems]
  | y :: ys, p, i => by
    rw [walkItems, List.pairwise_append]
    refine ⟨walk_sorted y _, walkItems_sorted ys p (i + 1), fun a ha b hb => ?_⟩
    obtain ⟨r, h⟩ := walk_from y _ a ha
    obtain ⟨j, r', h1, h2⟩ := walkItems_from ys p (i + 1) b hb
    rw [h, h2]
    exact lt_branch p (by omega) _ _
theorem walkEntries_sorted : ∀ (es : List (Bytes × Json)) (p : Path) (i : Nat), (walkEntries p i es).Pairwise (fun a b => a.1 < b.1)
  | [], p, i => by simp [walkEntries]
  | (k, v) :: es, p, i => by
    rw [walkEntries, List.cons_append, List.pairwise_cons, List.pairwise_append]
    refine ⟨fun x hx => ?_, walk_sorted v _, walkEntries_sorted es p (i + 1), fun a ha b hb => ?_⟩
    · rcases List.mem_append.mp hx with h | h
      · obtain ⟨r, h⟩ := walk_from v _ x h
        rw [h]; simpa using lt_append_cons (p ++ [i]) 0 r
      · obtain ⟨j, r, h1, h2⟩ := walkEntries_from es p (i + 1) x h
        rw [h2]; simpa using lt_branch p (show i < j by omega) [] r
    · obtain ⟨r, h⟩ := walk_from v _ a ha
      obtain ⟨j, r', h1, h2⟩ := walkEntries_from es p (i + 1) b hb
      rw [h, h2, List.append_assoc (p ++ [i])]
      exact lt_branch p (by omega) _ _
end

theorem path_lt_irrefl (a : Path) : ¬ a < a := List.lt_irrefl a

/-- On a sorted list the jump goes to the first result after the selection. -/
theorem scanJump_found (results : List Path) (sel : Path) : ∀ (l : List (Path × Bool)), l.Pairwise (fun a b => a.1 < b.1) → (∀ x ∈ l, sel < x.1) →
    (∃ q, (scanJump results sel true l).2 = some q ∧ (q, true) ∈ l ∧ q ∈ results ∧ ∀ x ∈ l, x.2 = true → x.1 ∈ results → q = x.1 ∨ q < x.1) ∨
    ((scanJump results sel true l).2 = none ∧ ∀ x ∈ l, x.2 = true → x.1 ∉ results)
  | [], _, _ => .inr ⟨rfl, by simp⟩
  | (q, c) :: l, hs, hl => by
    rw [List.pairwise_cons] at hs
    have hq : q ≠ sel := fun h => path_lt_irrefl sel (h ▸ hl (q, c) (by simp))
    rw [scanJump]
    by_cases hc : c = true ∧ q ∈ results
    · left
      rw [if_pos (by simp [hc, hq])]
      refine ⟨q, rfl, by simp [hc.1], hc.2, fun x hx _ _ => ?_⟩
      rcases List.mem_cons.mp hx with rfl | hx
      · exact .inl rfl
      · exact .inr (hs.1 x hx)
    · have hn : ¬ (c && results.contains q && decide (q ≠ sel) && (true || decide (sel = q))) = true := by
        simp
        intro h1 h2
        exact absurd ⟨h1, h2⟩ hc
      rw [if_neg hn]
      simp only [Bool.true_or]
      rcases scanJump_found results sel l hs.2 (fun x hx => hl x (by simp [hx])) with ⟨r, h1, h2, h3, h4⟩ | ⟨h1, h2⟩
      · refine .inl ⟨r, h1, by simp [h2], h3, fun x hx hx2 hx3 => ?_⟩
        rcases List.mem_cons.mp hx with rfl | hx
        · exact absurd ⟨hx2, hx3⟩ hc
        · exact h4 x hx hx2 hx3
      · refine .inr ⟨h1, fun x hx hx2 hx3 => ?_⟩
        rcases List.mem_cons.mp hx with rfl | hx
        · exact hc ⟨hx2, hx3⟩
        · exact h2 x hx hx2 hx3

theorem scanJump_before (results : List Path) (sel : Path) (l1 : List (Path × Bool)) (h : ∀ x ∈ l1, x.1 ≠ sel) :
    scanJump results sel false l1 = (false, none) := by
  induction l1 with
  | nil => rfl
  | cons a l1 ih =>
    obtain ⟨q, c⟩ := a
    have hq : ¬ sel = q := fun e => h (q, c) (by simp) e.symm
    rw [scanJump, if_neg (by simp [hq])]
    simp only [hq, decide_false, Bool.or_false]
    exact ih fun x hx => h x (by simp [hx])

theorem path_asymm {a b : Path} (h1 : a < b) (h2 : b < a) : False := path_lt_irrefl a (path_trans h1 h2)

/-- The jump goes to the first result after the selection, if there is one. -/
theorem jump_next (root : Json) (results : List Path) (hr : ∀ q ∈ results, ∃ e, elem root q = some e ∧ e.isContainer = false)
    (sel : Path) (hsel : ∃ e, elem root sel = some e) :
    (∃ q, (jumpValue results sel [] false root).2 = some q ∧ q ∈ results ∧ sel < q ∧ ∀ r ∈ results, sel < r → q = r ∨ q < r) ∨
    ((jumpValue results sel [] false root).2 = none ∧ ∀ r ∈ results, ¬ sel < r) := by
  obtain ⟨e, he⟩ := hsel
  have hm := walk_mem root [] sel e he
  simp only [List.nil_append] at hm
  obtain ⟨l1, l2, hl⟩ := List.append_of_mem hm
  have hs := walk_sorted root []
  rw [hl, List.pairwise_append, List.pairwise_cons] at hs
  obtain ⟨-, ⟨s2, s3⟩, s4⟩ := hs
  have hafter : ∀ r ∈ results, sel < r → (r, true) ∈ l2 := by
    intro r hr1 hlt
    obtain ⟨e', he', hc⟩ := hr r hr1
    have h1 := walk_mem root [] r e' he'
    rw [hl] at h1
    simp only [List.nil_append, hc, Bool.not_false, List.mem_append, List.mem_cons] at h1
    rcases h1 with h | h | h
    · have := s4 _ h (sel, !e.isContainer) (by simp)
      exact absurd hlt fun h' => path_asymm this h'
    · simp at h
      rw [h.1] at hlt
      exact absurd hlt (path_lt_irrefl _)
    · exact h
  rw [jumpValue_scan, hl, scanJump_append, scanJump_before results sel l1 (fun x hx h => by
    have := s4 x hx (sel, !e.isContainer) (by simp)
    rw [h] at this
    exact path_lt_irrefl _ this)]
  have hstep : scanJump results sel false ((sel, !e.isContainer) :: l2) = scanJump results sel true l2 := by
    rw [scanJump, if_neg (by simp)]
    simp
  simp only [hstep]
  rcases scanJump_found results sel l2 s3 s2 with ⟨q, h1, h2, h3, h4⟩ | ⟨h1, h2⟩
  · exact .inl ⟨q, h1, h3, s2 _ h2, fun r hr1 hr2 => h4 (r, true) (hafter r hr1 hr2) rfl hr1⟩
  · exact .inr ⟨h1, fun r hr1 hr2 => h2 _ (hafter r hr1 hr2) rfl hr1⟩

end Verif.Lemmas
