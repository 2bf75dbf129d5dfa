import Verif.Spec.Multimap
import Verif.Lemmas.Object
/-!
# C119: an object is a map
-/
namespace Verif.Props
open Verif.Model Verif.Model.Object Verif.Spec.Multimap Verif.Lemmas

/-- The values of the entries with this key, in order. -/
def valuesAt (k : Bytes) (es : List (Bytes × Json)) : List Json := (es.filter fun e => decide (e.1 = k)).map (·.2)

theorem valuesAt_cons (k : Bytes) (e : Bytes × Json) (es : List (Bytes × Json)) :
    valuesAt k (e :: es) = if e.1 = k then e.2 :: valuesAt k es else valuesAt k es := by
  unfold valuesAt
  by_cases h : e.1 = k <;> simp [h]

theorem valuesAt_push (k k' : Bytes) (v : Json) (es : List (Bytes × Json)) :
    valuesAt k (Json.push es k' v) = if k' = k then valuesAt k es ++ [v] else valuesAt k es := by
  unfold valuesAt Json.push
  by_cases h : k' = k <;> simp [h]

theorem valuesAt_sortedPush (k k' : Bytes) (v : Json) : ∀ es : List (Bytes × Json), es.Pairwise (fun a b => ¬ b.1 < a.1) →
    valuesAt k (Json.sortedPush es k' v) = if k' = k then v :: valuesAt k es else valuesAt k es
  | [], _ => by
    rw [Json.sortedPush, valuesAt_cons]
  | e :: es, h => by
    rw [Json.sortedPush]
    by_cases hk : Json.keyLt e.1 k' = true
    · rw [if_pos hk, valuesAt_cons, valuesAt_cons, valuesAt_sortedPush k k' v es (List.pairwise_cons.mp h).2]
      by_cases h1 : e.1 = k
      · have h2 : k' ≠ k := by
          rintro rfl
          rw [keyLt_iff, h1] at hk
          exact List.lt_irrefl _ hk
        rw [if_pos h1, if_neg h2, if_neg h2, if_pos h1]
      · rw [if_neg h1, if_neg h1]
    · rw [if_neg hk, valuesAt_cons]

theorem valuesAt_erase (k k' : Bytes) : ∀ es : List (Bytes × Json),
    valuesAt k (Json.erase es k') = if k' = k then (valuesAt k es).tail else valuesAt k es
  | [] => by simp [Json.erase, valuesAt]
  | e :: es => by
    rw [Json.erase]
    by_cases h : e.1 = k'
    · rw [if_pos h, valuesAt_cons]
      by_cases h2 : k' = k
      · rw [if_pos h2, if_pos (h.trans h2), List.tail_cons]
      · rw [if_neg h2, if_neg (fun h3 => h2 (h ▸ h3))]
    · rw [if_neg h, valuesAt_cons, valuesAt_cons, valuesAt_erase k k' es]
      by_cases h2 : k' = k
      · subst h2
        rw [if_neg h, if_neg h, if_pos rfl]
      · rw [if_neg h2, if_neg h2]

theorem get_head (k : Bytes) : ∀ es : List (Bytes × Json), Json.get es k = (valuesAt k es).head?
  | [] => rfl
  | e :: es => by
    rw [Json.get, valuesAt_cons]
    by_cases h : e.1 = k
    · rw [if_pos h, if_pos h]; rfl
    · rw [if_neg h, if_neg h, get_head k es]

theorem contains_values (k : Bytes) : ∀ es : List (Bytes × Json), Json.contains es k = true ↔ valuesAt k es ≠ []
  | [] => by simp [Json.contains, valuesAt]
  | e :: es => by
    have ih := contains_values k es
    unfold Json.contains at ih ⊢
    rw [valuesAt_cons, List.any_cons]
    by_cases h : e.1 = k <;> simp [h, ih]

theorem erase_absent (k : Bytes) : ∀ es : List (Bytes × Json), valuesAt k es = [] → Json.erase es k = es
  | [], _ => rfl
  | e :: es, h => by
    rw [valuesAt_cons] at h
    rw [Json.erase]
    by_cases h1 : e.1 = k
    · rw [if_pos h1] at h; cases h
    · rw [if_neg h1] at h
      rw [if_neg h1, erase_absent k es h]

theorem erase_sublist (k : Bytes) : ∀ es : List (Bytes × Json), (Json.erase es k).Sublist es
  | [] => by simp [Json.erase]
  | e :: es => by
    rw [Json.erase]
    split
    · exact List.sublist_cons_self ..
    · exact (erase_sublist k es).cons_cons e

theorem call_erase (sorted : Bool) (es : List (Bytes × Json)) (k : Bytes) : (call sorted es (.erase k)).1 = Json.erase es k := by
  unfold call
  dsimp only
  by_cases h : Json.contains es k = true
  · rw [if_pos h]
  · rw [if_neg h, erase_absent k es (Classical.not_not.mp fun h' => h ((contains_values k es).mpr h'))]

theorem below_of {a b c : Bytes} (h1 : a < b) (h2 : ¬ c < b) : a < c := by
  exact Std.lt_of_lt_of_le h1 (Std.not_lt.mp h2)

theorem sortedPush_order (k : Bytes) (v : Json) : ∀ es : List (Bytes × Json), es.Pairwise (fun a b => ¬ b.1 < a.1) →
    (Json.sortedPush es k v).Pairwise fun a b => ¬ b.1 < a.1
  | [], _ => by simp [Json.sortedPush]
  | e :: es, h => by
    rw [Json.sortedPush]
    by_cases hk : Json.keyLt e.1 k = true
    · rw [if_pos hk]
      rw [keyLt_iff] at hk
      refine List.pairwise_cons.mpr ⟨?_, sortedPush_order k v es (List.pairwise_cons.mp h).2⟩
      intro x hx
      rcases List.mem_cons.mp ((sortedPush_perm es k v).mem_iff.mp hx) with rfl | hx
      · exact List.lt_asymm hk
      · exact (List.pairwise_cons.mp h).1 x hx
    · rw [if_neg hk]
      rw [keyLt_iff] at hk
      refine List.pairwise_cons.mpr ⟨?_, h⟩
      intro x hx hlt
      rcases List.mem_cons.mp hx with rfl | hx
      · exact hk hlt
      · exact (List.pairwise_cons.mp h).1 x hx (below_of hlt hk)

theorem after_snoc (sorted : Bool) (calls : List Call) (c : Call) : after sorted (calls ++ [c]) = (call sorted (after sorted calls) c).1 := by
  simp [after]

theorem after_order : ∀ calls : List Call, (after true calls.reverse).Pairwise fun a b => ¬ b.1 < a.1
  | [] => List.Pairwise.nil
  | .push k v :: calls => by
    rw [List.reverse_cons, after_snoc]
    exact sortedPush_order k v _ (after_order calls)
  | .erase k :: calls => by
    rw [List.reverse_cons, after_snoc, call_erase]
    exact (after_order calls).sublist (erase_sublist k _)

theorem after_values (sorted : Bool) (k : Bytes) : ∀ calls : List Call, valuesAt k (after sorted calls.reverse) = kept sorted k calls
  | [] => rfl
  | .push k' v :: calls => by
    rw [List.reverse_cons, after_snoc, kept, ← after_values sorted k calls]
    cases sorted
    · exact valuesAt_push k k' v _
    · exact valuesAt_sortedPush k k' v _ (after_order calls)
  | .erase k' :: calls => by
    rw [List.reverse_cons, after_snoc, kept, ← after_values sorted k calls, call_erase]
    exact valuesAt_erase k k' _

theorem after_pushes : ∀ calls : List Call, (after false calls.reverse).Sublist (pushes calls.reverse)
  | [] => by simp [after, pushes]
  | .push k v :: calls => by
    rw [List.reverse_cons, after_snoc, pushes, List.filterMap_append]
    exact (after_pushes calls).append (List.Sublist.refl _)
  | .erase k :: calls => by
    rw [List.reverse_cons, after_snoc, call_erase, pushes, List.filterMap_append]
    simp only [List.filterMap_cons_none, List.filterMap_nil, List.append_nil]
    exact (erase_sublist k _).trans (after_pushes calls)

theorem kept_single {k : Bytes} : ∀ {calls : List Call}, Single calls → (kept false k calls).length ≤ 1 ∧ kept true k calls = kept false k calls
  | [], _ => ⟨by simp [kept], rfl⟩
  | c :: calls, h => by
    have h' : Single calls := fun k v later before hc => h k v (c :: later) before (by rw [hc]; rfl)
    obtain ⟨h1, h2⟩ := kept_single (k := k) h'
    cases c with
    | push k' v =>
      rw [kept, kept]
      by_cases hk : k' = k
      · have := h k' v [] calls rfl
        rw [hk] at this
        rw [if_pos hk, if_pos hk, h2, this]
        exact ⟨by simp, rfl⟩
      · rw [if_neg hk, if_neg hk]
        exact ⟨h1, h2⟩
    | erase k' =>
      rw [kept, kept, h2]
      by_cases hk : k' = k
      · rw [if_pos hk]
        exact ⟨by rw [List.length_tail]; omega, rfl⟩
      · rw [if_neg hk]
        exact ⟨h1, rfl⟩

/-- **C119.** After any history of `push` and `erase`, latest call first in `calls`: `get`, `contains` and what `erase` returns are as the values kept for the key say; the entries
with a key are exactly those kept; in a sorted object the keys are in order, in the other the entries are in the order of the pushes; `firstChild` is the
value of the first entry. If no key is pushed while it is there, both kinds of object answer alike, and no key has two entries. -/
theorem C119_map (sorted : Bool) (calls : List Call) :
    (∀ k, Json.get (after sorted calls.reverse) k = (kept sorted k calls).head? ∧
      (Json.contains (after sorted calls.reverse) k = true ↔ kept sorted k calls ≠ []) ∧
      (answer sorted calls.reverse (.erase k) = true ↔ kept sorted k calls ≠ []) ∧
      ((after sorted calls.reverse).filter fun e => decide (e.1 = k)).map (·.2) = kept sorted k calls) ∧
    (sorted = true → (after sorted calls.reverse).Pairwise fun a b => ¬ b.1 < a.1) ∧
    (sorted = false → (after sorted calls.reverse).Sublist (pushes calls.reverse)) ∧
    (∀ k v es, after sorted calls.reverse = (k, v) :: es → firstChild (after sorted calls.reverse) = some v ∧ (kept sorted k calls).head? = some v) ∧
    (after sorted calls.reverse = [] → firstChild (after sorted calls.reverse) = none) ∧
    (Single calls → ((after sorted calls.reverse).map (·.1)).Nodup ∧ ∀ k, Json.get (after true calls.reverse) k = Json.get (after false calls.reverse) k) := by
  refine ⟨fun k => ⟨?_, ?_, ?_, after_values sorted k calls⟩, ?_, ?_, ?_, ?_, ?_⟩
  · rw [get_head, after_values]
  · rw [contains_values, after_values]
  · rw [answer, ← after_values, ← contains_values]
    unfold call
    dsimp only
    by_cases h : Json.contains (after sorted calls.reverse) k = true
    · rw [if_pos h]; simp [h]
    · rw [if_neg h]; simp [h]
  · rintro rfl; exact after_order calls
  · rintro rfl; exact after_pushes calls
  · intro k v es h
    rw [← after_values, h, valuesAt_cons, if_pos rfl]
    exact ⟨rfl, rfl⟩
  · intro h
    rw [h]
    rfl
  · intro h
    refine ⟨?_, fun k => by rw [get_head, get_head, after_values, after_values, (kept_single h).2]⟩
    have key : ∀ es : List (Bytes × Json), (∀ k, (valuesAt k es).length ≤ 1) → (es.map (·.1)).Nodup := by
      intro es
      induction es with
      | nil => intro _; exact List.Pairwise.nil
      | cons e es ih =>
        intro hl
        rw [List.map_cons, List.nodup_cons]
        constructor
        · intro hm
          obtain ⟨x, hx, hk⟩ := List.mem_map.mp hm
          have h1 := hl e.1
          rw [valuesAt_cons, if_pos rfl] at h1
          have h2 : valuesAt e.1 es ≠ [] := by
            intro hn
            have h3 : x ∈ es.filter fun y => decide (y.1 = e.1) := List.mem_filter.mpr ⟨hx, by simpa using hk⟩
            have h4 : x.2 ∈ valuesAt e.1 es := List.mem_map.mpr ⟨x, h3, rfl⟩
            rw [hn] at h4
            cases h4
          have h5 := List.length_pos_iff.mpr h2
          simp only [List.length_cons] at h1
          omega
        · apply ih
          intro k
          have := hl k
          rw [valuesAt_cons] at this
          split at this
          · simp only [List.length_cons] at this; omega
          · exact this
    apply key
    intro k
    rw [after_values]
    cases sorted
    · exact (kept_single h).1
    · rw [(kept_single h).2]; exact (kept_single h).1

theorem single_nil : Single [] := fun k v later before h => by simp at h

theorem single_push {k : Bytes} {v : Json} {calls : List Call} (h : Single calls) (hk : kept false k calls = []) : Single (.push k v :: calls) := by
  intro k' v' later before hc
  cases later with
  | nil => simp only [List.nil_append, List.cons.injEq, Call.push.injEq] at hc; rw [← hc.1.1, ← hc.2]; exact hk
  | cons c later => simp only [List.cons_append, List.cons.injEq] at hc; exact h k' v' later before hc.2

theorem single_erase {k : Bytes} {calls : List Call} (h : Single calls) : Single (.erase k :: calls) := by
  intro k' v' later before hc
  cases later with
  | nil => simp at hc
  | cons c later => simp only [List.cons_append, List.cons.injEq] at hc; exact h k' v' later before hc.2

/-- A history in which a key is pushed, erased and pushed again. -/
example : Single [.push b!"b" (.int 3), .erase b!"b", .push b!"a" (.int 2), .push b!"b" (.int 1)] :=
  single_push (single_erase (single_push (single_push single_nil rfl) rfl)) rfl

/-- Pushed: b, a, b again; b erased once. The sorted object has lost the second value, the other the first one. -/
example : after true [.push b!"b" (.int 1), .push b!"a" (.int 2), .push b!"b" (.int 3), .erase b!"b"] = [(b!"a", .int 2), (b!"b", .int 1)] ∧
    after false [.push b!"b" (.int 1), .push b!"a" (.int 2), .push b!"b" (.int 3), .erase b!"b"] = [(b!"a", .int 2), (b!"b", .int 3)] ∧
    Json.get (after true [.push b!"b" (.int 1), .push b!"b" (.int 3)]) b!"b" = some (.int 3) ∧
    Json.get (after false [.push b!"b" (.int 1), .push b!"b" (.int 3)]) b!"b" = some (.int 1) := ⟨rfl, rfl, rfl, rfl⟩

end Verif.Props
