import Verif.Model.FifoMap
/-! # C50: the insertion-ordered map -/
namespace Verif.Props
open Verif.Model

variable {K V : Type} [DecidableEq K] [Inhabited V]

/-- A use of `operator[]`. -/
inductive MapUse (K V : Type) where
  | write (k : K) (v : V)
  | read (k : K)

def MapUse.key : MapUse K V → K
  | .write k _ => k
  | .read k => k

/-- The use, carried out. -/
def MapUse.run (m : List (K × V)) : MapUse K V → List (K × V)
  | .write k v => FifoMap.assign m k v
  | .read k => (FifoMap.access m k).1

/-- The values written for a key, in order. -/
def writesTo (k : K) (uses : List (MapUse K V)) : List V := uses.filterMap fun
  | .write k' v => if k' = k then some v else none
  | .read _ => none

/-- A list without the repetitions: the first occurrence of each element stays. -/
def firstOccurrences : List K → List K
  | [] => []
  | k :: ks => k :: (firstOccurrences ks).filter (· ≠ k)

omit [Inhabited V] in
theorem contains_iff (m : List (K × V)) (k : K) : FifoMap.contains m k = true ↔ k ∈ m.map (·.1) := by
  induction m with
  | nil => simp [FifoMap.contains]
  | cons e m ih =>
    rw [FifoMap.contains]
    split
    · next h => simp [h]
    · next h => rw [ih]; simp [Ne.symm h]

theorem access_keys (m : List (K × V)) (k : K) : (FifoMap.access m k).1.map (·.1) = if k ∈ m.map (·.1) then m.map (·.1) else m.map (·.1) ++ [k] := by
  induction m with
  | nil => simp [FifoMap.access]
  | cons e m ih =>
    rw [FifoMap.access]
    split
    · next h => simp [h]
    · next h =>
      rw [List.map_cons, ih]
      by_cases hk : k ∈ m.map (·.1)
      · rw [if_pos hk, if_pos (by simp only [List.map_cons, List.mem_cons]; exact .inr hk)]; rfl
      · rw [if_neg hk, if_neg (by simp only [List.map_cons, List.mem_cons]; exact fun hc => hc.elim (fun h' => h h'.symm) hk)]; rfl

omit [Inhabited V] in
theorem assign_keys (m : List (K × V)) (k : K) (v : V) : (FifoMap.assign m k v).map (·.1) = if k ∈ m.map (·.1) then m.map (·.1) else m.map (·.1) ++ [k] := by
  induction m with
  | nil => simp [FifoMap.assign]
  | cons e m ih =>
    rw [FifoMap.assign]
    split
    · next h => simp [h]
    · next h =>
      rw [List.map_cons, ih]
      by_cases hk : k ∈ m.map (·.1)
      · rw [if_pos hk, if_pos (by simp only [List.map_cons, List.mem_cons]; exact .inr hk)]; rfl
      · rw [if_neg hk, if_neg (by simp only [List.map_cons, List.mem_cons]; exact fun hc => hc.elim (fun h' => h h'.symm) hk)]; rfl

theorem run_keys (m : List (K × V)) (u : MapUse K V) : (u.run m).map (·.1) = if u.key ∈ m.map (·.1) then m.map (·.1) else m.map (·.1) ++ [u.key] := by
  cases u with
  | write k v => exact assign_keys m k v
  | read k => exact access_keys m k

/-- What the map returns for a key, after a `run`. -/
theorem access_run (m : List (K × V)) (u : MapUse K V) (k : K) : (FifoMap.access (u.run m) k).2 =
    match u with
    | .write k' v => if k' = k then v else (FifoMap.access m k).2
    | .read _ => (FifoMap.access m k).2 := by
  induction m with
  | nil =>
    cases u with
    | write k' v => simp only [MapUse.run, FifoMap.assign, FifoMap.access]; split <;> rfl
    | read k' => simp only [MapUse.run, FifoMap.access]; split <;> rfl
  | cons e m ih =>
    cases u with
    | write k' v =>
      simp only [MapUse.run, FifoMap.assign] at ih ⊢
      by_cases h : e.1 = k'
      · rw [if_pos h]
        subst h
        simp only [FifoMap.access]
        split <;> rfl
      · rw [if_neg h]
        simp only [FifoMap.access]
        by_cases h2 : e.1 = k
        · subst h2; simp [Ne.symm h]
        · simp only [if_neg h2, ih]
    | read k' =>
      simp only [MapUse.run] at ih ⊢
      by_cases h : e.1 = k'
      · simp only [FifoMap.access, if_pos h]
      · simp only [FifoMap.access, if_neg h]
        by_cases h2 : e.1 = k
        · simp [h2]
        · simp only [if_neg h2, ih]

theorem firstOccurrences_append (ks : List K) (k : K) : firstOccurrences (ks ++ [k]) = if k ∈ ks then firstOccurrences ks else firstOccurrences ks ++ [k] := by
  induction ks with
  | nil => rfl
  | cons a ks ih =>
    rw [List.cons_append, firstOccurrences, ih]
    by_cases h : k ∈ ks
    · rw [if_pos h, if_pos (by simp [h])]; rfl
    · rw [if_neg h]
      by_cases h2 : k = a
      · subst h2; simp [firstOccurrences]
      · rw [if_neg (by simp [h, h2])]
        simp [firstOccurrences, h2]

theorem mem_firstOccurrences (ks : List K) (k : K) : k ∈ firstOccurrences ks ↔ k ∈ ks := by
  induction ks with
  | nil => simp [firstOccurrences]
  | cons a ks ih =>
    simp only [firstOccurrences, List.mem_cons, List.mem_filter, ih]
    by_cases h : k = a <;> simp [h]

/-- **C50.** After every sequence of uses of `operator[]` on an empty map: the keys are listed in the order of their first use, each once; `contains`
tells whether a key was used; and for each key the map returns the last value written (the default value if there is none). -/
theorem C50_fifo_map (uses : List (MapUse K V)) :
    (uses.foldl MapUse.run []).map (·.1) = firstOccurrences (uses.map MapUse.key) ∧
    ((uses.foldl MapUse.run []).map (·.1)).Nodup ∧
    (∀ k, FifoMap.contains (uses.foldl MapUse.run []) k = true ↔ k ∈ uses.map MapUse.key) ∧
    (∀ k, (FifoMap.access (uses.foldl MapUse.run []) k).2 = (writesTo k uses).getLast?.getD default) := by
  have key : ∀ uses : List (MapUse K V), (uses.foldl MapUse.run []).map (·.1) = firstOccurrences (uses.map MapUse.key) ∧
      (∀ k, (FifoMap.access (uses.foldl MapUse.run []) k).2 = (writesTo k uses).getLast?.getD default) := by
    intro uses
    rw [← List.reverse_reverse uses]
    induction uses.reverse with
    | nil => exact ⟨rfl, fun k => rfl⟩
    | cons u rev ih =>
      rw [List.reverse_cons]
      simp only [List.foldl_append, List.foldl_cons, List.foldl_nil, List.map_append, List.map_cons, List.map_nil]
      refine ⟨?_, fun k => ?_⟩
      · rw [run_keys, ih.1, firstOccurrences_append]
        simp only [mem_firstOccurrences]
      · rw [access_run, writesTo, List.filterMap_append, ← writesTo, List.getLast?_append]
        rw [ih.2 k]
        cases u with
        | write k' v => by_cases h : k' = k <;> simp [h]
        | read k' => simp
  refine ⟨(key uses).1, ?_, fun k => ?_, (key uses).2⟩
  · rw [(key uses).1]
    induction uses.map MapUse.key with
    | nil => simp [firstOccurrences]
    | cons a ks ih => simp only [firstOccurrences, List.nodup_cons]; exact ⟨by simp, ih.filter _⟩
  · rw [contains_iff, (key uses).1, mem_firstOccurrences]

example : (([.write 3 1, .write 1 2, .read 7, .write 3 5] : List (MapUse Nat Nat)).foldl MapUse.run []) = [(3, 5), (1, 2), (7, 0)] := by decide

end Verif.Props
