import Verif.Lemmas.Object
import Verif.Spec.JsonTree
/-!
# Lemmas: sorting entries
-/
namespace Verif.Lemmas
open Verif.Model Verif.Spec

theorem sortTrees_eq (xs : List Json) : sortTrees xs = xs.map sortTree := by
  induction xs with
  | nil => simp [sortTrees]
  | cons x xs ih => simp [sortTrees, ih]

theorem sortTreeEntries_eq (es : Entries) : sortTreeEntries es = es.map (fun e => (e.1, sortTree e.2)) := by
  induction es with
  | nil => simp [sortTreeEntries]
  | cons x xs ih => obtain ⟨k, v⟩ := x; simp [sortTreeEntries, ih]

theorem keys_sortTreeEntries (es : Entries) : keys (sortTreeEntries es) = keys es := by
  rw [sortTreeEntries_eq]; simp [keys]

theorem sortByKey_perm (es : Entries) : (sortByKey es).Perm es := List.mergeSort_perm _ _

theorem keys_sortByKey_perm (es : Entries) : (keys (sortByKey es)).Perm (keys es) := (sortByKey_perm es).map _

theorem sortByKey_le (es : Entries) : (sortByKey es).Pairwise (fun a b => a.1 ≤ b.1) := by
  have h := List.pairwise_mergeSort (le := fun (a b : Bytes × Json) => decide (a.1 ≤ b.1)) ?_ ?_ es
  · refine List.Pairwise.imp ?_ h
    simp
  · intro a b c; simp; exact List.le_trans
  · intro a b; simp; exact List.le_total _ _

theorem sortByKey_increasing (es : Entries) (hn : (keys es).Nodup) : Increasing (sortByKey es) := by
  have h1 := sortByKey_le es
  have h2 : (keys (sortByKey es)).Nodup := (keys_sortByKey_perm es).nodup_iff.mpr hn
  unfold Increasing keys at *
  have h3 := List.pairwise_map.mp h2
  rw [List.pairwise_map]
  refine (h1.and h3).imp ?_
  rintro a b ⟨h, hne⟩
  rcases bytes_lt_trichotomy a.1 b.1 with h' | h' | h'
  · exact h'
  · exact absurd h' hne
  · exact absurd h' h

theorem eq_of_increasing_perm {a b : Entries} (ha : Increasing a) (hb : Increasing b) (h : a.Perm b) : a = b := by
  refine List.Perm.eq_of_pairwise (le := fun x y => x.1 ≤ y.1) ?_ ?_ ?_ h
  · intro x y hx hy h1 h2
    have hk : x.1 = y.1 := List.le_antisymm h1 h2
    have hy : y ∈ a := h.mem_iff.mpr hy
    have hn := increasing_nodup ha
    unfold keys at hn
    exact inj_of_nodup_keys hn hx hy hk
  · have := List.pairwise_map.mp ha
    exact this.imp (fun h => List.le_of_lt h)
  · have := List.pairwise_map.mp hb
    exact this.imp (fun h => List.le_of_lt h)
where
  inj_of_nodup_keys {a : Entries} (hn : (a.map Prod.fst).Nodup) {x y : Bytes × Json} (hx : x ∈ a) (hy : y ∈ a)
      (hk : x.1 = y.1) : x = y := by
    induction a with
    | nil => simp at hx
    | cons e a ih =>
      simp only [List.map_cons, List.nodup_cons] at hn
      simp only [List.mem_cons] at hx hy
      rcases hx with rfl | hx <;> rcases hy with rfl | hy
      · rfl
      · exact absurd (hk ▸ List.mem_map_of_mem (f := Prod.fst) hy) hn.1
      · exact absurd (hk ▸ List.mem_map_of_mem (f := Prod.fst) hx) hn.1
      · exact ih hn.2 hx hy

theorem eq_sortByKey {a b : Entries} (ha : Increasing a) (h : a.Perm b) : a = sortByKey b := by
  have hn : (keys b).Nodup := (h.map Prod.fst).nodup_iff.mp (increasing_nodup ha)
  exact eq_of_increasing_perm ha (sortByKey_increasing b hn) (h.trans (sortByKey_perm b).symm)

theorem contains_congr {a b : Entries} (h : (keys a).Perm (keys b)) (k : Bytes) : Json.contains a k = Json.contains b k := by
  rw [Bool.eq_iff_iff, contains_iff, contains_iff, h.mem_iff]

theorem sortedPush_sortByKey (b : Entries) (k : Bytes) (v : Json) (hn : (keys b).Nodup) (hk : k ∉ keys b) :
    Json.sortedPush (sortByKey b) k v = sortByKey (Json.push b k v) := by
  refine eq_sortByKey (sortedPush_increasing _ _ _ (sortByKey_increasing b hn) ?_) ?_
  · rwa [(keys_sortByKey_perm b).mem_iff]
  · refine (sortedPush_perm _ _ _).trans (List.Perm.trans ?_ (push_perm _ _ _).symm)
    exact (sortByKey_perm b).cons _

theorem erase_sortByKey (b : Entries) (k : Bytes) (hn : (keys b).Nodup) :
    Json.erase (sortByKey b) k = sortByKey (Json.erase b k) := by
  have hn' : (keys (sortByKey b)).Nodup := (keys_sortByKey_perm b).nodup_iff.mpr hn
  refine eq_sortByKey (erase_increasing _ _ (sortByKey_increasing b hn)) ?_
  rw [erase_eq_filter _ _ hn', erase_eq_filter _ _ hn]
  exact (sortByKey_perm b).filter _

theorem sortTreeEntries_erase (b : Entries) (k : Bytes) : sortTreeEntries (Json.erase b k) = Json.erase (sortTreeEntries b) k := by
  induction b with
  | nil => simp [Json.erase, sortTreeEntries]
  | cons e b ih =>
    obtain ⟨k', v⟩ := e
    simp only [Json.erase, sortTreeEntries]
    split <;> simp [sortTreeEntries, ih]

theorem sortTreeEntries_push (b : Entries) (k : Bytes) (v : Json) :
    sortTreeEntries (Json.push b k v) = Json.push (sortTreeEntries b) k (sortTree v) := by
  simp [sortTreeEntries_eq, Json.push]

end Verif.Lemmas
