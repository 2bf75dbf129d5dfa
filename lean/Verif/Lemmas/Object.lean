import Verif.Model.Json
/-!
# Lemmas: the entries of an object (keys, order, permutation)
-/
namespace Verif.Lemmas
open Verif.Model

abbrev Entries := List (Bytes × Json)

def keys (es : Entries) : List Bytes := es.map Prod.fst

theorem contains_iff (es : Entries) (k : Bytes) : Json.contains es k = true ↔ k ∈ keys es := by
  unfold Json.contains keys
  simp [List.any_eq_true]
  
theorem contains_false_iff (es : Entries) (k : Bytes) : Json.contains es k = false ↔ k ∉ keys es := by
  rw [← contains_iff]; simp

theorem sortedPush_perm (es : Entries) (k : Bytes) (v : Json) : (Json.sortedPush es k v).Perm ((k, v) :: es) := by
  induction es with
  | nil => exact List.Perm.refl _
  | cons e es ih =>
    unfold Json.sortedPush
    split
    · exact (ih.cons e).trans (List.Perm.swap _ _ _)
    · exact List.Perm.refl _

theorem push_perm (es : Entries) (k : Bytes) (v : Json) : (Json.push es k v).Perm ((k, v) :: es) := by
  unfold Json.push; exact List.perm_append_singleton _ _

theorem nodup_of_perm_push {es es' : Entries} {k : Bytes} {v : Json} (h : es'.Perm ((k, v) :: es))
    (hn : (keys es).Nodup) (hk : k ∉ keys es) : (keys es').Nodup := by
  have : (keys es').Perm (k :: keys es) := h.map Prod.fst
  rw [this.nodup_iff]
  exact List.nodup_cons.mpr ⟨hk, hn⟩

theorem erase_eq_filter (es : Entries) (k : Bytes) (hn : (keys es).Nodup) :
    Json.erase es k = es.filter (fun e => decide (e.1 ≠ k)) := by
  induction es with
  | nil => rfl
  | cons e es ih =>
    have hn' : e.1 ∉ keys es ∧ (keys es).Nodup := List.nodup_cons.mp hn
    unfold Json.erase
    split
    · rename_i h
      rw [List.filter_cons_of_neg (by simp [h])]
      symm
      rw [List.filter_eq_self]
      intro a ha
      simp only [decide_eq_true_eq]
      intro hc
      apply hn'.1
      rw [h, ← hc]
      exact List.mem_map_of_mem ha
    · rename_i h
      rw [List.filter_cons_of_pos (by simp [h]), ih hn'.2]

theorem keys_filter (es : Entries) (k : Bytes) :
    keys (es.filter (fun e => decide (e.1 ≠ k))) = (keys es).filter (fun x => decide (x ≠ k)) := by
  unfold keys
  rw [List.filter_map]
  rfl

theorem erase_nodup (es : Entries) (k : Bytes) (hn : (keys es).Nodup) : (keys (Json.erase es k)).Nodup := by
  rw [erase_eq_filter es k hn, keys_filter]
  exact hn.filter _

theorem erase_not_contains (es : Entries) (k : Bytes) (hn : (keys es).Nodup) :
    Json.contains (Json.erase es k) k = false := by
  rw [contains_false_iff, erase_eq_filter es k hn, keys_filter]
  simp

/-! ### The key order -/

theorem keyLt_iff (a b : Bytes) : Json.keyLt a b = true ↔ a < b := by
  induction a generalizing b with
  | nil => cases b <;> simp [Json.keyLt]
  | cons x a ih =>
    cases b with
    | nil => simp [Json.keyLt]
    | cons y b => simp [Json.keyLt, ih, List.cons_lt_cons_iff]

theorem bytes_lt_trichotomy (a b : Bytes) : a < b ∨ a = b ∨ b < a := by
  induction a generalizing b with
  | nil => cases b <;> simp
  | cons x a ih =>
    cases b with
    | nil => simp
    | cons y b =>
      rcases Nat.lt_trichotomy x y with h | h | h
      · left; simp [List.cons_lt_cons_iff, h]
      · subst h
        rcases ih b with h | h | h
        · left; simp [List.cons_lt_cons_iff, h]
        · right; left; rw [h]
        · right; right; simp [List.cons_lt_cons_iff, h]
      · right; right; simp [List.cons_lt_cons_iff, h]

theorem bytes_lt_trans {a b c : Bytes} (h1 : a < b) (h2 : b < c) : a < c := List.lt_trans h1 h2

/-- Strictly increasing keys. -/
def Increasing (es : Entries) : Prop := (keys es).Pairwise (· < ·)

theorem sortedPush_increasing (es : Entries) (k : Bytes) (v : Json) (h : Increasing es) (hk : k ∉ keys es) :
    Increasing (Json.sortedPush es k v) := by
  induction es with
  | nil => simp [Json.sortedPush, Increasing, keys]
  | cons e es ih =>
    have h' : (∀ x ∈ keys es, e.1 < x) ∧ Increasing es := List.pairwise_cons.mp h
    have hk' : k ≠ e.1 ∧ k ∉ keys es := by simpa [keys] using hk
    unfold Json.sortedPush
    split
    · rename_i hlt
      rw [keyLt_iff] at hlt
      refine List.pairwise_cons.mpr ⟨?_, ih h'.2 hk'.2⟩
      intro x hx
      have hp : (keys (Json.sortedPush es k v)).Perm (k :: keys es) := (sortedPush_perm es k v).map Prod.fst
      rcases List.mem_cons.mp (hp.mem_iff.mp hx) with rfl | hx
      · exact hlt
      · exact h'.1 x hx
    · rename_i hlt
      rw [keyLt_iff] at hlt
      have hke : k < e.1 := by
        rcases bytes_lt_trichotomy k e.1 with h | h | h
        · exact h
        · exact absurd h hk'.1
        · exact absurd h hlt
      refine List.pairwise_cons.mpr ⟨?_, h⟩
      intro x hx
      rcases List.mem_cons.mp hx with rfl | hx
      · exact hke
      · exact bytes_lt_trans hke (h'.1 x hx)

theorem increasing_nodup {es : Entries} (h : Increasing es) : (keys es).Nodup := by
  refine List.Pairwise.imp ?_ h
  intro a b hab he
  subst he
  exact List.lt_irrefl a hab

theorem erase_increasing (es : Entries) (k : Bytes) (h : Increasing es) : Increasing (Json.erase es k) := by
  rw [erase_eq_filter es k (increasing_nodup h)]
  unfold Increasing
  rw [keys_filter]
  exact List.Pairwise.filter _ h

end Verif.Lemmas
