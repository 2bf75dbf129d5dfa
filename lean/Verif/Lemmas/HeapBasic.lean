import Verif.Spec.Heap
import Verif.Lemmas.ReaderBasic
/-!
# Lemmas: documents in memory
-/
namespace Verif.Lemmas.Heap
open Verif.Model Verif.Model.Heap Verif.Spec.Heap

theorem mem_ext {m m' : Mem} (h1 : m.next = m'.next) (h2 : ∀ x, m.get x = m'.get x) : m = m' := by
  obtain ⟨n, g⟩ := m
  obtain ⟨n', g'⟩ := m'
  simp only at h1 h2
  subst h1
  have : g = g' := funext h2
  subst this
  rfl

/-! ## What is stored stays stored -/

mutual
theorem stores_congr {m m' : Mem} {p : Option Addr} : (v : Json) → ∀ {a as}, Stores m p v a as → (∀ x ∈ as, m'.get x = m.get x) → Stores m' p v a as
  | .arr xs, a, as, h, hc => by
    obtain ⟨l, bs, h1, h2, rfl⟩ := h
    exact ⟨l, bs, by rw [hc a (by simp)]; exact h1, items_congr xs h2 (fun x hx => hc x (by simp [hx])), rfl⟩
  | .obj es, a, as, h, hc => by
    obtain ⟨o, l, bs, h1, h2, rfl⟩ := h
    exact ⟨o, l, bs, by rw [hc a (by simp)]; exact h1, entries_congr es h2 (fun x hx => hc x (by simp [hx])), rfl⟩
  | .str _, a, as, h, hc => by obtain ⟨h1, rfl⟩ := h; exact ⟨by rw [hc a (by simp)]; exact h1, rfl⟩
  | .bool _, a, as, h, hc => by obtain ⟨h1, rfl⟩ := h; exact ⟨by rw [hc a (by simp)]; exact h1, rfl⟩
  | .null, a, as, h, hc => by obtain ⟨h1, rfl⟩ := h; exact ⟨by rw [hc a (by simp)]; exact h1, rfl⟩
  | .int _, a, as, h, hc => by obtain ⟨h1, rfl⟩ := h; exact ⟨by rw [hc a (by simp)]; exact h1, rfl⟩
  | .long _, a, as, h, hc => by obtain ⟨h1, rfl⟩ := h; exact ⟨by rw [hc a (by simp)]; exact h1, rfl⟩
  | .dbl _, a, as, h, hc => by obtain ⟨h1, rfl⟩ := h; exact ⟨by rw [hc a (by simp)]; exact h1, rfl⟩
theorem items_congr {m m' : Mem} {p : Addr} : (xs : List Json) → ∀ {l bs}, StoresItems m p xs l bs → (∀ x ∈ bs, m'.get x = m.get x) → StoresItems m' p xs l bs
  | [], _, _, h, _ => h
  | x :: xs, l, bs, h, hc => by
    obtain ⟨a, l', b1, b2, rfl, rfl, h1, h2⟩ := h
    exact ⟨a, l', b1, b2, rfl, rfl, stores_congr x h1 (fun y hy => hc y (by simp [hy])), items_congr xs h2 (fun y hy => hc y (by simp [hy]))⟩
theorem entries_congr {m m' : Mem} {p : Addr} : (es : List (Bytes × Json)) → ∀ {l bs}, StoresEntries m p es l bs → (∀ x ∈ bs, m'.get x = m.get x) → StoresEntries m' p es l bs
  | [], _, _, h, _ => h
  | (k, v) :: es, l, bs, h, hc => by
    obtain ⟨e, a, l', b1, b2, rfl, rfl, h0, h1, h2⟩ := h
    exact ⟨e, a, l', b1, b2, rfl, rfl, by rw [hc e (by simp)]; exact h0, stores_congr v h1 (fun y hy => hc y (by simp [hy])),
      entries_congr es h2 (fun y hy => hc y (by simp [hy]))⟩
end

/-- The root is the first of the addresses, its parent is the one given. -/
theorem stores_root {m : Mem} {p : Option Addr} {v : Json} {a : Addr} {as : List Addr} (h : Stores m p v a as) :
    ∃ b t, m.get a = some ⟨p, b⟩ ∧ as = a :: t := by
  cases v with
  | arr xs => obtain ⟨l, bs, h1, _, rfl⟩ := h; exact ⟨_, _, h1, rfl⟩
  | obj es => obtain ⟨o, l, bs, h1, _, rfl⟩ := h; exact ⟨_, _, h1, rfl⟩
  | _ => obtain ⟨h1, rfl⟩ := h; exact ⟨_, _, h1, rfl⟩

mutual
theorem stores_live {m : Mem} {p : Option Addr} : (v : Json) → ∀ {a as}, Stores m p v a as → ∀ x ∈ as, m.get x ≠ none
  | .arr xs, a, as, h => by
    obtain ⟨l, bs, h1, h2, rfl⟩ := h
    intro x hx
    rcases List.mem_cons.mp hx with rfl | hx
    · rw [h1]; simp
    · exact items_live xs h2 x hx
  | .obj es, a, as, h => by
    obtain ⟨o, l, bs, h1, h2, rfl⟩ := h
    intro x hx
    rcases List.mem_cons.mp hx with rfl | hx
    · rw [h1]; simp
    · exact entries_live es h2 x hx
  | .str _, a, as, h => by obtain ⟨h1, rfl⟩ := h; simp [h1]
  | .bool _, a, as, h => by obtain ⟨h1, rfl⟩ := h; simp [h1]
  | .null, a, as, h => by obtain ⟨h1, rfl⟩ := h; simp [h1]
  | .int _, a, as, h => by obtain ⟨h1, rfl⟩ := h; simp [h1]
  | .long _, a, as, h => by obtain ⟨h1, rfl⟩ := h; simp [h1]
  | .dbl _, a, as, h => by obtain ⟨h1, rfl⟩ := h; simp [h1]
theorem items_live {m : Mem} {p : Addr} : (xs : List Json) → ∀ {l bs}, StoresItems m p xs l bs → ∀ x ∈ bs, m.get x ≠ none
  | [], _, _, h => by obtain ⟨_, rfl⟩ := h; simp
  | x :: xs, l, bs, h => by
    obtain ⟨a, l', b1, b2, rfl, rfl, h1, h2⟩ := h
    intro y hy
    rcases List.mem_append.mp hy with hy | hy
    · exact stores_live x h1 y hy
    · exact items_live xs h2 y hy
theorem entries_live {m : Mem} {p : Addr} : (es : List (Bytes × Json)) → ∀ {l bs}, StoresEntries m p es l bs → ∀ x ∈ bs, m.get x ≠ none
  | [], _, _, h => by obtain ⟨_, rfl⟩ := h; simp
  | (k, v) :: es, l, bs, h => by
    obtain ⟨e, a, l', b1, b2, rfl, rfl, h0, h1, h2⟩ := h
    intro y hy
    simp only [List.cons_append, List.mem_cons, List.mem_append] at hy
    rcases hy with rfl | hy | hy
    · rw [h0]; simp
    · exact stores_live v h1 y hy
    · exact entries_live es h2 y hy
end

/-- A new primitive. -/
theorem stores_prim {m : Mem} {p : Option Addr} {v : Json} {a : Addr} (hv : PrimOK v) (h : m.get a = some ⟨p, .prim v⟩) : Stores m p v a [a] := by
  cases v with
  | arr xs => exact absurd hv (by simp [PrimOK])
  | obj es => exact absurd hv (by simp [PrimOK])
  | _ => exact ⟨h, rfl⟩

theorem setParent_spec {m : Mem} {p p' : Option Addr} {v : Json} {a : Addr} {as : List Addr} (h : Stores m p v a as) (hn : as.Nodup) :
    ∃ m', setParent m a p' = some m' ∧ Stores m' p' v a as ∧ m'.next = m.next ∧ (∀ x, x ≠ a → m'.get x = m.get x) ∧ m'.get a ≠ none := by
  obtain ⟨b, t, h1, rfl⟩ := stores_root h
  refine ⟨m.set a ⟨p', b⟩, by simp [setParent, h1], ?_, rfl, fun x hx => by simp [Mem.set, hx], by simp [Mem.set]⟩
  have ha : a ∉ t := (List.nodup_cons.mp hn).1
  have hc : ∀ x ∈ t, (m.set a ⟨p', b⟩).get x = m.get x := by
    intro x hx
    have : x ≠ a := fun e => ha (e ▸ hx)
    simp [Mem.set, this]
  cases v with
  | arr xs =>
    obtain ⟨l, bs, h2, h3, e⟩ := h
    simp only [List.cons.injEq, true_and] at e
    subst e
    rw [h1] at h2
    simp only [Option.some.injEq, Obj.mk.injEq, true_and] at h2
    exact ⟨l, _, by simp [Mem.set, h2], items_congr xs h3 hc, rfl⟩
  | obj es =>
    obtain ⟨o, l, bs, h2, h3, e⟩ := h
    simp only [List.cons.injEq, true_and] at e
    subst e
    rw [h1] at h2
    simp only [Option.some.injEq, Obj.mk.injEq, true_and] at h2
    exact ⟨o, l, _, by simp [Mem.set, h2], entries_congr es h3 hc, rfl⟩
  | _ =>
    obtain ⟨h2, e⟩ := h
    rw [h1] at h2
    simp only [Option.some.injEq, Obj.mk.injEq, true_and] at h2
    simp only [List.cons.injEq, true_and] at e
    exact ⟨by simp [Mem.set, h2], by rw [e]⟩

/-! ## Destructors -/

/-- The memory without these objects. -/
def without (m : Mem) (as : List Addr) : Mem := { m with get := fun x => if x ∈ as then none else m.get x }

theorem without_get (m : Mem) (as : List Addr) (x : Addr) : (without m as).get x = if x ∈ as then none else m.get x := rfl

theorem without_without (m : Mem) (as bs : List Addr) : without (without m as) bs = without m (as ++ bs) := by
  refine mem_ext rfl fun x => ?_
  simp only [without_get, List.mem_append]
  by_cases h1 : x ∈ as <;> by_cases h2 : x ∈ bs <;> simp [h1, h2]

theorem drop_without (m : Mem) (a : Addr) (bs : List Addr) : (without m bs).drop a = without m (a :: bs) := by
  refine mem_ext rfl fun x => ?_
  simp only [Mem.drop, without_get, List.mem_cons]
  by_cases h1 : x = a <;> by_cases h2 : x ∈ bs <;> simp [h1, h2]

theorem get_without {m : Mem} {as : List Addr} {x : Addr} (h : x ∉ as) : (without m as).get x = m.get x := by simp [without_get, h]

theorem disjoint_append {as bs : List Addr} (h : (as ++ bs).Nodup) : ∀ x ∈ bs, x ∉ as := by
  intro x hx ha
  exact (List.nodup_append.mp h).2.2 x ha x hx rfl

mutual
theorem delete_stores {p : Option Addr} : (v : Json) → ∀ {n : Nat} {m : Mem} {a : Addr} {as : List Addr}, Stores m p v a as → as.Nodup → as.length ≤ n →
    delete n a m = .done (without m as)
  | .arr xs, n, m, a, as, h, hn, hl => by
    obtain ⟨l, bs, h1, h2, rfl⟩ := h
    obtain ⟨n, rfl⟩ : ∃ k, n = k + 1 := ⟨n - 1, by simp at hl; omega⟩
    have hd := List.nodup_cons.mp hn
    simp only [delete, h1]
    rw [delete_items xs h2 hd.2 (by simp at hl; omega)]
    simp only [get_without hd.1, h1, drop_without]
  | .obj es, n, m, a, as, h, hn, hl => by
    obtain ⟨o, l, bs, h1, h2, rfl⟩ := h
    obtain ⟨n, rfl⟩ : ∃ k, n = k + 1 := ⟨n - 1, by simp at hl; omega⟩
    have hd := List.nodup_cons.mp hn
    simp only [delete, h1]
    rw [delete_entries es h2 hd.2 (by simp at hl; omega)]
    simp only [get_without hd.1, h1, drop_without]
  | .str s, n, m, a, as, h, hn, hl => delete_prim (.str s) (p := p) h.1 h.2 hl
  | .bool s, n, m, a, as, h, hn, hl => delete_prim (.bool s) (p := p) h.1 h.2 hl
  | .null, n, m, a, as, h, hn, hl => delete_prim (.null) (p := p) h.1 h.2 hl
  | .int s, n, m, a, as, h, hn, hl => delete_prim (.int s) (p := p) h.1 h.2 hl
  | .long s, n, m, a, as, h, hn, hl => delete_prim (.long s) (p := p) h.1 h.2 hl
  | .dbl s, n, m, a, as, h, hn, hl => delete_prim (.dbl s) (p := p) h.1 h.2 hl
theorem delete_items {p : Addr} : (xs : List Json) → ∀ {n : Nat} {m : Mem} {l bs : List Addr}, StoresItems m p xs l bs → bs.Nodup → bs.length ≤ n →
    each (delete n) l m = .done (without m bs)
  | [], n, m, l, bs, h, hn, hl => by
    obtain ⟨rfl, rfl⟩ := h
    simp [each, without]
  | x :: xs, n, m, l, bs, h, hn, hl => by
    obtain ⟨a, l', b1, b2, rfl, rfl, h1, h2⟩ := h
    have hd := List.nodup_append.mp hn
    simp only [List.length_append] at hl
    simp only [each]
    rw [delete_stores x h1 hd.1 (by omega)]
    dsimp only
    have h2' : StoresItems (without m b1) p xs l' b2 := items_congr xs h2 (fun y hy => get_without (disjoint_append hn y hy))
    rw [delete_items xs h2' hd.2.1 (by omega), without_without]
theorem delete_entries {p : Addr} : (es : List (Bytes × Json)) → ∀ {n : Nat} {m : Mem} {l bs : List Addr}, StoresEntries m p es l bs → bs.Nodup → bs.length ≤ n →
    each (delete n) l m = .done (without m bs)
  | [], n, m, l, bs, h, hn, hl => by
    obtain ⟨rfl, rfl⟩ := h
    simp [each, without]
  | (k, v) :: es, n, m, l, bs, h, hn, hl => by
    obtain ⟨e, a, l', b1, b2, rfl, rfl, h0, h1, h2⟩ := h
    have hd := List.nodup_append.mp hn
    have hd1 := List.nodup_cons.mp hd.1
    simp only [List.length_append, List.length_cons] at hl
    obtain ⟨n, rfl⟩ : ∃ k, n = k + 1 := ⟨n - 1, by omega⟩
    have h2' : StoresEntries (without m (e :: b1)) p es l' b2 := entries_congr es h2 (fun y hy => get_without (disjoint_append hn y hy))
    have ih := delete_entries es h2' hd.2.1 (n := n + 1) (by omega)
    simp only [each]
    have hde : delete (n + 1) e m = .done (without m (e :: b1)) := by
      simp only [delete, h0]
      rw [delete_stores v h1 hd1.2 (by omega)]
      simp only [get_without hd1.1, h0, drop_without]
    rw [hde]
    dsimp only
    rw [ih, without_without]
theorem delete_prim (v : Json) {n : Nat} {m : Mem} {a : Addr} {as : List Addr} {p : Option Addr} (h : m.get a = some ⟨p, .prim v⟩) (e : as = [a]) (hl : as.length ≤ n) :
    delete n a m = .done (without m as) := by
  subst e
  obtain ⟨n, rfl⟩ : ∃ k, n = k + 1 := ⟨n - 1, by simp at hl; omega⟩
  simp only [delete, h]
  congr 1
  refine mem_ext rfl fun x => ?_
  simp [Mem.drop, without_get]
end

/-- An entry and its value are destroyed. -/
theorem delete_entry {n : Nat} {m : Mem} {e a : Addr} {p : Option Addr} {k : Bytes} {v : Json} {b1 : List Addr} (h0 : m.get e = some ⟨p, .entry k a⟩)
    (h1 : Stores m (some e) v a b1) (hn : (e :: b1).Nodup) (hl : (e :: b1).length ≤ n) : delete n e m = .done (without m (e :: b1)) := by
  have hd1 := List.nodup_cons.mp hn
  simp only [List.length_cons] at hl
  obtain ⟨n, rfl⟩ : ∃ k, n = k + 1 := ⟨n - 1, by omega⟩
  simp only [delete, h0]
  rw [delete_stores v h1 hd1.2 (by omega)]
  simp only [get_without hd1.1, h0, drop_without]

/-- Different addresses that are below a bound are at most that many. -/
theorem nodup_length {l : List Addr} {n : Nat} (h : l.Nodup) (hl : ∀ x ∈ l, x < n) : l.length ≤ n := by
  induction n generalizing l with
  | zero =>
    cases l with
    | nil => simp
    | cons a t => exact absurd (hl a (by simp)) (by omega)
  | succ n ih =>
    by_cases hm : n ∈ l
    · have := ih (h.erase n) (fun x hx => by
        have h1 := (h.mem_erase_iff.mp hx)
        have := hl x h1.2
        have := h1.1
        omega)
      rw [List.length_erase_of_mem hm] at this
      omega
    · have := ih h (fun x hx => by
        have := hl x hx
        have : x ≠ n := fun e => hm (e ▸ hx)
        omega)
      omega

end Verif.Lemmas.Heap
