import Verif.Lemmas.HeapBasic
/-!
# Lemmas: entries and items are added and removed
-/
namespace Verif.Lemmas.Heap
open Verif.Model Verif.Model.Heap Verif.Spec.Heap

/-- No object has an address that was not given out. -/
def Fresh (m : Mem) : Prop := ∀ x, m.next ≤ x → m.get x = none

theorem Fresh.lt {m : Mem} (h : Fresh m) {x : Addr} (hx : m.get x ≠ none) : x < m.next := by
  rcases Nat.lt_or_ge x m.next with h1 | h1
  · exact h1
  · exact absurd (h x h1) hx

/-- An object (`JSonObject` or `JSonSortedObject`) with these entries. -/
def ObjAt (m : Mem) (parent : Option Addr) (sorted : Bool) (es : List (Bytes × Json)) (r : Addr) (as : List Addr) : Prop :=
  ∃ l bs, m.get r = some ⟨parent, .obj sorted l⟩ ∧ StoresEntries m r es l bs ∧ as = r :: bs

/-- An array with these items. -/
def ArrAt (m : Mem) (parent : Option Addr) (xs : List Json) (r : Addr) (as : List Addr) : Prop :=
  ∃ l bs, m.get r = some ⟨parent, .arr l⟩ ∧ StoresItems m r xs l bs ∧ as = r :: bs

theorem ObjAt.stores {m : Mem} {parent : Option Addr} {sorted : Bool} {es : List (Bytes × Json)} {r : Addr} {as : List Addr} (h : ObjAt m parent sorted es r as) :
    Stores m parent (.obj es) r as := by
  obtain ⟨l, bs, h1, h2, h3⟩ := h
  exact ⟨sorted, l, bs, h1, h2, h3⟩

theorem ArrAt.stores {m : Mem} {parent : Option Addr} {xs : List Json} {r : Addr} {as : List Addr} (h : ArrAt m parent xs r as) :
    Stores m parent (.arr xs) r as := h

theorem ObjAt.congr {m m' : Mem} {parent : Option Addr} {sorted : Bool} {es : List (Bytes × Json)} {r : Addr} {as : List Addr} (h : ObjAt m parent sorted es r as)
    (hc : ∀ x ∈ as, m'.get x = m.get x) : ObjAt m' parent sorted es r as := by
  obtain ⟨l, bs, h1, h2, rfl⟩ := h
  exact ⟨l, bs, by rw [hc r (by simp)]; exact h1, entries_congr es h2 (fun x hx => hc x (by simp [hx])), rfl⟩

theorem ArrAt.congr {m m' : Mem} {parent : Option Addr} {xs : List Json} {r : Addr} {as : List Addr} (h : ArrAt m parent xs r as)
    (hc : ∀ x ∈ as, m'.get x = m.get x) : ArrAt m' parent xs r as := by
  obtain ⟨l, bs, h1, h2, rfl⟩ := h
  exact ⟨l, bs, by rw [hc r (by simp)]; exact h1, items_congr xs h2 (fun x hx => hc x (by simp [hx])), rfl⟩

theorem entries_mem {m : Mem} {p : Addr} (es : List (Bytes × Json)) {l bs : List Addr} (h : StoresEntries m p es l bs) : ∀ e ∈ l, e ∈ bs := by
  induction es generalizing l bs with
  | nil => obtain ⟨rfl, rfl⟩ := h; simp
  | cons x es ih =>
    obtain ⟨k, v⟩ := x
    obtain ⟨e, a, l', b1, b2, rfl, rfl, h0, h1, h2⟩ := h
    intro y hy
    rcases List.mem_cons.mp hy with rfl | hy
    · simp
    · simp [ih h2 y hy]

theorem entries_find {m : Mem} {p : Addr} {key : Bytes} (es : List (Bytes × Json)) {l bs : List Addr} (h : StoresEntries m p es l bs) (hn : bs.Nodup) :
    (Json.contains es key = false ∧ find m key l = some none) ∨
    (Json.contains es key = true ∧ ∃ e v a b1 bs', find m key l = some (some e) ∧ m.get e = some ⟨some p, .entry key a⟩ ∧ Stores m (some e) v a b1 ∧
      StoresEntries m p (Json.erase es key) (l.erase e) bs' ∧ bs.Perm ((e :: b1) ++ bs')) := by
  induction es generalizing l bs with
  | nil => obtain ⟨rfl, rfl⟩ := h; left; exact ⟨rfl, rfl⟩
  | cons x es ih =>
    obtain ⟨k, v⟩ := x
    obtain ⟨e, a, l', b1, b2, rfl, rfl, h0, h1, h2⟩ := h
    have hk : keyOf m e = some k := by simp [keyOf, h0]
    by_cases hkey : k = key
    · subst hkey
      right
      refine ⟨by simp [Json.contains], e, v, a, b1, b2, by simp [find, hk], h0, h1, ?_, .refl _⟩
      simpa [Json.erase] using h2
    · have hd := List.nodup_append.mp hn
      rcases ih h2 hd.2.1 with ⟨h3, h4⟩ | ⟨h3, e', v', a', b1', bs', h4, h5, h6, h7, h8⟩
      · left
        refine ⟨by simpa [Json.contains, hkey] using h3, by simp [find, hk, hkey, h4]⟩
      · right
        have hne : e ≠ e' := by
          intro he
          have : e' ∈ b2 := h8.mem_iff.mpr (by simp)
          exact hd.2.2 e (by simp) e' this he
        refine ⟨by simp only [Json.contains, List.any_cons, Bool.or_eq_true]; exact Or.inr h3, e', v', a', b1', (e :: b1) ++ bs', by simp [find, hk, hkey, h4], h5, h6, ?_, ?_⟩
        · have e1 : Json.erase ((k, v) :: es) key = (k, v) :: Json.erase es key := by simp [Json.erase, hkey]
          have e2 : (e :: l').erase e' = e :: l'.erase e' := by
            rw [List.erase_cons_tail]
            simpa using hne
          rw [e1, e2]
          exact ⟨e, a, l'.erase e', b1, bs', rfl, rfl, h0, h1, h7⟩
        · refine (List.Perm.append_left (e :: b1) h8).trans ?_
          rw [← List.append_assoc, ← List.append_assoc]
          exact List.Perm.append_right bs' List.perm_append_comm

theorem entries_insert {m : Mem} {p : Addr} {key : Bytes} {e a : Addr} {v : Json} {b1 : List Addr} (h0 : m.get e = some ⟨some p, .entry key a⟩) (h1 : Stores m (some e) v a b1)
    (es : List (Bytes × Json)) {l bs : List Addr} (h : StoresEntries m p es l bs) :
    ∃ l' bs', Heap.insert m key e l = some l' ∧ StoresEntries m p (Json.sortedPush es key v) l' bs' ∧ bs'.Perm ((e :: b1) ++ bs) := by
  induction es generalizing l bs with
  | nil =>
    obtain ⟨rfl, rfl⟩ := h
    exact ⟨[e], (e :: b1) ++ [], rfl, ⟨e, a, [], b1, [], rfl, rfl, h0, h1, rfl, rfl⟩, .refl _⟩
  | cons x es ih =>
    obtain ⟨k, w⟩ := x
    obtain ⟨e', a', l', b1', b2, rfl, rfl, h0', h1', h2⟩ := h
    have hk : keyOf m e' = some k := by simp [keyOf, h0']
    by_cases hlt : Json.keyLt k key = true
    · obtain ⟨l2, bs2, h3, h4, h5⟩ := ih h2
      refine ⟨e' :: l2, (e' :: b1') ++ bs2, by simp [Heap.insert, hk, hlt, h3], ?_, ?_⟩
      · simp only [Json.sortedPush, hlt, if_true]
        exact ⟨e', a', l2, b1', bs2, rfl, rfl, h0', h1', h4⟩
      · refine (List.Perm.append_left (e' :: b1') h5).trans ?_
        rw [← List.append_assoc, ← List.append_assoc]
        exact List.Perm.append_right b2 List.perm_append_comm
    · refine ⟨e :: e' :: l', (e :: b1) ++ ((e' :: b1') ++ b2), by simp [Heap.insert, hk, hlt], ?_, .refl _⟩
      simp only [Json.sortedPush, hlt, if_false]
      exact ⟨e, a, e' :: l', b1, (e' :: b1') ++ b2, rfl, rfl, h0, h1, e', a', l', b1', b2, rfl, rfl, h0', h1', h2⟩

theorem entries_snoc {m : Mem} {p : Addr} {key : Bytes} {e a : Addr} {v : Json} {b1 : List Addr} (h0 : m.get e = some ⟨some p, .entry key a⟩) (h1 : Stores m (some e) v a b1)
    (es : List (Bytes × Json)) {l bs : List Addr} (h : StoresEntries m p es l bs) :
    StoresEntries m p (Json.push es key v) (l ++ [e]) (bs ++ (e :: b1)) := by
  unfold Json.push
  induction es generalizing l bs with
  | nil =>
    obtain ⟨rfl, rfl⟩ := h
    exact ⟨e, a, [], b1, [], rfl, by simp, h0, h1, rfl, rfl⟩
  | cons x es ih =>
    obtain ⟨k, w⟩ := x
    obtain ⟨e', a', l', b1', b2, rfl, rfl, h0', h1', h2⟩ := h
    exact ⟨e', a', l' ++ [e], b1', b2 ++ (e :: b1), rfl, by simp, h0', h1', ih h2⟩

theorem items_snoc {m : Mem} {p : Addr} {a : Addr} {v : Json} {b1 : List Addr} (h1 : Stores m (some p) v a b1)
    (xs : List Json) {l bs : List Addr} (h : StoresItems m p xs l bs) : StoresItems m p (xs ++ [v]) (l ++ [a]) (bs ++ b1) := by
  induction xs generalizing l bs with
  | nil =>
    obtain ⟨rfl, rfl⟩ := h
    exact ⟨a, [], b1, [], rfl, by simp, h1, rfl, rfl⟩
  | cons x xs ih =>
    obtain ⟨a', l', b1', b2, rfl, rfl, h1', h2⟩ := h
    exact ⟨a', l' ++ [a], b1', b2 ++ b1, rfl, by simp, h1', ih h2⟩

theorem push_spec {m : Mem} {parent p0 : Option Addr} {sorted : Bool} {es : List (Bytes × Json)} {r a : Addr} {as av : List Addr} {v : Json} (key : Bytes) (hf : Fresh m)
    (h : ObjAt m parent sorted es r as) (hv : Stores m p0 v a av) (hn : (as ++ av).Nodup) :
    ∃ m' as', Heap.push m r key a = some m' ∧ ObjAt m' parent sorted (if sorted then Json.sortedPush es key v else Json.push es key v) r as' ∧
      as'.Perm (m.next :: (as ++ av)) ∧ m'.next = m.next + 1 ∧ (∀ x, x ∉ as → x ∉ av → x ≠ m.next → m'.get x = m.get x) := by
  obtain ⟨l, bs, h1, h2, rfl⟩ := h
  obtain ⟨b, t, hva, rfl⟩ := stores_root hv
  have hd := List.nodup_append.mp hn
  have hdis : ∀ x ∈ r :: bs, x ∉ a :: t := fun x hx hx' => hd.2.2 x hx x hx' rfl
  have hltv : ∀ x ∈ a :: t, x < m.next := fun x hx => hf.lt (stores_live v hv x hx)
  have hltb : ∀ x ∈ bs, x < m.next := fun x hx => hf.lt (entries_live es h2 x hx)
  have hltr : r < m.next := hf.lt (by rw [h1]; simp)
  have hrbs : r ∉ bs := (List.nodup_cons.mp hd.1).1
  -- the entry
  let m1 := (m.new ⟨some r, .entry key a⟩).2
  have hm1 : ∀ x, x ≠ m.next → m1.get x = m.get x := fun x hx => by simp [m1, Mem.new, hx]
  have hm1e : m1.get m.next = some ⟨some r, .entry key a⟩ := by simp [m1, Mem.new]
  have hv1 : Stores m1 p0 v a (a :: t) := stores_congr v hv (fun x hx => hm1 x (by have := hltv x hx; omega))
  obtain ⟨m2, e2, hv2, hnext2, hm2, _⟩ := setParent_spec (p' := some m.next) hv1 hd.2.1
  have hane : a ≠ m.next := by have := hltv a (by simp); omega
  have h2e : m2.get m.next = some ⟨some r, .entry key a⟩ := by rw [hm2 _ (Ne.symm hane)]; exact hm1e
  have hes2 : StoresEntries m2 r es l bs := entries_congr es h2 (fun x hx => by
    have h3 := hltb x hx
    have h4 : x ≠ a := fun e => hdis x (by simp [hx]) (by simp [e])
    rw [hm2 x h4, hm1 x (by omega)])
  -- its place
  have hplace : ∃ l' bs', (if sorted then Heap.insert m2 key m.next l else some (l ++ [m.next])) = some l' ∧
      StoresEntries m2 r (if sorted then Json.sortedPush es key v else Json.push es key v) l' bs' ∧ bs'.Perm ((m.next :: a :: t) ++ bs) := by
    cases sorted with
    | true => exact entries_insert h2e hv2 es hes2
    | false => exact ⟨l ++ [m.next], _, by simp, entries_snoc h2e hv2 es hes2, List.perm_append_comm⟩
  obtain ⟨l', bs', e3, h3, hperm⟩ := hplace
  have hrb' : r ∉ bs' := by
    intro hr
    have := hperm.mem_iff.mp hr
    simp only [List.mem_append, List.mem_cons] at this
    rcases this with (this | this | this) | this
    · omega
    · exact hdis r (by simp) (by simp [this])
    · exact hdis r (by simp) (by simp [this])
    · exact hrbs this
  refine ⟨m2.set r ⟨parent, .obj sorted l'⟩, r :: bs', ?_, ⟨l', bs', by simp [Mem.set], ?_, rfl⟩, ?_, ?_, ?_⟩
  · have e1 : m.new ⟨some r, .entry key a⟩ = (m.next, m1) := rfl
    simp only [Heap.push, h1, e1, e2, e3, Option.map_some]
  · exact entries_congr _ h3 (fun x hx => by
      have : x ≠ r := fun e => hrb' (e ▸ hx)
      simp [Mem.set, this])
  · refine (List.Perm.cons r hperm).trans ?_
    refine (List.Perm.swap m.next r _).trans ?_
    refine List.Perm.cons m.next ?_
    simp only [List.cons_append]
    refine List.Perm.cons r ?_
    exact (List.perm_append_comm (l₁ := a :: t) (l₂ := bs))
  · show m2.next = m.next + 1
    rw [hnext2]; rfl
  · intro x hx1 hx2 hx3
    simp only [List.mem_cons, not_or] at hx1 hx2
    show (m2.set r _).get x = _
    simp only [Mem.set, hx1.1, if_false]
    rw [hm2 x hx2.1, hm1 x hx3]

theorem erase_spec {m : Mem} {parent : Option Addr} {sorted : Bool} {es : List (Bytes × Json)} {r : Addr} {as : List Addr} (key : Bytes) (hf : Fresh m)
    (h : ObjAt m parent sorted es r as) (hn : as.Nodup) (hc : Json.contains es key = true) :
    ∃ m' as', Heap.erase m r key = .done m' ∧ ObjAt m' parent sorted (Json.erase es key) r as' ∧ as'.Nodup ∧ (∀ x ∈ as', x ∈ as) ∧ m'.next = m.next ∧
      (∀ x, x ∉ as → m'.get x = m.get x) ∧ (∀ x ∈ as, x ∉ as' → m'.get x = none) := by
  obtain ⟨l, bs, h1, h2, rfl⟩ := h
  have hd := List.nodup_cons.mp hn
  rcases entries_find (key := key) es h2 hd.2 with ⟨h3, _⟩ | ⟨_, e, v, a, b1, bs', h4, h5, h6, h7, h8⟩
  · rw [hc] at h3; exact absurd h3 (by simp)
  have hn8 : ((e :: b1) ++ bs').Nodup := h8.nodup_iff.mp hd.2
  have hd8 := List.nodup_append.mp hn8
  have hlen : (e :: b1).length ≤ m.next := nodup_length hd8.1 (fun x hx => hf.lt (by
    have : x ∈ bs := h8.mem_iff.mpr (List.mem_append_left _ hx)
    exact entries_live es h2 x this))
  have hdel := delete_entry h5 h6 hd8.1 hlen
  have hrbs : r ∉ bs := hd.1
  have hre : r ∉ e :: b1 := fun hr => hrbs (h8.mem_iff.mpr (List.mem_append_left _ hr))
  have hrb' : r ∉ bs' := fun hr => hrbs (h8.mem_iff.mpr (List.mem_append_right _ hr))
  refine ⟨(without m (e :: b1)).set r ⟨parent, .obj sorted (l.erase e)⟩, r :: bs', ?_, ⟨l.erase e, bs', by simp [Mem.set], ?_, rfl⟩, ?_, ?_, rfl, ?_, ?_⟩
  · simp only [Heap.erase, h1, h4, hdel]
  · exact entries_congr _ h7 (fun x hx => by
      have h9 : x ≠ r := fun e => hrb' (e ▸ hx)
      have h10 : x ∉ e :: b1 := disjoint_append hn8 x hx
      simp only [Mem.set, h9, if_false, get_without h10])
  · exact List.nodup_cons.mpr ⟨hrb', hd8.2.1⟩
  · intro x hx
    rcases List.mem_cons.mp hx with rfl | hx
    · simp
    · exact List.mem_cons_of_mem _ (h8.mem_iff.mpr (List.mem_append_right _ hx))
  · intro x hx
    simp only [List.mem_cons, not_or] at hx
    have h10 : x ∉ e :: b1 := fun hx' => hx.2 (h8.mem_iff.mpr (List.mem_append_left _ hx'))
    simp only [Mem.set, hx.1, if_false, get_without h10]
  · intro x hx hx'
    simp only [List.mem_cons, not_or] at hx'
    rcases List.mem_cons.mp hx with rfl | hx
    · exact absurd rfl hx'.1
    · have h10 : x ∈ e :: b1 := by
        rcases List.mem_append.mp (h8.mem_iff.mp hx) with h | h
        · exact h
        · exact absurd h hx'.2
      simp only [Mem.set, hx'.1, if_false, without_get, h10, if_true]

theorem contains_spec {m : Mem} {parent : Option Addr} {sorted : Bool} {es : List (Bytes × Json)} {r : Addr} {as : List Addr} (key : Bytes)
    (h : ObjAt m parent sorted es r as) (hn : as.Nodup) : Heap.contains m r key = some (Json.contains es key) := by
  obtain ⟨l, bs, h1, h2, rfl⟩ := h
  rcases entries_find (key := key) es h2 (List.nodup_cons.mp hn).2 with ⟨h3, h4⟩ | ⟨h3, e, v, a, b1, bs', h4, _⟩
  · simp [Heap.contains, h1, h4, h3]
  · simp [Heap.contains, h1, h4, h3]

theorem pushBack_spec {m : Mem} {parent p0 : Option Addr} {xs : List Json} {r a : Addr} {as av : List Addr} {v : Json}
    (h : ArrAt m parent xs r as) (hv : Stores m p0 v a av) (hn : (as ++ av).Nodup) :
    ∃ m', pushBack m r a = some m' ∧ ArrAt m' parent (xs ++ [v]) r (as ++ av) ∧ m'.next = m.next ∧ (∀ x, x ∉ as → x ∉ av → m'.get x = m.get x) := by
  obtain ⟨l, bs, h1, h2, rfl⟩ := h
  obtain ⟨b, t, hva, rfl⟩ := stores_root hv
  have hd := List.nodup_append.mp hn
  have hdis : ∀ x ∈ r :: bs, x ∉ a :: t := fun x hx hx' => hd.2.2 x hx x hx' rfl
  have hra : r ≠ a := fun e => hdis r (by simp) (by simp [e])
  obtain ⟨m2, e2, hv2, hnext2, hm2, _⟩ := setParent_spec (p' := some r) hv hd.2.1
  have h12 : m2.get r = some ⟨parent, .arr l⟩ := by rw [hm2 r hra]; exact h1
  have hes2 : StoresItems m2 r xs l bs := items_congr xs h2 (fun x hx => hm2 x (fun e => hdis x (by simp [hx]) (by simp [e])))
  have h3 := items_snoc hv2 xs hes2
  refine ⟨m2.set r ⟨parent, .arr (l ++ [a])⟩, by simp only [pushBack, e2, h12], ⟨l ++ [a], bs ++ (a :: t), by simp [Mem.set], ?_, rfl⟩, hnext2, ?_⟩
  · exact items_congr _ h3 (fun x hx => by
      have : x ≠ r := by
        rintro rfl
        rcases List.mem_append.mp hx with h | h
        · exact (List.nodup_cons.mp hd.1).1 h
        · exact hdis x (by simp) h
      simp [Mem.set, this])
  · intro x hx1 hx2
    simp only [List.mem_cons, not_or] at hx1 hx2
    simp only [Mem.set, hx1.1, if_false]
    exact hm2 x hx2.1

end Verif.Lemmas.Heap
