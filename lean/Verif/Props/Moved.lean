import Verif.Props.Records
import Verif.Lemmas.DiffNeighbours
/-! # C142: a child that was moved -/
namespace Verif.Props
open Verif.Model Verif.Model.Diff Verif.Spec Verif.Lemmas.Diff

/-- What is shown if the child number `s` became number `t`. -/
structure MovedShown (a b : Elem) (t : Table) (order : List (Ptr × Ptr)) (s e : Nat) : Prop where
  /-- what was moved is marked as added in both documents and has no counterpart -/
  left : ∀ r, markOf t (.left (s :: r)) = .add ∧ ∀ q, scan order (.left (s :: r)) ≠ some (.right q)
  right : ∀ r, markOf t (.right (e :: r)) = .add ∧ ∀ p, scan order (.right (e :: r)) ≠ some (.left p)
  /-- everything else is marked as equal and has itself as its counterpart -/
  others : ∀ k r u, a.at (beyond s k :: r) = some u → b.at (beyond e k :: r) = some u ∧ markOf t (.left (beyond s k :: r)) = .equ ∧ markOf t (.right (beyond e k :: r)) = .equ ∧
    scan order (.left (beyond s k :: r)) = some (.right (beyond e k :: r)) ∧ scan order (.right (beyond e k :: r)) = some (.left (beyond s k :: r))

theorem beyond_ne (s k : Nat) : beyond s k ≠ s := by rcases beyond_cases s k with g | g <;> omega

theorem beyond_inj {s k k' : Nat} (h : beyond s k = beyond s k') : k = k' := by rcases beyond_cases s k with g | g <;> rcases beyond_cases s k' with g' | g' <;> omega

theorem beyond_lt {s k n : Nat} (hs : s < n) : beyond s k < n ↔ k + 1 < n := by rcases beyond_cases s k with g | g <;> omega

theorem beyond_onto {s i : Nat} (h : i ≠ s) : ∃ k, i = beyond s k := by
  by_cases hi : i < s
  · exact ⟨i, by rcases beyond_cases s i with g | g <;> omega⟩
  · exact ⟨i - 1, by rcases beyond_cases s (i - 1) with g | g <;> omega⟩

/-- What is shown if it is known that the children face themselves. -/
theorem settled_shown {fmt : Bytes → Bytes} {a b : Json} {t : Table} (h : diff fmt a b = some t) (sa : ShortTexts (·.stringify fmt) (.value a)) (sb : ShortTexts (·.stringify fmt) (.value b))
    (hr : RoomFor (·.stringify fmt) (.value a) (.value b)) {order : List (Ptr × Ptr)} (hp : order.Perm t.equivalences) (ca : IsContainer a) (cb : IsContainer b) {s e : Nat} (hs : s < (Elem.value a).kids.length)
    (hsame : ∀ k, k + 1 < (Elem.value a).kids.length → (Elem.value a).kids[beyond s k]? = (Elem.value b).kids[beyond e k]?)
    (hset : Settled (·.stringify fmt) (.value a) (.value b) fun i j => ∃ k, k + 1 < (Elem.value a).kids.length ∧ i = beyond s k ∧ j = beyond e k) : MovedShown (.value a) (.value b) t order s e := by
  have ho := opposed_places ((container_iff a).mpr ca) ((container_iff b).mpr cb) hset
  obtain ⟨c1, c3, c2, c4, c5⟩ := C135_comparison fmt a b t h sa sb hr order hp
  refine ⟨fun r => ?_, fun r => ?_, fun k r u hu => ?_⟩
  · have hno : ∀ q, ¬ Opposed (·.stringify fmt) (.value a) (.value b) (s :: r) q := by
      intro q hq
      rcases (ho _ _).mp hq with ⟨e, _⟩ | ⟨i, j, p', q', u, w, ⟨k, _, rfl, _⟩, e, _⟩
      · cases e
      · injection e with e _
        exact beyond_ne s k e.symm
    exact ⟨c4 _ hno, fun q hq => hno q ((c1 _ _).mp hq).1⟩
  · have hno : ∀ p, ¬ Opposed (·.stringify fmt) (.value a) (.value b) p (e :: r) := by
      intro p hq
      rcases (ho _ _).mp hq with ⟨_, e⟩ | ⟨i, j, p', q', u, w, ⟨k, _, _, rfl⟩, _, e, _⟩
      · cases e
      · injection e with e _
        exact beyond_ne _ k e.symm
    exact ⟨c5 _ hno, fun p hq => hno p ((c1 _ _).mp ((c3 _ _).mp hq)).1⟩
  · have hu' := hu
    simp only [Elem.at, Option.bind_eq_some_iff] at hu'
    obtain ⟨x, hx, hxu⟩ := hu'
    have hk := (beyond_lt hs).mp (List.getElem?_eq_some_iff.mp hx).1
    have hy : (Elem.value b).kids[beyond e k]? = some x := by rw [← hsame k hk]; exact hx
    have hb : (Elem.value b).at (beyond e k :: r) = some u := by rw [at_cons _ hy]; exact hxu
    have hop := (ho (beyond s k :: r) (beyond e k :: r)).mpr (.inr ⟨_, _, r, r, x, x, ⟨k, hk, rfl, rfl⟩, rfl, rfl, hx, hy, self_opposed _ r x u hxu⟩)
    obtain ⟨x', y', c, e1, e2, hf, hm⟩ := c2 _ _ hop
    rw [hu] at e1; cases e1
    rw [hb] at e2; cases e2
    obtain ⟨m, _, m2, m3, m4⟩ := edited_mark (.same u) hf
    obtain rfl := m3 rfl
    rw [m2] at hm
    have hsc := (c1 _ _).mpr ⟨hop, .inr ⟨u, u, hu, hb, m4.mpr (by decide)⟩⟩
    exact ⟨hb, congrArg Prod.fst hm, congrArg Prod.snd hm, hsc, (c3 _ _).mpr hsc⟩

theorem moved_shown {fmt : Bytes → Bytes} {a b : Json} {t : Table} (h : diff fmt a b = some t) (sa : ShortTexts (·.stringify fmt) (.value a)) (sb : ShortTexts (·.stringify fmt) (.value b))
    (hr : RoomFor (·.stringify fmt) (.value a) (.value b)) {order : List (Ptr × Ptr)} (hp : order.Perm t.equivalences) (ca : IsContainer a) (cb : IsContainer b) {s e : Nat}
    (hn : (Elem.value a).kids.length = (Elem.value b).kids.length) (hs : s < (Elem.value a).kids.length) (ht : e < (Elem.value a).kids.length) (hst : s + 2 ≤ e ∨ e + 2 ≤ s)
    (hsame : ∀ k, k + 1 < (Elem.value a).kids.length → (Elem.value a).kids[beyond s k]? = (Elem.value b).kids[beyond e k]?)
    (hne : ∀ (i j : Nat) (u w : Elem), (Elem.value a).kids[i]? = some u → (Elem.value b).kids[j]? = some w → (∀ k, ¬ (i = beyond s k ∧ j = beyond e k)) → ¬ (i = s ∧ j = e) → ¬ Facing (·.stringify fmt) u w 0) :
    MovedShown (.value a) (.value b) t order s e := by
  refine settled_shown h sa sb hr hp ca cb hs hsame (settled_moved ((container_iff a).mpr ca) ((container_iff b).mpr cb) hn hs ht hst (fun k u w hu hw => ?_) hne)
  have hk := (beyond_lt hs).mp (List.getElem?_eq_some_iff.mp hu).1
  rw [hsame k hk, hw] at hu
  cases hu
  exact facing_self _ _

theorem without_one {α : Type} (l1 : List α) (m : α) (l2 : List α) (k : Nat) : (l1 ++ m :: l2)[beyond l1.length k]? = (l1 ++ l2)[k]? := by
  rcases beyond_cases l1.length k with ⟨g, e⟩ | ⟨g, e⟩
  · rw [e, List.getElem?_append_left g, List.getElem?_append_left g]
  · rw [e, List.getElem?_append_right (by omega), List.getElem?_append_right g, show k + 1 - l1.length = k - l1.length + 1 by omega, List.getElem?_cons_succ]

theorem the_one {α : Type} (l1 : List α) (m : α) (l2 : List α) : (l1 ++ m :: l2)[l1.length]? = some m := by
  rw [List.getElem?_append_right (Nat.le_refl _), Nat.sub_self]; rfl

theorem moved_apart {text : Json → Bytes} {ka kb : List Elem} {s e : Nat} (hl : ka.length = kb.length) (hsame : ∀ k, k + 1 < ka.length → ka[beyond s k]? = kb[beyond e k]?) (hone : ka[s]? = kb[e]?) (he : e < kb.length)
    (hne : ∀ (i j : Nat) (u w : Elem), i ≠ j → ka[i]? = some u → ka[j]? = some w → ¬ Facing text u w 0) :
    ∀ (i j : Nat) (u w : Elem), ka[i]? = some u → kb[j]? = some w → (∀ k, ¬ (i = beyond s k ∧ j = beyond e k)) → ¬ (i = s ∧ j = e) → ¬ Facing text u w 0 := by
  intro i j u w hu hw hno hst
  by_cases hj : j = e
  · subst hj
    exact hne i s u w (fun h => hst ⟨h, rfl⟩) hu (hone.trans hw)
  · obtain ⟨k, rfl⟩ := beyond_onto hj
    have hk := (beyond_lt he).mp (List.getElem?_eq_some_iff.mp hw).1
    exact hne i (beyond s k) u w (fun h => hno k ⟨h, rfl⟩) hu ((hsame k (by omega)).trans hw)

/-- **C142, for children no two of which resemble each other.** If a child of a container is moved by at least two places, down (from `a` to `b`) or up (from `b` to `a`), then what is shown as added, in both documents, is that child with all that is in it;
all other children are marked as equal, with all that is in them, and have themselves as their counterparts. -/
theorem C142_moved_partial (fmt : Bytes → Bytes) (a b : Json) (sa : ShortTexts (·.stringify fmt) (.value a)) (sb : ShortTexts (·.stringify fmt) (.value b)) (ca : IsContainer a) (cb : IsContainer b) (xs ys zs : List Elem) (m : Elem)
    (ha : (Elem.value a).kids = xs ++ m :: (ys ++ zs)) (hb : (Elem.value b).kids = xs ++ (ys ++ m :: zs)) (h2 : 2 ≤ ys.length)
    (hne : ∀ (i j : Nat) (u w : Elem), i ≠ j → (Elem.value a).kids[i]? = some u → (Elem.value a).kids[j]? = some w → ¬ Facing (·.stringify fmt) u w 0) :
    (∀ t, diff fmt a b = some t → RoomFor (·.stringify fmt) (.value a) (.value b) → ∀ order : List (Ptr × Ptr), order.Perm t.equivalences → MovedShown (.value a) (.value b) t order xs.length (xs.length + ys.length)) ∧
    (∀ t, diff fmt b a = some t → RoomFor (·.stringify fmt) (.value b) (.value a) → ∀ order : List (Ptr × Ptr), order.Perm t.equivalences → MovedShown (.value b) (.value a) t order (xs.length + ys.length) xs.length) := by
  have hb' : (Elem.value b).kids = (xs ++ ys) ++ m :: zs := by rw [hb, List.append_assoc]
  have la : (Elem.value a).kids.length = xs.length + ys.length + zs.length + 1 := by rw [ha]; simp; omega
  have lb : (Elem.value b).kids.length = xs.length + ys.length + zs.length + 1 := by rw [hb]; simp; omega
  have hsame : ∀ k, (Elem.value a).kids[beyond xs.length k]? = (Elem.value b).kids[beyond (xs.length + ys.length) k]? := fun k => by
    have h1 := without_one xs m (ys ++ zs) k
    have h3 := without_one (xs ++ ys) m zs k
    rw [List.length_append] at h3
    rw [ha, hb', h1, h3, List.append_assoc]
  have hone : (Elem.value a).kids[xs.length]? = (Elem.value b).kids[xs.length + ys.length]? := by
    have h1 := the_one xs m (ys ++ zs)
    have h3 := the_one (xs ++ ys) m zs
    rw [List.length_append] at h3
    rw [ha, hb', h1, h3]
  have apart := moved_apart (text := (·.stringify fmt)) (s := xs.length) (e := xs.length + ys.length) (by omega) (fun k _ => hsame k) hone (by omega) hne
  refine ⟨fun t h hr order hp => ?_, fun t h hr order hp => ?_⟩
  · exact moved_shown h sa sb hr hp ca cb (by omega) (by omega) (by omega) (.inl (by omega)) (fun k _ => hsame k) apart
  · exact moved_shown h sb sa hr hp cb ca (by omega) (by omega) (by omega) (.inr (by omega)) (fun k _ => (hsame k).symm)
      fun i j u w hu hw hno hst hz => apart j i w u hw hu (fun k hk => hno k hk.symm) (fun h => hst h.symm) (facing_symm hz)

/-- Members with different keys do not resemble each other. -/
theorem keys_apart (text : Json → Bytes) (es : List (Bytes × Json)) (keys : (es.map (·.1)).Nodup) (i j : Nat) (u w : Elem) (hij : i ≠ j) (hu : (Elem.value (.obj es)).kids[i]? = some u) (hw : (Elem.value (.obj es)).kids[j]? = some w) :
    ¬ Facing text u w 0 := by
  intro hz
  have k1 : (Elem.value (.obj es)).kids = es.map fun e => .entry e.1 e.2 := rfl
  rw [k1, List.getElem?_map, Option.map_eq_some_iff] at hu hw
  obtain ⟨e, he, rfl⟩ := hu
  obtain ⟨f, hf, rfl⟩ := hw
  refine hij ?_
  have hk : e.1 = f.1 := by
    rcases Classical.em (e.1 = f.1) with h | h
    · exact h
    · have := facing_unique hz (.otherKey h); omega
  have g1 : (es.map (·.1))[i]? = some e.1 := by rw [List.getElem?_map, he]; rfl
  have g2 : (es.map (·.1))[j]? = some e.1 := by rw [List.getElem?_map, hf, hk]; rfl
  exact (List.getElem?_inj (List.getElem?_eq_some_iff.mp g1).1 keys).mp (g1.trans g2.symm)

/-- **C142, for members**: no condition but different keys. -/
theorem C142_members_partial (fmt : Bytes → Bytes) (xs ys zs : List (Bytes × Json)) (m : Bytes × Json) (keys : ((xs ++ m :: (ys ++ zs)).map (·.1)).Nodup) (h2 : 2 ≤ ys.length)
    (sa : ShortTexts (·.stringify fmt) (.value (.obj (xs ++ m :: (ys ++ zs))))) (sb : ShortTexts (·.stringify fmt) (.value (.obj (xs ++ (ys ++ m :: zs))))) :
    (∀ t, diff fmt (.obj (xs ++ m :: (ys ++ zs))) (.obj (xs ++ (ys ++ m :: zs))) = some t → RoomFor (·.stringify fmt) (.value (.obj (xs ++ m :: (ys ++ zs)))) (.value (.obj (xs ++ (ys ++ m :: zs)))) →
      ∀ order : List (Ptr × Ptr), order.Perm t.equivalences → MovedShown (.value (.obj (xs ++ m :: (ys ++ zs)))) (.value (.obj (xs ++ (ys ++ m :: zs)))) t order xs.length (xs.length + ys.length)) ∧
    (∀ t, diff fmt (.obj (xs ++ (ys ++ m :: zs))) (.obj (xs ++ m :: (ys ++ zs))) = some t → RoomFor (·.stringify fmt) (.value (.obj (xs ++ (ys ++ m :: zs)))) (.value (.obj (xs ++ m :: (ys ++ zs)))) →
      ∀ order : List (Ptr × Ptr), order.Perm t.equivalences → MovedShown (.value (.obj (xs ++ (ys ++ m :: zs)))) (.value (.obj (xs ++ m :: (ys ++ zs)))) t order (xs.length + ys.length) xs.length) := by
  have k1 : ∀ gs : List (Bytes × Json), (Elem.value (.obj gs)).kids = gs.map fun e => .entry e.1 e.2 := fun gs => rfl
  have := C142_moved_partial fmt (.obj (xs ++ m :: (ys ++ zs))) (.obj (xs ++ (ys ++ m :: zs))) sa sb trivial trivial (xs.map fun e => .entry e.1 e.2) (ys.map fun e => .entry e.1 e.2) (zs.map fun e => .entry e.1 e.2) (.entry m.1 m.2)
    (by rw [k1]; simp) (by rw [k1]; simp) (by simpa using h2) (keys_apart _ _ keys)
  simpa only [List.length_map] using this

theorem settled_neighbours {text : Json → Bytes} {a b : Elem} (ca : a.isContainer = true) (cb : b.isContainer = true) {s : Nat} (hn : a.kids.length = b.kids.length) (hs : s + 1 < a.kids.length) (h3 : 3 ≤ a.kids.length)
    (hsame : ∀ k, k + 1 < a.kids.length → a.kids[beyond (s + 1) k]? = b.kids[beyond s k]?)
    (hne : ∀ (i j : Nat) (u w : Elem), a.kids[i]? = some u → b.kids[j]? = some w → (∀ k, ¬ (i = beyond (s + 1) k ∧ j = beyond s k)) → ¬ (i = s + 1 ∧ j = s) → ¬ Facing text u w 0) :
    Settled text a b fun i j => ∃ k, k + 1 < a.kids.length ∧ i = beyond (s + 1) k ∧ j = beyond s k := by
  have hsw : ∀ cost : Nat → Nat → Nat, (∀ (i j : Nat) (u w : Elem), a.kids[i]? = some u → b.kids[j]? = some w → Facing text u w (cost i j)) → Swapped cost a.kids.length s := by
    intro cost hcost
    have hz : ∀ k, k + 1 < a.kids.length → cost (beyond (s + 1) k) (beyond s k) = 0 := by
      intro k hk
      have hi := (beyond_lt hs (k := k)).mpr hk
      have hu := List.getElem?_eq_getElem hi
      exact facing_unique (hcost _ _ _ _ hu ((hsame k hk).symm.trans hu)) (facing_self _ _)
    refine ⟨hs, fun i hi h1 h2 => ?_, ?_, fun i hi j hj e => ?_⟩
    · rcases Nat.lt_or_ge i s with g | g
      · have := hz i (by omega)
        rcases beyond_cases (s + 1) i with g1 | g1 <;> rcases beyond_cases s i with g2 | g2 <;> first | omega | skip
        rw [g1.2, g2.2] at this; exact this
      · have := hz (i - 1) (by omega)
        rcases beyond_cases (s + 1) (i - 1) with g1 | g1 <;> rcases beyond_cases s (i - 1) with g2 | g2 <;> first | omega | skip
        rw [g1.2, g2.2, Nat.sub_add_cancel (by omega)] at this; exact this
    · have := hz s (by omega)
      rcases beyond_cases (s + 1) s with g1 | g1 <;> rcases beyond_cases s s with g2 | g2 <;> first | omega | skip
      rw [g1.2, g2.2] at this; exact this
    · have hu := List.getElem?_eq_getElem hi
      have hw := List.getElem?_eq_getElem (show j < b.kids.length by omega)
      rcases Classical.em (∃ k, i = beyond (s + 1) k ∧ j = beyond s k) with ⟨k, h1, h2⟩ | hno
      · rcases beyond_cases (s + 1) k with g1 | g1 <;> rcases beyond_cases s k with g2 | g2 <;> omega
      · rcases Classical.em (i = s + 1 ∧ j = s) with h | h
        · exact .inr (.inr h)
        · exact absurd (e ▸ hcost i j _ _ hu hw) (hne i j _ _ hu hw (fun k hk => hno ⟨k, hk⟩) h)
  refine ⟨?_, fun cost l hcost hch i j => ?_⟩
  · obtain ⟨cost, hcost⟩ := costs_exist text a b
    have h2 := swapped_least (hsw cost hcost)
    obtain ⟨l, hl⟩ := h2.1
    have := Facing.containers (pairs := l) (n := 2) ca cb hcost (by rw [← hn]; exact hl) (by rw [← hn]; exact h2.2)
    rw [if_pos (.inl (by omega))] at this
    exact this
  · have h2 := hsw cost hcost
    obtain ⟨m, hm⟩ : ∃ m, a.kids.length = s + 2 + m := ⟨a.kids.length - (s + 2), by omega⟩
    rw [hm] at h2
    obtain ⟨l', h4, h5⟩ := swapped_chosen m h2
    rw [← hn, hm] at hch
    rw [chosen_unique hch h4, h5, hm]

/-- **C142, neighbours.** If two neighbours change places in a container with more children, no two of which resemble each other, it is the one that was the second that is shown as moved. -/
theorem C142_neighbours_partial (fmt : Bytes → Bytes) (a b : Json) (sa : ShortTexts (·.stringify fmt) (.value a)) (sb : ShortTexts (·.stringify fmt) (.value b)) (ca : IsContainer a) (cb : IsContainer b) (xs zs : List Elem) (m m' : Elem)
    (ha : (Elem.value a).kids = xs ++ m :: m' :: zs) (hb : (Elem.value b).kids = xs ++ m' :: m :: zs) (h1 : 1 ≤ xs.length + zs.length)
    (hne : ∀ (i j : Nat) (u w : Elem), i ≠ j → (Elem.value a).kids[i]? = some u → (Elem.value a).kids[j]? = some w → ¬ Facing (·.stringify fmt) u w 0)
    (t : Table) (h : diff fmt a b = some t) (hr : RoomFor (·.stringify fmt) (.value a) (.value b)) (order : List (Ptr × Ptr)) (hp : order.Perm t.equivalences) :
    MovedShown (.value a) (.value b) t order (xs.length + 1) xs.length := by
  have ha' : (Elem.value a).kids = (xs ++ [m]) ++ m' :: zs := by rw [ha, List.append_assoc]; rfl
  have la : (Elem.value a).kids.length = xs.length + zs.length + 2 := by rw [ha]; simp; omega
  have lb : (Elem.value b).kids.length = xs.length + zs.length + 2 := by rw [hb]; simp; omega
  have hsame : ∀ k, (Elem.value a).kids[beyond (xs.length + 1) k]? = (Elem.value b).kids[beyond xs.length k]? := fun k => by
    have g1 := without_one (xs ++ [m]) m' zs k
    have g2 := without_one xs m' (m :: zs) k
    rw [List.length_append, List.length_singleton] at g1
    rw [ha', hb, g1, g2, List.append_assoc]; rfl
  have hone : (Elem.value a).kids[xs.length + 1]? = (Elem.value b).kids[xs.length]? := by
    have g1 := the_one (xs ++ [m]) m' zs
    have g2 := the_one xs m' (m :: zs)
    rw [List.length_append, List.length_singleton] at g1
    rw [ha', hb, g1, g2]
  have apart := moved_apart (text := (·.stringify fmt)) (s := xs.length + 1) (e := xs.length) (by omega) (fun k _ => hsame k) hone (by omega) hne
  exact settled_shown h sa sb hr hp ca cb (by omega) (fun k _ => hsame k) (settled_neighbours ((container_iff a).mpr ca) ((container_iff b).mpr cb) (by omega) (by omega) (by omega) (fun k _ => hsame k) apart)

/-- **C142, two children.** If the only two children of a container change places and do not resemble each other, everything in it is marked as added in both documents, and nothing in it has a counterpart. -/
theorem C142_two_partial (fmt : Bytes → Bytes) (a b : Json) (sa : ShortTexts (·.stringify fmt) (.value a)) (sb : ShortTexts (·.stringify fmt) (.value b)) (ca : IsContainer a) (cb : IsContainer b) (m m' : Elem)
    (ha : (Elem.value a).kids = [m, m']) (hb : (Elem.value b).kids = [m', m]) (hne : ¬ Facing (·.stringify fmt) m m' 0)
    (t : Table) (h : diff fmt a b = some t) (hr : RoomFor (·.stringify fmt) (.value a) (.value b)) (order : List (Ptr × Ptr)) (hp : order.Perm t.equivalences) (p : Path) (h0 : p ≠ []) :
    markOf t (.left p) = .add ∧ markOf t (.right p) = .add ∧ (∀ q, scan order (.left p) ≠ some (.right q)) ∧ ∀ q, scan order (.right p) ≠ some (.left q) := by
  obtain ⟨c1, c3, c2, c4, c5⟩ := C135_comparison fmt a b t h sa sb hr order hp
  have key : ∀ p q, Opposed (·.stringify fmt) (.value a) (.value b) p q → p = [] ∧ q = [] := by
    intro p q ho
    have hc : (Elem.value a).isContainer = true := (container_iff a).mpr ca
    have hc' : (Elem.value b).isContainer = true := (container_iff b).mpr cb
    generalize hA : Elem.value a = A at ho hc ha
    generalize hB : Elem.value b = B at ho hc' hb
    cases ho with
    | here => exact ⟨rfl, rfl⟩
    | values => cases hc
    | children _ _ hf =>
      exfalso
      obtain ⟨cost, hcost⟩ := costs_exist (·.stringify fmt) A B
      have z : ∀ c, (Facing (·.stringify fmt) m m' c ∨ Facing (·.stringify fmt) m' m c) → c ≠ 0 := by
        rintro c (hc | hc) rfl
        · exact hne hc
        · exact hne (facing_symm hc)
      have c00 := hcost 0 0 m m' (by rw [ha]; rfl) (by rw [hb]; rfl)
      have c11 := hcost 1 1 m' m (by rw [ha]; rfl) (by rw [hb]; rfl)
      have c01 := hcost 0 1 m m (by rw [ha]; rfl) (by rw [hb]; rfl)
      have hsw : Swapped cost 2 0 := by
        refine ⟨by omega, fun i hi h1 h2 => by omega, facing_unique c01 (facing_self _ m), fun i hi j hj e => ?_⟩
        have d0 := z _ (.inl c00)
        have d1 := z _ (.inr c11)
        match i, j, hi, hj with
        | 0, 0, _, _ => exact absurd e d0
        | 0, 1, _, _ => exact .inr (.inl ⟨rfl, rfl⟩)
        | 1, 0, _, _ => exact .inr (.inr ⟨rfl, rfl⟩)
        | 1, 1, _, _ => exact absurd e d1
      have h2 := swapped_least hsw
      obtain ⟨l, hl⟩ := h2.1
      have g := Facing.containers (pairs := l) (n := 2) hc hc' hcost (by rw [ha, hb]; exact hl) (by rw [ha, hb]; exact h2.2)
      rw [ha, hb] at g
      have := facing_unique hf g
      simp at this
  have n1 : ∀ q, ¬ Opposed (·.stringify fmt) (.value a) (.value b) p q := fun q ho => h0 (key _ _ ho).1
  have n2 : ∀ q, ¬ Opposed (·.stringify fmt) (.value a) (.value b) q p := fun q ho => h0 (key _ _ ho).2
  exact ⟨c4 p n1, c5 p n2, fun q hq => n1 q ((c1 _ _).mp hq).1, fun q hq => n2 q ((c1 _ _).mp ((c3 _ _).mp hq)).1⟩

/-- Three members, the first of which becomes the last. -/
example : ∃ t, diff id (.obj ([] ++ ([97], .arr [.int 1]) :: ([([98], .int 2), ([99], .null)] ++ []))) (.obj ([] ++ ([([98], .int 2), ([99], .null)] ++ ([97], .arr [.int 1]) :: []))) = some t ∧
    MovedShown (.value (.obj [([97], .arr [.int 1]), ([98], .int 2), ([99], .null)])) (.value (.obj [([98], .int 2), ([99], .null), ([97], .arr [.int 1])])) t t.equivalences 0 2 ∧
    (Elem.value (.obj [([97], .arr [.int 1]), ([98], .int 2), ([99], .null)])).at (beyond 0 1 :: [0]) = some (.value .null) := by
  obtain ⟨t, h1, -⟩ := any_some (o := diff id (.obj ([] ++ ([97], .arr [.int 1]) :: ([([98], .int 2), ([99], .null)] ++ []))) (.obj ([] ++ ([([98], .int 2), ([99], .null)] ++ ([97], .arr [.int 1]) :: []))))
    (p := fun t => markOf t (.left [0]) = .add) (by decide +kernel)
  have ma := modest_spec (fmt := id) (n := 5) (e := .value (.obj ([] ++ ([97], .arr [.int 1]) :: ([([98], .int 2), ([99], .null)] ++ [])))) (by decide +kernel)
  have mb := modest_spec (fmt := id) (n := 5) (e := .value (.obj ([] ++ ([([98], .int 2), ([99], .null)] ++ ([97], .arr [.int 1]) :: [])))) (by decide +kernel)
  exact ⟨t, h1, (C142_members_partial id [] _ [] _ (by decide) (by decide) ma.1 mb.1).1 t h1 (room_small (text := (·.stringify id)) ma.2 mb.2) _ (.refl _), rfl⟩

/-- The second and the third of three members change places. -/
example : ∃ t, diff id (.obj [([97], .int 1), ([98], .int 2), ([99], .null)]) (.obj [([97], .int 1), ([99], .null), ([98], .int 2)]) = some t ∧
    MovedShown (.value (.obj [([97], .int 1), ([98], .int 2), ([99], .null)])) (.value (.obj [([97], .int 1), ([99], .null), ([98], .int 2)])) t t.equivalences 2 1 := by
  obtain ⟨t, h1, -⟩ := any_some (o := diff id (.obj [([97], .int 1), ([98], .int 2), ([99], .null)]) (.obj [([97], .int 1), ([99], .null), ([98], .int 2)])) (p := fun t => markOf t (.left [2]) = .add) (by decide +kernel)
  have ma := modest_spec (fmt := id) (n := 5) (e := .value (.obj [([97], .int 1), ([98], .int 2), ([99], .null)])) (by decide +kernel)
  have mb := modest_spec (fmt := id) (n := 5) (e := .value (.obj [([97], .int 1), ([99], .null), ([98], .int 2)])) (by decide +kernel)
  exact ⟨t, h1, C142_neighbours_partial id _ _ ma.1 mb.1 trivial trivial [.entry [97] (.int 1)] [] _ _ rfl rfl (by decide) (keys_apart _ _ (by decide)) t h1 (room_small (text := (·.stringify id)) ma.2 mb.2) _ (.refl _)⟩

/-- The two members of an object change places. -/
example : ∃ t, diff id (.obj [([97], .int 1), ([98], .int 2)]) (.obj [([98], .int 2), ([97], .int 1)]) = some t ∧ markOf t (.left [0]) = .add := by
  obtain ⟨t, h1, -⟩ := any_some (o := diff id (.obj [([97], .int 1), ([98], .int 2)]) (.obj [([98], .int 2), ([97], .int 1)])) (p := fun t => markOf t (.left [0]) = .add) (by decide +kernel)
  have ma := modest_spec (fmt := id) (n := 5) (e := .value (.obj [([97], .int 1), ([98], .int 2)])) (by decide +kernel)
  have mb := modest_spec (fmt := id) (n := 5) (e := .value (.obj [([98], .int 2), ([97], .int 1)])) (by decide +kernel)
  exact ⟨t, h1, (C142_two_partial id _ _ ma.1 mb.1 trivial trivial _ _ rfl rfl (keys_apart _ [([97], .int 1), ([98], .int 2)] (by decide) 0 1 _ _ (by decide) rfl rfl) t h1 (room_small (text := (·.stringify id)) ma.2 mb.2) _ (.refl _) [0] (by decide)).1⟩

/-- **C142 is false as stated** for neighbours: when the first of two members becomes the last, nothing is shown as equal, and in `[1,2,9]` it is the 2 that is shown as moved although the 1 may have been. -/
theorem C142_moved_false :
    (∃ t, diff id (.obj [([97], .int 1), ([98], .int 2)]) (.obj [([98], .int 2), ([97], .int 1)]) = some t ∧ ∀ p ∈ ([[], [0], [1]] : List Path), markOf t (.left p) ≠ .equ ∧ markOf t (.right p) ≠ .equ) ∧
    (∃ t, diff id (.arr ([] ++ .int 1 :: ([.int 2] ++ [.int 9]))) (.arr ([] ++ ([.int 2] ++ .int 1 :: [.int 9]))) = some t ∧ markOf t (.left [0]) = .equ ∧ markOf t (.right [1]) = .equ ∧ markOf t (.left [1]) = .add ∧ markOf t (.right [0]) = .add) :=
  ⟨any_some (o := diff id (.obj [([97], .int 1), ([98], .int 2)]) (.obj [([98], .int 2), ([97], .int 1)])) (p := fun t => ∀ p ∈ ([[], [0], [1]] : List Path), markOf t (.left p) ≠ .equ ∧ markOf t (.right p) ≠ .equ) (by decide +kernel),
   any_some (o := diff id (.arr ([] ++ .int 1 :: ([.int 2] ++ [.int 9]))) (.arr ([] ++ ([.int 2] ++ .int 1 :: [.int 9]))))
    (p := fun t => markOf t (.left [0]) = .equ ∧ markOf t (.right [1]) = .equ ∧ markOf t (.left [1]) = .add ∧ markOf t (.right [0]) = .add) (by decide +kernel)⟩

end Verif.Props
