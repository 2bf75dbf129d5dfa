import Verif.Lemmas.SplitAlign
import Verif.Lemmas.SplitPic
import Verif.Lemmas.SplitOwnHist
import Verif.Lemmas.SplitSel
/-!
# The lines of counterparts in the two windows of the diff view
-/
namespace Verif.Lemmas.Split
open Verif.Model Verif.Model.Diff Verif.Model.Split Verif.Spec Verif.Spec.SplitView
open Verif.Model.Tui (getNbLines hasReachedBottom isEmptyJ)

/-- An item that has a counterpart. -/
def has (env : Env) (side : Bool) (p : Path) : Bool := (env.equiv (ptr side p)).isSome

/-- The entries of the log of the elements that have counterparts. -/
def held (env : Env) (side : Bool) (l : List Entry) : List Entry := l.filter fun e => has env side e.it.path

theorem held_add {env : Env} {side : Bool} {l : List Entry} {e : Entry} (h : (env.equiv (ptr side e.it.path)).isNone = true) : held env side (l ++ [e]) = held env side l := by
  unfold held has
  rw [List.filter_append, List.filter_cons]
  simp only [Option.isNone_iff_eq_none] at h
  rw [h]
  simp

theorem held_both {env : Env} {side : Bool} {l : List Entry} {e : Entry} (h : (env.equiv (ptr side e.it.path)).isNone = false) : held env side (l ++ [e]) = held env side l ++ [e] := by
  unfold held has
  rw [List.filter_append, List.filter_cons]
  rw [if_pos (by cases hx : env.equiv (ptr side e.it.path) <;> rw [hx] at h <;> first | rfl | cases h)]
  rfl

/-- The windows keep step. -/
structure Even (t : Pass) (h0 h1 : List Entry) : Prop where
  y : t.w0.y = t.w1.y
  busy0 : t.b0 = true → h1.length ≤ h0.length
  busy1 : t.b1 = true → h0.length ≤ h1.length
  same : ∀ (i : Nat) (e e' : Entry), h0[i]? = some e → h1[i]? = some e' → e.y = e'.y

theorem logged_even {env : Env} {view : View} {v0 v1 : Win} {t : Pass} {l0 l1 : List Entry} (h : Logged env view v0 v1 t l0 l1) : Even t (held env false l0) (held env true l1) := by
  have hgap : ∀ n (w : Win), (gap n w).y = w.y + n := fun n w => by rw [gap_eq]
  induction h with
  | start => exact ⟨rfl, fun _ => Nat.le_refl _, fun _ => Nat.le_refl _, fun i e e' h => (by simp [held] at h)⟩
  | @add0 b1 w0 w1 w c l0 l1 it rest ls _ ha hw ih =>
    have hy := hw.y
    have hadd := hw.added.symm.trans ha
    rw [show held env false (l0 ++ [⟨it, w0.y, ls⟩]) = held env false l0 from held_add hadd]
    have := ih.y
    dsimp only at this
    exact ⟨by rw [hgap]; dsimp only; omega, fun _ => ih.busy0 rfl, ih.busy1, ih.same⟩
  | @add1 b0 w0 w1 w c l0 l1 it rest ls _ hna ha hw ih =>
    have hy := hw.y
    have hadd := hw.added.symm.trans ha
    rw [show held env true (l1 ++ [⟨it, w1.y, ls⟩]) = held env true l1 from held_add hadd]
    have := ih.y
    dsimp only at this
    exact ⟨by rw [hgap]; dsimp only; omega, ih.busy0, fun _ => ih.busy1 rfl, ih.same⟩
  | @both w0 w1 w w' c c' l0 l1 it it' rest rest' ls ls' _ ha ha' hw hw' ih =>
    have hadd := hw.added.symm.trans ha
    have hadd' := hw'.added.symm.trans ha'
    rw [show held env false (l0 ++ [⟨it, w0.y, ls⟩]) = held env false l0 ++ [⟨it, w0.y, ls⟩] from held_both hadd,
      show held env true (l1 ++ [⟨it', w1.y, ls'⟩]) = held env true l1 ++ [⟨it', w1.y, ls'⟩] from held_both hadd']
    have h0 := ih.busy0 rfl
    have h1 := ih.busy1 rfl
    have hy := ih.y
    dsimp only at hy
    refine ⟨by dsimp only; omega, fun _ => ?_, fun _ => ?_, ?_⟩
    · simp only [List.length_append, List.length_singleton]; omega
    · simp only [List.length_append, List.length_singleton]; omega
    · intro i e e' he he'
      rw [List.getElem?_append] at he he'
      split at he
      · next hi =>
        rw [if_pos (by omega)] at he'
        exact ih.same i e e' he he'
      · next hi =>
        rw [if_neg (by omega)] at he'
        have hz : i - (held env false l0).length = 0 := by
          have := (List.getElem?_eq_some_iff.mp he).1
          simp at this
          omega
        rw [hz] at he
        have hz' : i - (held env true l1).length = 0 := by omega
        rw [hz'] at he'
        cases he
        cases he'
        exact hy
  | @only0 w0 w1 w c l0 l1 it rest ls _ ha hw ih =>
    have hadd := hw.added.symm.trans ha
    rw [show held env false (l0 ++ [⟨it, w0.y, ls⟩]) = held env false l0 ++ [⟨it, w0.y, ls⟩] from held_both hadd]
    have h0 := ih.busy0 rfl
    have hy := ih.y
    dsimp only at hy
    refine ⟨by dsimp only; omega, fun _ => ?_, fun h => (by cases h), ?_⟩
    · simp only [List.length_append, List.length_singleton]; omega
    · intro i e e' he he'
      have hi := (List.getElem?_eq_some_iff.mp he').1
      rw [List.getElem?_append_left (by omega)] at he
      exact ih.same i e e' he he'
  | @only1 w0 w1 w c l0 l1 it rest ls _ ha hw ih =>
    have hadd := hw.added.symm.trans ha
    rw [show held env true (l1 ++ [⟨it, w1.y, ls⟩]) = held env true l1 ++ [⟨it, w1.y, ls⟩] from held_both hadd]
    have h0 := ih.busy1 rfl
    have hy := ih.y
    dsimp only at hy
    refine ⟨by dsimp only; omega, fun h => (by cases h), fun _ => ?_, ?_⟩
    · simp only [List.length_append, List.length_singleton]; omega
    · intro i e e' he he'
      have hi := (List.getElem?_eq_some_iff.mp he).1
      rw [List.getElem?_append_left (by omega)] at he'
      exact ih.same i e e' he he'

/-- Where the texts of an item are. -/
def Placed (env : Env) (view : View) (side : Bool) (e : Entry) : Prop :=
  ∀ b ∈ e.ls, (b.1.who = ptr side e.it.path ∧ b.1.closing = e.it.closing ∧ b.2 = e.y) ∨
    (e.it.closing = false ∧ b.1.who = ptr side (e.it.path ++ [0]) ∧ b.1.closing = false ∧ ∃ k v, (Elem.value (env.root side)).at e.it.path = some (.entry k v) ∧
      v.isContainer = true ∧ view.collapsed.contains (ptr side (e.it.path ++ [0])) = false ∧ isEmptyJ v = false ∧
      (b.2 = e.y + 1 ∨ b.2 = e.y + getNbLines (env.len k + e.it.col) (less view.width 4)))

theorem place_one {height sc y : Nat} {a : Print} {b : Print × Nat} (h : b ∈ putLines height sc y [a]) : b = (a, y) := by
  unfold putLines at h
  split at h
  · cases h
  · simpa using h

theorem placed {env : Env} {view : View} {side : Bool} {w w' : Win} {c : Bool} {it : Item} {rest : List Item} {ls : List (Print × Nat)}
    (hw : Wrote env view side w it rest w' c ls) : Placed env view side ⟨it, w.y, ls⟩ := by
  intro b hb
  dsimp only at hb ⊢
  rw [hw.exactly] at hb
  unfold Split.prints at hb
  dsimp only at hb
  cases hcl : it.closing with
  | true =>
    rw [hcl] at hb
    simp only [if_true] at hb
    cases place_one hb
    exact .inl ⟨rfl, rfl, rfl⟩
  | false =>
    rw [hcl] at hb
    simp only [Bool.false_eq_true, if_false] at hb
    cases he : (Elem.value (env.root side)).at it.path with
    | none => rw [he] at hb; simp [putLines] at hb
    | some e =>
      rw [he] at hb
      cases e with
      | value v =>
        dsimp only at hb
        split at hb
        · split at hb
          · cases place_one hb; exact .inl ⟨rfl, rfl, rfl⟩
          · cases place_one hb; exact .inl ⟨rfl, rfl, rfl⟩
        · cases place_one hb; exact .inl ⟨rfl, rfl, rfl⟩
      | entry k v =>
        dsimp only at hb
        split at hb
        · cases place_one hb; exact .inl ⟨rfl, rfl, rfl⟩
        · next h1 =>
          split at hb
          · cases place_one hb; exact .inl ⟨rfl, rfl, rfl⟩
          · next h2 =>
            split at hb
            · cases place_one hb; exact .inl ⟨rfl, rfl, rfl⟩
            · next h3 =>
              have h2 : v.isContainer = true := by simpa using h2
              rw [h2, Bool.true_and, Bool.not_eq_true] at h1
              unfold putLines at hb
              split at hb
              · cases place_one hb
                exact .inr ⟨rfl, rfl, rfl, k, v, rfl, h2, h1, by simpa using h3, .inl rfl⟩
              · rcases List.mem_cons.mp hb with rfl | hb
                · exact .inl ⟨rfl, rfl, rfl⟩
                · split at hb
                  · cases hb
                  · cases place_one hb
                    exact .inr ⟨rfl, rfl, rfl, k, v, rfl, h2, h1, by simpa using h3, .inr rfl⟩

theorem logged_placed {env : Env} {view : View} {v0 v1 : Win} {t : Pass} {l0 l1 : List Entry} (h : Logged env view v0 v1 t l0 l1) :
    (∀ e ∈ l0, Placed env view false e) ∧ ∀ e ∈ l1, Placed env view true e := by
  have := h.win (fun side _ _ l => ∀ e ∈ l, Placed env view side e) (fun e he => (by cases he)) (fun e he => (by cases he)) (fun _ _ _ _ _ _ _ _ hp => hp)
    (fun side w w' c l it rest ls hw hp e he => by
      rcases List.mem_append.mp he with he | he
      · exact hp e he
      · rw [List.mem_singleton.mp he]
        exact placed hw)
  exact this

theorem apart_index {l : List Item} (h : l.Pairwise Apart) {i j : Nat} {x y : Item} (hi : l[i]? = some x) (hj : l[j]? = some y) (hp : x.path = y.path) (hc : x.closing = y.closing) :
    i = j := by
  obtain ⟨hi', rfl⟩ := List.getElem?_eq_some_iff.mp hi
  obtain ⟨hj', rfl⟩ := List.getElem?_eq_some_iff.mp hj
  rw [List.pairwise_iff_getElem] at h
  rcases Nat.lt_trichotomy i j with hlt | heq | hlt
  · rcases h i j hi' hj' hlt with h | h
    · exact absurd hp h
    · exact absurd hc h
  · exact heq
  · rcases h j i hj' hi' hlt with h | h
    · exact absurd hp.symm h
    · exact absurd hc.symm h

theorem held_items (env : Env) (side : Bool) (l : List Entry) : (held env side l).map (·.it) = keep (has env side) (l.map (·.it)) := by
  unfold held keep
  rw [List.filter_map]
  rfl

theorem held_index {env : Env} {side : Bool} {all : List Item} {l : List Entry} {more : List Item} (h : all = l.map (·.it) ++ more) {e : Entry} (he : e ∈ l)
    (hh : has env side e.it.path = true) : ∃ i : Nat, (held env side l)[i]? = some e ∧ (keep (has env side) all)[i]? = some e.it := by
  have hm : e ∈ held env side l := List.mem_filter.mpr ⟨he, hh⟩
  obtain ⟨i, hi⟩ := List.mem_iff_getElem?.mp hm
  refine ⟨i, hi, ?_⟩
  rw [h, keep_append, ← held_items, List.getElem?_append_left, List.getElem?_map, hi]
  · rfl
  · rw [List.length_map]; exact (List.getElem?_eq_some_iff.mp hi).1

/-- Two entries facing each other are on the same line. -/
theorem facing_y {R : Path → Path → Prop} {a b : Json} {c0 c1 : Path → Bool} {env : Env} (hm : Match R a b c0 c1 (has env false) (has env true)) {t : Pass}
    {l0 l1 : List Entry} (hev : Even t (held env false l0) (held env true l1)) {m0 m1 : List Item} (h0 : itemsAll c0 a = l0.map (·.it) ++ m0) (h1 : itemsAll c1 b = l1.map (·.it) ++ m1)
    {e0 e1 : Entry} (he0 : e0 ∈ l0) (he1 : e1 ∈ l1) (hR : R e0.it.path e1.it.path) (hc : e0.it.closing = e1.it.closing) : e0.y = e1.y ∧ e0.it.col = e1.it.col := by
  obtain ⟨i, hi, hi'⟩ := held_index h0 he0 ((hm.left _).mpr ⟨_, hR⟩)
  obtain ⟨j, hj, hj'⟩ := held_index h1 he1 ((hm.right _).mpr ⟨_, hR⟩)
  have hlev := level_all hm
  have hlt : i < (keep (has env true) (itemsAll c1 b)).length := by
    rw [← hlev.length]
    exact (List.getElem?_eq_some_iff.mp hi').1
  have hf := hlev.get i _ _ hi' (List.getElem?_eq_getElem hlt)
  have hij : i = j := by
    refine apart_index ((items_apart c1 b).sublist List.filter_sublist) (List.getElem?_eq_getElem hlt) hj' ?_ ?_
    · exact hm.tree.left_unique hf.1 hR
    · exact hf.2.1.symm.trans hc
  subst hij
  refine ⟨hev.same i e0 e1 hi hj, ?_⟩
  have : some ((keep (has env true) (itemsAll c1 b))[i]) = some e1.it := (List.getElem?_eq_getElem hlt).symm.trans hj'
  rw [hf.2.2, Option.some.inj this]


/-- An item that is not a closing bracket is the root or an element of a container. -/
def Lead (root : Json) (it : Item) : Prop :=
  it.closing = false → it.path = [] ∨ ∃ p i e, it.path = p ++ [i] ∧ (Elem.value root).at p = some e ∧ e.isContainer = true

theorem below_lead (root : Json) (n : Nat) : ∀ (e : Elem), sizeOf e ≤ n → ∀ (c : Path → Bool) (p : Path) (x : Nat), (Elem.value root).at p = some e →
    ∀ it ∈ below c p x e, Lead root it := by
  induction n with
  | zero => intro e he; cases e <;> simp at he
  | succ n ih =>
    intro e he c p x hp it hit
    have hkids : ∀ (e' : Elem), sizeOf e' ≤ n + 1 → ∀ (m i y : Nat) (p : Path), (Elem.value root).at p = some e' → e'.isContainer = true → e'.kids.length - i ≤ m →
        it ∈ kidsFrom c p i y e' → Lead root it := by
      intro e' he' m
      induction m with
      | zero =>
        intro i y p hp hc hm h
        rw [kidsFrom_end (List.getElem?_eq_none (by omega))] at h
        cases h
      | succ m ihm =>
        intro i y p hp hc hm h
        cases hk : e'.kids[i]? with
        | none => rw [kidsFrom_end hk] at h; cases h
        | some k =>
          have hsz := kids_size hk
          rw [kidsFrom_next hc hk] at h
          rcases List.mem_cons.mp h with rfl | h
          · exact fun _ => .inr ⟨p, i, e', rfl, hp, hc⟩
          · rcases List.mem_append.mp h with h | h
            · exact ih k (by omega) c _ y (by rw [at_child hp, hk]) it h
            · exact ihm (i + 1) y p hp hc (by omega) h
    have hval : ∀ v : Json, sizeOf (Elem.value v) ≤ n + 1 → ∀ p, (Elem.value root).at p = some (.value v) → it ∈ itemsBelow c p x v → Lead root it := by
      intro v hv p hp h
      cases hc : v.isContainer with
      | false => rw [below_leaf hc] at h; cases h
      | true =>
        rw [below_open hc] at h
        split at h
        · cases h
        · rcases List.mem_append.mp h with h | h
          · exact hkids (.value v) hv _ 0 _ p hp (by cases v <;> first | rfl | cases hc) (Nat.le_refl _) h
          · rw [List.mem_singleton.mp h]
            intro h
            cases h
    cases e with
    | value v => exact hval v he p hp hit
    | entry k v =>
      rw [below] at hit
      split at hit
      · cases hit
      · exact hval v (by cases k <;> simp at he ⊢ <;> omega) _ (by rw [at_child hp]; rfl) hit

theorem items_lead (c : Path → Bool) (root : Json) : ∀ it ∈ itemsAll c root, Lead root it := by
  intro it h
  rcases List.mem_cons.mp h with rfl | h
  · exact fun _ => .inl rfl
  · exact below_lead root _ (.value root) (Nat.le_refl _) c [] 2 rfl it h

/-- The items and the lines of a document in a window. -/
structure Lines (env : Env) (view : View) (side : Bool) (w : Win) (l : List Entry) : Prop where
  below : ∀ e ∈ l, e.y < w.y
  at_ : ∀ e ∈ l, ∀ b ∈ e.ls, b.1.who = ptr side (e.it.path ++ [0]) → b.1.closing = false → e.it.closing = false → ∀ k v, (Elem.value (env.root side)).at e.it.path = some (.entry k v) →
    b.2 = if e.y ≤ w.scroll then e.y + 1 else e.y + getNbLines (env.len k + e.it.col) (less view.width 4)

theorem ptr_ne (side : Bool) (p : Path) (i : Nat) : ptr side p ≠ ptr side (p ++ [i]) := by
  intro h
  have : p = p ++ [i] := by cases side <;> (unfold ptr at h; simpa using h)
  have := congrArg List.length this
  simp at this

theorem wrote_lines {env : Env} {view : View} {side : Bool} {w w' : Win} {c : Bool} {it : Item} {rest : List Item} {ls : List (Print × Nat)}
    (hw : Wrote env view side w it rest w' c ls) : ∀ b ∈ ls, b.1.who = ptr side (it.path ++ [0]) → b.1.closing = false → it.closing = false →
    ∀ k v, (Elem.value (env.root side)).at it.path = some (.entry k v) →
    b.2 = if w.y ≤ w'.scroll then w.y + 1 else w.y + getNbLines (env.len k + it.col) (less view.width 4) := by
  intro b hb hwho hcl hit k v he
  rw [hw.exactly] at hb
  unfold Split.prints at hb
  dsimp only at hb
  rw [hit, he] at hb
  simp only [Bool.false_eq_true, if_false] at hb
  have hne := ptr_ne side it.path 0
  split at hb
  · cases place_one hb; exact absurd hwho hne
  · split at hb
    · cases place_one hb; exact absurd hwho hne
    · split at hb
      · cases place_one hb; exact absurd hwho hne
      · unfold putLines at hb
        split at hb
        · next h => cases place_one hb; rw [if_pos h]
        · next h =>
          rw [if_neg h]
          rcases List.mem_cons.mp hb with rfl | hb
          · exact absurd hwho hne
          · split at hb
            · cases hb
            · cases place_one hb
              rfl

theorem logged_lines {env : Env} {view : View} {v0 v1 : Win} {t : Pass} {l0 l1 : List Entry} (h : Logged env view v0 v1 t l0 l1) :
    Lines env view false t.w0 l0 ∧ Lines env view true t.w1 l1 := by
  refine h.win (fun side _ w l => Lines env view side w l) ⟨fun e he => (by cases he), fun e he => (by cases he)⟩ ⟨fun e he => (by cases he), fun e he => (by cases he)⟩ ?_ ?_
  · intro side b w l y m cs hy hp
    exact ⟨fun e he => Nat.lt_of_lt_of_le (hp.below e he) hy, hp.at_⟩
  · intro side w w' c l it rest ls hw hp
    have hy := hw.y
    refine ⟨fun e he => ?_, fun e he => ?_⟩
    · rcases List.mem_append.mp he with he | he
      · have := hp.below e he; omega
      · rw [List.mem_singleton.mp he]; exact hy
    · rcases List.mem_append.mp he with he | he
      · intro b hb h1 h2 h3 k v h4
        rw [hp.at_ e he b hb h1 h2 h3 k v h4]
        have hlt := hp.below e he
        have hsc := hw.scroll
        split at hsc
        · next hc =>
          simp only [Bool.and_eq_true, decide_eq_true_iff] at hc
          have := hc.2
          rw [hsc, if_pos (by omega), if_pos (by omega)]
        · rw [hsc]
      · rw [List.mem_singleton.mp he]
        exact wrote_lines hw

end Verif.Lemmas.Split
