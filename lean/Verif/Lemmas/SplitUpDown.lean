import Verif.Lemmas.SplitSel
import Verif.Spec.SplitMoves
import Verif.Lemmas.Redraw
/-!
# What Up and Down are after a drawing of the diff view
-/
namespace Verif.Lemmas.Split
open Verif.Model Verif.Model.Diff Verif.Model.Split Verif.Spec Verif.Spec.SplitView Verif.Spec.SplitMoves
open Verif.Model.Tui (isEmptyJ)

/-- The elements of a list of turns that are no closing brackets. -/
def opened (l : List Item) : List Path := (l.filter fun it => !it.closing).map (·.path)

theorem opened_append (a b : List Item) : opened (a ++ b) = opened a ++ opened b := by
  simp [opened]

mutual
theorem opened_below (c : Path → Bool) : ∀ (v : Json) (p : Path) (x : Nat), opened (itemsBelow c p x v) = inside c p v
  | .arr xs, p, x => by
    rw [itemsBelow, inside]
    split
    · rfl
    · rw [opened_append, opened_items c xs p 0 (x + 4)]
      simp [opened]
  | .obj es, p, x => by
    rw [itemsBelow, inside]
    split
    · rfl
    · rw [opened_append, opened_entries c es p 0 (x + 4)]
      simp [opened]
  | .null, p, x => rfl
  | .bool _, p, x => rfl
  | .int _, p, x => rfl
  | .long _, p, x => rfl
  | .dbl _, p, x => rfl
  | .str _, p, x => rfl
theorem opened_items (c : Path → Bool) : ∀ (xs : List Json) (p : Path) (i x : Nat), opened (itemsItems c p i x xs) = insideItems c p i xs
  | [], p, i, x => rfl
  | v :: xs, p, i, x => by
    rw [itemsItems, insideItems]
    have h1 := opened_below c v (p ++ [i]) x
    have h2 := opened_items c xs p (i + 1) x
    show (p ++ [i]) :: opened (itemsBelow c (p ++ [i]) x v ++ itemsItems c p (i + 1) x xs) = _
    rw [opened_append, h1, h2]
    rfl
theorem opened_entries (c : Path → Bool) : ∀ (es : List (Bytes × Json)) (p : Path) (i x : Nat), opened (itemsEntries c p i x es) = insideEntries c p i es
  | [], p, i, x => rfl
  | (k, v) :: es, p, i, x => by
    rw [itemsEntries, insideEntries]
    have h1 := opened_below c v (p ++ [i] ++ [0]) x
    have h2 := opened_entries c es p (i + 1) x
    show (p ++ [i]) :: opened ((if isEmptyJ v then [] else itemsBelow c (p ++ [i] ++ [0]) x v) ++ itemsEntries c p (i + 1) x es) = _
    rw [opened_append, h2]
    have h3 : opened (if isEmptyJ v = true then [] else itemsBelow c (p ++ [i] ++ [0]) x v) = inside c (p ++ [i] ++ [0]) v := by
      split
      · next he =>
        cases v with
        | arr xs => cases xs with
          | nil => rw [inside]; split <;> rfl
          | cons a l => cases he
        | obj xs => cases xs with
          | nil => rw [inside]; split <;> rfl
          | cons a l => cases he
        | _ => rfl
      · exact h1
    rw [h3]
    rfl
end

/-- The turns are those of the displayed items, and closing brackets. -/
theorem opened_all (c : Path → Bool) (root : Json) : opened (itemsAll c root) = visible c root := by
  show [] :: opened (itemsBelow c [] 2 root) = _
  rw [opened_below]
  rfl

/-- The pointers for Up and Down while a window is drawn: `O` are the items that were drawn. -/
structure Points (last : Option Ptr) (side : Bool) (w : Win) (O : List Path) : Prop where
  before : w.found = false → (∀ p ∈ O, last ≠ some (ptr side p)) ∧ w.up = O.getLast?.map (ptr side) ∧ w.down = none
  after : w.found = true → ∃ A p B, O = A ++ p :: B ∧ (∀ q ∈ A, last ≠ some (ptr side q)) ∧ last = some (ptr side p) ∧ w.up = A.getLast?.map (ptr side) ∧
    w.down = B.head?.map (ptr side)

theorem points_before {last : Option Ptr} {side : Bool} {w : Win} {O : List Path} {it : Item} {st : List (Nat × Path)} (hl : w.last = last)
    (h : Points last side w O) : Points last side (before side it st w) (O ++ opened [it]) := by
  unfold before
  cases hc : it.closing with
  | true =>
    simp only [if_true]
    have : opened [it] = [] := by simp [opened, hc]
    rw [this, List.append_nil]
    exact ⟨h.before, h.after⟩
  | false =>
    simp only [Bool.false_eq_true, if_false]
    have ho : opened [it] = [it.path] := by simp [opened, hc]
    rw [ho]
    unfold checkSelection
    cases hf : w.found with
    | false =>
      obtain ⟨h1, h2, h3⟩ := h.before hf
      simp only [Bool.not_false, if_true]
      by_cases hs : w.last = some (ptr side it.path)
      · rw [if_pos hs]
        refine ⟨fun h => (by cases h), fun _ => ⟨O, it.path, [], rfl, h1, hl ▸ hs, h2, h3⟩⟩
      · rw [if_neg hs]
        refine ⟨fun _ => ⟨?_, ?_, h3⟩, fun h => ?_⟩
        · intro p hp
          rcases List.mem_append.mp hp with hp | hp
          · exact h1 p hp
          · rw [List.mem_singleton] at hp
            rw [hp, ← hl]
            exact hs
        · simp
        · exact absurd h Bool.false_ne_true
    | true =>
      obtain ⟨A, p, B, h1, h2, h3, h4, h5⟩ := h.after hf
      simp only [Bool.not_true, Bool.false_eq_true, if_false]
      by_cases hd : w.down = none
      · rw [if_pos hd]
        refine ⟨fun h => absurd h.symm Bool.false_ne_true, fun _ => ?_⟩
        have hB : B = [] := by
          rw [hd] at h5
          cases B with
          | nil => rfl
          | cons b B => cases h5
        subst hB
        exact ⟨A, p, [it.path], by rw [h1]; simp, h2, h3, h4, rfl⟩
      · rw [if_neg hd]
        refine ⟨fun h => absurd h.symm Bool.false_ne_true, fun _ => ?_⟩
        refine ⟨A, p, B ++ [it.path], by rw [h1]; simp, h2, h3, h4, ?_⟩
        refine Eq.trans (b := w.down) rfl ?_
        rw [h5]
        cases B with
        | nil => rw [h5] at hd; exact absurd rfl hd
        | cons b B => rfl

/-- The pointers of a window while it is drawn, and when that is done. -/
structure Aims (env : Env) (view : View) (v : Win) (side busy : Bool) (w : Win) (l : List Entry) : Prop where
  last : w.last = v.last
  sel : w.sel = v.sel
  going : busy = true → Points v.last side w (opened (l.map (·.it)))
  ended : busy = false → ∃ w2 r w3, Points v.last side w2 (opened (l.map (·.it))) ∧ w2.last = v.last ∧ w2.sel = v.sel ∧ complete env view r w2 = .ok w3 true ∧
    w.up = w3.up ∧ w.down = w3.down
  drawn : ∀ e ∈ l, ∀ b ∈ e.ls, b.1 ∈ prints env view side e.it

theorem aims_reset (env : Env) (view : View) (v : Win) (side : Bool) : Aims env view v side true v.reset [] :=
  ⟨rfl, rfl, fun _ => ⟨fun _ => ⟨by simp [opened], rfl, rfl⟩, fun h => (by cases h)⟩, fun h => (by cases h), fun e he => (by cases he)⟩

theorem aims_same {env : Env} {view : View} {v : Win} {side busy : Bool} {w : Win} {l : List Entry} {y : Nat} {m : List Mark} {cs : List Call}
    (h : Aims env view v side busy w l) : Aims env view v side busy { w with y := y, marks := m, calls := cs } l :=
  ⟨h.last, h.sel, fun hb => ⟨(h.going hb).before, (h.going hb).after⟩, h.ended, h.drawn⟩

theorem aims_one {env : Env} {view : View} {v : Win} {side : Bool} {w w' : Win} {c : Bool} {l : List Entry} {it : Item} {rest : List Item} {ls : List (Print × Nat)}
    (hw : Wrote env view side w it rest w' c ls) (h : Aims env view v side true w l) : Aims env view v side (!c) w' (l ++ [⟨it, w.y, ls⟩]) := by
  obtain ⟨st, w2, hp⟩ := hw.pointing
  have hb := points_before (it := it) (st := st) h.last (h.going rfl)
  have ho : opened ((l ++ [(⟨it, w.y, ls⟩ : Entry)]).map (·.it)) = opened (l.map (·.it)) ++ opened [it] := by
    rw [List.map_append, opened_append]
    rfl
  have h2 : Points v.last side w2 (opened ((l ++ [(⟨it, w.y, ls⟩ : Entry)]).map (·.it))) := by
    rw [ho]
    refine ⟨fun hf => ?_, fun hf => ?_⟩
    · rw [hp.up, hp.down]
      exact hb.before (hp.found ▸ hf)
    · rw [hp.up, hp.down]
      exact hb.after (hp.found ▸ hf)
  refine ⟨hw.last.trans h.last, hw.sel.trans h.sel, fun hc => ?_, fun hc => ?_, fun e he b hb => ?_⟩
  · have hc : c = false := by simpa using hc
    rw [hp.next hc]
    exact h2
  · have hc : c = true := by simpa using hc
    obtain ⟨r, hr⟩ := hp.done hc
    exact ⟨w2, r, w', h2, hp.last.trans h.last, hp.sel.trans h.sel, hr, rfl, rfl⟩
  · rcases List.mem_append.mp he with he | he
    · exact h.drawn e he b hb
    · rw [List.mem_singleton] at he
      subst he
      obtain ⟨sk, lf, h1, _⟩ := hw.prints
      rw [h1]
      exact List.mem_append_left _ (List.mem_append_right _ (List.mem_map_of_mem hb))

theorem logged_aims {env : Env} {view : View} {v0 v1 : Win} {a b : Win} {l0 l1 : List Entry} (h : Logged env view v0 v1 ⟨false, false, a, b⟩ l0 l1) :
    Aims env view v0 false false a l0 ∧ Aims env view v1 true false b l1 :=
  h.win (fun side b w l => Aims env view (if side then v1 else v0) side b w l) (aims_reset ..) (aims_reset ..)
    (fun _ _ _ _ _ _ _ _ hp => aims_same hp) (fun _ _ _ _ _ _ _ _ hw hp => aims_one hw hp)

/-- What a complete window aims at, with the selection at a displayed item. -/
theorem aims_pointers {env : Env} {view : View} {v : Win} {side : Bool} {w : Win} {l : List Entry} {A B : List Path} {p : Path}
    (hsh : Shows env view v side false w l) (ha : Aims env view v side false w l) (hl : w.last = some (ptr side p)) (hsel : w.sel = w.last)
    (hvis : visible (cOf view side) (env.root side) = A ++ p :: B) :
    w.up = some (ptr side (A.getLast?.getD p)) ∧
    ((∃ q B', B = q :: B' ∧ w.down = some (ptr side q)) ∨
      (∀ q ∈ B, ¬ OnScreen w (ptr side q)) ∧ w.down = some ((firstChild env view w).getD ((env.findNext (ptr side p)).getD (ptr side p)))) := by
  have hv : v.last = some (ptr side p) := by rw [← ha.last]; exact hl
  obtain ⟨more, h1, -, h3⟩ := hsh.items
  have hall := opened_all (cOf view side) (env.root side)
  rw [h1, opened_append, hvis] at hall
  obtain ⟨w2, r, w3, hp, hl2, hs2, hcomp, hup, hdown⟩ := ha.ended rfl
  have hmem : p ∈ opened (l.map (·.it)) := by
    have hsel : (∃ e ∈ l, isSel v.last side e.it = true) → p ∈ opened (l.map (·.it)) := by
      rintro ⟨e, he, hs⟩
      unfold isSel at hs
      simp only [Bool.and_eq_true, Bool.not_eq_true', decide_eq_true_eq] at hs
      have : e.it.path = p := by
        have h := hs.2
        rw [hv] at h
        have h := Option.some.inj h
        cases side <;> (unfold ptr at h; simp at h; exact h.symm)
      rw [← this]
      unfold opened
      exact List.mem_map_of_mem (List.mem_filter.mpr ⟨List.mem_map_of_mem he, by rw [hs.1]; rfl⟩)
    rcases h3 rfl with hm | hf
    · subst hm
      have hpm : p ∈ opened (l.map (·.it)) ++ opened [] := by rw [hall]; simp
      simpa [opened] using hpm
    · exact hsel (hsh.found.mp hf)
  have hf2 : w2.found = true := by
    cases hf : w2.found with
    | true => rfl
    | false => exact absurd hv ((hp.before hf).1 p hmem)
  obtain ⟨A', p', B', g1, g2, g3, g4, g5⟩ := hp.after hf2
  have hpp : p' = p := by
    rw [hv] at g3
    have h := Option.some.inj g3
    cases side <;> (unfold ptr at h; simp at h; exact h.symm)
  subst hpp
  rw [g1] at hall
  have hA' : p' ∉ A' := fun h => g2 p' h hv
  have hA : p' ∉ A := Verif.Lemmas.visible_nodup _ _ hvis
  have hsplit := Verif.Lemmas.split_unique (a := A') (b := B' ++ opened more) (a' := A) (b' := B) (by rw [← hall]; simp) hA' hA
  obtain ⟨rfl, hB⟩ := hsplit
  have hscr : B' = [] → ∀ q ∈ B, ¬ OnScreen w (ptr side q) := by
    rintro rfl q hq ⟨c, hc, hc1, hc2⟩
    rw [hsh.screen, List.mem_flatMap] at hc
    obtain ⟨e, he, hc⟩ := hc
    obtain ⟨b, hb, rfl⟩ := List.mem_map.mp hc
    have hc1 : b.1.who = ptr side q := hc1
    have hc2 : b.1.closing = false := hc2
    have hqv : q ∈ visible (cOf view side) (env.root side) := by rw [hvis]; simp [hq]
    rcases prints_who (ha.drawn e he b hb) with ⟨k1, k2⟩ | ⟨r, k1, k2⟩
    · have hqp : e.it.path = q := by
        rw [hc1] at k1
        cases side <;> (unfold ptr at k1; simp at k1; exact k1.symm)
      have : q ∈ opened (l.map (·.it)) := by
        rw [← hqp]
        unfold opened
        refine List.mem_map_of_mem (List.mem_filter.mpr ⟨List.mem_map_of_mem he, ?_⟩)
        rw [← k2, hc2]
        rfl
      rw [g1] at this
      have hs := Verif.Lemmas.visible_sorted (cOf view side) (env.root side)
      rw [hvis, List.pairwise_append] at hs
      rcases List.mem_append.mp this with h | h
      · exact Verif.Lemmas.path_lt_irrefl _ (hs.2.2 q h q (List.mem_cons_of_mem _ hq))
      · rw [List.mem_singleton] at h
        subst h
        exact Verif.Lemmas.path_lt_irrefl _ ((List.pairwise_cons.mp hs.2.1).1 q hq)
    · rw [hc1] at k1
      rcases (Verif.Lemmas.mem_visible _ _ _).mp hqv with ⟨_, hq0 | ⟨cc, hcc, hcont⟩, _⟩
      · subst hq0
        cases side <;> cases k1
      · have : r = ptr side q.dropLast := by
          cases side <;> (unfold ptr parent at k1; simp at k1; rw [← k1.2]; rfl)
        rw [this] at k2
        unfold Env.isEntry at k2
        rw [elem_ptr] at k2
        unfold elem at hcc
        rw [hcc] at k2
        cases cc with
        | entry k v => cases hcont
        | value v => cases k2
  rw [hup, hdown]
  unfold complete at hcomp
  simp only at hcomp
  have hup2 : (if w2.up.isNone then w2.last else w2.up) = some (ptr side (A'.getLast?.getD p')) := by
    rw [g4, hl2, hv]
    cases A'.getLast? <;> rfl
  cases hd : w2.down with
  | some d =>
    rw [hd] at hcomp
    cases hcomp
    refine ⟨hup2, .inl ?_⟩
    cases B' with
    | nil => rw [g5] at hd; cases hd
    | cons q B' =>
      rw [g5] at hd
      exact ⟨q, _, hB.symm, hd.symm⟩
  | none =>
    rw [hd] at hcomp
    have hB' : B' = [] := by
      cases B' with
      | nil => rfl
      | cons q B' => rw [g5] at hd; cases hd
    have hfc : ∀ X : Win, X.sel = w2.sel → firstChild env view X = firstChild env view w := by
      intro X hX
      unfold firstChild
      rw [hX, hs2, ← ha.sel]
    dsimp only at hcomp
    rw [hfc] at hcomp
    rotate_left
    · rfl
    cases hc : firstChild env view w with
    | some c =>
      rw [hc] at hcomp
      cases hcomp
      exact ⟨hup2, .inr ⟨hscr hB', rfl⟩⟩
    | none =>
      rw [hc] at hcomp
      dsimp only at hcomp
      rw [show w2.last = some (ptr side p') from hl2.trans hv] at hcomp
      cases hcomp
      exact ⟨(by rw [hl2, hv] at hup2; exact hup2), .inr ⟨hscr hB', rfl⟩⟩

end Verif.Lemmas.Split
