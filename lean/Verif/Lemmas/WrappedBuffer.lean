import Verif.Model.WrappedBuffer
import Verif.Spec.BoundedList
/-!
# Lemmas: the ring buffer refines the bounded list
-/
namespace Verif.Lemmas
open Verif.Model Verif.Spec

set_option linter.unusedVariables false
variable {T : Type} {SIZE : Nat}

/-- Structural invariant of every reachable buffer. -/
structure WInv (b : WBuf T SIZE) : Prop where
  len : b.buffer.length = SIZE
  cases : (b.curW = -1 ∧ b.curR = 0) ∨
    (0 ≤ b.curW ∧ b.curW < SIZE ∧ 0 ≤ b.curR ∧ b.curR ≤ SIZE)

/-- Not the state in which `put` wrongly assumes a full buffer. -/
def PutSafe (b : WBuf T SIZE) : Prop := ¬ (b.curW + 1 = (SIZE : Int) ∧ 2 ≤ b.curR ∧ b.curR < SIZE)

theorem length_toString (b : WBuf T SIZE) (h : WInv b) : b.toString.length = b.size := by
  obtain ⟨hl, hc⟩ := h
  unfold WBuf.toString WBuf.size
  grind

theorem size_le (b : WBuf T SIZE) (h : WInv b) : b.size ≤ SIZE := by
  obtain ⟨hl, hc⟩ := h
  unfold WBuf.size
  grind

/-- The contents, as naturals `r`, `w` (next write position). -/
def view (buf : List T) (r w : Nat) : List T :=
  if w = 0 then [] else if r ≥ w then buf.drop r ++ buf.take w else (buf.take w).drop r

theorem toString_eq_view (b : WBuf T SIZE) (h : WInv b) :
    b.toString = view b.buffer b.curR.toNat (b.curW + 1).toNat := by
  obtain ⟨hl, hc⟩ := h
  obtain ⟨buf, r, w, wr⟩ := b
  simp only at *
  rcases hc with ⟨rfl, rfl⟩ | ⟨h0, h1, h2, h3⟩
  · simp [WBuf.toString, WBuf.size, view]
  · obtain ⟨w, rfl⟩ := Int.eq_ofNat_of_zero_le h0
    obtain ⟨r, rfl⟩ := Int.eq_ofNat_of_zero_le h2
    have e1 : ((r:Int)).toNat = r := by omega
    have e2 : ((w:Int)+1).toNat = w+1 := by omega
    simp only [WBuf.toString, WBuf.size, view, e1, e2]
    rw [if_neg (show ¬ ((w:Int) = -1) by omega)]
    rw [if_neg (show ¬ (w+1 = 0) by omega)]
    by_cases hrw : (r:Int) > w
    · rw [if_pos hrw, if_pos (show r ≥ w+1 by omega), if_neg (by omega)]
      by_cases hr : (r:Int) = SIZE
      · have : r = SIZE := by omega
        subst this
        have e4 : ((w:Int) - 0 + 1).toNat = w + 1 := by omega
        have e5 : ((r:Int) - r + w + 1).toNat = w + 1 := by omega
        rw [if_pos rfl, if_pos (by omega), e4, e5]
        have : List.drop r buf = [] := List.drop_eq_nil_of_le (by omega)
        rw [this]
        have e6 : (List.take (w+1) (List.drop (0:Int).toNat buf)).length = w + 1 := by
          rw [List.length_take, List.length_drop]
          have : (0:Int).toNat = 0 := rfl
          omega
        rw [e6]
        simp
      · rw [if_neg hr, if_neg (by omega)]
        simp only [e1]
        congr 1
        congr 1
        rw [List.length_drop]; omega
    · have e4 : ((w:Int) - r + 1).toNat = w + 1 - r := by omega
      rw [if_neg hrw, if_neg (show ¬ r ≥ w+1 by omega), e4, if_neg (show ¬ (w + 1 - r = 0) by omega),
        if_neg (show ¬ ((r:Int) = SIZE) by omega), if_pos (show (w:Int) ≥ r by omega), e1, e4, List.drop_take]
      have e6 : (List.take (w+1-r) (List.drop r buf)).length = w + 1 - r := by
        rw [List.length_take, List.length_drop]; omega
      rw [e6]; simp

theorem put_inv (b : WBuf T SIZE) (x : T) (h : WInv b) (hs : 0 < SIZE) : WInv (b.put x) := by
  obtain ⟨hl, hc⟩ := h
  constructor
  · unfold WBuf.put; grind
  · unfold WBuf.put; grind

theorem pop_inv (b : WBuf T SIZE) (h : WInv b) : WInv b.popBack := by
  obtain ⟨hl, hc⟩ := h
  constructor
  · unfold WBuf.popBack; grind
  · unfold WBuf.popBack WBuf.size; grind

theorem view_length (buf : List T) (r w : Nat) (hw : w ≤ buf.length) (hr : r ≤ buf.length) :
    (view buf r w).length = if w = 0 then 0 else if r ≥ w then buf.length - r + w else w - r := by
  unfold view; split
  · rfl
  · split
    · rw [List.length_append, List.length_drop, List.length_take]; omega
    · rw [List.length_drop, List.length_take]; omega

theorem view_getElem? (buf : List T) (r w i : Nat) (hw : w ≤ buf.length) (hr : r ≤ buf.length) :
    (view buf r w)[i]? = if w = 0 then none else if r ≥ w then
        (if i < buf.length - r then buf[r+i]? else if i - (buf.length - r) < w then buf[i - (buf.length - r)]? else none)
      else if r + i < w then buf[r+i]? else none := by
  unfold view; split
  · rfl
  · split
    · rw [List.getElem?_append, List.length_drop, List.getElem?_drop, List.getElem?_take]
    · rw [List.getElem?_drop, List.getElem?_take]

theorem lastN_getElem? (n i : Nat) (l : List T) : (lastN n l)[i]? = l[l.length - n + i]? := by
  unfold lastN; rw [List.getElem?_drop]

theorem snoc_getElem? (i : Nat) (l : List T) (x : T) :
    (l ++ [x])[i]? = if i < l.length then l[i]? else if i = l.length then some x else none := by
  rw [List.getElem?_append]
  split
  · rfl
  · split
    · subst_vars; simp
    · rw [List.getElem?_eq_none]; simp; omega

theorem set_getElem? (i j : Nat) (l : List T) (x : T) (h : j < l.length) :
    (l.set j x)[i]? = if i = j then some x else l[i]? := by
  rw [List.getElem?_set]
  grind

theorem pop_view_aux (buf : List T) (r w r' w' : Nat)
    (hw : w ≤ buf.length) (hr : r ≤ buf.length) (hr' : r' ≤ buf.length)
    (h : (w = 0 ∧ w' = 0) ∨ (w = r + 1 ∧ w' = 0) ∨ (w = 1 ∧ r = buf.length ∧ w' = 0) ∨
      (2 ≤ w ∧ w' = w - 1 ∧ r' = r ∧ w ≠ r + 1) ∨
      (w = 1 ∧ w' = buf.length ∧ r' = r ∧ 1 ≤ r ∧ r < buf.length)) :
    view buf r' w' = (view buf r w).dropLast := by
  apply List.ext_getElem?
  intro i
  rw [List.getElem?_dropLast, view_length _ _ _ hw hr]
  rcases h with ⟨rfl, rfl⟩ | ⟨rfl, rfl⟩ | ⟨rfl, rfl, rfl⟩ | ⟨h0, rfl, rfl, h1⟩ | ⟨rfl, rfl, rfl, h1, h2⟩
  all_goals
    rw [view_getElem? _ _ _ _ (by omega) (by omega)]
    try rw [view_getElem? _ _ _ _ (by omega) (by omega)]
    repeat' split
  all_goals first
    | rfl
    | omega
    | (congr 1; omega)
    | (exfalso; omega)
    | (rw [List.getElem?_eq_none]; omega)
    | (symm; rw [List.getElem?_eq_none]; omega)
    | skip

theorem pop_toString (b : WBuf T SIZE) (h : WInv b) : b.popBack.toString = b.toString.dropLast := by
  rw [toString_eq_view _ h, toString_eq_view _ (pop_inv b h)]
  obtain ⟨hl, hc⟩ := h
  obtain ⟨buf, r, w, wr⟩ := b
  simp only at *
  subst hl
  unfold WBuf.popBack WBuf.size
  simp only
  repeat' split
  all_goals dsimp only
  all_goals apply pop_view_aux <;> omega

/-! ### Batches -/

theorem skipBlocks_small (n : Nat) (xs : List T) (h : xs.length ≤ SIZE) : WBuf.skipBlocks SIZE n xs = xs := by
  cases n with
  | zero => rfl
  | succ n => unfold WBuf.skipBlocks; rw [if_neg (by omega)]

theorem memcpy_length (buf items : List T) (pos n : Nat) (h : pos + n ≤ buf.length) (h2 : n ≤ items.length) :
    (WBuf.memcpy buf pos items n).length = buf.length := by
  simp [WBuf.memcpy]; omega

theorem memcpy_getElem? (buf items : List T) (pos n i : Nat) (h : pos + n ≤ buf.length) (h2 : n ≤ items.length) :
    (WBuf.memcpy buf pos items n)[i]? = if pos ≤ i ∧ i < pos + n then items[i - pos]? else buf[i]? := by
  unfold WBuf.memcpy
  rw [List.getElem?_append, List.getElem?_append, List.length_append, List.length_take, List.length_take,
    List.getElem?_take, List.getElem?_take, List.getElem?_drop]
  repeat' split
  all_goals first
    | rfl
    | omega
    | (congr 1; omega)

theorem view_zero (buf : List T) (r : Nat) : view buf r 0 = [] := by simp [view]

theorem view_ge (buf : List T) (r w : Nat) (h : 0 < w) (h2 : r ≥ w) : view buf r w = buf.drop r ++ buf.take w := by
  unfold view; rw [if_neg (by omega), if_pos h2]

theorem view_lt (buf : List T) (r w : Nat) (h2 : r < w) : view buf r w = (buf.take w).drop r := by
  unfold view; rw [if_neg (by omega), if_neg (by omega)]

/-- Write effect on the physical cells: `items` goes to the cells from `w` on, wrapping around. -/
def Written (buf buf' items : List T) (w w' : Nat) : Prop :=
  (w + items.length ≤ buf.length ∧ w' = w + items.length ∧
      (∀ i, buf'[i]? = if w ≤ i ∧ i < w + items.length then items[i - w]? else buf[i]?)) ∨
    (w + items.length > buf.length ∧ w' = w + items.length - buf.length ∧
      (∀ i, buf'[i]? = if i < w + items.length - buf.length then items[i + buf.length - w]? else
        if w ≤ i ∧ i < buf.length then items[i - w]? else buf[i]?))

syntax "cells" : tactic
macro_rules
  | `(tactic| cells) => `(tactic|
     (repeat' split
      all_goals first
        | rfl
        | omega
        | (congr 1; omega)
        | (rw [List.getElem?_eq_none]; omega)
        | (symm; rw [List.getElem?_eq_none]; omega)))

theorem putN_empty (buf buf' items : List T) (r' w' : Nat)
    (hk : 0 < items.length) (hk2 : items.length ≤ buf.length) (hl : buf'.length = buf.length)
    (h : Written buf buf' items 0 w') (h3 : r' = 0 ∨ r' = buf.length) :
    view buf' r' w' = items := by
  rcases h with ⟨h4, rfl, h5⟩ | ⟨h4, rfl, h5⟩
  · rcases h3 with rfl | rfl
    · rw [view_lt _ _ _ (by omega)]
      apply List.ext_getElem?; intro i
      rw [List.getElem?_drop, List.getElem?_take, h5]
      cells
    · rw [view_ge _ _ _ (by omega) (by omega)]
      apply List.ext_getElem?; intro i
      rw [List.getElem?_append, List.getElem?_drop, List.length_drop, List.getElem?_take, h5, h5]
      cells
  · omega

theorem putN_straight (buf buf' items : List T) (r w r' w' : Nat)
    (hw : w ≤ buf.length) (hr : r < w)
    (hk : 0 < items.length) (hk2 : items.length ≤ buf.length) (hl : buf'.length = buf.length)
    (h : Written buf buf' items w w')
    (h3 : (w - r + items.length < buf.length ∧ (r' = r ∨ r = 0 ∧ r' = buf.length)) ∨
      (w - r + items.length ≥ buf.length ∧ ((w' = buf.length ∧ (r' = 0 ∨ r' = buf.length)) ∨ (w' < buf.length ∧ r' = w')))) :
    view buf' r' w' = lastN buf.length (view buf r w ++ items) := by
  rw [view_lt _ _ _ hr]
  have e1 : (List.drop r (List.take w buf)).length = w - r := by
    rw [List.length_drop, List.length_take]; omega
  apply List.ext_getElem?; intro i
  rw [lastN_getElem?, List.length_append, List.getElem?_append, e1, List.getElem?_drop, List.getElem?_take]
  rcases h with ⟨h4, rfl, h5⟩ | ⟨h4, rfl, h5⟩
  · by_cases c : r' < w + items.length
    · rw [view_lt _ _ _ c, List.getElem?_drop, List.getElem?_take, h5]; cells
    · rw [view_ge _ _ _ (by omega) (by omega),
        List.getElem?_append, List.getElem?_drop, List.length_drop, List.getElem?_take, h5, h5]
      rcases h3 with ⟨h3, rfl | ⟨rfl, rfl⟩⟩ | ⟨h3, ⟨h6, rfl | rfl⟩ | ⟨h6, rfl⟩⟩ <;> cells
  · by_cases c : r' < w + items.length - buf.length
    · rw [view_lt _ _ _ c, List.getElem?_drop, List.getElem?_take, h5]; cells
    · rw [view_ge _ _ _ (by omega) (by omega),
        List.getElem?_append, List.getElem?_drop, List.length_drop, List.getElem?_take, h5, h5]
      rcases h3 with ⟨h3, rfl | ⟨rfl, rfl⟩⟩ | ⟨h3, ⟨h6, rfl | rfl⟩ | ⟨h6, rfl⟩⟩ <;> cells

theorem putN_wrapped (buf buf' items : List T) (r w r' w' : Nat)
    (hw : 0 < w) (hr : w ≤ r) (hr2 : r ≤ buf.length)
    (hk : 0 < items.length) (hk2 : items.length ≤ buf.length) (hl : buf'.length = buf.length)
    (h : Written buf buf' items w w')
    (h3 : (buf.length - r + w + items.length < buf.length ∧ r' = r) ∨
      (buf.length - r + w + items.length ≥ buf.length ∧ ((w' = buf.length ∧ (r' = 0 ∨ r' = buf.length)) ∨ (w' < buf.length ∧ r' = w')))) :
    view buf' r' w' = lastN buf.length (view buf r w ++ items) := by
  rw [view_ge _ _ _ hw hr]
  have e1 : (List.drop r buf ++ List.take w buf).length = buf.length - r + w := by
    rw [List.length_append, List.length_drop, List.length_take]; omega
  apply List.ext_getElem?; intro i
  rw [lastN_getElem?, List.length_append, List.getElem?_append, e1,
    List.getElem?_append, List.getElem?_drop, List.length_drop, List.getElem?_take]
  rcases h with ⟨h4, rfl, h5⟩ | ⟨h4, rfl, h5⟩
  · by_cases c : r' < w + items.length
    · rw [view_lt _ _ _ c, List.getElem?_drop, List.getElem?_take, h5]
      rcases h3 with ⟨h3, rfl⟩ | ⟨h3, ⟨h6, rfl | rfl⟩ | ⟨h6, rfl⟩⟩ <;> cells
    · rw [view_ge _ _ _ (by omega) (by omega),
        List.getElem?_append, List.getElem?_drop, List.length_drop, List.getElem?_take, h5, h5]
      rcases h3 with ⟨h3, rfl⟩ | ⟨h3, ⟨h6, rfl | rfl⟩ | ⟨h6, rfl⟩⟩ <;> cells
  · by_cases c : r' < w + items.length - buf.length
    · rw [view_lt _ _ _ c, List.getElem?_drop, List.getElem?_take, h5]
      rcases h3 with ⟨h3, rfl⟩ | ⟨h3, ⟨h6, rfl | rfl⟩ | ⟨h6, rfl⟩⟩ <;> cells
    · rw [view_ge _ _ _ (by omega) (by omega),
        List.getElem?_append, List.getElem?_drop, List.length_drop, List.getElem?_take, h5, h5]
      rcases h3 with ⟨h3, rfl⟩ | ⟨h3, ⟨h6, rfl | rfl⟩ | ⟨h6, rfl⟩⟩ <;> cells

/-- All cases of a (possibly wrapping) write. -/
theorem putN_view (buf buf' items : List T) (r w r' w' : Nat)
    (hk : 0 < items.length) (hk2 : items.length ≤ buf.length) (hl : buf'.length = buf.length)
    (h : Written buf buf' items w w')
    (h3 : (w = 0 ∧ r = 0 ∧ (r' = 0 ∨ r' = buf.length)) ∨
      (0 < w ∧ w ≤ buf.length ∧ r < w ∧ w - r + items.length < buf.length ∧ (r' = r ∨ r = 0 ∧ r' = buf.length)) ∨
      (0 < w ∧ w ≤ buf.length ∧ r < w ∧ w - r + items.length ≥ buf.length ∧ ((w' = buf.length ∧ (r' = 0 ∨ r' = buf.length)) ∨ (w' < buf.length ∧ r' = w'))) ∨
      (0 < w ∧ w ≤ r ∧ r ≤ buf.length ∧ buf.length - r + w + items.length < buf.length ∧ r' = r) ∨
      (0 < w ∧ w ≤ r ∧ r ≤ buf.length ∧ buf.length - r + w + items.length ≥ buf.length ∧ ((w' = buf.length ∧ (r' = 0 ∨ r' = buf.length)) ∨ (w' < buf.length ∧ r' = w')))) :
    view buf' r' w' = lastN buf.length (view buf r w ++ items) := by
  rcases h3 with ⟨rfl, rfl, h3⟩ | ⟨h0, h1, h2, h3⟩ | ⟨h0, h1, h2, h3⟩ | ⟨h0, h1, h2, h3⟩ | ⟨h0, h1, h2, h3⟩
  · rw [putN_empty buf buf' items r' w' hk hk2 hl h h3, view_zero, lastN]
    simp; rw [Nat.sub_eq_zero_of_le hk2]; rfl
  · exact putN_straight buf buf' items r w r' w' h1 h2 hk hk2 hl h (Or.inl h3)
  · exact putN_straight buf buf' items r w r' w' h1 h2 hk hk2 hl h (Or.inr h3)
  · exact putN_wrapped buf buf' items r w r' w' h0 h1 h2 hk hk2 hl h (Or.inl h3)
  · exact putN_wrapped buf buf' items r w r' w' h0 h1 h2 hk hk2 hl h (Or.inr h3)

theorem put_view (b : WBuf T SIZE) (x : T) (h : WInv b) (hs : 0 < SIZE) (hp : PutSafe b) :
    view (b.put x).buffer (b.put x).curR.toNat ((b.put x).curW + 1).toNat
      = lastN SIZE (view b.buffer b.curR.toNat (b.curW + 1).toNat ++ [x]) := by
  obtain ⟨hl, hc⟩ := h
  obtain ⟨buf, r, w, wr⟩ := b
  unfold PutSafe at hp
  simp only at *
  subst hl
  have hone : [x].length = 1 := rfl
  have hW : ∀ (w w' p : Nat), p < buf.length → ((w < buf.length ∧ p = w ∧ w' = w+1) ∨ (w = buf.length ∧ p = 0 ∧ w' = 1)) →
      Written buf (buf.set p x) [x] w w' := by
    intro w w' p hp h
    rcases h with ⟨h1, rfl, rfl⟩ | ⟨rfl, rfl, rfl⟩
    · left
      refine ⟨by omega, rfl, fun i => ?_⟩
      rw [set_getElem? _ _ _ _ hp, hone]
      by_cases hi : i = p
      · subst hi; simp
      · rw [if_neg hi, if_neg (by omega)]
    · right
      refine ⟨by omega, by omega, fun i => ?_⟩
      rw [set_getElem? _ _ _ _ hp, hone]
      by_cases hi : i = 0
      · subst hi; rw [if_pos rfl, if_pos (by omega)]; simp
      · rw [if_neg hi, if_neg (by omega), if_neg (by omega)]
  have hlen : ∀ p, (buf.set p x).length = buf.length := by simp
  unfold WBuf.put
  simp only
  rcases hc with ⟨rfl, rfl⟩ | ⟨h0, h1, h2, h3⟩
  · rw [if_neg (by omega), if_pos rfl]
    dsimp only
    exact putN_view _ _ _ _ _ _ _ (by omega) (by omega) (hlen _) (hW _ _ _ (by omega) (Or.inl (by omega)))
      (Or.inl ⟨by omega, by omega, Or.inr (by omega)⟩)
  · obtain ⟨w, rfl⟩ := Int.eq_ofNat_of_zero_le h0
    obtain ⟨r, rfl⟩ := Int.eq_ofNat_of_zero_le h2
    have e1 : ((r:Int)).toNat = r := by omega
    have e2 : ((w:Int)+1).toNat = w+1 := by omega
    by_cases c1 : (w:Int) + 1 = buf.length
    · rw [if_pos c1]
      dsimp only
      rw [e1, e2]
      have e3 : ((0:Int)+1).toNat = 1 := rfl
      have e4 : (1:Int).toNat = 1 := rfl
      rw [e3, e4]
      have full : (1 = buf.length ∧ (1 = 0 ∨ 1 = buf.length)) ∨ (1 < buf.length ∧ 1 = 1) := by
        by_cases h : 1 = buf.length
        · exact Or.inl ⟨h, Or.inr h⟩
        · exact Or.inr ⟨by omega, rfl⟩
      refine putN_view _ _ _ _ _ _ _ (by omega) (by omega) (hlen _) (hW _ _ _ (by omega) (Or.inr (by omega))) ?_
      by_cases c2 : r < w + 1
      · have : r < 2 := by omega
        exact Or.inr (Or.inr (Or.inl ⟨by omega, by omega, c2, by omega, full⟩))
      · exact Or.inr (Or.inr (Or.inr (Or.inr ⟨by omega, by omega, by omega, by omega, full⟩)))
    · rw [if_neg c1, if_neg (by omega)]
      have e3 : ((w:Int)+1+1).toNat = w+2 := by omega
      by_cases c2 : (r:Int) = w + 1
      · rw [if_pos c2, if_neg (by omega)]
        dsimp only
        have e4 : ((r:Int)+1).toNat = w+2 := by omega
        rw [e1, e2, e3, e4]
        have full : (w+2 = buf.length ∧ (w+2 = 0 ∨ w+2 = buf.length)) ∨ (w+2 < buf.length ∧ w+2 = w+2) := by
          by_cases h : w+2 = buf.length
          · exact Or.inl ⟨h, Or.inr h⟩
          · exact Or.inr ⟨by omega, rfl⟩
        exact putN_view _ _ _ _ _ _ _ (by omega) (by omega) (hlen _) (hW _ _ _ (by omega) (Or.inl (by omega)))
          (Or.inr (Or.inr (Or.inr (Or.inr ⟨by omega, by omega, by omega, by omega, full⟩))))
      · rw [if_neg c2]
        dsimp only
        rw [e1, e2, e3]
        refine putN_view _ _ _ _ _ _ _ (by omega) (by omega) (hlen _) (hW _ _ _ (by omega) (Or.inl (by omega))) ?_
        by_cases c3 : r < w + 1
        · by_cases c4 : w + 1 - r + [x].length < buf.length
          · exact Or.inr (Or.inl ⟨by omega, by omega, c3, c4, Or.inl rfl⟩)
          · exact Or.inr (Or.inr (Or.inl ⟨by omega, by omega, c3, by omega, Or.inl ⟨by omega, Or.inl (by omega)⟩⟩))
        · by_cases c4 : buf.length - r + (w + 1) + [x].length < buf.length
          · exact Or.inr (Or.inr (Or.inr (Or.inl ⟨by omega, by omega, by omega, c4, rfl⟩)))
          · refine Or.inr (Or.inr (Or.inr (Or.inr ⟨by omega, by omega, by omega, by omega, ?_⟩)))
            by_cases h : w+2 = buf.length
            · exact Or.inl ⟨h, Or.inr (by omega)⟩
            · exact Or.inr ⟨by omega, by omega⟩

theorem put_toString (b : WBuf T SIZE) (x : T) (h : WInv b) (hs : 0 < SIZE) (hp : PutSafe b) :
    (b.put x).toString = lastN SIZE (b.toString ++ [x]) := by
  rw [toString_eq_view _ h, toString_eq_view _ (put_inv b x h hs), put_view b x h hs hp]

theorem putN_inv (b : WBuf T SIZE) (xs : List T) (h : WInv b) (hs : 0 < SIZE) (hx : xs.length ≤ SIZE) :
    WInv (b.putN xs) := by
  obtain ⟨hl, hc⟩ := h
  obtain ⟨buf, r, w, wr⟩ := b
  simp only at *
  subst hl
  unfold WBuf.putN
  simp only [skipBlocks_small _ xs hx]
  by_cases h0 : xs.length = 0
  · rw [if_pos h0]; exact ⟨rfl, hc⟩
  rw [if_neg h0]
  have hmod : ∀ z : Int, 0 ≤ z → (z = buf.length ∧ z % buf.length = 0) ∨ (z < buf.length → z % buf.length = z) := by
    intro z hz
    right; intro h; exact Int.emod_eq_of_lt hz h
  have hself : ((buf.length : Int)) % buf.length = 0 := Int.emod_self
  by_cases h1 : w + (xs.length : Int) ≥ buf.length
  · rw [if_pos h1]
    by_cases h2 : w + 1 ≠ (buf.length : Int)
    · rw [if_pos h2]
      simp only [List.length_drop]
      have l1 := memcpy_length buf xs (w+1).toNat ((buf.length:Int) - w - 1).toNat (by omega) (by omega)
      have l2 := memcpy_length (WBuf.memcpy buf (w+1).toNat xs ((buf.length:Int) - w - 1).toNat)
        (xs.drop ((buf.length:Int) - w - 1).toNat) ((-1:Int)+1).toNat (xs.length - ((buf.length:Int) - w - 1).toNat)
        (by rw [l1]; omega) (by rw [List.length_drop]; omega)
      rw [l1] at l2
      rw [if_neg (by omega)]
      split
      · refine ⟨l2, Or.inr ⟨by simp only; omega, by simp only; omega, ?_, ?_⟩⟩
        · exact Int.emod_nonneg _ (by omega)
        · exact Int.le_of_lt (Int.emod_lt_of_pos _ (by omega))
      · refine ⟨l2, ?_⟩; simp only; omega
    · rw [if_neg h2]
      simp only
      have l2 := memcpy_length buf xs ((-1:Int)+1).toNat xs.length (by omega) (by omega)
      rw [if_neg (by omega)]
      split
      · refine ⟨l2, Or.inr ⟨by simp only; omega, by simp only; omega, ?_, ?_⟩⟩
        · exact Int.emod_nonneg _ (by omega)
        · exact Int.le_of_lt (Int.emod_lt_of_pos _ (by omega))
      · refine ⟨l2, ?_⟩; simp only; omega
  · rw [if_neg h1]
    simp only
    have l2 := memcpy_length buf xs (w+1).toNat xs.length (by omega) (by omega)
    rw [if_neg (by omega)]
    split
    · refine ⟨l2, Or.inr ⟨by simp only; omega, by simp only; omega, ?_, ?_⟩⟩
      · exact Int.emod_nonneg _ (by omega)
      · exact Int.le_of_lt (Int.emod_lt_of_pos _ (by omega))
    · refine ⟨l2, ?_⟩; simp only; omega

theorem size_eq_view (b : WBuf T SIZE) (h : WInv b) :
    b.size = (view b.buffer b.curR.toNat (b.curW+1).toNat).length := by
  rw [← toString_eq_view b h, length_toString b h]

/-- Closing step shared by the branches of `putN`. -/
theorem putN_close (buf buf' xs : List T) (r w r' w' : Nat)
    (hk : 0 < xs.length) (hk2 : xs.length ≤ buf.length) (hl : buf'.length = buf.length)
    (hwr : Written buf buf' xs w w')
    (hrw : (w = 0 ∧ r = 0) ∨ (0 < w ∧ w ≤ buf.length ∧ r ≤ buf.length)) (sz : Nat)
    (hsz : sz = (view buf r w).length)
    (hr' : (sz + xs.length ≥ buf.length ∧ ((w' = buf.length ∧ r' = 0) ∨ (w' < buf.length ∧ r' = w'))) ∨
      (sz + xs.length < buf.length ∧ r' = r)) :
    view buf' r' w' = lastN buf.length (view buf r w ++ xs) := by
  refine putN_view _ _ _ _ _ _ _ hk hk2 hl hwr ?_
  rcases hrw with ⟨rfl, rfl⟩ | ⟨h0, h1, h2⟩
  · refine Or.inl ⟨rfl, rfl, Or.inl ?_⟩
    rw [view_zero] at hsz
    simp at hsz
    subst hsz
    rcases hr' with ⟨h1, ⟨h2, h3⟩ | ⟨h2, h3⟩⟩ | ⟨h1, h2⟩
    · exact h3
    · rcases hwr with ⟨h4, rfl, h5⟩ | ⟨h4, rfl, h5⟩ <;> omega
    · exact h2
  · rw [view_length _ _ _ h1 h2, if_neg (by omega)] at hsz
    by_cases c : r ≥ w
    · rw [if_pos c] at hsz
      subst hsz
      rcases hr' with ⟨h3, ⟨h4, h5⟩ | ⟨h4, h5⟩⟩ | ⟨h3, h4⟩
      · exact Or.inr (Or.inr (Or.inr (Or.inr ⟨h0, c, h2, h3, Or.inl ⟨h4, Or.inl h5⟩⟩)))
      · exact Or.inr (Or.inr (Or.inr (Or.inr ⟨h0, c, h2, h3, Or.inr ⟨h4, h5⟩⟩)))
      · exact Or.inr (Or.inr (Or.inr (Or.inl ⟨h0, c, h2, h3, h4⟩)))
    · rw [if_neg c] at hsz
      subst hsz
      rcases hr' with ⟨h3, ⟨h4, h5⟩ | ⟨h4, h5⟩⟩ | ⟨h3, h4⟩
      · exact Or.inr (Or.inr (Or.inl ⟨h0, h1, by omega, h3, Or.inl ⟨h4, Or.inl h5⟩⟩))
      · exact Or.inr (Or.inr (Or.inl ⟨h0, h1, by omega, h3, Or.inr ⟨h4, h5⟩⟩))
      · exact Or.inr (Or.inl ⟨h0, h1, by omega, h3, Or.inl h4⟩)

theorem emod_cases (n : Nat) (z : Int) (hz : 0 < z) (h1 : z ≤ n) :
    (z.toNat = n ∧ (z % n).toNat = 0) ∨ (z.toNat < n ∧ (z % n).toNat = z.toNat) := by
  by_cases h : z = n
  · left; rw [h]; exact ⟨by omega, by rw [Int.emod_self]; rfl⟩
  · right; exact ⟨by omega, by rw [Int.emod_eq_of_lt (by omega) (by omega)]⟩

theorem written_plain (buf xs : List T) (w : Int) (h0 : -1 ≤ w) (h1 : w + xs.length < buf.length) :
    Written buf (WBuf.memcpy buf (w+1).toNat xs xs.length) xs (w+1).toNat (w + xs.length + 1).toNat := by
  left
  refine ⟨by omega, by omega, fun i => ?_⟩
  rw [memcpy_getElem? _ _ _ _ _ (by omega) (by omega)]

theorem written_end (buf xs : List T) (w : Int) (h0 : w + 1 = buf.length) (h1 : xs.length ≤ buf.length) (hk : 0 < xs.length) :
    Written buf (WBuf.memcpy buf ((-1:Int)+1).toNat xs xs.length) xs (w+1).toNat (-1 + (xs.length:Int) + 1).toNat := by
  right
  refine ⟨by omega, by omega, fun i => ?_⟩
  rw [memcpy_getElem? _ _ _ _ _ (by omega) (by omega)]
  cells

theorem written_split (buf xs : List T) (w : Int) (k k2 : Nat) (h0 : -1 ≤ w) (h2 : w + 1 < buf.length)
    (hk : k = ((buf.length:Int) - w - 1).toNat) (hk2 : k2 = xs.length - k)
    (h1 : w + (xs.length : Int) ≥ buf.length) (hx : xs.length ≤ buf.length) :
    Written buf (WBuf.memcpy (WBuf.memcpy buf (w+1).toNat xs k) ((-1:Int)+1).toNat (xs.drop k) k2)
      xs (w+1).toNat (-1 + (k2:Int) + 1).toNat := by
  have l1 := memcpy_length buf xs (w+1).toNat k (by omega) (by omega)
  right
  refine ⟨by omega, by omega, fun i => ?_⟩
  rw [memcpy_getElem? _ _ _ _ _ (by rw [l1]; omega) (by rw [List.length_drop]; omega),
    memcpy_getElem? _ _ _ _ _ (by omega) (by omega), List.getElem?_drop]
  have e1 : ((-1:Int)+1).toNat = 0 := rfl
  have e2 : (w+1).toNat + k = buf.length := by omega
  have e3 : (w+1).toNat + xs.length - buf.length = k2 := by omega
  rw [e1, e2, e3]
  by_cases c : i < k2
  · rw [if_pos (by omega), if_pos c]; congr 1; omega
  · rw [if_neg (by omega), if_neg c]

theorem putN_toString (b : WBuf T SIZE) (xs : List T) (h : WInv b) (hs : 0 < SIZE) (hx : xs.length ≤ SIZE) :
    (b.putN xs).toString = lastN SIZE (b.toString ++ xs) := by
  by_cases h0 : xs.length = 0
  · have : xs = [] := List.eq_nil_of_length_eq_zero h0
    subst this
    have e : b.putN [] = b := by unfold WBuf.putN; simp
    have : b.toString.length ≤ SIZE := by rw [length_toString b h]; exact size_le b h
    rw [e]; simp [lastN]
    rw [Nat.sub_eq_zero_of_le this]; simp
  rw [toString_eq_view _ h, toString_eq_view _ (putN_inv b xs h hs hx)]
  have hsz := size_eq_view b h
  obtain ⟨hl, hc⟩ := h
  obtain ⟨buf, r, w, wr⟩ := b
  simp only at *
  subst hl
  unfold WBuf.putN
  simp only [skipBlocks_small _ xs hx]
  rw [if_neg h0]
  generalize (⟨buf, r, w, wr⟩ : WBuf T buf.length).size = sz at *
  have hrw : ((w+1).toNat = 0 ∧ r.toNat = 0) ∨ (0 < (w+1).toNat ∧ (w+1).toNat ≤ buf.length ∧ r.toNat ≤ buf.length) := by
    rcases hc with ⟨rfl, rfl⟩ | ⟨h0, h1, h2, h3⟩
    · left; exact ⟨rfl, rfl⟩
    · right; exact ⟨by omega, by omega, by omega⟩
  have hw0 : -1 ≤ w := by omega
  have hw1 : w < buf.length := by omega
  clear hc
  by_cases h1 : w + (xs.length : Int) ≥ buf.length
  · rw [if_pos h1]
    by_cases h2 : w + 1 ≠ (buf.length : Int)
    · rw [if_pos h2]
      simp only [List.length_drop]
      have hWr := written_split buf xs w _ _ hw0 (by omega) rfl rfl h1 hx
      generalize hk : ((buf.length:Int) - w - 1).toNat = k at *
      have l1 := memcpy_length buf xs (w+1).toNat k (by omega) (by omega)
      have l2 := memcpy_length (WBuf.memcpy buf (w+1).toNat xs k)
        (xs.drop k) ((-1:Int)+1).toNat (xs.length - k)
        (by rw [l1]; omega) (by rw [List.length_drop]; omega)
      rw [l1] at l2
      have hm := emod_cases buf.length (-1 + ((xs.length - k : Nat):Int) + 1) (by omega) (by omega)
      rw [if_neg (by omega)]
      split
      · dsimp only
        exact putN_close _ _ _ _ _ _ _ (by omega) (by omega) l2 hWr hrw sz hsz (Or.inl ⟨by omega, hm⟩)
      · dsimp only
        exact putN_close _ _ _ _ _ _ _ (by omega) (by omega) l2 hWr hrw sz hsz (Or.inr ⟨by omega, rfl⟩)
    · rw [if_neg h2]
      simp only
      have l2 := memcpy_length buf xs ((-1:Int)+1).toNat xs.length (by omega) (by omega)
      have hWr := written_end buf xs w (by omega) hx (by omega)
      have hm := emod_cases buf.length (-1 + ((xs.length : Nat):Int) + 1) (by omega) (by omega)
      rw [if_neg (by omega)]
      split
      · dsimp only
        exact putN_close _ _ _ _ _ _ _ (by omega) (by omega) l2 hWr hrw sz hsz (Or.inl ⟨by omega, hm⟩)
      · dsimp only
        exact putN_close _ _ _ _ _ _ _ (by omega) (by omega) l2 hWr hrw sz hsz (Or.inr ⟨by omega, rfl⟩)
  · rw [if_neg h1]
    simp only
    have l2 := memcpy_length buf xs (w+1).toNat xs.length (by omega) (by omega)
    have hWr := written_plain buf xs w hw0 (by omega)
    have hm := emod_cases buf.length (w + ((xs.length : Nat):Int) + 1) (by omega) (by omega)
    rw [if_neg (by omega)]
    split
    · dsimp only
      exact putN_close _ _ _ _ _ _ _ (by omega) (by omega) l2 hWr hrw sz hsz (Or.inl ⟨by omega, hm⟩)
    · dsimp only
      exact putN_close _ _ _ _ _ _ _ (by omega) (by omega) l2 hWr hrw sz hsz (Or.inr ⟨by omega, rfl⟩)

end Verif.Lemmas
