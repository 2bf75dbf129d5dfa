import Verif.Lemmas.SplitHas
/-!
# What is written in the windows of the diff view
-/
namespace Verif.Lemmas.Split
open Verif.Model Verif.Model.Diff Verif.Model.Split Verif.Spec.SplitView
open Verif.Model.Tui (getNbLines hasReachedBottom)

/-- The texts that are written, and their lines: `sc` is the scroll position. -/
def putLines (height sc : Nat) : Nat → List Print → List (Print × Nat)
  | _, [] => []
  | y, [a] => if y ≤ sc then [] else [(a, y)]
  | y, a :: b :: l =>
    if y ≤ sc then putLines height sc (y + 1) (b :: l)
    else (a, y) :: (if hasReachedBottom (y + a.lines) sc height then [] else putLines height sc (y + a.lines) (b :: l))

def selOf (env : Env) (sel : Option Ptr) (e : Ptr) : Bool :=
  decide (sel = some e) ||
    (match parent e with
      | some q => env.isEntry q && decide (sel = some q)
      | none => false)

def cellAt (env : Env) (view : View) (sel : Option Ptr) (sc col : Nat) (l : Print × Nat) : Cell :=
  ⟨l.2 - sc, col, l.1.text, selOf env sel l.1.who, view.results.contains l.1.who, l.1.who, l.1.closing⟩

def markAt (env : Env) (sc : Nat) (l : Print × Nat) : List Mark := displayDiffOp (if l.1.char then l.2 - sc else l.2) (env.op l.1.who) []

/-- The calls of a text. -/
def callAt (env : Env) (view : View) (sel : Option Ptr) (sc col : Nat) (l : Print × Nat) : List Call :=
  (if l.1.char then [] else callMark l.2 (env.op l.1.who)) ++ .text l.1.char (l.2 - sc) col l.1.parts (selOf env sel l.1.who) (view.results.contains l.1.who) ::
    (if l.1.char then callMark (l.2 - sc) (env.op l.1.who) else [])

theorem display_append (row : Nat) (op : Op) (m : List Mark) : displayDiffOp row op m = m ++ displayDiffOp row op [] := by
  unfold displayDiffOp
  split <;> simp

theorem putAll_lines (env : Env) (view : View) (l : List Print) (w : Win) :
    (putAll env view l w).1.screen = w.screen ++ (putLines view.height w.scroll w.y l).map (cellAt env view w.sel w.scroll w.x) ∧
    (putAll env view l w).1.marks = w.marks ++ (putLines view.height w.scroll w.y l).flatMap (markAt env w.scroll) ∧
    (putAll env view l w).1.calls = w.calls ++ (putLines view.height w.scroll w.y l).flatMap (callAt env view w.sel w.scroll w.x) := by
  induction l generalizing w with
  | nil => simp [putAll, putLines]
  | cons a l ih =>
    have hput : (a.put env view w).screen = w.screen ++ (if w.y ≤ w.scroll then [] else [cellAt env view w.sel w.scroll w.x (a, w.y)]) ∧
        (a.put env view w).marks = w.marks ++ (if w.y ≤ w.scroll then [] else markAt env w.scroll (a, w.y)) ∧
        (a.put env view w).calls = w.calls ++ (if w.y ≤ w.scroll then [] else callAt env view w.sel w.scroll w.x (a, w.y)) := by
      unfold Print.put
      split
      · simp
      · dsimp only
        rw [display_append, List.append_assoc]
        exact ⟨rfl, rfl, rfl⟩
    cases l with
    | nil =>
      simp only [putAll, putLines]
      rw [hput.1, hput.2.1, hput.2.2]
      split <;> simp
    | cons b l =>
      have hy := put_y env view a w
      have hf := put_frame env view a w
      rw [putAll, putLines]
      by_cases hc : w.y ≤ w.scroll
      · rw [if_neg (by simp; omega), if_pos hc]
        have := ih (a.put env view w)
        rw [hf.sel, hf.scroll, hf.x, hy, if_pos hc, hput.1, hput.2.1, hput.2.2] at this
        simpa [hc] using this
      · rw [if_neg hc]
        have hat : atBottom view (a.put env view w) = hasReachedBottom (w.y + a.lines) w.scroll view.height := by
          unfold atBottom
          rw [hy, if_neg hc, hf.scroll]
        rw [hat]
        have hd : decide (w.scroll < w.y) = true := by simp; omega
        rw [hd, Bool.true_and]
        split
        · rw [hput.1, hput.2.1, hput.2.2]
          simp [hc]
        · have := ih (a.put env view w)
          rw [hf.sel, hf.scroll, hf.x, hy, if_neg hc, hput.1, hput.2.1, hput.2.2] at this
          simpa [hc] using this

/-- The texts that are written are a stretch of those of the item. -/
theorem putLines_skip (env : Env) (view : View) (w : Win) (l : List Print) (hl : ∀ a ∈ l, 1 ≤ a.lines) :
    ∃ skipped left, l = skipped ++ (putLines view.height w.scroll w.y l).map (·.1) ++ left ∧ (skipped = [] ∨ w.y + skipped.length ≤ w.scroll + 1) ∧
      w.y + skipped.length ≤ (putAll env view l w).1.y ∧ (left ≠ [] → (putAll env view l w).2 = false) := by
  induction l generalizing w with
  | nil => exact ⟨[], [], rfl, .inl rfl, Nat.le_refl _, fun h => absurd rfl h⟩
  | cons a l ih =>
    have hy := put_y env view a w
    have hf := put_frame env view a w
    have ha : 1 ≤ a.lines := hl a List.mem_cons_self
    cases l with
    | nil =>
      simp only [putLines, putAll, hy]
      split
      · exact ⟨[a], [], rfl, .inr (by simp; omega), by simp, fun h => absurd rfl h⟩
      · exact ⟨[], [], rfl, .inl rfl, by simp, fun h => absurd rfl h⟩
    | cons b l =>
      have ih := ih (a.put env view w) (fun c hc => hl c (List.mem_cons_of_mem _ hc))
      rw [putAll, putLines]
      by_cases hc : w.y ≤ w.scroll
      · have hd : decide (w.scroll < w.y) = false := by simp; omega
        rw [hd, Bool.false_and, if_neg Bool.false_ne_true, if_pos hc]
        rw [hf.scroll, hy, if_pos hc] at ih
        obtain ⟨s, t, h1, h2, h3, h4⟩ := ih
        refine ⟨a :: s, t, by simpa using h1, .inr ?_, ?_, h4⟩
        · rw [List.length_cons]
          rcases h2 with h | h
          · subst h; simp; omega
          · omega
        · rw [List.length_cons]; omega
      · have hat : atBottom view (a.put env view w) = hasReachedBottom (w.y + a.lines) w.scroll view.height := by
          unfold atBottom
          rw [hy, if_neg hc, hf.scroll]
        have hd : decide (w.scroll < w.y) = true := by simp; omega
        rw [hat, hd, Bool.true_and, if_neg hc]
        split
        · exact ⟨[], b :: l, rfl, .inl rfl, by rw [hy, if_neg hc]; simp, fun _ => rfl⟩
        · rw [hf.scroll, hy, if_neg hc] at ih
          obtain ⟨s, t, h1, h2, h3, h4⟩ := ih
          have hs : s = [] := by
            rcases h2 with h | h
            · exact h
            · omega
          subst hs
          exact ⟨[], t, by simpa using h1, .inl rfl, by simp at h3 ⊢; omega, h4⟩

/-- The lines of the texts written. -/
theorem putLines_y (env : Env) (view : View) (w : Win) (l : List Print) (hl : ∀ a ∈ l, 1 ≤ a.lines) :
    (∀ b ∈ putLines view.height w.scroll w.y l, w.y ≤ b.2 ∧ w.scroll < b.2 ∧ b.2 + b.1.lines ≤ (putAll env view l w).1.y) ∧
    (putLines view.height w.scroll w.y l).Pairwise (fun a b => a.2 + a.1.lines ≤ b.2) ∧ (l ≠ [] → w.y < (putAll env view l w).1.y) ∧
    (∀ h : l ≠ [], w.scroll < w.y → (putLines view.height w.scroll w.y l).head? = some (l.head h, w.y)) ∧
    (∀ b, (putLines view.height w.scroll w.y l).getLast? = some b → b.2 + b.1.lines = (putAll env view l w).1.y) := by
  induction l generalizing w with
  | nil => simp [putLines, putAll]
  | cons a l ih =>
    have hy := put_y env view a w
    have hf := put_frame env view a w
    have ha : 1 ≤ a.lines := hl a List.mem_cons_self
    cases l with
    | nil =>
      simp only [putLines, putAll, hy]
      split
      · refine ⟨by simp, by simp, ?_, ?_, by simp⟩
        · intro _; omega
        · intro _ _; omega
      · refine ⟨?_, by simp, ?_, by simp, ?_⟩
        · intro b hb
          simp only [List.mem_singleton] at hb
          subst hb
          dsimp only
          omega
        · intro _; omega
        · intro b hb
          cases hb
          rfl
    | cons b l =>
      rw [putAll, putLines]
      have := ih (a.put env view w) (fun c hc => hl c (List.mem_cons_of_mem _ hc))
      by_cases hc : w.y ≤ w.scroll
      · have hd : decide (w.scroll < w.y) = false := by simp; omega
        rw [hd, Bool.false_and, if_neg Bool.false_ne_true, if_pos hc]
        rw [hf.scroll, hy, if_pos hc] at this
        obtain ⟨h1, h2, h3, _, h5⟩ := this
        have h3 := h3 (by simp)
        refine ⟨?_, h2, ?_, ?_, h5⟩
        · intro d hd
          have := h1 d hd
          omega
        · intro _; omega
        · intro _ _; omega
      · have hat : atBottom view (a.put env view w) = hasReachedBottom (w.y + a.lines) w.scroll view.height := by
          unfold atBottom
          rw [hy, if_neg hc, hf.scroll]
        have hd : decide (w.scroll < w.y) = true := by simp; omega
        rw [hat, hd, Bool.true_and, if_neg hc]
        split
        · refine ⟨?_, by simp, ?_, by simp, ?_⟩
          · intro d hd
            simp only [List.mem_singleton] at hd
            subst hd
            simp only [hy, if_neg hc]
            omega
          · intro _
            simp only [hy, if_neg hc]
            omega
          · intro d hd
            cases hd
            show w.y + a.lines = _
            rw [hy, if_neg hc]
        · rw [hf.scroll, hy, if_neg hc] at this
          obtain ⟨h1, h2, h3, h4, h5⟩ := this
          have h3 := h3 (by simp)
          have h4 := h4 (by simp) (by omega)
          refine ⟨?_, ?_, ?_, by simp, ?_⟩
          · intro d hd
            rcases List.mem_cons.mp hd with rfl | hd
            · dsimp only; omega
            · have := h1 d hd
              omega
          · rw [List.pairwise_cons]
            refine ⟨fun d hd => ?_, h2⟩
            have := h1 d hd
            dsimp only
            omega
          · intro _; omega
          · intro d hd
            refine h5 d ?_
            cases hp : putLines view.height w.scroll (w.y + a.lines) (b :: l) with
            | nil => rw [hp] at h4; cases h4
            | cons e t => rw [hp, List.getLast?_cons_cons] at hd; exact hd

theorem nbLines_pos {n w : Nat} (h : 1 ≤ n) : 1 ≤ getNbLines n w := by
  unfold getNbLines
  split
  · next hm =>
    rcases Nat.eq_zero_or_pos w with rfl | hw
    · simp at hm; omega
    · exact Nat.div_pos (Nat.le_of_dvd h (Nat.dvd_of_mod_eq_zero hm)) hw
  · exact Nat.succ_le_succ (Nat.zero_le _)

theorem prints_lines {env : Env} {view : View} {side : Bool} {it : Item} (h : 2 ≤ it.col) : ∀ a ∈ prints env view side it, 1 ≤ a.lines := by
  intro a ha
  unfold prints at ha
  simp only at ha
  split at ha
  · simp only [List.mem_singleton] at ha
    subst ha
    dsimp only; exact nbLines_pos (by omega)
  · split at ha
    · cases ha
    · split at ha
      · simp only [List.mem_singleton] at ha
        subst ha
        dsimp only; exact nbLines_pos (by omega)
      split at ha
      · simp only [List.mem_singleton] at ha
        subst ha
        dsimp only; exact nbLines_pos (by omega)
      split at ha
      · simp only [List.mem_singleton] at ha
        subst ha
        dsimp only; exact nbLines_pos (by omega)
      · simp only [List.mem_cons, List.not_mem_nil, or_false] at ha
        rcases ha with rfl | rfl
        · dsimp only; exact nbLines_pos (by omega)
        · dsimp only; exact nbLines_pos (by omega)
    · split at ha
      · split at ha
        · simp only [List.mem_singleton] at ha
          subst ha
          dsimp only; exact nbLines_pos (by omega)
        · simp only [List.mem_singleton] at ha
          subst ha
          dsimp only; exact nbLines_pos (by omega)
      · simp only [List.mem_singleton] at ha
        subst ha
        dsimp only; exact nbLines_pos (by omega)

/-- The column of a window is that of its stack. -/
def Col (w : Win) : Prop := w.x = 2 + 4 * w.stack.length

/-- What the turn of an item writes. -/
structure Wrote (env : Env) (view : View) (side : Bool) (w : Win) (it : Item) (rest : List Item) (w' : Win) (c : Bool) (ls : List (Print × Nat)) : Prop where
  rem : remaining (env.root side) (cOf view side) w.x w.stack = it :: rest
  col : 2 ≤ it.col
  ex : it.closing = false → ∃ e, (Elem.value (env.root side)).at it.path = some e
  real : it.closing = true → ∃ v, (Elem.value (env.root side)).at it.path = some (.value v)
  added : isAdded env side w = (env.equiv (ptr side it.path)).isNone
  found : w'.found = (w.found || isSel w.last side it)
  scroll : w'.scroll = (if !w.found && isSel w.last side it && decide (w.y ≤ w.scroll) then w.y - 1 else w.scroll)
  sel : w'.sel = w.sel
  last : w'.last = w.last
  results : w'.results = w.results
  screen : w'.screen = w.screen ++ ls.map (cellAt env view w.sel w'.scroll it.col)
  marks : w'.marks = w.marks ++ ls.flatMap (markAt env w'.scroll)
  calls : w'.calls = w.calls ++ ls.flatMap (callAt env view w.sel w'.scroll it.col)
  lines : ∀ b ∈ ls, w.y ≤ b.2 ∧ w'.scroll < b.2 ∧ 1 ≤ b.1.lines ∧ b.2 + b.1.lines ≤ w'.y
  order : ls.Pairwise (fun a b => a.2 + a.1.lines ≤ b.2)
  ending : ∀ b, ls.getLast? = some b → b.2 + b.1.lines = w'.y
  y : w.y < w'.y
  head : w'.scroll < w.y → ∃ a, (prints env view side it).head? = some a ∧ ls.head? = some (a, w.y)
  prints : ∃ skipped left, prints env view side it = skipped ++ ls.map (·.1) ++ left ∧ (skipped = [] ∨ w.y + skipped.length ≤ w'.scroll + 1) ∧
    w.y + skipped.length ≤ w'.y ∧ (left ≠ [] → c = true) ∧ (c = true → (rest = [] ∧ left = []) ∨ (hasReachedBottom w'.y w'.scroll view.height = true ∧ w'.found = true))
  next : c = false → Sound (env.root side) w'.stack ∧ Col w' ∧ w'.stack ≠ [] ∧ rest ≠ [] ∧ remaining (env.root side) (cOf view side) w'.x w'.stack = rest
  done : c = true → rest = [] ∨ w'.found = true
  exactly : ls = putLines view.height w'.scroll w.y (Split.prints env view side it)
  pointing : ∃ st w2, Pointing env view side w it w' c st w2

theorem close_real {root : Json} {c : Path → Bool} {x : Nat} {st : List (Nat × Path)} {it : Item} {rest : List Item} (hs : Sound root st)
    (h : remaining root c x st = it :: rest) (hc : it.closing = true) : ∃ v, (Elem.value root).at it.path = some (.value v) := by
  cases st with
  | nil =>
    simp only [remaining, List.cons.injEq] at h
    rw [← h.1] at hc
    cases hc
  | cons ip st =>
    obtain ⟨i, p⟩ := ip
    obtain ⟨e, he, hcon, _⟩ := hs (i, p) List.mem_cons_self
    have he : (Elem.value root).at p = some e := he
    simp only [remaining, restOf, he] at h
    cases e with
    | entry k v => cases hcon
    | value v =>
      have hend : ∀ l : List Item, (∀ a l', l = a :: l' → a.closing = false) → l ++ ⟨p, true, x - 4⟩ :: restOf root c (x - 4) st = it :: rest → ∃ v, (Elem.value root).at it.path = some (.value v) := by
        intro l hl h
        cases l with
        | nil =>
          simp only [List.nil_append, List.cons.injEq] at h
          rw [← h.1]
          exact ⟨v, he⟩
        | cons a l' =>
          simp only [List.cons_append, List.cons.injEq] at h
          have := hl a l' rfl
          rw [h.1, hc] at this
          cases this
      refine hend _ ?_ h
      intro a l' hl
      cases v with
      | arr xs =>
        simp only [kidsFrom] at hl
        cases hd : xs.drop i with
        | nil => rw [hd] at hl; cases hl
        | cons y ys => rw [hd, itemsItems] at hl; injection hl with h1 _; rw [← h1]
      | obj es =>
        simp only [kidsFrom] at hl
        cases hd : es.drop i with
        | nil => rw [hd] at hl; cases hl
        | cons y ys => obtain ⟨k, u⟩ := y; rw [hd, itemsEntries] at hl; injection hl with h1 _; rw [← h1]
      | _ => cases hl

theorem before_calls (side : Bool) (it : Item) (st : List (Nat × Path)) (w : Win) : (before side it st w).calls = w.calls := by
  unfold before
  cases hc : it.closing with
  | true => simp
  | false =>
    simp only [Bool.false_eq_true, if_false, checkSelection]
    split
    · split <;> rfl
    · split <;> rfl

theorem enter_calls (o : Option Path) (w : Win) : (enter o w).calls = w.calls := by
  cases o <;> rfl

theorem wrote {env : Env} {view : View} {side : Bool} {w w' : Win} {c : Bool} (hs : Sound (env.root side) w.stack) (hx : Col w)
    (ho : redrawOne env view side w = .ok w' c) : ∃ it rest ls, Wrote env view side w it rest w' c ls := by
  obtain ⟨it, rest, t⟩ := turn env view side w hs
  obtain ⟨t1, t2, t3, t4, t5, t6, t7, t8, t9⟩ := t.ok w' c ho
  obtain ⟨it', rest', st, hrem, hex, hadd, hdraw, hst⟩ := draw1_eq env view side w hs
  have hsame := t.rem
  rw [hrem] at hsame
  injection hsame with h1 h2
  subst h1 h2
  have hcol : 2 ≤ it'.col := by
    rw [hst.2.1]
    unfold Col at hx
    cases hcl : it'.closing with
    | false => simp only [Bool.false_eq_true, if_false]; omega
    | true =>
      simp only [if_true]
      cases hw : w.stack with
      | nil =>
        rw [hw] at hrem
        simp only [remaining, List.cons.injEq] at hrem
        rw [← hrem.1] at hcl
        cases hcl
      | cons a l => rw [hw] at hx; simp only [List.length_cons] at hx; omega
  obtain ⟨b1, b2, b3, b4, b5, b6, b7, b8, b9, b10, b11⟩ := before_spec side it' st w
  have hl := prints_lines (env := env) (view := view) (side := side) hcol
  have hne := prints_ne (env := env) (view := view) (side := side) hex
  have hf := putAll_frame env view (prints env view side it') (before side it' st w)
  have hli := putAll_lines env view (prints env view side it') (before side it' st w)
  have hy := putLines_y env view (before side it' st w) (prints env view side it') hl
  have hfst := putLines_skip env view (before side it' st w) (prints env view side it') hl
  have hbot := putAll_bottom env view (prints env view side it') (before side it' st w) hne
  have hxs : (before side it' st w).x = it'.col := by rw [b6, hst.2.1]
  rw [b1, hxs] at hli
  rw [b9, b10, before_calls] at hli
  rw [b4] at hli hy hfst
  have hsc : (before side it' st w).scroll = w'.scroll := by rw [b8, t2]
  rw [hsc] at hli hy hfst
  have key : ∀ w2 : Win, ∀ r, putAll env view (prints env view side it') (before side it' st w) = (w2, r) →
      (∃ u : Win, u.screen = w2.screen ∧ u.marks = w2.marks ∧ u.y = w2.y ∧ w'.screen = u.screen ∧ w'.marks = u.marks ∧ w'.y = u.y ∧ u.calls = w2.calls ∧ w'.calls = u.calls) →
      ((r = false → c = true ∧ w'.found = true) ∧ (c = false → Col w') ∧ (r = true → c = true → rest' = [])) →
      ∃ ls, Wrote env view side w it' rest' w' c ls := by
    intro w2 r hp hu hr
    obtain ⟨u, u1, u2, u3, u4, u5, u6, u7, u8⟩ := hu
    rw [hp] at hli hy hfst hbot hf
    dsimp only at hli hy hfst hbot hf
    refine ⟨putLines view.height w'.scroll w.y (prints env view side it'), hrem, hcol, hex, close_real hs hrem, hadd, t1, t2, t5, t6, t7, ?_, ?_, ?_, ?_, hy.2.1, ?_, ?_, ?_, ?_,
      ?_, t9, rfl, turn_pointing hs hrem ho⟩
    · rw [u4, u1]; exact hli.1
    · rw [u5, u2]; exact hli.2.1
    · rw [u8, u7]; exact hli.2.2
    · rw [u6, u3]
      intro b hb
      refine ⟨(hy.1 b hb).1, (hy.1 b hb).2.1, hl _ ?_, (hy.1 b hb).2.2⟩
      obtain ⟨sk, lf, h1, _⟩ := hfst
      rw [h1]
      exact List.mem_append_left _ (List.mem_append_right _ (List.mem_map_of_mem hb))
    · rw [u6, u3]; exact hy.2.2.2.2
    · rw [u6, u3]; exact hy.2.2.1 hne
    · intro hlt
      exact ⟨_, List.head?_eq_some_head hne, hy.2.2.2.1 hne hlt⟩
    · obtain ⟨sk, lf, h1, h2, h3, h4⟩ := hfst
      refine ⟨sk, lf, h1, h2, by rw [u6, u3]; exact h3, fun h => (hr.1 (h4 h)).1, fun hc => ?_⟩
      cases r with
      | true =>
        refine .inl ⟨hr.2.2 rfl hc, ?_⟩
        cases lf with
        | nil => rfl
        | cons x y => have := h4 (by simp); cases this
      | false =>
        refine .inr ⟨?_, (hr.1 rfl).2⟩
        have := hbot rfl
        unfold atBottom at this
        rw [hf.scroll, hsc, ← u3, ← u6] at this
        exact this
    · intro hc
      obtain ⟨n1, n2, n3, n4⟩ := t8 hc
      exact ⟨n3, hr.2.1 hc, n2, n1, n4⟩
  have hfin : ∃ ls, Wrote env view side w it' rest' w' c ls := by
    have ho' := ho
    rw [redrawOne_eq, hdraw] at ho'
    unfold drawIt at ho'
    cases hp : putAll env view (prints env view side it') (before side it' st w) with
    | mk w2 r =>
      rw [hp] at ho' hf
      refine key w2 r hp ?_ ?_
      · cases r with
        | true =>
          dsimp only at ho'
          simp only [Bool.not_true, Bool.false_and, Bool.false_eq_true, if_false, Bool.false_or] at ho'
          generalize (if it'.closing = true then none else opens (env.root side) (cOf view side) it'.path) = o at ho'
          obtain ⟨e1, e2, e3, e4, e5, e6, e7, e8, e9, e10, _⟩ := enter_frame o w2
          split at ho'
          · rcases complete_spec env view true (enter o w2) with ⟨h, _⟩ | ⟨u, d, l, h, _⟩
            · rw [h] at ho'; cases ho'
            · rw [h] at ho'
              cases ho'
              exact ⟨enter o w2, e9, e10, e4, rfl, rfl, rfl, enter_calls o w2, rfl⟩
          · cases ho'
            exact ⟨enter o w2, e9, e10, e4, rfl, rfl, rfl, enter_calls o w2, rfl⟩
        | false =>
          dsimp only at ho'
          simp only [Bool.not_false, Bool.true_and, Bool.true_or, if_true] at ho'
          split at ho'
          · cases ho'
          · rcases complete_spec env view false w2 with ⟨h, _⟩ | ⟨u, d, l, h, _⟩
            · rw [h] at ho'; cases ho'
            · rw [h] at ho'
              cases ho'
              exact ⟨w2, rfl, rfl, rfl, rfl, rfl, rfl, rfl, rfl⟩
      · cases r with
        | true =>
          dsimp only at ho'
          simp only [Bool.not_true, Bool.false_and, Bool.false_eq_true, if_false, Bool.false_or] at ho'
          obtain ⟨hst1, hst2, hst3, hst4⟩ := hst
          refine ⟨fun h => (by cases h), fun hc => ?_, fun _ hc => ?_⟩
          rotate_left
          · subst hc
            rw [← hst3, rest_nil]
            generalize (if it'.closing = true then none else opens (env.root side) (cOf view side) it'.path) = o at ho'
            obtain ⟨e1, e2, e3, e4, e5, e6, e7, _⟩ := enter_frame o w2
            split at ho'
            · next hem =>
              rw [e7, hf.stack, b5] at hem
              simpa using hem
            · cases ho'
          subst hc
          generalize hoo : (if it'.closing = true then none else opens (env.root side) (cOf view side) it'.path) = o at ho' hst1 hst3
          obtain ⟨e1, e2, e3, e4, e5, e6, e7, e8, e9, e10, _⟩ := enter_frame o w2
          split at ho'
          · rcases complete_spec env view true (enter o w2) with ⟨h, _⟩ | ⟨u, d, l, h, _⟩ <;> (rw [h] at ho'; cases ho')
          · injection ho' with hw _
            subst hw
            unfold Col at hx ⊢
            rw [e8, e7, hf.x, hf.stack, hxs, b5, hst2]
            cases hcl : it'.closing with
            | true =>
              rw [hcl] at hoo hst4
              simp only [if_true] at hoo hst4 ⊢
              subst hoo
              simp only [pushCol, pushOpen, Option.isSome_none, Bool.false_eq_true, if_false]
              omega
            | false =>
              rw [hcl] at hst4
              simp only [Bool.false_eq_true, if_false] at hst4 ⊢
              cases o with
              | none => simp only [pushCol, pushOpen, Option.isSome_none, Bool.false_eq_true, if_false]; omega
              | some q => simp only [pushCol, pushOpen, Option.isSome_some, if_true, List.length_cons]; omega
        | false =>
          dsimp only at ho'
          simp only [Bool.not_false, Bool.true_and, Bool.true_or, if_true] at ho'
          refine ⟨fun _ => ?_, fun hc => ?_, fun h => (by cases h)⟩
          · split at ho'
            · cases ho'
            · next hfd =>
              rcases complete_spec env view false w2 with ⟨h, _⟩ | ⟨u, d, l, h, _⟩
              · rw [h] at ho'; cases ho'
              · rw [h] at ho'
                cases ho'
                exact ⟨rfl, by simpa using hfd⟩
          · subst hc
            split at ho'
            · cases ho'
            · rcases complete_spec env view false w2 with ⟨h, _⟩ | ⟨u, d, l, h, _⟩ <;> (rw [h] at ho'; cases ho')
  obtain ⟨ls, h⟩ := hfin
  exact ⟨it', rest', ls, h⟩

end Verif.Lemmas.Split
