import Verif.Lemmas.SplitSteps
/-!
# What one turn of a window does
-/
namespace Verif.Lemmas.Split
open Verif.Model Verif.Model.Diff Verif.Model.Split
open Verif.Model.Tui (getNbLines hasReachedBottom)

/-- What writing texts leaves as it is. -/
structure Frame (w w' : Win) : Prop where
  sel : w'.sel = w.sel
  last : w'.last = w.last
  up : w'.up = w.up
  down : w'.down = w.down
  results : w'.results = w.results
  scroll : w'.scroll = w.scroll
  x : w'.x = w.x
  stack : w'.stack = w.stack
  found : w'.found = w.found
  isLast : w'.isLast = w.isLast

theorem Frame.refl (w : Win) : Frame w w := ⟨rfl, rfl, rfl, rfl, rfl, rfl, rfl, rfl, rfl, rfl⟩

theorem Frame.trans {a b c : Win} (h : Frame a b) (h' : Frame b c) : Frame a c :=
  ⟨h'.sel.trans h.sel, h'.last.trans h.last, h'.up.trans h.up, h'.down.trans h.down, h'.results.trans h.results, h'.scroll.trans h.scroll,
    h'.x.trans h.x, h'.stack.trans h.stack, h'.found.trans h.found, h'.isLast.trans h.isLast⟩

theorem put_frame (env : Env) (view : View) (a : Print) (w : Win) : Frame w (a.put env view w) := by
  unfold Print.put
  split
  · exact ⟨rfl, rfl, rfl, rfl, rfl, rfl, rfl, rfl, rfl, rfl⟩
  · exact ⟨rfl, rfl, rfl, rfl, rfl, rfl, rfl, rfl, rfl, rfl⟩

theorem put_y (env : Env) (view : View) (a : Print) (w : Win) :
    (a.put env view w).y = if w.y ≤ w.scroll then w.y + 1 else w.y + a.lines := by
  unfold Print.put
  split <;> rfl

/-- The lines of some texts, at most. -/
def tallOf (l : List Print) : Nat := (l.map fun a => max 1 a.lines).sum

theorem putAll_frame (env : Env) (view : View) (l : List Print) (w : Win) : Frame w (putAll env view l w).1 := by
  induction l generalizing w with
  | nil => exact .refl w
  | cons a l ih =>
    cases l with
    | nil => exact put_frame ..
    | cons b l =>
      rw [putAll]
      split
      · exact put_frame ..
      · exact (put_frame ..).trans (ih _)

theorem putAll_y (env : Env) (view : View) (l : List Print) (w : Win) :
    w.y ≤ (putAll env view l w).1.y ∧ (putAll env view l w).1.y ≤ w.y + tallOf l := by
  induction l generalizing w with
  | nil => simp [putAll, tallOf]
  | cons a l ih =>
    have ha := put_y env view a w
    have ha' : w.y ≤ (a.put env view w).y ∧ (a.put env view w).y ≤ w.y + max 1 a.lines := by
      rw [ha]; split <;> omega
    cases l with
    | nil =>
      simp only [putAll, tallOf, List.map_cons, List.map_nil, List.sum_cons, List.sum_nil]
      omega
    | cons b l =>
      rw [putAll]
      have := ih (a.put env view w)
      have ht : tallOf (a :: b :: l) = max 1 a.lines + tallOf (b :: l) := rfl
      rw [ht]
      split
      · dsimp only; omega
      · omega

theorem putAll_bottom (env : Env) (view : View) (l : List Print) (w : Win) (hl : l ≠ []) (h : (putAll env view l w).2 = false) :
    atBottom view (putAll env view l w).1 = true := by
  induction l generalizing w with
  | nil => exact absurd rfl hl
  | cons a l ih =>
    cases l with
    | nil => simpa [putAll] using h
    | cons b l =>
      rw [putAll] at h ⊢
      split
      · next hc => simp only [Bool.and_eq_true] at hc; exact hc.2
      · next hc =>
        rw [if_neg hc] at h
        exact ih _ (by simp) h

theorem prints_ne {env : Env} {view : View} {side : Bool} {it : Item}
    (h : it.closing = false → ∃ e, (Elem.value (env.root side)).at it.path = some e) : prints env view side it ≠ [] := by
  unfold prints
  cases hc : it.closing with
  | true => simp
  | false =>
    obtain ⟨e, he⟩ := h hc
    simp only [Bool.false_eq_true, if_false, he]
    cases e with
    | entry k v =>
      simp only
      split
      · simp
      split
      · simp
      split <;> simp
    | value v =>
      simp only
      split
      · split <;> simp
      · simp

def tall (env : Env) (view : View) (side : Bool) (it : Item) : Nat := tallOf (prints env view side it)

/-- The item is the last selection of the window. -/
def isSel (last : Option Ptr) (side : Bool) (it : Item) : Bool := !it.closing && decide (last = some (ptr side it.path))

theorem before_spec (side : Bool) (it : Item) (st : List (Nat × Path)) (w : Win) :
    (before side it st w).sel = w.sel ∧ (before side it st w).last = w.last ∧ (before side it st w).results = w.results ∧
    (before side it st w).y = w.y ∧ (before side it st w).stack = st ∧ (before side it st w).x = (if it.closing then w.x - 4 else w.x) ∧
    (before side it st w).found = (w.found || isSel w.last side it) ∧
    (before side it st w).scroll = (if !w.found && isSel w.last side it && decide (w.y ≤ w.scroll) then w.y - 1 else w.scroll) ∧
    (before side it st w).screen = w.screen ∧ (before side it st w).marks = w.marks ∧ (before side it st w).isLast = w.isLast := by
  unfold before isSel
  cases hc : it.closing with
  | true => simp
  | false =>
    simp only [Bool.false_eq_true, if_false, checkSelection, Bool.not_false, Bool.true_and]
    cases hf : w.found with
    | true =>
      simp only [Bool.not_true, Bool.false_eq_true, if_false, Bool.true_or, Bool.false_and]
      split <;> simp [hf]
    | false =>
      simp only [Bool.not_false, if_true, Bool.false_or, Bool.true_and]
      by_cases hl : w.last = some (ptr side it.path)
      · simp only [hl, if_true, decide_true, Bool.true_and]
        by_cases hy : w.y ≤ w.scroll
        · simp [hy]
          omega
        · simp [hy]
      · simp [hl, hf]

theorem enter_frame (o : Option Path) (w : Win) :
    (enter o w).sel = w.sel ∧ (enter o w).last = w.last ∧ (enter o w).results = w.results ∧ (enter o w).y = w.y ∧
    (enter o w).found = w.found ∧ (enter o w).scroll = w.scroll ∧ (enter o w).stack = pushOpen o w.stack ∧ (enter o w).x = pushCol o w.x ∧
    (enter o w).screen = w.screen ∧ (enter o w).marks = w.marks ∧ (enter o w).up = w.up ∧ (enter o w).down = w.down ∧ (enter o w).isLast = w.isLast := by
  cases o <;> simp [enter, pushOpen, pushCol]

theorem complete_spec (env : Env) (view : View) (r : Bool) (w : Win) :
    (complete env view r w = .crash ∧ w.last = none) ∨
    ∃ u d l, complete env view r w = .ok { w with isLast := l, up := u, down := d } true ∧ (w.last ≠ none → u ≠ none) ∧ d ≠ none := by
  unfold complete
  simp only
  have hu : ∀ w : Win, w.last ≠ none → (if w.up.isNone = true then w.last else w.up) ≠ none := by
    intro w h
    split
    · exact h
    · next h' => intro h''; rw [h''] at h'; simp at h'
  cases hd : w.down with
  | some d =>
    exact .inr ⟨_, some d, _, rfl, hu w, by simp⟩
  | none =>
    simp only
    cases hf : firstChild env view _ with
    | some c => exact .inr ⟨_, some c, _, rfl, hu w, by simp⟩
    | none =>
      simp only
      cases hl : w.last with
      | none => exact .inl ⟨rfl, rfl⟩
      | some l =>
        refine .inr ⟨_, some ((env.findNext l).getD l), _, rfl, fun _ => ?_, by simp⟩
        have := hu w (by rw [hl]; simp)
        rwa [hl] at this

theorem bottom_lt {view : View} {w : Win} (h : atBottom view w = true) : w.scroll < w.y := by
  unfold atBottom hasReachedBottom at h
  simp only [Bool.and_eq_true, decide_eq_true_eq] at h
  omega

/-- One turn of a window: what it does to the line of the cursor, to the scrolling, and to what remains to be drawn. -/
structure Turn (env : Env) (view : View) (side : Bool) (w : Win) (it : Item) (rest : List Item) : Prop where
  rem : remaining (env.root side) (cOf view side) w.x w.stack = it :: rest
  ex : it.closing = false → ∃ e, (Elem.value (env.root side)).at it.path = some e
  added : isAdded env side w = (env.equiv (ptr side it.path)).isNone
  crash : redrawOne env view side w = .crash → w.last = none
  retry : ∀ w', redrawOne env view side w = .retry w' → w.found = false ∧ isSel w.last side it = false ∧ w'.found = false ∧
    w'.scroll = w.scroll + 1 ∧ w'.scroll ≤ w.y + tall env view side it ∧ w'.sel = w.sel ∧ w'.last = w.last ∧ w'.results = w.results
  ok : ∀ w' c, redrawOne env view side w = .ok w' c → w'.found = (w.found || isSel w.last side it) ∧
    w'.scroll = (if !w.found && isSel w.last side it && decide (w.y ≤ w.scroll) then w.y - 1 else w.scroll) ∧
    w.y ≤ w'.y ∧ w'.y ≤ w.y + tall env view side it ∧ w'.sel = w.sel ∧ w'.last = w.last ∧ w'.results = w.results ∧
    (c = false → rest ≠ [] ∧ w'.stack ≠ [] ∧ Sound (env.root side) w'.stack ∧ remaining (env.root side) (cOf view side) w'.x w'.stack = rest) ∧
    (c = true → rest = [] ∨ w'.found = true)

theorem rest_nil {root : Json} {c : Path → Bool} {x : Nat} {st : List (Nat × Path)} : restOf root c x st = [] ↔ st = [] := by
  cases st with
  | nil => simp [restOf]
  | cons ip st => obtain ⟨i, p⟩ := ip; simp [restOf]

theorem redrawOne_eq (env : Env) (view : View) (side : Bool) (w : Win) :
    redrawOne env view side w =
      if !(draw1 env view side w).2 && !(draw1 env view side w).1.found then
        .retry { (draw1 env view side w).1 with scroll := (draw1 env view side w).1.scroll + 1 }
      else if !(draw1 env view side w).2 || (draw1 env view side w).1.stack.isEmpty then complete env view (draw1 env view side w).2 (draw1 env view side w).1
      else .ok (draw1 env view side w).1 false := by
  unfold redrawOne draw1
  rfl

theorem turn (env : Env) (view : View) (side : Bool) (w : Win) (hs : Sound (env.root side) w.stack) :
    ∃ it rest, Turn env view side w it rest := by
  obtain ⟨it, rest, st, hrem, hex, hadd, hdraw, hst⟩ := draw1_eq env view side w hs
  refine ⟨it, rest, hrem, hex, hadd, ?_, ?_, ?_⟩
  all_goals
    rw [redrawOne_eq, hdraw]
    unfold drawIt
    obtain ⟨b1, b2, b3, b4, b5, b6, b7, b8, b9, b10, b11⟩ := before_spec side it st w
    have hf := putAll_frame env view (prints env view side it) (before side it st w)
    have hy := putAll_y env view (prints env view side it) (before side it st w)
    have hb := putAll_bottom env view (prints env view side it) (before side it st w) (prints_ne hex)
    generalize before side it st w = w1 at b1 b2 b3 b4 b5 b6 b7 b8 b9 b10 b11 hf hy hb ⊢
    cases hp : putAll env view (prints env view side it) w1 with
    | mk w2 r => ?_
    rw [hp] at hf hy hb
    dsimp only at hf hy hb
  · cases r with
    | true =>
      dsimp only
      simp only [Bool.not_true, Bool.false_and, Bool.false_eq_true, if_false, Bool.false_or]
      generalize ho : (if it.closing then none else opens (env.root side) (cOf view side) it.path) = o
      obtain ⟨e1, e2, e3, e4, e5, e6, e7, e8, e9, _⟩ := enter_frame o w2
      split
      · intro hc
        rcases complete_spec env view true (enter o w2) with ⟨_, h⟩ | ⟨u, d, l, h, _⟩
        · rw [e2, hf.last, b2] at h; exact h
        · rw [h] at hc; cases hc
      · intro hc; cases hc
    | false =>
      dsimp only
      simp only [Bool.not_false, Bool.true_and, Bool.true_or, if_true]
      split
      · intro hc; cases hc
      · intro hc
        rcases complete_spec env view false w2 with ⟨_, h⟩ | ⟨u, d, l, h, _⟩
        · rw [hf.last, b2] at h; exact h
        · rw [h] at hc; cases hc
  · intro w' hw'
    cases r with
    | true =>
      dsimp only at hw'
      simp only [Bool.not_true, Bool.false_and, Bool.false_eq_true, if_false, Bool.false_or] at hw'
      generalize (if it.closing = true then none else opens (env.root side) (cOf view side) it.path) = o at hw'
      split at hw'
      · rcases complete_spec env view true (enter o w2) with ⟨h, _⟩ | ⟨u, d, l, h, _⟩ <;> (rw [h] at hw'; cases hw')
      · cases hw'
    | false =>
      dsimp only at hw'
      simp only [Bool.not_false, Bool.true_and, Bool.true_or, if_true] at hw'
      split at hw'
      · next hnf =>
        cases hw'
        have hnf : w2.found = false := by simpa using hnf
        have hnf1 := hf.found.symm.trans hnf
        rw [b7] at hnf1
        simp only [Bool.or_eq_false_iff] at hnf1
        have hsc : w1.scroll = w.scroll := by rw [b8]; simp [hnf1]
        have := bottom_lt (hb rfl)
        refine ⟨hnf1.1, hnf1.2, hnf, ?_, ?_, ?_, ?_, ?_⟩
        · dsimp only; rw [hf.scroll, hsc]
        · dsimp only
          have h1 := hy.2
          rw [b4] at h1
          unfold tall
          omega
        · exact hf.sel.trans b1
        · exact hf.last.trans b2
        · exact hf.results.trans b3
      · rcases complete_spec env view false w2 with ⟨h, _⟩ | ⟨u, d, l, h, _⟩ <;> (rw [h] at hw'; cases hw')
  · intro w' c hw'
    rw [b4] at hy
    cases r with
    | true =>
      dsimp only at hw'
      simp only [Bool.not_true, Bool.false_and, Bool.false_eq_true, if_false, Bool.false_or] at hw'
      generalize ho : (if it.closing = true then none else opens (env.root side) (cOf view side) it.path) = o at hw' hst
      obtain ⟨e1, e2, e3, e4, e5, e6, e7, e8, e9, _⟩ := enter_frame o w2
      obtain ⟨hst1, hst2, hst3, _⟩ := hst
      have hstk : (enter o w2).stack = pushOpen o st := by rw [e7, hf.stack, b5]
      have hx : (enter o w2).x = pushCol o it.col := by rw [e8, hf.x, b6, hst2]
      split at hw'
      · next hem =>
        rw [hstk] at hem
        have hem : pushOpen o st = [] := by simpa using hem
        have hrest : rest = [] := by rw [← hst3, rest_nil]; exact hem
        rcases complete_spec env view true (enter o w2) with ⟨h, _⟩ | ⟨u, d, l, h, _⟩
        · rw [h] at hw'; cases hw'
        · rw [h] at hw'
          cases hw'
          refine ⟨?_, ?_, ?_, ?_, ?_, ?_, ?_, fun h => (by cases h), fun _ => .inl hrest⟩
          · dsimp only; rw [e5, hf.found, b7]
          · dsimp only; rw [e6, hf.scroll, b8]
          · dsimp only; rw [e4]; exact hy.1
          · dsimp only; rw [e4]; exact hy.2
          · dsimp only; rw [e1, hf.sel, b1]
          · dsimp only; rw [e2, hf.last, b2]
          · dsimp only; rw [e3, hf.results, b3]
      · next hem =>
        cases hw'
        rw [hstk] at hem
        have hem : pushOpen o st ≠ [] := by simpa using hem
        refine ⟨?_, ?_, ?_, ?_, ?_, ?_, ?_, fun _ => ⟨?_, ?_, ?_, ?_⟩, fun h => by cases h⟩
        · rw [e5, hf.found, b7]
        · rw [e6, hf.scroll, b8]
        · rw [e4]; exact hy.1
        · rw [e4]; exact hy.2
        · rw [e1, hf.sel, b1]
        · rw [e2, hf.last, b2]
        · rw [e3, hf.results, b3]
        · rw [← hst3]; intro h; exact hem (rest_nil.mp h)
        · rw [hstk]; exact hem
        · rw [hstk]; exact hst1
        · rw [hstk, hx]
          cases hps : pushOpen o st with
          | nil => exact absurd hps hem
          | cons a l => rw [hps] at hst3; exact hst3
    | false =>
      dsimp only at hw'
      simp only [Bool.not_false, Bool.true_and, Bool.true_or, if_true] at hw'
      split at hw'
      · cases hw'
      · next hfd =>
        have hfd : w2.found = true := by simpa using hfd
        rcases complete_spec env view false w2 with ⟨h, _⟩ | ⟨u, d, l, h, _⟩
        · rw [h] at hw'; cases hw'
        · rw [h] at hw'
          cases hw'
          refine ⟨?_, ?_, ?_, ?_, ?_, ?_, ?_, fun h => (by cases h), fun _ => .inr hfd⟩
          · dsimp only; rw [hf.found, b7]
          · dsimp only; rw [hf.scroll, b8]
          · exact hy.1
          · exact hy.2
          · exact hf.sel.trans b1
          · exact hf.last.trans b2
          · exact hf.results.trans b3

/-- The pointers for Up and Down: before the defaults of a complete window, they are what the beginning of the turn left. -/
structure Pointing (env : Env) (view : View) (side : Bool) (w : Win) (it : Item) (w' : Win) (c : Bool) (st : List (Nat × Path)) (w2 : Win) : Prop where
  up : w2.up = (before side it st w).up
  down : w2.down = (before side it st w).down
  found : w2.found = (before side it st w).found
  last : w2.last = w.last
  sel : w2.sel = w.sel
  next : c = false → w' = w2
  done : c = true → ∃ r, complete env view r w2 = .ok w' true

theorem turn_pointing {env : Env} {view : View} {side : Bool} {w w' : Win} {c : Bool} {it : Item} {rest : List Item} (hs : Sound (env.root side) w.stack)
    (hrem : remaining (env.root side) (cOf view side) w.x w.stack = it :: rest) (ho : redrawOne env view side w = .ok w' c) :
    ∃ st w2, Pointing env view side w it w' c st w2 := by
  obtain ⟨it', rest', st, hrem', hex, hadd, hdraw, hst⟩ := draw1_eq env view side w hs
  rw [hrem] at hrem'
  injection hrem' with h1 h2
  subst h1 h2
  obtain ⟨b1, b2, b3, b4, b5, b6, b7, b8, b9, b10, b11⟩ := before_spec side it st w
  have hf := putAll_frame env view (prints env view side it) (before side it st w)
  rw [redrawOne_eq, hdraw] at ho
  unfold drawIt at ho
  cases hp : putAll env view (prints env view side it) (before side it st w) with
  | mk w2 r =>
    rw [hp] at ho hf
    cases r with
    | true =>
      dsimp only at ho
      simp only [Bool.not_true, Bool.false_and, Bool.false_eq_true, if_false, Bool.false_or] at ho
      generalize (if it.closing = true then none else opens (env.root side) (cOf view side) it.path) = o at ho
      obtain ⟨e1, e2, e3, e4, e5, e6, e7, e8, e9, e10, e11, e12, e13⟩ := enter_frame o w2
      split at ho
      · have hc : c = true := by
          rcases complete_spec env view true (enter o w2) with ⟨h, _⟩ | ⟨u, d, l, h, _⟩
          · rw [h] at ho; cases ho
          · rw [h] at ho; cases ho; rfl
        subst hc
        exact ⟨st, enter o w2, e11.trans hf.up, e12.trans hf.down, e5.trans hf.found, (e2.trans hf.last).trans b2, (e1.trans hf.sel).trans b1,
          fun h => (by cases h), fun _ => ⟨_, ho⟩⟩
      · cases ho
        exact ⟨st, enter o w2, e11.trans hf.up, e12.trans hf.down, e5.trans hf.found, (e2.trans hf.last).trans b2, (e1.trans hf.sel).trans b1,
          fun _ => rfl, fun h => (by cases h)⟩
    | false =>
      dsimp only at ho
      simp only [Bool.not_false, Bool.true_and, Bool.true_or, if_true] at ho
      split at ho
      · cases ho
      · have hc : c = true := by
          rcases complete_spec env view false w2 with ⟨h, _⟩ | ⟨u, d, l, h, _⟩
          · rw [h] at ho; cases ho
          · rw [h] at ho; cases ho; rfl
        subst hc
        exact ⟨st, w2, hf.up, hf.down, hf.found, hf.last.trans b2, hf.sel.trans b1, fun h => (by cases h), fun _ => ⟨_, ho⟩⟩

end Verif.Lemmas.Split
