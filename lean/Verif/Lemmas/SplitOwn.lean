import Verif.Lemmas.SplitDone
import Verif.Lemmas.FindNext
import Verif.Lemmas.Navigate
/-!
# The pointers of a window of the diff view
-/
namespace Verif.Lemmas.Split
open Verif.Model Verif.Model.Diff Verif.Model.Split

/-- An element of the document of a window. -/
def Owns (env : Env) (side : Bool) (e : Ptr) : Prop := ∃ p x, e = ptr side p ∧ (Elem.value (env.root side)).at p = some x

/-- All elements a window knows are of its document. -/
structure OwnW (env : Env) (side : Bool) (w : Win) : Prop where
  sel : ∀ e, w.sel = some e → Owns env side e
  last : ∀ e, w.last = some e → Owns env side e
  up : ∀ e, w.up = some e → Owns env side e
  down : ∀ e, w.down = some e → Owns env side e

theorem owns_findNext {env : Env} {side : Bool} {e f : Ptr} (h : Owns env side e) (hf : env.findNext e = some f) : Owns env side f := by
  obtain ⟨p, x, rfl, hx⟩ := h
  have key : ∀ root : Json, (∃ y, (Elem.value root).at p = some y) → ∀ q, Nav.findNext root p = some q → ∃ y, (Elem.value root).at q = some y := by
    intro root hy q hq
    have := (findNextRev_some root p.reverse q (by rw [List.reverse_reverse]; exact hy) hq).1.1
    exact this
  cases side with
  | false =>
    simp only [ptr, Bool.false_eq_true, if_false, Env.findNext, Option.map_eq_some_iff] at hf
    obtain ⟨q, hq, rfl⟩ := hf
    obtain ⟨y, hy⟩ := key _ ⟨x, hx⟩ q hq
    exact ⟨q, y, rfl, hy⟩
  | true =>
    simp only [ptr, if_true, Env.findNext, Option.map_eq_some_iff] at hf
    obtain ⟨q, hq, rfl⟩ := hf
    obtain ⟨y, hy⟩ := key _ ⟨x, hx⟩ q hq
    exact ⟨q, y, rfl, hy⟩

theorem findPrev_exists {root : Json} {p q : Path} (hx : ∃ y, (Elem.value root).at p = some y) (hq : Nav.findPrev root p = some q) :
    ∃ y, (Elem.value root).at q = some y := by
  unfold Nav.findPrev at hq
  cases hl : p.getLast? with
  | none => rw [hl] at hq; cases hq
  | some i =>
    rw [hl] at hq
    dsimp only at hq
    cases hp : (Elem.value root).at p.dropLast with
    | none => rw [hp] at hq; cases hq
    | some par =>
      rw [hp] at hq
      dsimp only at hq
      split at hq
      · cases hq
      split at hq
      · cases hq
      cases hq
      have hpi : p = p.dropLast ++ [i] := by
        cases p with
        | nil => cases hl
        | cons a l =>
          have hne : a :: l ≠ [] := by simp
          rw [List.getLast?_eq_some_getLast hne] at hl
          cases hl
          exact (List.dropLast_concat_getLast hne).symm
      obtain ⟨y, hy⟩ := hx
      rw [hpi, at_child hp] at hy
      have hlt : i < par.kids.length := (List.getElem?_eq_some_iff.mp hy).1
      refine ⟨par.kids[i - 1], ?_⟩
      rw [at_child hp, List.getElem?_eq_getElem (by omega)]

theorem owns_findPrev {env : Env} {side : Bool} {e f : Ptr} (h : Owns env side e) (hf : env.findPrev e = some f) : Owns env side f := by
  obtain ⟨p, x, rfl, hx⟩ := h
  cases side with
  | false =>
    simp only [ptr, Bool.false_eq_true, if_false, Env.findPrev, Option.map_eq_some_iff] at hf
    obtain ⟨q, hq, rfl⟩ := hf
    obtain ⟨y, hy⟩ := findPrev_exists ⟨x, hx⟩ hq
    exact ⟨q, y, rfl, hy⟩
  | true =>
    simp only [ptr, if_true, Env.findPrev, Option.map_eq_some_iff] at hf
    obtain ⟨q, hq, rfl⟩ := hf
    obtain ⟨y, hy⟩ := findPrev_exists ⟨x, hx⟩ hq
    exact ⟨q, y, rfl, hy⟩

theorem child_ptr (side : Bool) (p : Path) (i : Nat) : child (ptr side p) i = ptr side (p ++ [i]) := by
  cases side <;> rfl

theorem owns_parent {env : Env} {side : Bool} {e f : Ptr} (h : Owns env side e) (hf : parent e = some f) : Owns env side f := by
  obtain ⟨p, x, rfl, hx⟩ := h
  have hp : p ≠ [] ∧ f = ptr side p.dropLast := by
    cases side with
    | false =>
      simp only [ptr, Bool.false_eq_true, if_false, parent] at hf
      split at hf
      · cases hf
      · next hn => cases hf; exact ⟨by simpa using hn, rfl⟩
    | true =>
      simp only [ptr, if_true, parent] at hf
      split at hf
      · cases hf
      · next hn => cases hf; exact ⟨by simpa using hn, rfl⟩
  have hpi : p = p.dropLast ++ [p.getLast hp.1] := (List.dropLast_concat_getLast hp.1).symm
  rw [hpi, at_append] at hx
  obtain ⟨y, hy, _⟩ := Option.bind_eq_some_iff.mp hx
  exact ⟨_, y, hp.2, hy⟩

theorem owns_firstChild {env : Env} {view : View} {side : Bool} {w : Win} {f : Ptr} (h : ∀ e, w.sel = some e → Owns env side e)
    (hf : firstChild env view w = some f) : Owns env side f := by
  unfold firstChild at hf
  cases hs : w.sel with
  | none => rw [hs] at hf; cases hf
  | some e =>
    rw [hs] at hf
    dsimp only at hf
    split at hf
    · next hc =>
      cases hf
      obtain ⟨p, x, rfl, hx⟩ := h e hs
      simp only [Bool.and_eq_true, decide_eq_true_eq] at hc
      have h0 : x.kids.length ≠ 0 := by
        have := hc.1.2
        simpa [Env.size, elem_ptr, hx] using this
      refine ⟨p ++ [0], x.kids[0], child_ptr _ _ _, ?_⟩
      rw [at_child hx, List.getElem?_eq_getElem (by omega)]
    · cases hf

theorem own_before {env : Env} {side : Bool} {it : Item} {st : List (Nat × Path)} {w : Win} (h : OwnW env side w)
    (hex : it.closing = false → ∃ e, (Elem.value (env.root side)).at it.path = some e) : OwnW env side (before side it st w) := by
  unfold before
  cases hc : it.closing with
  | true => simp only [if_true]; exact ⟨h.sel, h.last, h.up, h.down⟩
  | false =>
    simp only [Bool.false_eq_true, if_false]
    obtain ⟨x, hx⟩ := hex hc
    have ho : ∀ e, some (ptr side it.path) = some e → Owns env side e := by
      intro e he
      cases he
      exact ⟨_, x, rfl, hx⟩
    unfold checkSelection
    dsimp only
    split
    · split
      · exact ⟨h.sel, h.last, h.up, h.down⟩
      · exact ⟨h.sel, h.last, ho, h.down⟩
    · split
      · exact ⟨h.sel, h.last, h.up, ho⟩
      · exact ⟨h.sel, h.last, h.up, h.down⟩

theorem own_complete {env : Env} {view : View} {side : Bool} {r : Bool} {w w' : Win} {c : Bool} (h : OwnW env side w)
    (hc : complete env view r w = .ok w' c) : OwnW env side w' := by
  unfold complete at hc
  dsimp only at hc
  have hu : ∀ e, (if w.up.isNone = true then w.last else w.up) = some e → Owns env side e := by
    intro e he
    split at he
    · exact h.last e he
    · exact h.up e he
  cases hd : w.down with
  | some d =>
    simp only [hd] at hc
    cases hc
    exact ⟨h.sel, h.last, hu, fun e he => h.down e (hd.trans he)⟩
  | none =>
    simp only [hd] at hc
    cases hf : firstChild env view { w with isLast := w.isLast || (!r && true), up := if w.up.isNone = true then w.last else w.up, down := none } with
    | some f =>
      have hf' := hf
      simp only [Option.isNone_none, hf] at hc
      cases hc
      refine ⟨h.sel, h.last, hu, fun e he => ?_⟩
      cases he
      exact owns_firstChild h.sel hf'
    | none =>
      simp only [Option.isNone_none, hf] at hc
      cases hl : w.last with
      | none => simp only [hl] at hc; cases hc
      | some l =>
        simp only [hl] at hc
        cases hc
        have hlo := h.last l hl
        refine ⟨h.sel, fun e he => h.last e (hl.trans he), fun e he => hu e (by rw [hl]; exact he), fun e he => ?_⟩
        dsimp only at he
        cases hn : env.findNext l with
        | none => rw [hn] at he; cases he; exact hlo
        | some f => rw [hn] at he; cases he; exact owns_findNext hlo hn

theorem own_frame {env : Env} {side : Bool} {w w' : Win} (h : OwnW env side w) (f : Frame w w') : OwnW env side w' :=
  ⟨fun e he => h.sel e (f.sel.symm.trans he), fun e he => h.last e (f.last.symm.trans he), fun e he => h.up e (f.up.symm.trans he), fun e he => h.down e (f.down.symm.trans he)⟩

theorem own_enter {env : Env} {side : Bool} {w : Win} (h : OwnW env side w) (o : Option Path) : OwnW env side (enter o w) := by
  obtain ⟨e1, e2, _, _, _, _, _, _, _, _, e3, e4, _⟩ := enter_frame o w
  exact ⟨fun e he => h.sel e (e1.symm.trans he), fun e he => h.last e (e2.symm.trans he), fun e he => h.up e (e3.symm.trans he), fun e he => h.down e (e4.symm.trans he)⟩

theorem own_one {env : Env} {view : View} {side : Bool} {w : Win} (hs : Sound (env.root side) w.stack) (h : OwnW env side w) :
    (∀ w', redrawOne env view side w = .retry w' → OwnW env side w') ∧
    (∀ w' c, redrawOne env view side w = .ok w' c → OwnW env side w' ∧ (c = true → w.last ≠ none → w'.up ≠ none ∧ w'.down ≠ none)) := by
  obtain ⟨it, rest, st, hrem, hex, hadd, hdraw, hst⟩ := draw1_eq env view side w hs
  have hb := own_before (st := st) h hex
  have hbl := (before_spec side it st w).2.1
  have hd : OwnW env side (draw1 env view side w).1 ∧ (draw1 env view side w).1.last = w.last := by
    rw [hdraw]
    unfold drawIt
    have hf := putAll_frame env view (prints env view side it) (before side it st w)
    cases hp : putAll env view (prints env view side it) (before side it st w) with
    | mk w2 r =>
      rw [hp] at hf
      cases r with
      | false => exact ⟨own_frame hb hf, hf.last.trans hbl⟩
      | true => exact ⟨own_enter (own_frame hb hf) _, (enter_frame _ _).2.1.trans (hf.last.trans hbl)⟩
  rw [redrawOne_eq]
  constructor
  · intro w' hw'
    split at hw'
    · cases hw'
      exact ⟨hd.1.sel, hd.1.last, hd.1.up, hd.1.down⟩
    split at hw'
    · rcases complete_spec env view (draw1 env view side w).2 (draw1 env view side w).1 with ⟨hc, _⟩ | ⟨u, d, l, hc, _⟩ <;> (rw [hc] at hw'; cases hw')
    · cases hw'
  · intro w' c hw'
    split at hw'
    · cases hw'
    split at hw'
    · refine ⟨own_complete hd.1 hw', fun _ hl => ?_⟩
      rcases complete_spec env view (draw1 env view side w).2 (draw1 env view side w).1 with ⟨hc, _⟩ | ⟨u, d, l, hc, h1, h2⟩
      · rw [hc] at hw'; cases hw'
      · rw [hc] at hw'
        cases hw'
        exact ⟨h1 (by rw [hd.2]; exact hl), h2⟩
    · cases hw'
      exact ⟨hd.1, fun h => by cases h⟩

/-- What holds of the pointers of the windows while they are drawn. -/
structure OwnP (env : Env) (s : Pass) : Prop where
  sound0 : s.b0 = true → Sound (env.root false) s.w0.stack
  sound1 : s.b1 = true → Sound (env.root true) s.w1.stack
  w0 : OwnW env false s.w0
  w1 : OwnW env true s.w1
  done0 : s.b0 = false → s.w0.last ≠ none → s.w0.up ≠ none ∧ s.w0.down ≠ none
  done1 : s.b1 = false → s.w1.last ≠ none → s.w1.up ≠ none ∧ s.w1.down ≠ none

theorem own_gap {env : Env} {side : Bool} {w : Win} (h : OwnW env side w) (n : Nat) : OwnW env side (gap n w) := by
  rw [gap_eq]
  exact ⟨h.sel, h.last, h.up, h.down⟩

theorem own_step {env : Env} {view : View} {s t : Pass} (h : Step1 env view s t) (i : OwnP env s) : OwnP env t := by
  cases h with
  | @add0 b1 w0 w1 w c ha ho =>
    obtain ⟨h1, h2⟩ := (own_one (i.sound0 rfl) i.w0).2 _ _ ho
    have hl : w.last = w0.last := by obtain ⟨it, rest, t⟩ := turn env view false w0 (i.sound0 rfl); exact (t.ok _ _ ho).2.2.2.2.2.1
    refine ⟨(one_shorter (i.sound0 rfl) ho).2, ?_, h1, own_gap i.w1 _, fun hc hn => h2 (by simpa using hc) (by rw [← hl]; exact hn), ?_⟩
    · rw [stack_gap]; exact i.sound1
    · rw [gap_eq]; exact i.done1
  | @add1 b0 w0 w1 w c hn ha ho =>
    obtain ⟨h1, h2⟩ := (own_one (i.sound1 rfl) i.w1).2 _ _ ho
    have hl : w.last = w1.last := by obtain ⟨it, rest, t⟩ := turn env view true w1 (i.sound1 rfl); exact (t.ok _ _ ho).2.2.2.2.2.1
    refine ⟨?_, (one_shorter (i.sound1 rfl) ho).2, own_gap i.w0 _, h1, ?_, fun hc hn => h2 (by simpa using hc) (by rw [← hl]; exact hn)⟩
    · rw [stack_gap]; exact i.sound0
    · rw [gap_eq]; exact i.done0
  | @both w0 w1 w w' c c' ha ha' ho ho' =>
    obtain ⟨h1, h2⟩ := (own_one (i.sound0 rfl) i.w0).2 _ _ ho
    obtain ⟨h1', h2'⟩ := (own_one (i.sound1 rfl) i.w1).2 _ _ ho'
    have hl : w.last = w0.last := by obtain ⟨it, rest, t⟩ := turn env view false w0 (i.sound0 rfl); exact (t.ok _ _ ho).2.2.2.2.2.1
    have hl' : w'.last = w1.last := by obtain ⟨it, rest, t⟩ := turn env view true w1 (i.sound1 rfl); exact (t.ok _ _ ho').2.2.2.2.2.1
    exact ⟨(one_shorter (i.sound0 rfl) ho).2, (one_shorter (i.sound1 rfl) ho').2, ⟨h1.sel, h1.last, h1.up, h1.down⟩, ⟨h1'.sel, h1'.last, h1'.up, h1'.down⟩,
      fun hc hn => h2 (by simpa using hc) (by rw [← hl]; exact hn), fun hc hn => h2' (by simpa using hc) (by rw [← hl']; exact hn)⟩
  | @only0 w0 w1 w c ha ho =>
    obtain ⟨h1, h2⟩ := (own_one (i.sound0 rfl) i.w0).2 _ _ ho
    have hl : w.last = w0.last := by obtain ⟨it, rest, t⟩ := turn env view false w0 (i.sound0 rfl); exact (t.ok _ _ ho).2.2.2.2.2.1
    have i1 := i.w1
    exact ⟨(one_shorter (i.sound0 rfl) ho).2, fun h => (by cases h), ⟨h1.sel, h1.last, h1.up, h1.down⟩, ⟨i1.sel, i1.last, i1.up, i1.down⟩,
      fun hc hn => h2 (by simpa using hc) (by rw [← hl]; exact hn), i.done1⟩
  | @only1 w0 w1 w c ha ho =>
    obtain ⟨h1, h2⟩ := (own_one (i.sound1 rfl) i.w1).2 _ _ ho
    have hl : w.last = w1.last := by obtain ⟨it, rest, t⟩ := turn env view true w1 (i.sound1 rfl); exact (t.ok _ _ ho).2.2.2.2.2.1
    have i0 := i.w0
    exact ⟨fun h => (by cases h), (one_shorter (i.sound1 rfl) ho).2, ⟨i0.sel, i0.last, i0.up, i0.down⟩, ⟨h1.sel, h1.last, h1.up, h1.down⟩,
      i.done0, fun hc hn => h2 (by simpa using hc) (by rw [← hl]; exact hn)⟩

theorem own_steps {env : Env} {view : View} {s t : Pass} (h : Steps env view s t) (i : OwnP env s) : OwnP env t := by
  induction h with
  | refl => exact i
  | tail _ h ih => exact own_step h ih

/-- The pointers of the windows after one drawing. -/
theorem own_redraw {env : Env} {n : Nat} {s : St} (h0 : OwnW env false s.first) (h1 : OwnW env true s.second) :
    (∀ a b, redraw env n s = some (.retry a b) → OwnW env false a ∧ OwnW env true b) ∧
    (∀ a b, redraw env n s = some (.done a b) → OwnW env false a ∧ OwnW env true b ∧
      (s.first.last ≠ none → a.up ≠ none ∧ a.down ≠ none) ∧ (s.second.last ≠ none → b.up ≠ none ∧ b.down ≠ none)) := by
  have i0 : OwnP env ⟨true, true, s.first.reset, s.second.reset⟩ :=
    ⟨fun _ => sound_nil _, fun _ => sound_nil _, ⟨h0.sel, h0.last, fun e h => (by cases h), fun e h => (by cases h)⟩,
      ⟨h1.sel, h1.last, fun e h => (by cases h), fun e h => (by cases h)⟩, fun h => (by cases h), fun h => (by cases h)⟩
  constructor
  · intro a b h
    obtain ⟨p, hs, hst⟩ := loop_steps env s.view (fun side => one_y env s.view side) n _ _ _ _ _ h
    have i := own_steps hs i0
    cases hst with
    | @retry0 b1 w0 w1 w w1' ho hsame =>
      refine ⟨(own_one (i.sound0 rfl) i.w0).1 _ ho, ?_⟩
      have hw1 : OwnW env true w1 := i.w1
      rw [hsame] at hw1
      exact ⟨hw1.sel, hw1.last, hw1.up, hw1.down⟩
    | @retry1 b0 w0 w1 w w0' hn ho hsame =>
      refine ⟨?_, (own_one (i.sound1 rfl) i.w1).1 _ ho⟩
      have hw0 : OwnW env false w0 := i.w0
      rw [hsame] at hw0
      exact ⟨hw0.sel, hw0.last, hw0.up, hw0.down⟩
    | @retryBoth w0 w1 w w0' c ha ha' ho ho' =>
      exact ⟨((own_one (i.sound0 rfl) i.w0).2 _ _ ho).1, (own_one (i.sound1 rfl) i.w1).1 _ ho'⟩
  · intro a b h
    have hk := done_spec h
    obtain ⟨p, hs, hst⟩ := loop_steps env s.view (fun side => one_y env s.view side) n _ _ _ _ _ h
    have i := own_steps hs i0
    cases hst with
    | done => exact ⟨i.w0, i.w1, fun hl => i.done0 rfl (by rw [hk.1.2.1]; exact hl), fun hl => i.done1 rfl (by rw [hk.2.2.1]; exact hl)⟩

theorem own_settle {env : Env} {n k : Nat} {s t : St} (h0 : OwnW env false s.first) (h1 : OwnW env true s.second)
    (h : settle env n k s = some (some t)) : OwnW env false t.first ∧ OwnW env true t.second ∧
      (s.first.last ≠ none → t.first.up ≠ none ∧ t.first.down ≠ none) ∧ (s.second.last ≠ none → t.second.up ≠ none ∧ t.second.down ≠ none) := by
  induction k generalizing s with
  | zero => cases h
  | succ k ih =>
    rw [settle] at h
    cases hr : redraw env n s with
    | none => rw [hr] at h; cases h
    | some r =>
      rw [hr] at h
      cases r with
      | crash => cases h
      | done a b =>
        cases h
        exact (own_redraw h0 h1).2 a b hr
      | retry a b =>
        obtain ⟨ha, hb⟩ := (own_redraw h0 h1).1 a b hr
        obtain ⟨k0, k1, _⟩ := retry_spec hr
        obtain ⟨r1, r2, r3, r4⟩ := ih ha hb h
        exact ⟨r1, r2, fun hl => r3 (by dsimp only; rw [k0.2.1]; exact hl), fun hl => r4 (by dsimp only; rw [k1.2.1]; exact hl)⟩

end Verif.Lemmas.Split
