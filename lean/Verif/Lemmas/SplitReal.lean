import Verif.Lemmas.SplitNext
/-!
# The elements that a window of the diff view knows are elements of one of the documents, in every session
-/
namespace Verif.Lemmas.Split
open Verif.Model Verif.Model.Diff Verif.Model.Split Verif.Spec.SplitView

/-- An element of one of the documents. -/
def Real (env : Env) (e : Ptr) : Prop := ∃ side, Owns env side e

/-- All elements a window knows are there. -/
structure RealW (env : Env) (w : Win) : Prop where
  sel : ∀ e, w.sel = some e → Real env e
  last : ∀ e, w.last = some e → Real env e
  up : ∀ e, w.up = some e → Real env e
  down : ∀ e, w.down = some e → Real env e

theorem real_findNext {env : Env} {e f : Ptr} (h : Real env e) (hf : env.findNext e = some f) : Real env f := h.imp fun _ h => owns_findNext h hf

theorem real_findPrev {env : Env} {e f : Ptr} (h : Real env e) (hf : env.findPrev e = some f) : Real env f := h.imp fun _ h => owns_findPrev h hf

theorem real_parent {env : Env} {e f : Ptr} (h : Real env e) (hf : parent e = some f) : Real env f := h.imp fun _ h => owns_parent h hf

theorem real_firstChild {env : Env} {view : View} {w : Win} {f : Ptr} (h : ∀ e, w.sel = some e → Real env e)
    (hf : firstChild env view w = some f) : Real env f := by
  cases hs : w.sel with
  | none => unfold firstChild at hf; rw [hs] at hf; cases hf
  | some e =>
    obtain ⟨side, ho⟩ := h e hs
    exact ⟨side, owns_firstChild (view := view) (w := w) (fun e' he' => by rw [hs] at he'; cases he'; exact ho) hf⟩

theorem real_before {env : Env} {side : Bool} {it : Item} {st : List (Nat × Path)} {w : Win} (h : RealW env w)
    (hex : it.closing = false → ∃ e, (Elem.value (env.root side)).at it.path = some e) : RealW env (before side it st w) := by
  unfold before
  cases hc : it.closing with
  | true => simp only [if_true]; exact ⟨h.sel, h.last, h.up, h.down⟩
  | false =>
    simp only [Bool.false_eq_true, if_false]
    obtain ⟨x, hx⟩ := hex hc
    have ho : ∀ e, some (ptr side it.path) = some e → Real env e := by
      intro e he
      cases he
      exact ⟨side, _, x, rfl, hx⟩
    unfold checkSelection
    dsimp only
    split
    · split
      · exact ⟨h.sel, h.last, h.up, h.down⟩
      · exact ⟨h.sel, h.last, ho, h.down⟩
    · split
      · exact ⟨h.sel, h.last, h.up, ho⟩
      · exact ⟨h.sel, h.last, h.up, h.down⟩

theorem real_complete {env : Env} {view : View} {r : Bool} {w w' : Win} {c : Bool} (h : RealW env w)
    (hc : complete env view r w = .ok w' c) : RealW env w' := by
  unfold complete at hc
  dsimp only at hc
  have hu : ∀ e, (if w.up.isNone = true then w.last else w.up) = some e → Real env e := by
    intro e he
    split at he
    · exact h.last e he
    · exact h.up e he
  cases hd : w.down with
  | some d =>
    simp only [hd] at hc
    cases hc
    exact ⟨h.sel, h.last, hu, fun e he => h.down e (hd.trans he)⟩
  | none =>
    simp only [hd] at hc
    cases hf : firstChild env view { w with isLast := w.isLast || (!r && true), up := if w.up.isNone = true then w.last else w.up, down := none } with
    | some f =>
      have hf' := hf
      simp only [Option.isNone_none, hf] at hc
      cases hc
      refine ⟨h.sel, h.last, hu, fun e he => ?_⟩
      cases he
      exact real_firstChild h.sel hf'
    | none =>
      simp only [Option.isNone_none, hf] at hc
      cases hl : w.last with
      | none => simp only [hl] at hc; cases hc
      | some l =>
        simp only [hl] at hc
        cases hc
        have hlo := h.last l hl
        refine ⟨h.sel, fun e he => h.last e (hl.trans he), fun e he => hu e (by rw [hl]; exact he), fun e he => ?_⟩
        dsimp only at he
        cases hn : env.findNext l with
        | none => rw [hn] at he; cases he; exact hlo
        | some f => rw [hn] at he; cases he; exact real_findNext hlo hn

theorem real_frame {env : Env} {w w' : Win} (h : RealW env w) (f : Frame w w') : RealW env w' :=
  ⟨fun e he => h.sel e (f.sel.symm.trans he), fun e he => h.last e (f.last.symm.trans he), fun e he => h.up e (f.up.symm.trans he), fun e he => h.down e (f.down.symm.trans he)⟩

theorem real_enter {env : Env} {w : Win} (h : RealW env w) (o : Option Path) : RealW env (enter o w) := by
  obtain ⟨e1, e2, _, _, _, _, _, _, _, _, e3, e4, _⟩ := enter_frame o w
  exact ⟨fun e he => h.sel e (e1.symm.trans he), fun e he => h.last e (e2.symm.trans he), fun e he => h.up e (e3.symm.trans he), fun e he => h.down e (e4.symm.trans he)⟩

theorem real_one {env : Env} {view : View} {side : Bool} {w : Win} (hs : Sound (env.root side) w.stack) (h : RealW env w) :
    (∀ w', redrawOne env view side w = .retry w' → RealW env w') ∧
    (∀ w' c, redrawOne env view side w = .ok w' c → RealW env w' ∧ (c = true → w.last ≠ none → w'.up ≠ none ∧ w'.down ≠ none)) := by
  obtain ⟨it, rest, st, hrem, hex, hadd, hdraw, hst⟩ := draw1_eq env view side w hs
  have hb := real_before (st := st) h hex
  have hbl := (before_spec side it st w).2.1
  have hd : RealW env (draw1 env view side w).1 ∧ (draw1 env view side w).1.last = w.last := by
    rw [hdraw]
    unfold drawIt
    have hf := putAll_frame env view (prints env view side it) (before side it st w)
    cases hp : putAll env view (prints env view side it) (before side it st w) with
    | mk w2 r =>
      rw [hp] at hf
      cases r with
      | false => exact ⟨real_frame hb hf, hf.last.trans hbl⟩
      | true => exact ⟨real_enter (real_frame hb hf) _, (enter_frame _ _).2.1.trans (hf.last.trans hbl)⟩
  rw [redrawOne_eq]
  constructor
  · intro w' hw'
    split at hw'
    · cases hw'
      exact ⟨hd.1.sel, hd.1.last, hd.1.up, hd.1.down⟩
    split at hw'
    · rcases complete_spec env view (draw1 env view side w).2 (draw1 env view side w).1 with ⟨hc, _⟩ | ⟨u, d, l, hc, _⟩ <;> (rw [hc] at hw'; cases hw')
    · cases hw'
  · intro w' c hw'
    split at hw'
    · cases hw'
    split at hw'
    · refine ⟨real_complete hd.1 hw', fun _ hl => ?_⟩
      rcases complete_spec env view (draw1 env view side w).2 (draw1 env view side w).1 with ⟨hc, _⟩ | ⟨u, d, l, hc, h1, h2⟩
      · rw [hc] at hw'; cases hw'
      · rw [hc] at hw'
        cases hw'
        exact ⟨h1 (by rw [hd.2]; exact hl), h2⟩
    · cases hw'
      exact ⟨hd.1, fun h => by cases h⟩

/-- What holds of the pointers of the windows while they are drawn. -/
structure RealP (env : Env) (s : Pass) : Prop where
  sound0 : s.b0 = true → Sound (env.root false) s.w0.stack
  sound1 : s.b1 = true → Sound (env.root true) s.w1.stack
  w0 : RealW env s.w0
  w1 : RealW env s.w1
  done0 : s.b0 = false → s.w0.last ≠ none → s.w0.up ≠ none ∧ s.w0.down ≠ none
  done1 : s.b1 = false → s.w1.last ≠ none → s.w1.up ≠ none ∧ s.w1.down ≠ none

theorem real_gap {env : Env} {w : Win} (h : RealW env w) (n : Nat) : RealW env (gap n w) := by
  rw [gap_eq]
  exact ⟨h.sel, h.last, h.up, h.down⟩

theorem real_step {env : Env} {view : View} {s t : Pass} (h : Step1 env view s t) (i : RealP env s) : RealP env t := by
  cases h with
  | @add0 b1 w0 w1 w c ha ho =>
    obtain ⟨h1, h2⟩ := (real_one (i.sound0 rfl) i.w0).2 _ _ ho
    have hl : w.last = w0.last := by obtain ⟨it, rest, t⟩ := turn env view false w0 (i.sound0 rfl); exact (t.ok _ _ ho).2.2.2.2.2.1
    refine ⟨(one_shorter (i.sound0 rfl) ho).2, ?_, h1, real_gap i.w1 _, fun hc hn => h2 (by simpa using hc) (by rw [← hl]; exact hn), ?_⟩
    · rw [stack_gap]; exact i.sound1
    · rw [gap_eq]; exact i.done1
  | @add1 b0 w0 w1 w c hn ha ho =>
    obtain ⟨h1, h2⟩ := (real_one (i.sound1 rfl) i.w1).2 _ _ ho
    have hl : w.last = w1.last := by obtain ⟨it, rest, t⟩ := turn env view true w1 (i.sound1 rfl); exact (t.ok _ _ ho).2.2.2.2.2.1
    refine ⟨?_, (one_shorter (i.sound1 rfl) ho).2, real_gap i.w0 _, h1, ?_, fun hc hn => h2 (by simpa using hc) (by rw [← hl]; exact hn)⟩
    · rw [stack_gap]; exact i.sound0
    · rw [gap_eq]; exact i.done0
  | @both w0 w1 w w' c c' ha ha' ho ho' =>
    obtain ⟨h1, h2⟩ := (real_one (i.sound0 rfl) i.w0).2 _ _ ho
    obtain ⟨h1', h2'⟩ := (real_one (i.sound1 rfl) i.w1).2 _ _ ho'
    have hl : w.last = w0.last := by obtain ⟨it, rest, t⟩ := turn env view false w0 (i.sound0 rfl); exact (t.ok _ _ ho).2.2.2.2.2.1
    have hl' : w'.last = w1.last := by obtain ⟨it, rest, t⟩ := turn env view true w1 (i.sound1 rfl); exact (t.ok _ _ ho').2.2.2.2.2.1
    exact ⟨(one_shorter (i.sound0 rfl) ho).2, (one_shorter (i.sound1 rfl) ho').2, ⟨h1.sel, h1.last, h1.up, h1.down⟩, ⟨h1'.sel, h1'.last, h1'.up, h1'.down⟩,
      fun hc hn => h2 (by simpa using hc) (by rw [← hl]; exact hn), fun hc hn => h2' (by simpa using hc) (by rw [← hl']; exact hn)⟩
  | @only0 w0 w1 w c ha ho =>
    obtain ⟨h1, h2⟩ := (real_one (i.sound0 rfl) i.w0).2 _ _ ho
    have hl : w.last = w0.last := by obtain ⟨it, rest, t⟩ := turn env view false w0 (i.sound0 rfl); exact (t.ok _ _ ho).2.2.2.2.2.1
    have i1 := i.w1
    exact ⟨(one_shorter (i.sound0 rfl) ho).2, fun h => (by cases h), ⟨h1.sel, h1.last, h1.up, h1.down⟩, ⟨i1.sel, i1.last, i1.up, i1.down⟩,
      fun hc hn => h2 (by simpa using hc) (by rw [← hl]; exact hn), i.done1⟩
  | @only1 w0 w1 w c ha ho =>
    obtain ⟨h1, h2⟩ := (real_one (i.sound1 rfl) i.w1).2 _ _ ho
    have hl : w.last = w1.last := by obtain ⟨it, rest, t⟩ := turn env view true w1 (i.sound1 rfl); exact (t.ok _ _ ho).2.2.2.2.2.1
    have i0 := i.w0
    exact ⟨fun h => (by cases h), (one_shorter (i.sound1 rfl) ho).2, ⟨i0.sel, i0.last, i0.up, i0.down⟩, ⟨h1.sel, h1.last, h1.up, h1.down⟩,
      i.done0, fun hc hn => h2 (by simpa using hc) (by rw [← hl]; exact hn)⟩

theorem real_steps {env : Env} {view : View} {s t : Pass} (h : Steps env view s t) (i : RealP env s) : RealP env t := by
  induction h with
  | refl => exact i
  | tail _ h ih => exact real_step h ih

/-- The pointers of the windows after one drawing. -/
theorem real_redraw {env : Env} {n : Nat} {s : St} (h0 : RealW env s.first) (h1 : RealW env s.second) :
    (∀ a b, redraw env n s = some (.retry a b) → RealW env a ∧ RealW env b) ∧
    (∀ a b, redraw env n s = some (.done a b) → RealW env a ∧ RealW env b ∧
      (s.first.last ≠ none → a.up ≠ none ∧ a.down ≠ none) ∧ (s.second.last ≠ none → b.up ≠ none ∧ b.down ≠ none)) := by
  have i0 : RealP env ⟨true, true, s.first.reset, s.second.reset⟩ :=
    ⟨fun _ => sound_nil _, fun _ => sound_nil _, ⟨h0.sel, h0.last, fun e h => (by cases h), fun e h => (by cases h)⟩,
      ⟨h1.sel, h1.last, fun e h => (by cases h), fun e h => (by cases h)⟩, fun h => (by cases h), fun h => (by cases h)⟩
  constructor
  · intro a b h
    obtain ⟨p, hs, hst⟩ := loop_steps env s.view (fun side => one_y env s.view side) n _ _ _ _ _ h
    have i := real_steps hs i0
    cases hst with
    | @retry0 b1 w0 w1 w w1' ho hsame =>
      refine ⟨(real_one (i.sound0 rfl) i.w0).1 _ ho, ?_⟩
      have hw1 : RealW env w1 := i.w1
      rw [hsame] at hw1
      exact ⟨hw1.sel, hw1.last, hw1.up, hw1.down⟩
    | @retry1 b0 w0 w1 w w0' hn ho hsame =>
      refine ⟨?_, (real_one (i.sound1 rfl) i.w1).1 _ ho⟩
      have hw0 : RealW env w0 := i.w0
      rw [hsame] at hw0
      exact ⟨hw0.sel, hw0.last, hw0.up, hw0.down⟩
    | @retryBoth w0 w1 w w0' c ha ha' ho ho' =>
      exact ⟨((real_one (i.sound0 rfl) i.w0).2 _ _ ho).1, (real_one (i.sound1 rfl) i.w1).1 _ ho'⟩
  · intro a b h
    have hk := done_spec h
    obtain ⟨p, hs, hst⟩ := loop_steps env s.view (fun side => one_y env s.view side) n _ _ _ _ _ h
    have i := real_steps hs i0
    cases hst with
    | done => exact ⟨i.w0, i.w1, fun hl => i.done0 rfl (by rw [hk.1.2.1]; exact hl), fun hl => i.done1 rfl (by rw [hk.2.2.1]; exact hl)⟩

theorem real_settle {env : Env} {n k : Nat} {s t : St} (h0 : RealW env s.first) (h1 : RealW env s.second)
    (h : settle env n k s = some (some t)) : RealW env t.first ∧ RealW env t.second ∧
      (s.first.last ≠ none → t.first.up ≠ none ∧ t.first.down ≠ none) ∧ (s.second.last ≠ none → t.second.up ≠ none ∧ t.second.down ≠ none) := by
  induction k generalizing s with
  | zero => cases h
  | succ k ih =>
    rw [settle] at h
    cases hr : redraw env n s with
    | none => rw [hr] at h; cases h
    | some r =>
      rw [hr] at h
      cases r with
      | crash => cases h
      | done a b =>
        cases h
        exact (real_redraw h0 h1).2 a b hr
      | retry a b =>
        obtain ⟨ha, hb⟩ := (real_redraw h0 h1).1 a b hr
        obtain ⟨k0, k1, _⟩ := retry_spec hr
        obtain ⟨r1, r2, r3, r4⟩ := ih ha hb h
        exact ⟨r1, r2, fun hl => r3 (by dsimp only; rw [k0.2.1]; exact hl), fun hl => r4 (by dsimp only; rw [k1.2.1]; exact hl)⟩

/-- All that a window may select without drawing is of its document. -/
structure RealR (env : Env) (w : Win) : Prop extends RealW env w where
  results : ∀ q, w.results.head? = some q → Real env q

structure RealS (env : Env) (s : St) : Prop where
  lt : s.selected < 2
  first : RealR env s.first
  second : RealR env s.second

theorem RealS.active {env : Env} {s : St} (h : RealS env s) : RealR env s.active := by
  unfold St.active St.at
  by_cases hc : s.selected = 0
  · simpa [hc] using h.first
  · simpa [hc] using h.second

theorem RealS.other {env : Env} {s : St} (h : RealS env s) : RealR env (Spec.SplitView.other s) := by
  unfold Spec.SplitView.other
  by_cases hc : s.selected = 0
  · simpa [hc] using h.second
  · simpa [hc] using h.first

theorem real_of {env : Env} {s : St} (hl : s.selected < 2) (ha : RealR env s.active) (ho : RealR env (Spec.SplitView.other s)) : RealS env s := by
  unfold St.active St.at Spec.SplitView.other at *
  by_cases hc : s.selected = 0
  · simp only [hc, if_true] at ha ho
    exact ⟨by rw [hc]; decide, ha, ho⟩
  · simp only [hc, if_false] at ha ho
    exact ⟨hl, ho, ha⟩

theorem real_set {env : Env} (hx : Across env) {s : St} (h : RealS env s) {e : Option Ptr} (he : ∀ f, e = some f → Real env f) :
    RealS env (setSelection env e s) := by
  obtain ⟨h1, h2⟩ := set_active env e s
  refine real_of (by rw [set_selected]; exact h.lt) ?_ ?_
  · rw [h1]
    have := h.active
    exact ⟨⟨he, he, this.up, this.down⟩, this.results⟩
  · rw [h2]
    have := h.other
    unfold follow
    cases hb : e.bind env.equiv with
    | none => exact ⟨⟨fun e h => (by cases h), this.last, this.up, this.down⟩, this.results⟩
    | some q =>
      have hq : ∀ f, some q = some f → Real env f := by
        intro f hf
        cases hf
        obtain ⟨f, hf, hq⟩ := Option.bind_eq_some_iff.mp hb
        obtain ⟨side, ho⟩ := he f hf
        exact ⟨_, hx _ f q ho hq⟩
      exact ⟨⟨hq, hq, this.up, this.down⟩, this.results⟩

theorem real_sel {env : Env} {s : St} (h : RealS env s) {e : Option Ptr} (he : Sel env s e) : ∀ f, e = some f → Real env f := by
  intro f hf
  have ha := h.active
  cases he with
  | up => exact ha.up f hf
  | down => exact ha.down f hf
  | prev h1 h2 => cases hf; exact real_findPrev (ha.sel _ h1) h2
  | next h1 h2 => cases hf; exact real_findNext (ha.sel _ h1) h2
  | par h1 h2 => cases hf; exact real_parent (ha.sel _ h1) h2
  | par2 h1 h2 h3 => cases hf; exact real_parent (real_parent (ha.sel _ h1) h2) h3

theorem real_swap {env : Env} {s : St} (h : RealS env s) : RealS env { s with selected := 1 - s.selected } :=
  ⟨by dsimp only; omega, h.first, h.second⟩

theorem real_out {env : Env} (hx : Across env) {s t : St} {a : Answer} (h : RealS env s) (ho : Out env s a) (ha : a = .redraw t ∨ a = .nextInput t) :
    RealS env t := by
  cases ho with
  | quit => rcases ha with ha | ha <;> cases ha
  | crash => rcases ha with ha | ha <;> cases ha
  | stay => rcases ha with ha | ha <;> cases ha; exact h
  | select hs => rcases ha with ha | ha <;> cases ha; exact real_set hx h (real_sel h hs)
  | fold _ => rcases ha with ha | ha <;> cases ha; exact ⟨h.lt, h.first, h.second⟩
  | window d c hd =>
    rcases window_spec env d c s h.lt hd with hw | ⟨u, rfl, ⟨_, hw⟩ | hw⟩
    · rw [hw] at ha; rcases ha with ha | ha <;> cases ha; exact h
    · rw [hw] at ha; rcases ha with ha | ha <;> cases ha; exact real_swap h
    · rw [hw] at ha; rcases ha with ha | ha <;> cases ha
      exact real_set hx (real_swap h) (real_swap h).active.last

theorem real_kept {env : Env} {v w : Win} (h : RealR env v) (hw : RealW env w) (hk : Keeps v w) : RealR env w :=
  ⟨hw, fun q hq => h.results q (by rw [← hk.2.2]; exact hq)⟩

theorem real_message {env : Env} {n : Nat} {s t : St} (h : RealS env s) (hm : redrawMessage env n s = some (.nextInput t)) : RealS env t := by
  obtain ⟨k0, k1, hsel, _⟩ := message_spec hm
  unfold redrawMessage at hm
  obtain ⟨hr, hd⟩ := real_redraw (n := n) h.first.toRealW h.second.toRealW
  cases hx : redraw env n s with
  | none => rw [hx] at hm; cases hm
  | some d =>
    rw [hx] at hm
    cases d with
    | crash => cases hm
    | retry a b => cases hm; obtain ⟨o0, o1⟩ := hr a b hx; exact ⟨h.lt, real_kept h.first o0 k0, real_kept h.second o1 k1⟩
    | done a b => cases hm; obtain ⟨o0, o1, _⟩ := hd a b hx; exact ⟨h.lt, real_kept h.first o0 k0, real_kept h.second o1 k1⟩

theorem real_settled {env : Env} {n k : Nat} {s t : St} (h : RealS env s) (hs : settle env n k s = some (some t)) : RealS env t := by
  obtain ⟨k0, k1, hsel, _⟩ := settle_keeps hs
  obtain ⟨o0, o1, _⟩ := real_settle h.first.toRealW h.second.toRealW hs
  exact ⟨by rw [hsel]; exact h.lt, real_kept h.first o0 k0, real_kept h.second o1 k1⟩

theorem real_jump {env : Env} (hx : Across env) {n : Nat} {s t : St} {a : Answer} (h : RealS env s) (hj : Jump env n s a) (ha : a = .redraw t ∨ a = .nextInput t) :
    RealS env t := by
  cases hj with
  | nothing _ hm =>
    rcases ha with rfl | rfl
    · exact absurd hm message_not_redraw
    · exact real_message h hm
  | @next e he =>
    rcases ha with ha | ha <;> cases ha
    have := real_set hx h (e := some e) (fun f hf => by cases hf; exact ⟨_, he⟩)
    exact ⟨this.lt, this.first, this.second⟩
  | @wrap q _ hq hm =>
    rcases ha with rfl | rfl
    · exact absurd hm message_not_redraw
    · have := real_set hx h (e := some q) (fun f hf => by cases hf; exact h.active.results q hq)
      exact real_message (s := { setSelection env (some q) s with collapsed := unfold q s.collapsed }) ⟨this.lt, this.first, this.second⟩ hm

theorem real_search {env : Env} {pat : Search.Pattern} {q : Ptr} (h : q ∈ search env pat) : Real env q := by
  have key : ∀ side p, ptr side p ∈ search env pat → Real env (ptr side p) := by
    intro side p h
    have hm := mem_hits.mpr h
    rw [hits_search] at hm
    obtain ⟨-, x, hx, -⟩ := Props.results_elems env.rx env.fmt pat _ p hm
    exact ⟨side, p, x, rfl, hx⟩
  cases q with
  | left p => exact key false p h
  | right p => exact key true p h

theorem real_key {env : Env} (hx : Across env) {n : Nat} {name : Bytes} {pat : Option Search.Pattern} {s t : St} {a : Answer} (h : RealS env s)
    (he : evalKey env n name pat s = some a) (ha : a = .redraw t ∨ a = .nextInput t) : RealS env t := by
  rcases key_cases he with ⟨_, _, ho⟩ | ⟨_, hs⟩ | ⟨_, hj⟩
  · exact real_out hx h ho ha
  · have hclear : RealS env { s with first := { s.first with results := [] }, second := { s.second with results := [] } } :=
      ⟨h.lt, ⟨⟨h.first.sel, h.first.last, h.first.up, h.first.down⟩, fun q hq => (by cases hq)⟩,
        ⟨⟨h.second.sel, h.second.last, h.second.up, h.second.down⟩, fun q hq => (by cases hq)⟩⟩
    rcases search_spec hs with ⟨_, rfl⟩ | ⟨p, _, rfl | hj⟩
    · rcases ha with ha | ha <;> cases ha; exact h
    · rcases ha with ha | ha <;> cases ha; exact hclear
    · refine real_jump hx ?_ hj ha
      have hown : ∀ q, (search env p).head? = some q → Real env q := fun q hq => real_search (List.mem_of_mem_head? hq)
      unfold St.set St.active St.at
      by_cases hc : s.selected = 0
      · simp only [hc, if_true]
        exact ⟨Nat.zero_lt_two, ⟨⟨h.first.sel, h.first.last, h.first.up, h.first.down⟩, hown⟩, hclear.second⟩
      · simp only [hc, if_false]
        exact ⟨h.lt, hclear.first, ⟨⟨h.second.sel, h.second.last, h.second.up, h.second.down⟩, hown⟩⟩
  · exact real_jump hx h hj ha

theorem real_start (env : Env) (hx : Across env) (cols rows : Nat) : RealS env (start env cols rows) := by
  have hroot : ∀ side, Real env (ptr side []) := fun side => ⟨side, [], _, rfl, rfl⟩
  have hw : ∀ side, RealR env (Win.mk none (some (ptr side [])) none none [] 0 0 0 [] false false [] [] []) := fun side =>
    ⟨⟨fun e h => (by cases h), fun e h => (by cases h; exact hroot side), fun e h => (by cases h), fun e h => (by cases h)⟩, fun q h => (by cases h)⟩
  refine real_set hx ⟨Nat.zero_lt_two, hw false, hw true⟩ ?_
  intro f hf
  cases hf
  exact hroot false

theorem real_reached {env : Env} (hc : Compared env) {n k cols rows : Nat} {ok : St → Input → Prop} {s : St} (h : Reached env n k cols rows ok s) : RealS env s := by
  have hx := across_of_compared hc
  induction h with
  | start hs => exact real_settled (real_start env hx cols rows) hs
  | @input s t i _ _ hs ih =>
    rcases step_cases hs with ⟨c, r, _, hst⟩ | ⟨name, pat, rfl, ⟨s', he, hst⟩ | he⟩
    · exact real_settled (s := { s with width := c / 2, height := less r 2 }) ⟨ih.lt, ih.first, ih.second⟩ hst
    · exact real_settled (real_key hx ih he (.inl rfl)) hst
    · exact real_key hx ih he (.inr rfl)


end Verif.Lemmas.Split
