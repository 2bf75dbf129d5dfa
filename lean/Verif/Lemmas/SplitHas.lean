import Verif.Lemmas.SplitOwnHist
/-!
# The active window has a selection in every session
-/
namespace Verif.Lemmas.Split
open Verif.Model Verif.Model.Diff Verif.Model.Split Verif.Spec.SplitView

/-- What holds of the windows one at a time, through a drawing. -/
theorem steps_inv {env : Env} {view : View} (P : Bool → Bool → Win → Prop)
    (hsame : ∀ side b w y m cs, P side b w → P side b { w with y := y, marks := m, calls := cs })
    (hone : ∀ side w w' c, Sound (env.root side) w.stack → P side true w → redrawOne env view side w = .ok w' c → P side (!c) w')
    {s t : Pass} (h : Steps env view s t) (s0 : s.b0 = true → Sound (env.root false) s.w0.stack) (s1 : s.b1 = true → Sound (env.root true) s.w1.stack)
    (p0 : P false s.b0 s.w0) (p1 : P true s.b1 s.w1) :
    (t.b0 = true → Sound (env.root false) t.w0.stack) ∧ (t.b1 = true → Sound (env.root true) t.w1.stack) ∧ P false t.b0 t.w0 ∧ P true t.b1 t.w1 := by
  have hgap : ∀ side b n w, P side b w → P side b (gap n w) := by
    intro side b n w hp
    rw [gap_eq]
    exact hsame side b w _ _ _ hp
  induction h with
  | refl => exact ⟨s0, s1, p0, p1⟩
  | tail _ h ih =>
    obtain ⟨s0, s1, p0, p1⟩ := ih
    cases h with
    | @add0 b1 w0 w1 w c ha ho =>
      exact ⟨(one_shorter (s0 rfl) ho).2, by rw [stack_gap]; exact s1, hone _ _ _ _ (s0 rfl) p0 ho, hgap _ _ _ _ p1⟩
    | @add1 b0 w0 w1 w c hn ha ho =>
      exact ⟨by rw [stack_gap]; exact s0, (one_shorter (s1 rfl) ho).2, hgap _ _ _ _ p0, hone _ _ _ _ (s1 rfl) p1 ho⟩
    | @both w0 w1 w w' c c' ha ha' ho ho' =>
      exact ⟨(one_shorter (s0 rfl) ho).2, (one_shorter (s1 rfl) ho').2, hsame _ _ w _ _ _ (hone _ _ _ _ (s0 rfl) p0 ho), hsame _ _ w' _ _ _ (hone _ _ _ _ (s1 rfl) p1 ho')⟩
    | @only0 w0 w1 w c ha ho =>
      exact ⟨(one_shorter (s0 rfl) ho).2, fun h => (by cases h), hsame _ _ w _ _ _ (hone _ _ _ _ (s0 rfl) p0 ho), hsame _ _ w1 _ _ _ p1⟩
    | @only1 w0 w1 w c ha ho =>
      exact ⟨fun h => (by cases h), (one_shorter (s1 rfl) ho).2, hsame _ _ w0 _ _ _ p0, hsame _ _ w _ _ _ (hone _ _ _ _ (s1 rfl) p1 ho)⟩

/-- What holds of the windows when the drawing is done. -/
theorem done_inv {env : Env} {n : Nat} {s : St} (P : Bool → Bool → Win → Prop)
    (hsame : ∀ side b w y m cs, P side b w → P side b { w with y := y, marks := m, calls := cs })
    (hone : ∀ side w w' c, Sound (env.root side) w.stack → P side true w → redrawOne env s.view side w = .ok w' c → P side (!c) w')
    (p0 : P false true s.first.reset) (p1 : P true true s.second.reset) {a b : Win} (h : redraw env n s = some (.done a b)) : P false false a ∧ P true false b := by
  obtain ⟨p, hs, hst⟩ := loop_steps env s.view (fun side => one_y env s.view side) n _ _ _ _ _ h
  obtain ⟨_, _, h0, h1⟩ := steps_inv P hsame hone hs (fun _ => sound_nil _) (fun _ => sound_nil _) p0 p1
  cases hst with
  | done => exact ⟨h0, h1⟩

/-- Nothing is selected, nor was. -/
def Blind (_ : Bool) (busy : Bool) (w : Win) : Prop := w.sel = none → w.last = none → w.found = false ∧ w.down = none ∧ busy = true

theorem enter_down (o : Option Path) (w : Win) : (enter o w).down = w.down := by
  obtain ⟨_, _, _, _, _, _, _, _, _, _, _, h, _⟩ := enter_frame o w
  exact h

theorem blind_before {side : Bool} {it : Item} {st : List (Nat × Path)} {w : Win} (hl : w.last = none) (hf : w.found = false) (hd : w.down = none) :
    (before side it st w).found = false ∧ (before side it st w).down = none := by
  unfold before
  cases it.closing with
  | true => simp [hf, hd]
  | false => simp [checkSelection, hf, hd, hl]

theorem blind_one {env : Env} {view : View} {side : Bool} {w w' : Win} {c : Bool} (hs : Sound (env.root side) w.stack) (h : Blind side true w)
    (ho : redrawOne env view side w = .ok w' c) : Blind side (!c) w' := by
  obtain ⟨it, rest, t⟩ := turn env view side w hs
  obtain ⟨hf, _, _, _, hsel, hlast, _⟩ := t.ok w' c ho
  intro h1 h2
  rw [hsel] at h1
  rw [hlast] at h2
  obtain ⟨g1, g2, _⟩ := h h1 h2
  obtain ⟨it, rest, st, hrem, hex, hadd, hdraw, hst⟩ := draw1_eq env view side w hs
  have hd : (draw1 env view side w).1.found = false ∧ (draw1 env view side w).1.down = none ∧ (draw1 env view side w).1.sel = none ∧
      (draw1 env view side w).1.last = none := by
    obtain ⟨b1, b2⟩ := blind_before (side := side) (it := it) (st := st) h2 g1 g2
    obtain ⟨b3, b4, _⟩ := before_spec side it st w
    rw [hdraw]
    unfold drawIt
    have hfr := putAll_frame env view (prints env view side it) (before side it st w)
    cases hp : putAll env view (prints env view side it) (before side it st w) with
    | mk w2 r =>
      rw [hp] at hfr
      have h4 : w2.found = false ∧ w2.down = none ∧ w2.sel = none ∧ w2.last = none :=
        ⟨hfr.found.trans b1, hfr.down.trans b2, hfr.sel.trans (b3.trans h1), hfr.last.trans (b4.trans h2)⟩
      cases r with
      | false => exact h4
      | true =>
        obtain ⟨e1, e2, _, _, e3, _, _, _, _, _, _, e4, _⟩ := enter_frame (if it.closing then none else opens (env.root side) (cOf view side) it.path) w2
        exact ⟨e3.trans h4.1, e4.trans h4.2.1, e1.trans h4.2.2.1, e2.trans h4.2.2.2⟩
  obtain ⟨d1, d2, d3, d4⟩ := hd
  rw [redrawOne_eq] at ho
  split at ho
  · cases ho
  split at ho
  · exfalso
    unfold complete firstChild at ho
    simp only [d2, d3, d4] at ho
    cases ho
  · cases ho
    exact ⟨d1, d2, rfl⟩

theorem done_blind {env : Env} {n : Nat} {s : St} {a b : Win} (h : redraw env n s = some (.done a b)) :
    ¬ (s.first.sel = none ∧ s.first.last = none) ∧ ¬ (s.second.sel = none ∧ s.second.last = none) := by
  have hr : ∀ side (w : Win), Blind side true w.reset := fun side w _ _ => ⟨rfl, rfl, rfl⟩
  obtain ⟨h0, h1⟩ := done_inv Blind (fun _ _ _ _ _ _ h => h) (fun _ _ _ _ => blind_one) (hr _ _) (hr _ _) h
  obtain ⟨k0, k1⟩ := done_spec h
  constructor
  · rintro ⟨e1, e2⟩
    have := (h0 (k0.1.trans e1) (k0.2.1.trans e2)).2.2
    cases this
  · rintro ⟨e1, e2⟩
    have := (h1 (k1.1.trans e1) (k1.2.1.trans e2)).2.2
    cases this

theorem settle_blind {env : Env} {n k : Nat} {s t : St} (h : settle env n k s = some (some t)) :
    ¬ (s.first.sel = none ∧ s.first.last = none) ∧ ¬ (s.second.sel = none ∧ s.second.last = none) := by
  induction k generalizing s with
  | zero => cases h
  | succ k ih =>
    rw [settle] at h
    cases hr : redraw env n s with
    | none => rw [hr] at h; cases h
    | some r =>
      rw [hr] at h
      cases r with
      | crash => cases h
      | done a b => exact done_blind hr
      | retry a b =>
        obtain ⟨ha, hb, _⟩ := retry_spec hr
        have := ih h
        dsimp only at this
        rwa [ha.1, ha.2.1, hb.1, hb.2.1] at this

/-- The active window has a selection, and both know where to go. -/
structure Has (s : St) : Prop where
  lt : s.selected < 2
  sel : s.active.sel ≠ none
  last0 : s.first.last ≠ none
  last1 : s.second.last ≠ none

theorem has_keeps {s t : St} (h : Has s) (h0 : Keeps s.first t.first) (h1 : Keeps s.second t.second) (hs : t.selected = s.selected) : Has t := by
  refine ⟨by rw [hs]; exact h.lt, ?_, by rw [h0.2.1]; exact h.last0, by rw [h1.2.1]; exact h.last1⟩
  have := h.sel
  unfold St.active St.at at this ⊢
  rw [hs]
  split
  · next hc => simp only [hc, if_true] at this; rw [h0.1]; exact this
  · next hc => simp only [hc, if_false] at this; rw [h1.1]; exact this

theorem has_set {env : Env} {s : St} (h : s.selected < 2) (l0 : s.first.last ≠ none) (l1 : s.second.last ≠ none) {e : Option Ptr} (hn : e ≠ none) :
    Has (setSelection env e s) := by
  have hf : ∀ w : Win, w.last ≠ none → (follow env e w).last ≠ none := by
    intro w hw
    unfold follow
    cases e.bind env.equiv with
    | none => exact hw
    | some q => simp
  refine ⟨by rw [set_selected]; exact h, ?_, ?_, ?_⟩
  · rw [(set_active env e s).1]; exact hn
  · unfold setSelection; split
    · exact hn
    · exact hf _ l0
  · unfold setSelection; split
    · exact hf _ l1
    · exact hn

/-- The state before a drawing that ends has a selection, whatever was selected. -/
theorem has_drawn {env : Env} {n k : Nat} {s t : St} (hl : s.selected < 2) (l0 : s.first.last ≠ none) (l1 : s.second.last ≠ none) (e : Option Ptr)
    (h : settle env n k (setSelection env e s) = some (some t)) : Has (setSelection env e s) := by
  refine has_set hl l0 l1 ?_
  rintro rfl
  obtain ⟨h0, h1⟩ := settle_blind h
  unfold setSelection at h0 h1
  split at h0
  · exact h0 ⟨rfl, rfl⟩
  · next hc => rw [if_neg hc] at h1; exact h1 ⟨rfl, rfl⟩

theorem has_jump {env : Env} {n : Nat} {s t : St} {a : Answer} (h : Has s) (hj : Jump env n s a) (ha : a = .redraw t ∨ a = .nextInput t) : Has t := by
  cases hj with
  | nothing _ hm =>
    rcases ha with rfl | rfl
    · exact absurd hm message_not_redraw
    · obtain ⟨k0, k1, hs, _⟩ := message_spec hm
      exact has_keeps h k0 k1 hs
  | @next e _ =>
    rcases ha with ha | ha <;> cases ha
    have := has_set (env := env) h.lt h.last0 h.last1 (e := some e) (by simp)
    exact ⟨this.lt, this.sel, this.last0, this.last1⟩
  | @wrap q _ _ hm =>
    rcases ha with rfl | rfl
    · exact absurd hm message_not_redraw
    · obtain ⟨k0, k1, hs, _⟩ := message_spec hm
      have := has_set (env := env) h.lt h.last0 h.last1 (e := some q) (by simp)
      exact has_keeps (s := { setSelection env (some q) s with collapsed := unfold q s.collapsed }) ⟨this.lt, this.sel, this.last0, this.last1⟩ k0 k1 hs

theorem has_swap {s : St} (h : Has s) (hs : (St.active { s with selected := 1 - s.selected }).sel ≠ none) : Has { s with selected := 1 - s.selected } :=
  ⟨by dsimp only; omega, hs, h.last0, h.last1⟩

theorem has_out {env : Env} {n k : Nat} {s t u : St} {a : Answer} (h : Has s) (ho : Out env s a) :
    (a = .nextInput t → Has t) ∧ (a = .redraw t → settle env n k t = some (some u) → Has t) := by
  cases ho with
  | quit => exact ⟨fun h => (by cases h), fun h => (by cases h)⟩
  | crash => exact ⟨fun h => (by cases h), fun h => (by cases h)⟩
  | stay => exact ⟨fun hc => (by cases hc; exact h), fun h => (by cases h)⟩
  | select hs => exact ⟨fun hc => (by cases hc), fun hc hd => (by cases hc; exact has_drawn h.lt h.last0 h.last1 _ hd)⟩
  | fold _ => exact ⟨fun hc => (by cases hc), fun hc _ => (by cases hc; exact ⟨h.lt, h.sel, h.last0, h.last1⟩)⟩
  | window d c hd =>
    rcases window_spec env d c s h.lt hd with hw | ⟨v, rfl, ⟨hsel, hw⟩ | hw⟩
    · rw [hw]; exact ⟨fun hc => (by cases hc; exact h), fun h => (by cases h)⟩
    · rw [hw]; exact ⟨fun hc => (by cases hc), fun hc _ => (by cases hc; exact has_swap h hsel)⟩
    · rw [hw]
      refine ⟨fun hc => (by cases hc), fun hc hx => ?_⟩
      cases hc
      exact has_drawn (s := { s with selected := 1 - s.selected }) (by show 1 - s.selected < 2; omega) h.last0 h.last1 _ hx

theorem has_results {s t : St} (h : Has s) (h0 : t.first.sel = s.first.sel ∧ t.first.last = s.first.last) (h1 : t.second.sel = s.second.sel ∧ t.second.last = s.second.last)
    (hs : t.selected = s.selected) : Has t := by
  refine ⟨by rw [hs]; exact h.lt, ?_, by rw [h0.2]; exact h.last0, by rw [h1.2]; exact h.last1⟩
  have := h.sel
  unfold St.active St.at at this ⊢
  rw [hs]
  split
  · next hc => simp only [hc, if_true] at this; rw [h0.1]; exact this
  · next hc => simp only [hc, if_false] at this; rw [h1.1]; exact this

theorem has_key {env : Env} {n k : Nat} {name : Bytes} {pat : Option Search.Pattern} {s t u : St} {a : Answer} (h : Has s) (he : evalKey env n name pat s = some a) :
    (a = .nextInput t → Has t) ∧ (a = .redraw t → settle env n k t = some (some u) → Has t) := by
  rcases key_cases he with ⟨_, _, ho⟩ | ⟨_, hs⟩ | ⟨_, hj⟩
  · exact has_out h ho
  · rcases search_spec hs with ⟨_, rfl⟩ | ⟨p, _, rfl | hj⟩
    · exact ⟨fun h => (by cases h), fun hc _ => (by cases hc; exact h)⟩
    · exact ⟨fun h => (by cases h), fun hc _ => (by cases hc; exact has_results h ⟨rfl, rfl⟩ ⟨rfl, rfl⟩ rfl)⟩
    · have h' := has_results (t := St.set { s with first := { s.first with results := [] }, second := { s.second with results := [] } } s.selected
        { St.active { s with first := { s.first with results := [] }, second := { s.second with results := [] } } with results := search env p }) h ?_ ?_ ?_
      · exact ⟨fun hc => has_jump h' hj (.inr hc), fun hc _ => has_jump h' hj (.inl hc)⟩
      · unfold St.set St.active St.at; dsimp only; split <;> exact ⟨rfl, rfl⟩
      · unfold St.set St.active St.at; dsimp only; split <;> exact ⟨rfl, rfl⟩
      · unfold St.set; dsimp only; split <;> rfl
  · exact ⟨fun hc => has_jump h hj (.inr hc), fun hc _ => has_jump h hj (.inl hc)⟩

theorem has_reached {env : Env} {n k cols rows : Nat} {ok : St → Input → Prop} {s : St} (h : Reached env n k cols rows ok s) : Has s := by
  induction h with
  | start hs =>
    obtain ⟨k0, k1, hsel, _⟩ := settle_keeps hs
    exact has_keeps (has_set Nat.zero_lt_two (by simp) (by simp) (by simp)) k0 k1 hsel
  | @input s t i _ _ hs ih =>
    rcases step_cases hs with ⟨c, r, _, hst⟩ | ⟨name, pat, _, ⟨s', he, hst⟩ | he⟩
    · obtain ⟨k0, k1, hsel, _⟩ := settle_keeps hst
      exact has_keeps (s := { s with width := c / 2, height := less r 2 }) ⟨ih.lt, ih.sel, ih.last0, ih.last1⟩ k0 k1 hsel
    · obtain ⟨k0, k1, hsel, _⟩ := settle_keeps hst
      exact has_keeps ((has_key ih he).2 rfl hst) k0 k1 hsel
    · exact (has_key (k := k) (u := s) ih he).1 rfl

end Verif.Lemmas.Split
