import Verif.Lemmas.PromptOne
import Verif.Props.SplitWatch
/-! # The prompt in the diff view -/
namespace Verif.Lemmas.Prompt
open Verif.Model Verif.Model.Search Verif.Model.Loop Verif.Model.Prompt Verif.Model.Term Verif.Model.Split Verif.Model.SplitPaint Verif.Lemmas Verif.Props

/-- The same on a set of places. -/
structure Agree (A : Nat → Nat → Prop) (d d0 : Display) : Prop where
  cols : d.cols = d0.cols
  rows : d.rows = d0.rows
  at_ : ∀ y x, A y x → d.at_ y x = d0.at_ y x

/-- The places that the frames cover. -/
def Framed (s : St) (y x : Nat) : Prop := y < s.height + 2 ∧ x + 1 < 2 * s.width

theorem Agree.mono {A B : Nat → Nat → Prop} {d d0 : Display} (h : Agree A d d0) (hb : ∀ y x, B y x → A y x) : Agree B d d0 := ⟨h.cols, h.rows, fun y x hx => h.at_ y x (hb y x hx)⟩

theorem agree_refresh {A : Nat → Nat → Prop} {d d0 : Display} (w : Terminal) (top left : Nat) (h : Agree A d d0) : Agree A (refresh w top left d) (refresh w top left d0) := by
  refine ⟨h.cols, h.rows, fun y x hx => ?_⟩
  simp only [refresh]
  split
  · rfl
  · exact h.at_ y x hx

theorem agree_frames {A : Nat → Nat → Prop} {d d0 : Display} (s : St) (h : Agree A d d0) : Agree (fun y x => A y x ∨ Framed s y x) (framesOn s d) (framesOn s d0) := by
  refine ⟨h.cols, h.rows, fun y x hx => ?_⟩
  have hf : (framed s.width s.height).width = s.width ∧ (framed s.width s.height).height = s.height + 2 := ⟨rfl, rfl⟩
  simp only [framesOn, refresh, hf.1, hf.2]
  generalize framed s.width s.height = f
  by_cases h1 : 0 ≤ y ∧ y < 0 + (s.height + 2) ∧ s.width - 1 ≤ x ∧ x < s.width - 1 + s.width
  · rw [if_pos h1, if_pos h1]
  · rw [if_neg h1, if_neg h1]
    by_cases h2 : 0 ≤ y ∧ y < 0 + (s.height + 2) ∧ 0 ≤ x ∧ x < 0 + s.width
    · rw [if_pos h2, if_pos h2]
    · rw [if_neg h2, if_neg h2]
      rcases hx with hx | ⟨hx1, hx2⟩
      · exact h.at_ y x hx
      · omega

theorem agree_windows {A : Nat → Nat → Prop} {d d0 : Display} (look : Looks) (s : St) (w0 w1 : Win) (h : Agree A d d0) : Agree A (windowsOn look s w0 w1 d) (windowsOn look s w0 w1 d0) :=
  agree_refresh _ _ _ (agree_refresh _ _ _ h)

/-- A drawing: the same is drawn, and on what the frames cover nothing else is seen. -/
theorem agree_redraw {A : Nat → Nat → Prop} {d d0 : Display} (look : Looks) (env : Split.Env) (n : Nat) (s : St) (h : Agree A d d0) :
    match redrawOn look env n s d, redrawOn look env n s d0 with
    | none, none => True
    | some (r, e), some (r0, e0) => r = r0 ∧ Agree (fun y x => A y x ∨ Framed s y x) e e0
    | _, _ => False := by
  unfold redrawOn
  cases redraw env n s with
  | none => trivial
  | some r =>
    cases r with
    | crash => exact ⟨rfl, agree_frames s h⟩
    | retry a b => exact ⟨rfl, agree_frames s h⟩
    | done a b => exact ⟨rfl, agree_windows _ _ _ _ (agree_frames s h)⟩

theorem agree_settle (look : Looks) (env : Split.Env) (n : Nat) : ∀ (k : Nat) {A : Nat → Nat → Prop} {d d0 : Display} (s : St), Agree A d d0 →
    match settleOn look env n k s d, settleOn look env n k s d0 with
    | none, none => True
    | some none, some none => True
    | some (some (t, e)), some (some (t0, e0)) => t = t0 ∧ Agree (fun y x => A y x ∨ Framed s y x) e e0
    | _, _ => False := by
  intro k
  induction k with
  | zero => intro A d d0 s _; trivial
  | succ k ih =>
    intro A d d0 s h
    have hr := agree_redraw look env n s h
    simp only [settleOn]
    revert hr
    generalize redrawOn look env n s d = r
    generalize redrawOn look env n s d0 = r0
    intro hr
    cases r with
    | none => cases r0 with
      | none => trivial
      | some b => exact hr.elim
    | some a => cases r0 with
      | none => exact hr.elim
      | some b =>
        obtain ⟨a, e⟩ := a
        obtain ⟨b, e0⟩ := b
        obtain ⟨hab, he⟩ := hr
        subst hab
        cases a with
        | crash => trivial
        | retry w0 w1 =>
          have := ih { s with first := w0, second := w1 } he
          simp only
          revert this
          generalize settleOn look env n k { s with first := w0, second := w1 } e = x
          generalize settleOn look env n k { s with first := w0, second := w1 } e0 = x0
          intro hx
          rcases x with _ | _ | ⟨t, f⟩ <;> rcases x0 with _ | _ | ⟨t0, f0⟩ <;> first | exact hx.elim | trivial | skip
          exact ⟨hx.1, hx.2.mono fun y x hyx => hyx.elim (fun h => .inl (.inl h)) fun h => .inr h⟩
        | done w0 w1 => exact ⟨rfl, he⟩

/-- Above the last line. -/
def Above (rows : Nat) (y _x : Nat) : Prop := y + 1 < rows

/-- The same answer; terminals that agree above the last line and on what is drawn there. -/
def Similar (sizes : St) (rows : Nat) (A : Nat → Nat → Prop) : Option (Answer × Display × Option Bytes) → Option (Answer × Display × Option Bytes) → Prop
  | none, none => True
  | some (.redraw s, d, _), some (.redraw s0, d0, _) => s = s0 ∧ s.width = sizes.width ∧ s.height = sizes.height ∧ Agree A d d0
  | some (.nextInput s, d, m), some (.nextInput s0, d0, m0) => s = s0 ∧ m = m0 ∧ Agree (fun y x => Above rows y x ∨ Framed sizes y x) d d0
  | some (.crash, _), some (.crash, _) => True
  | some (.quit, _), some (.quit, _) => True
  | _, _ => False

theorem agree_message {A : Nat → Nat → Prop} {d d0 : Display} (look : Looks) (env : Split.Env) (n : Nat) (s sizes : St) (msg : Bytes) (hw : s.width = sizes.width) (hh : s.height = sizes.height)
    (h : Agree A d d0) (hA : ∀ y x, Above d0.rows y x → A y x) : Similar sizes d0.rows A (messageOn look env n s d msg) (messageOn look env n s d0 msg) := by
  have hr := agree_redraw look env n s h
  have hrows : ∀ r e, redrawOn look env n s d0 = some (r, e) → e.rows = d0.rows ∧ e.cols = d0.cols := by
    intro r e he
    unfold redrawOn at he
    cases hx : redraw env n s with
    | none => rw [hx] at he; cases he
    | some q => rw [hx] at he; cases q <;> cases he <;> exact ⟨rfl, rfl⟩
  unfold messageOn
  revert hr hrows
  generalize redrawOn look env n s d = r
  generalize redrawOn look env n s d0 = r0
  intro hr hrows
  cases r with
  | none => cases r0 with
    | none => trivial
    | some b => exact hr.elim
  | some a => cases r0 with
    | none => exact hr.elim
    | some b =>
      obtain ⟨a, e⟩ := a
      obtain ⟨b, e0⟩ := b
      obtain ⟨hab, he⟩ := hr
      subst hab
      obtain ⟨z1, z2⟩ := hrows _ _ rfl
      have hlast : Agree (fun y x => Above d0.rows y x ∨ Framed sizes y x) (refresh (bottomWin look e.cols msg) (e.rows - 1) 0 e) (refresh (bottomWin look e0.cols msg) (e0.rows - 1) 0 e0) := by
        rw [he.cols, he.rows]
        refine agree_refresh _ _ _ (he.mono fun y x hx => ?_)
        rcases hx with hx | hx
        · exact .inl (hA y x hx)
        · exact .inr (by unfold Framed at *; omega)
      cases a with
      | crash => trivial
      | retry w0 w1 => exact ⟨rfl, rfl, hlast⟩
      | done w0 w1 => exact ⟨rfl, rfl, hlast⟩

theorem agree_next {A : Nat → Nat → Prop} {d d0 : Display} (look : Looks) (env : Split.Env) (n : Nat) (s sizes : St) (hw : s.width = sizes.width) (hh : s.height = sizes.height)
    (h : Agree A d d0) (hA : ∀ y x, Above d0.rows y x → A y x) : Similar sizes d0.rows A (nextResultOn look env n s d) (nextResultOn look env n s d0) := by
  unfold nextResultOn
  cases s.active.results with
  | nil => exact agree_message look env n s sizes _ hw hh h hA
  | cons q qs =>
    simp only
    split
    · next e _ =>
      have hz := split_set_size env (some e) s
      exact ⟨rfl, hz.1.trans hw, hz.2.trans hh, h⟩
    · have hz := split_set_size env (some q) s
      exact agree_message look env n _ sizes _ (hz.1.trans hw) (hz.2.trans hh) h hA

theorem agree_init {A : Nat → Nat → Prop} {d d0 : Display} (look : Looks) (env : Split.Env) (n : Nat) (s : St) (pat : Option Pattern)
    (h : Agree A d d0) (hA : ∀ y x, Above d0.rows y x → A y x) : Similar s d0.rows A (initSearchOn look env n pat s d) (initSearchOn look env n pat s d0) := by
  unfold initSearchOn
  cases pat with
  | none => exact ⟨rfl, rfl, rfl, h⟩
  | some p =>
    simp only
    split
    · exact ⟨rfl, rfl, rfl, h⟩
    · refine agree_next look env n _ s ?_ ?_ h hA <;> (unfold Split.St.set; split <;> rfl)

/-- The drawing after an answer. -/
theorem agree_after {A : Nat → Nat → Prop} {look : Looks} {env : Split.Env} {n k rows : Nat} {sizes : St} {name : Bytes} {pat : Option Pattern} {v v0 : Two}
    (h : Similar sizes rows A (evalKeyOn look env n name pat v.1 v.2.1 v.2.2) (evalKeyOn look env n name pat v0.1 v0.2.1 v0.2.2)) (hA : ∀ y x, Above rows y x → A y x) :
    AnsRel (fun v v0 => v.1 = v0.1 ∧ v.2.2 = v0.2.2 ∧ Agree (fun y x => Above rows y x ∨ Framed sizes y x) v.2.1 v0.2.1)
      ((doubleOn look env n k).key name pat v) ((doubleOn look env n k).key name pat v0) := by
  dsimp only [doubleOn, stepOn]
  revert h
  generalize evalKeyOn look env n name pat v.1 v.2.1 v.2.2 = r
  generalize evalKeyOn look env n name pat v0.1 v0.2.1 v0.2.2 = r0
  intro h
  rcases r with _ | ⟨a, d, x⟩ <;> rcases r0 with _ | ⟨a0, d0, x0⟩
  · trivial
  · exact h.elim
  · cases a <;> exact h.elim
  · cases a with
    | quit => cases a0 <;> first | exact h.elim | trivial
    | crash => cases a0 <;> first | exact h.elim | trivial
    | nextInput s => cases a0 <;> first | exact h.elim | exact ⟨h.1, h.2.1, h.2.2⟩
    | redraw s =>
      cases a0 <;> first | exact h.elim | skip
      obtain ⟨h1, h2, h3, h4⟩ := h
      subst h1
      have hx := agree_settle look env n k s h4
      simp only
      revert hx
      generalize settleOn look env n k s d = z
      generalize settleOn look env n k s d0 = z0
      intro hx
      rcases z with _ | _ | ⟨t, f⟩ <;> rcases z0 with _ | _ | ⟨t0, f0⟩ <;> first | exact hx.elim | trivial | skip
      refine ⟨hx.1, rfl, hx.2.mono fun y x hyx => ?_⟩
      rcases hyx with hyx | hyx
      · exact .inl (hA y x hyx)
      · exact .inr (by unfold Framed at *; omega)

end Verif.Lemmas.Prompt
