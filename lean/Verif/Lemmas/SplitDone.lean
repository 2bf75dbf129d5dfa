import Verif.Lemmas.SplitEnd
/-!
# The drawing of the diff view ends: bounds
-/
namespace Verif.Lemmas.Split
open Verif.Model Verif.Model.Diff Verif.Model.Split

/-- What remains gets shorter with each turn. -/
theorem one_shorter {env : Env} {view : View} {side : Bool} {w w' : Win} {c : Bool} (hs : Sound (env.root side) w.stack)
    (h : redrawOne env view side w = .ok w' c) :
    (remOf env view side (!c) w').length < (remOf env view side true w).length ∧ ((!c) = true → Sound (env.root side) w'.stack) := by
  obtain ⟨it, rest, t⟩ := turn env view side w hs
  obtain ⟨_, _, _, _, _, _, _, hc0, _⟩ := t.ok w' c h
  rw [t.rem1]
  cases c with
  | true => exact ⟨by simp [remOf], fun h => by cases h⟩
  | false =>
    have := hc0 rfl
    refine ⟨?_, fun _ => this.2.2.1⟩
    show (remaining (env.root side) (cOf view side) w'.x w'.stack).length < _
    rw [this.2.2.2]
    simp

theorem added_fuel {env : Env} {view : View} {side : Bool} (n : Nat) (w : Win) (hs : Sound (env.root side) w.stack)
    (hn : (remOf env view side true w).length ≤ n) :
    ∃ r, redrawAdded env view side n w = some r ∧
      ∀ w' c, r = .ok w' c → (remOf env view side (!c) w').length < (remOf env view side true w).length ∧ ((!c) = true → Sound (env.root side) w'.stack) := by
  induction n generalizing w with
  | zero =>
    obtain ⟨it, rest, t⟩ := turn env view side w hs
    rw [t.rem1] at hn
    simp at hn
  | succ n ih =>
    rw [redrawAdded]
    cases ho : redrawOne env view side w with
    | crash => exact ⟨_, rfl, fun w' c h => by cases h⟩
    | retry w1 => exact ⟨_, rfl, fun w' c h => by cases h⟩
    | ok w1 c1 =>
      have h1 := one_shorter hs ho
      cases c1 with
      | true => exact ⟨_, rfl, fun w' c h => by cases h; exact h1⟩
      | false =>
        dsimp only
        split
        · obtain ⟨r, hr, hr'⟩ := ih w1 (h1.2 rfl) (by have := h1.1; simp only [Bool.not_false] at this; omega)
          refine ⟨r, hr, fun w' c h => ?_⟩
          have h2 := hr' w' c h
          have h3 := h1.1
          simp only [Bool.not_false] at h3
          exact ⟨by omega, h2.2⟩
        · exact ⟨_, rfl, fun w' c h => by cases h; exact h1⟩

theorem remOf_gap (env : Env) (view : View) (side b : Bool) (n : Nat) (w : Win) : remOf env view side b (gap n w) = remOf env view side b w := by
  rw [gap_eq]
  exact rem_y _ _ _ _ _ _ rfl rfl

theorem stack_gap (n : Nat) (w : Win) : (gap n w).stack = w.stack := by
  rw [gap_eq]

theorem loop_fuel {env : Env} {view : View} (n : Nat) (b0 b1 : Bool) (w0 w1 : Win)
    (h0 : b0 = true → Sound (env.root false) w0.stack) (h1 : b1 = true → Sound (env.root true) w1.stack)
    (hn : (remOf env view false b0 w0).length + (remOf env view true b1 w1).length < n) :
    ∃ r, redrawLoop env view n b0 b1 w0 w1 = some r := by
  induction n generalizing b0 b1 w0 w1 with
  | zero => omega
  | succ n ih =>
    rw [redrawLoop]
    split
    · exact ⟨_, rfl⟩
    split
    · next ha =>
      simp only [Bool.and_eq_true] at ha
      obtain ⟨rfl, ha⟩ := ha
      obtain ⟨r, hr, hr'⟩ := added_fuel (view := view) n w0 (h0 rfl) (by omega)
      rw [hr]
      cases r with
      | crash => exact ⟨_, rfl⟩
      | retry w => exact ⟨_, rfl⟩
      | ok w c =>
        have := hr' w c rfl
        refine ih _ _ _ _ this.2 (by rw [stack_gap]; exact h1) ?_
        rw [remOf_gap]
        omega
    split
    · next ha =>
      simp only [Bool.and_eq_true] at ha
      obtain ⟨rfl, ha⟩ := ha
      obtain ⟨r, hr, hr'⟩ := added_fuel (view := view) n w1 (h1 rfl) (by omega)
      rw [hr]
      cases r with
      | crash => exact ⟨_, rfl⟩
      | retry w => exact ⟨_, rfl⟩
      | ok w c =>
        have := hr' w c rfl
        refine ih _ _ _ _ (by rw [stack_gap]; exact h0) this.2 ?_
        rw [remOf_gap]
        omega
    · next hd _ _ =>
      have e0 : ∀ w c, (if b0 then redrawOne env view false w0 else .ok w0 true) = .ok w c →
          (remOf env view false (!c) w).length + (if b0 then 1 else 0) ≤ (remOf env view false b0 w0).length ∧ ((!c) = true → Sound (env.root false) w.stack) := by
        intro w c h
        cases b0 with
        | false =>
          simp only [Bool.false_eq_true, if_false] at h ⊢
          cases h
          exact ⟨by simp [remOf], fun h => by cases h⟩
        | true =>
          simp only [if_true] at h ⊢
          have := one_shorter (h0 rfl) h
          exact ⟨this.1, this.2⟩
      have e1 : ∀ w c, (if b1 then redrawOne env view true w1 else .ok w1 true) = .ok w c →
          (remOf env view true (!c) w).length + (if b1 then 1 else 0) ≤ (remOf env view true b1 w1).length ∧ ((!c) = true → Sound (env.root true) w.stack) := by
        intro w c h
        cases b1 with
        | false =>
          simp only [Bool.false_eq_true, if_false] at h ⊢
          cases h
          exact ⟨by simp [remOf], fun h => by cases h⟩
        | true =>
          simp only [if_true] at h ⊢
          have := one_shorter (h1 rfl) h
          exact ⟨this.1, this.2⟩
      have hb : (if b0 then 1 else 0) + (if b1 then 1 else 0) ≥ 1 := by
        cases b0 <;> cases b1 <;> simp_all
      generalize (if b0 then redrawOne env view false w0 else .ok w0 true) = r0 at e0
      generalize (if b1 then redrawOne env view true w1 else .ok w1 true) = r1 at e1
      cases r0 with
      | crash => exact ⟨_, rfl⟩
      | retry w => exact ⟨_, rfl⟩
      | ok w c =>
        cases r1 with
        | crash => exact ⟨_, rfl⟩
        | retry w => exact ⟨_, rfl⟩
        | ok w' c' =>
          have e0 := e0 w c rfl
          have e1 := e1 w' c' rfl
          dsimp only
          refine ih _ _ _ _ e0.2 e1.2 ?_
          have r0 : ∀ m, remOf env view false (!c) { w with y := m } = remOf env view false (!c) w := fun m => rem_y _ _ _ _ _ _ rfl rfl
          have r1 : ∀ m, remOf env view true (!c') { w' with y := m } = remOf env view true (!c') w' := fun m => rem_y _ _ _ _ _ _ rfl rfl
          rw [r0, r1]
          omega

/-- All that is drawn of a window. -/
def allOf (env : Env) (view : View) (side : Bool) : List Item := itemsAll (cOf view side) (env.root side)

theorem remOf_reset (env : Env) (view : View) (side : Bool) (w : Win) : remOf env view side true w.reset = allOf env view side := rfl

def bound (env : Env) (view : View) : Nat := 1 + tallAll env view false (allOf env view false) + tallAll env view true (allOf env view true)

def winner (env : Env) (view : View) (l0 l1 : Option Ptr) : Option Bool :=
  firstFound env l0 l1 (allOf env view false) (allOf env view true)

theorem sound_nil (root : Json) : Sound root [] := by
  intro ip h
  cases h

theorem inv_start (env : Env) (view : View) (v0 v1 : Win) :
    Inv env view v0.scroll v1.scroll v0 v1 (bound env view) (winner env view v0.last v1.last) ⟨true, true, v0.reset, v1.reset⟩ := by
  refine ⟨rfl, fun _ => sound_nil _, fun _ => sound_nil _, ?_, rfl, rfl, rfl, rfl, rfl, rfl, ⟨fun _ => rfl, Nat.le_refl _⟩, ⟨fun _ => rfl, Nat.le_refl _⟩,
    fun _ _ => rfl, fun h => (by cases h), fun h => (by cases h)⟩
  show 1 + _ + _ ≤ _
  rw [remOf_reset, remOf_reset]
  exact Nat.le_refl _

/-- What a window keeps when everything is drawn again. -/
def Keeps (v w : Win) : Prop := w.sel = v.sel ∧ w.last = v.last ∧ w.results = v.results

/-- What is known when everything has to be drawn again. -/
theorem retry_spec {env : Env} {view : View} {n : Nat} {v0 v1 a b : Win}
    (h : redrawLoop env view n true true v0.reset v1.reset = some (.retry a b)) :
    Keeps v0 a ∧ Keeps v1 b ∧
    ((a.scroll = v0.scroll + 1 ∧ a.scroll ≤ bound env view ∧ (b.scroll = v1.scroll ∨ winner env view v0.last v1.last = some true)) ∨
     (b.scroll = v1.scroll + 1 ∧ b.scroll ≤ bound env view ∧ (a.scroll = v0.scroll ∨ winner env view v0.last v1.last = some false))) := by
  obtain ⟨s, hs, hst⟩ := loop_steps env view (fun side => one_y env view side) n _ _ _ _ _ h
  have i := inv_steps hs (inv_start env view v0 v1)
  generalize winner env view v0.last v1.last = g at i ⊢
  generalize hT : bound env view = T at i ⊢
  cases hst with
  | @retry0 b1 w0 w1 w w1' ho hsame =>
    obtain ⟨it, rest, t⟩ := turn env view false w0 (i.sound0 rfl)
    obtain ⟨r1, r2, r3, r4, r5, r6, r7, r8⟩ := t.retry _ ho
    have hb := i.bound
    dsimp only at hb
    rw [t.rem1, tallAll_cons] at hb
    have hi1 : w1.sel = b.sel ∧ w1.last = b.last ∧ w1.results = b.results ∧ w1.scroll = b.scroll ∧ w1.found = b.found := by
      rw [hsame]; exact ⟨rfl, rfl, rfl, rfl, rfl⟩
    refine ⟨⟨r6.trans i.sel0, r7.trans i.last0, r8.trans i.res0⟩, ⟨hi1.1.symm.trans i.sel1, hi1.2.1.symm.trans i.last1, hi1.2.2.1.symm.trans i.res1⟩, .inl ⟨?_, by omega, ?_⟩⟩
    · rw [r4, i.scroll0.1 r1]
    · cases hf : b.found with
      | false => exact .inl (hi1.2.2.2.1.symm.trans (i.scroll1.1 (hi1.2.2.2.2.trans hf)))
      | true => exact .inr (i.second (hi1.2.2.2.2.trans hf) r1)
  | @retry1 b0 w0 w1 w w0' hn ho hsame =>
    obtain ⟨it, rest, t⟩ := turn env view true w1 (i.sound1 rfl)
    obtain ⟨r1, r2, r3, r4, r5, r6, r7, r8⟩ := t.retry _ ho
    have hb := i.bound
    have hy := i.y
    dsimp only at hb hy
    rw [t.rem1, tallAll_cons] at hb
    have hi1 : w0.sel = a.sel ∧ w0.last = a.last ∧ w0.results = a.results ∧ w0.scroll = a.scroll ∧ w0.found = a.found := by
      rw [hsame]; exact ⟨rfl, rfl, rfl, rfl, rfl⟩
    refine ⟨⟨hi1.1.symm.trans i.sel0, hi1.2.1.symm.trans i.last0, hi1.2.2.1.symm.trans i.res0⟩, ⟨r6.trans i.sel1, r7.trans i.last1, r8.trans i.res1⟩, .inr ⟨?_, by omega, ?_⟩⟩
    · rw [r4, i.scroll1.1 r1]
    · cases hf : a.found with
      | false => exact .inl (hi1.2.2.2.1.symm.trans (i.scroll0.1 (hi1.2.2.2.2.trans hf)))
      | true => exact .inr (i.first (hi1.2.2.2.2.trans hf) r1)
  | @retryBoth w0 w1 w w0' c ha ha' ho ho' =>
    obtain ⟨it, rest, t⟩ := turn env view false w0 (i.sound0 rfl)
    obtain ⟨it', rest', t'⟩ := turn env view true w1 (i.sound1 rfl)
    obtain ⟨r1, r2, r3, r4, r5, r6, r7, r8⟩ := t'.retry _ ho'
    obtain ⟨hf, hsc, hy1, hy2, hsel, hlast, hres, _, _⟩ := t.ok _ _ ho
    have hb := i.bound
    have hy := i.y
    dsimp only at hb hy
    rw [t.rem1, t'.rem1, tallAll_cons, tallAll_cons] at hb
    refine ⟨⟨hsel.trans i.sel0, hlast.trans i.last0, hres.trans i.res0⟩, ⟨r6.trans i.sel1, r7.trans i.last1, r8.trans i.res1⟩, .inr ⟨?_, by omega, ?_⟩⟩
    · rw [r4, i.scroll1.1 r1]
    · cases hfa : a.found with
      | false =>
        rw [hfa] at hf
        have hf := (Bool.or_eq_false_iff.mp hf.symm)
        refine .inl ?_
        rw [hsc, hf.2]
        simp only [Bool.and_false, Bool.false_and, Bool.false_eq_true, if_false]
        exact i.scroll0.1 hf.1
      | true =>
        refine .inr ?_
        cases hwf : w0.found with
        | true => exact i.first hwf r1
        | false =>
          have := i.none hwf r1
          dsimp only at this
          rw [hfa, hwf, Bool.false_or] at hf
          have l0 : w0.last = v0.last := i.last0
          rw [t.rem1, t'.rem1, firstFound, if_neg (by rw [show isAdd env false it = false from t.added.symm.trans ha]; simp),
            if_neg (by rw [show isAdd env true it' = false from t'.added.symm.trans ha']; simp), ← l0, ← hf] at this
          exact this.symm

/-- The crash of the drawing. -/
theorem crash_spec {env : Env} {view : View} {n : Nat} {v0 v1 : Win}
    (h : redrawLoop env view n true true v0.reset v1.reset = some .crash) : v0.last = none ∨ v1.last = none := by
  obtain ⟨s, hs, hst⟩ := loop_steps env view (fun side => one_y env view side) n _ _ _ _ _ h
  have i := inv_steps hs (inv_start env view v0 v1)
  cases hst with
  | @crash0 b1 w0 w1 ho =>
    obtain ⟨it, rest, t⟩ := turn env view false w0 (i.sound0 rfl)
    exact .inl (i.last0.symm.trans (t.crash ho))
  | @crash1 b0 w0 w1 ho =>
    obtain ⟨it, rest, t⟩ := turn env view true w1 (i.sound1 rfl)
    exact .inr (i.last1.symm.trans (t.crash ho))

/-- What is known when the drawing is done. -/
theorem done_spec {env : Env} {view : View} {n : Nat} {v0 v1 a b : Win}
    (h : redrawLoop env view n true true v0.reset v1.reset = some (.done a b)) : Keeps v0 a ∧ Keeps v1 b := by
  obtain ⟨s, hs, hst⟩ := loop_steps env view (fun side => one_y env view side) n _ _ _ _ _ h
  have i := inv_steps hs (inv_start env view v0 v1)
  cases hst with
  | done => exact ⟨⟨i.sel0, i.last0, i.res0⟩, ⟨i.sel1, i.last1, i.res1⟩⟩

/-- How often the screen may still be drawn again. -/
def measure (T : Nat) (g : Option Bool) (s0 s1 : Nat) : Nat :=
  if g = some true then (T - s0) * (T + 1) + (T - s1) else (T - s1) * (T + 1) + (T - s0)

theorem measure_less {T : Nat} {g : Option Bool} {s0 s1 a b : Nat}
    (h : (a = s0 + 1 ∧ a ≤ T ∧ (b = s1 ∨ g = some true)) ∨ (b = s1 + 1 ∧ b ≤ T ∧ (a = s0 ∨ g = some false))) :
    measure T g a b < measure T g s0 s1 := by
  unfold measure
  have key : ∀ s t u : Nat, s + 1 ≤ T → (T - (s + 1)) * (T + 1) + (T - t) < (T - s) * (T + 1) + (T - u) := by
    intro s t u hs
    obtain ⟨d, rfl⟩ : ∃ d, T = s + 1 + d := ⟨T - (s + 1), by omega⟩
    have e1 : s + 1 + d - (s + 1) = d := by omega
    have e2 : s + 1 + d - s = d + 1 := by omega
    rw [e1, e2, Nat.succ_mul]
    omega
  by_cases hg : g = some true
  · subst hg
    rw [if_pos rfl, if_pos rfl]
    rcases h with ⟨rfl, h1, _⟩ | ⟨rfl, h1, h2⟩
    · exact key _ _ _ h1
    · rcases h2 with rfl | h2
      · omega
      · cases h2
  · rw [if_neg hg, if_neg hg]
    rcases h with ⟨rfl, h1, h2⟩ | ⟨rfl, h1, _⟩
    · rcases h2 with rfl | h2
      · omega
      · exact absurd h2 hg
    · exact key _ _ _ h1

theorem redraw_fuel (env : Env) (n : Nat) (s : St)
    (hn : (allOf env s.view false).length + (allOf env s.view true).length < n) : ∃ r, redraw env n s = some r :=
  loop_fuel n _ _ _ _ (fun _ => sound_nil _) (fun _ => sound_nil _) hn

theorem view_keeps {s : St} {a b : Win} (ha : Keeps s.first a) (hb : Keeps s.second b) : { s with first := a, second := b : St }.view = s.view := by
  unfold St.view St.active St.at
  dsimp only
  split
  · rw [ha.2.2]
  · rw [hb.2.2]

theorem settle_ends (env : Env) (n k : Nat) (s : St) (hn : (allOf env s.view false).length + (allOf env s.view true).length < n)
    (hk : measure (bound env s.view) (winner env s.view s.first.last s.second.last) s.first.scroll s.second.scroll < k) :
    ∃ r, settle env n k s = some r := by
  induction k generalizing s with
  | zero => omega
  | succ k ih =>
    rw [settle]
    obtain ⟨r, hr⟩ := redraw_fuel env n s hn
    rw [hr]
    cases r with
    | crash => exact ⟨_, rfl⟩
    | done a b => exact ⟨_, rfl⟩
    | retry a b =>
      dsimp only
      obtain ⟨ha, hb, hc⟩ := retry_spec hr
      have hv := view_keeps ha hb
      refine ih _ ?_ ?_
      · rw [hv]; exact hn
      · rw [hv]
        dsimp only
        rw [ha.2.1, hb.2.1]
        have := measure_less hc
        omega

theorem settle_keeps {env : Env} {n k : Nat} {s t : St} (h : settle env n k s = some (some t)) :
    Keeps s.first t.first ∧ Keeps s.second t.second ∧ t.selected = s.selected ∧ t.collapsed = s.collapsed ∧ t.width = s.width ∧ t.height = s.height := by
  induction k generalizing s with
  | zero => cases h
  | succ k ih =>
    rw [settle] at h
    cases hr : redraw env n s with
    | none => rw [hr] at h; cases h
    | some r =>
      rw [hr] at h
      cases r with
      | crash => cases h
      | done a b =>
        cases h
        obtain ⟨ha, hb⟩ := done_spec hr
        exact ⟨ha, hb, rfl, rfl, rfl, rfl⟩
      | retry a b =>
        obtain ⟨ha, hb, _⟩ := retry_spec hr
        obtain ⟨h1, h2, h3⟩ := ih h
        exact ⟨⟨h1.1.trans ha.1, h1.2.1.trans ha.2.1, h1.2.2.trans ha.2.2⟩, ⟨h2.1.trans hb.1, h2.2.1.trans hb.2.1, h2.2.2.trans hb.2.2⟩, h3⟩

theorem settle_crash {env : Env} {n k : Nat} {s : St} (h : settle env n k s = some none) : s.first.last = none ∨ s.second.last = none := by
  induction k generalizing s with
  | zero => cases h
  | succ k ih =>
    rw [settle] at h
    cases hr : redraw env n s with
    | none => rw [hr] at h; cases h
    | some r =>
      rw [hr] at h
      cases r with
      | crash => exact crash_spec hr
      | done a b => cases h
      | retry a b =>
        obtain ⟨ha, hb, _⟩ := retry_spec hr
        have := ih h
        dsimp only at this
        rwa [ha.2.1, hb.2.1] at this

end Verif.Lemmas.Split
