import Verif.Lemmas.SplitItems
/-!
# The drawing of the diff view in small steps
-/
namespace Verif.Lemmas.Split
open Verif.Model Verif.Model.Diff Verif.Model.Split

theorem gap_eq (n : Nat) (w : Win) :
    gap n w = { w with y := w.y + n, marks := w.marks ++ (List.range' w.y n).map (fun j => ⟨j, .rem⟩), calls := w.calls ++ (List.range' w.y n).map (fun j => .mark j .rem) } := by
  induction n generalizing w with
  | zero => simp [gap]
  | succ n ih =>
    rw [gap, ih]
    simp only [displayDiffOp, callMark, List.range'_succ, reduceCtorEq, if_false, List.map_cons, List.append_assoc, List.singleton_append]
    rw [Nat.add_right_comm, Nat.add_assoc]

theorem gap_gap (n m : Nat) (w : Win) : gap m (gap n w) = gap (n + m) w := by
  induction n generalizing w with
  | zero => simp [gap]
  | succ n ih =>
    rw [gap, ih, Nat.add_right_comm, gap]

/-- The state of the loop of `redraw()`. -/
structure Pass where
  b0 : Bool
  b1 : Bool
  w0 : Win
  w1 : Win

/-- One element of one window, or one of each. -/
inductive Step1 (env : Env) (view : View) : Pass → Pass → Prop where
  | add0 {b1 : Bool} {w0 w1 w : Win} {c : Bool} : isAdded env false w0 = true → redrawOne env view false w0 = .ok w c →
      Step1 env view ⟨true, b1, w0, w1⟩ ⟨!c, b1, w, gap (w.y - w0.y) w1⟩
  | add1 {b0 : Bool} {w0 w1 w : Win} {c : Bool} : (b0 && isAdded env false w0) = false → isAdded env true w1 = true →
      redrawOne env view true w1 = .ok w c →
      Step1 env view ⟨b0, true, w0, w1⟩ ⟨b0, !c, gap (w.y - w1.y) w0, w⟩
  | both {w0 w1 w w' : Win} {c c' : Bool} : isAdded env false w0 = false → isAdded env true w1 = false →
      redrawOne env view false w0 = .ok w c → redrawOne env view true w1 = .ok w' c' →
      Step1 env view ⟨true, true, w0, w1⟩
        ⟨!c, !c', { w with y := w0.y + max (w.y - w0.y) (w'.y - w1.y) }, { w' with y := w1.y + max (w.y - w0.y) (w'.y - w1.y) }⟩
  | only0 {w0 w1 w : Win} {c : Bool} : isAdded env false w0 = false → redrawOne env view false w0 = .ok w c →
      Step1 env view ⟨true, false, w0, w1⟩ ⟨!c, false, { w with y := w0.y + (w.y - w0.y) }, { w1 with y := w1.y + (w.y - w0.y) }⟩
  | only1 {w0 w1 w : Win} {c : Bool} : isAdded env true w1 = false → redrawOne env view true w1 = .ok w c →
      Step1 env view ⟨false, true, w0, w1⟩ ⟨false, !c, { w0 with y := w0.y + (w.y - w1.y) }, { w with y := w1.y + (w.y - w1.y) }⟩

inductive Steps (env : Env) (view : View) : Pass → Pass → Prop where
  | refl (s : Pass) : Steps env view s s
  | tail {s t u : Pass} : Steps env view s t → Step1 env view t u → Steps env view s u

theorem Steps.head {env : Env} {view : View} {s t u : Pass} (h : Step1 env view s t) (h' : Steps env view t u) : Steps env view s u := by
  induction h' with
  | refl => exact .tail (.refl _) h
  | tail _ h2 ih => exact .tail ih h2

theorem Steps.trans {env : Env} {view : View} {s t u : Pass} (h : Steps env view s t) (h' : Steps env view t u) : Steps env view s u := by
  induction h' with
  | refl => exact h
  | tail _ h2 ih => exact .tail ih h2

/-- Two windows that differ in the line of the cursor and in the marks and calls only. -/
def Same (w w' : Win) : Prop := w' = { w with y := w'.y, marks := w'.marks, calls := w'.calls }

theorem same_gap (n : Nat) (w : Win) : Same w (gap n w) := by
  rw [gap_eq]
  rfl

theorem same_refl (w : Win) : Same w w := rfl

/-- How the loop ends without completing. -/
inductive Stops (env : Env) (view : View) : Pass → Drawn → Prop where
  | retry0 {b1 : Bool} {w0 w1 w w1' : Win} : redrawOne env view false w0 = .retry w → Same w1' w1 →
      Stops env view ⟨true, b1, w0, w1⟩ (.retry w w1')
  | retry1 {b0 : Bool} {w0 w1 w w0' : Win} : (b0 && isAdded env false w0) = false → redrawOne env view true w1 = .retry w → Same w0' w0 →
      Stops env view ⟨b0, true, w0, w1⟩ (.retry w0' w)
  | retryBoth {w0 w1 w w0' : Win} {c : Bool} : isAdded env false w0 = false → isAdded env true w1 = false →
      redrawOne env view false w0 = .ok w0' c → redrawOne env view true w1 = .retry w →
      Stops env view ⟨true, true, w0, w1⟩ (.retry w0' w)
  | crash0 {b1 : Bool} {w0 w1 : Win} : redrawOne env view false w0 = .crash → Stops env view ⟨true, b1, w0, w1⟩ .crash
  | crash1 {b0 : Bool} {w0 w1 : Win} : redrawOne env view true w1 = .crash → Stops env view ⟨b0, true, w0, w1⟩ .crash
  | done {w0 w1 : Win} : Stops env view ⟨false, false, w0, w1⟩ (.done w0 w1)

/-- The elements of one window without counterpart are drawn one after the other. -/
theorem added_steps0 (env : Env) (view : View) (hy : ∀ w w' c, redrawOne env view false w = .ok w' c → w.y ≤ w'.y) (b1 : Bool) (w1 : Win) (n : Nat) (w0 : Win) (r : One)
    (h : redrawAdded env view false n w0 = some r) (ha : isAdded env false w0 = true) (k : Nat) :
    (∀ w c, r = .ok w c → w0.y ≤ w.y ∧ Steps env view ⟨true, b1, w0, gap k w1⟩ ⟨!c, b1, w, gap (k + (w.y - w0.y)) w1⟩ ∧ (c = false → isAdded env false w = false)) ∧
    (∀ w, r = .retry w → ∃ w' k', Steps env view ⟨true, b1, w0, gap k w1⟩ ⟨true, b1, w', gap k' w1⟩ ∧ redrawOne env view false w' = .retry w) ∧
    (r = .crash → ∃ w' k', Steps env view ⟨true, b1, w0, gap k w1⟩ ⟨true, b1, w', gap k' w1⟩ ∧ redrawOne env view false w' = .crash) := by
  induction n generalizing w0 k with
  | zero => simp [redrawAdded] at h
  | succ n ih =>
    rw [redrawAdded] at h
    cases ho : redrawOne env view false w0 with
    | crash =>
      simp only [ho] at h
      cases h
      refine ⟨fun w c h => (by cases h), fun w h => (by cases h), fun _ => ⟨w0, k, .refl _, ho⟩⟩
    | retry w =>
      simp only [ho] at h
      cases h
      exact ⟨fun w c h => (by cases h), fun w h => (by cases h; exact ⟨w0, k, .refl _, ho⟩), fun h => by cases h⟩
    | ok w c =>
      have hw := hy _ _ _ ho
      have h1 : Step1 env view ⟨true, b1, w0, gap k w1⟩ ⟨!c, b1, w, gap (k + (w.y - w0.y)) w1⟩ := by
        have := Step1.add0 (env := env) (view := view) (b1 := b1) (w1 := gap k w1) ha ho
        rwa [gap_gap] at this
      cases c with
      | true =>
        simp only [ho] at h
        cases h
        refine ⟨fun w' c h => ?_, fun w h => (by cases h), fun h => by cases h⟩
        cases h
        exact ⟨hw, .head h1 (.refl _), fun h => by cases h⟩
      | false =>
        simp only [ho] at h
        cases hb : isAdded env false w with
        | false =>
          simp only [hb, Bool.false_eq_true, if_false] at h
          cases h
          refine ⟨fun w' c h => ?_, fun w h => (by cases h), fun h => by cases h⟩
          cases h
          exact ⟨hw, .head h1 (.refl _), fun _ => hb⟩
        | true =>
          simp only [hb, if_true] at h
          obtain ⟨i1, i2, i3⟩ := ih w h hb (k + (w.y - w0.y))
          refine ⟨fun w' c h => ?_, fun w' h => ?_, fun h => ?_⟩
          · obtain ⟨hw', hs, hc⟩ := i1 w' c h
            refine ⟨by omega, .head h1 ?_, hc⟩
            have e : k + (w.y - w0.y) + (w'.y - w.y) = k + (w'.y - w0.y) := by omega
            rwa [e] at hs
          · obtain ⟨a, k', hs, hr⟩ := i2 w' h
            exact ⟨a, k', .head h1 hs, hr⟩
          · obtain ⟨a, k', hs, hr⟩ := i3 h
            exact ⟨a, k', .head h1 hs, hr⟩

theorem added_steps1 (env : Env) (view : View) (hy : ∀ w w' c, redrawOne env view true w = .ok w' c → w.y ≤ w'.y) (b0 : Bool) (w0 : Win)
    (hn : (b0 && isAdded env false w0) = false) (n : Nat) (w1 : Win) (r : One)
    (h : redrawAdded env view true n w1 = some r) (ha : isAdded env true w1 = true) (k : Nat) :
    (∀ w c, r = .ok w c → w1.y ≤ w.y ∧ Steps env view ⟨b0, true, gap k w0, w1⟩ ⟨b0, !c, gap (k + (w.y - w1.y)) w0, w⟩ ∧ (c = false → isAdded env true w = false)) ∧
    (∀ w, r = .retry w → ∃ w' k', Steps env view ⟨b0, true, gap k w0, w1⟩ ⟨b0, true, gap k' w0, w'⟩ ∧ redrawOne env view true w' = .retry w) ∧
    (r = .crash → ∃ w' k', Steps env view ⟨b0, true, gap k w0, w1⟩ ⟨b0, true, gap k' w0, w'⟩ ∧ redrawOne env view true w' = .crash) := by
  have hn' : ∀ k, (b0 && isAdded env false (gap k w0)) = false := by
    intro k
    rw [gap_eq]
    exact hn
  induction n generalizing w1 k with
  | zero => simp [redrawAdded] at h
  | succ n ih =>
    rw [redrawAdded] at h
    cases ho : redrawOne env view true w1 with
    | crash =>
      simp only [ho] at h
      cases h
      refine ⟨fun w c h => (by cases h), fun w h => (by cases h), fun _ => ⟨w1, k, .refl _, ho⟩⟩
    | retry w =>
      simp only [ho] at h
      cases h
      exact ⟨fun w c h => (by cases h), fun w h => (by cases h; exact ⟨w1, k, .refl _, ho⟩), fun h => by cases h⟩
    | ok w c =>
      have hw := hy _ _ _ ho
      have h1 : Step1 env view ⟨b0, true, gap k w0, w1⟩ ⟨b0, !c, gap (k + (w.y - w1.y)) w0, w⟩ := by
        have := Step1.add1 (env := env) (view := view) (w0 := gap k w0) (hn' k) ha ho
        rwa [gap_gap] at this
      cases c with
      | true =>
        simp only [ho] at h
        cases h
        refine ⟨fun w' c h => ?_, fun w h => (by cases h), fun h => by cases h⟩
        cases h
        exact ⟨hw, .head h1 (.refl _), fun h => by cases h⟩
      | false =>
        simp only [ho] at h
        cases hb : isAdded env true w with
        | false =>
          simp only [hb, Bool.false_eq_true, if_false] at h
          cases h
          refine ⟨fun w' c h => ?_, fun w h => (by cases h), fun h => by cases h⟩
          cases h
          exact ⟨hw, .head h1 (.refl _), fun _ => hb⟩
        | true =>
          simp only [hb, if_true] at h
          obtain ⟨i1, i2, i3⟩ := ih w h hb (k + (w.y - w1.y))
          refine ⟨fun w' c h => ?_, fun w' h => ?_, fun h => ?_⟩
          · obtain ⟨hw', hs, hc⟩ := i1 w' c h
            refine ⟨by omega, .head h1 ?_, hc⟩
            have e : k + (w.y - w1.y) + (w'.y - w.y) = k + (w'.y - w1.y) := by omega
            rwa [e] at hs
          · obtain ⟨a, k', hs, hr⟩ := i2 w' h
            exact ⟨a, k', .head h1 hs, hr⟩
          · obtain ⟨a, k', hs, hr⟩ := i3 h
            exact ⟨a, k', .head h1 hs, hr⟩

/-- The loop of `redraw()` makes small steps until it stops. -/
theorem loop_steps (env : Env) (view : View) (hy : ∀ side w w' c, redrawOne env view side w = .ok w' c → w.y ≤ w'.y) (n : Nat) (b0 b1 : Bool) (w0 w1 : Win) (r : Drawn)
    (h : redrawLoop env view n b0 b1 w0 w1 = some r) :
    ∃ s, Steps env view ⟨b0, b1, w0, w1⟩ s ∧ Stops env view s r := by
  induction n generalizing b0 b1 w0 w1 with
  | zero => simp [redrawLoop] at h
  | succ n ih =>
    rw [redrawLoop] at h
    by_cases hd : (!b0 && !b1) = true
    · rw [if_pos hd] at h
      cases h
      simp at hd
      obtain ⟨rfl, rfl⟩ := hd
      exact ⟨_, .refl _, .done⟩
    rw [if_neg hd] at h
    by_cases ha : (b0 && isAdded env false w0) = true
    · rw [if_pos ha] at h
      simp at ha
      obtain ⟨rfl, ha⟩ := ha
      cases hr : redrawAdded env view false n w0 with
      | none => simp [hr] at h
      | some one =>
        obtain ⟨i1, i2, i3⟩ := added_steps0 env view (hy false) b1 w1 n w0 one hr ha 0
        cases one with
        | crash =>
          simp only [hr] at h
          cases h
          obtain ⟨w', k', hs, hc⟩ := i3 rfl
          exact ⟨_, hs, .crash0 hc⟩
        | retry w =>
          simp only [hr] at h
          cases h
          obtain ⟨w', k', hs, hc⟩ := i2 w rfl
          exact ⟨_, hs, .retry0 hc (same_gap _ _)⟩
        | ok w c =>
          simp only [hr] at h
          obtain ⟨_, hs, _⟩ := i1 w c rfl
          obtain ⟨s, hs', hst⟩ := ih _ _ _ _ h
          refine ⟨s, ?_, hst⟩
          rw [Nat.zero_add] at hs
          exact hs.trans hs'
    rw [if_neg ha] at h
    have ha : (b0 && isAdded env false w0) = false := by simpa using ha
    by_cases hb : (b1 && isAdded env true w1) = true
    · rw [if_pos hb] at h
      simp at hb
      obtain ⟨rfl, hb⟩ := hb
      cases hr : redrawAdded env view true n w1 with
      | none => simp [hr] at h
      | some one =>
        obtain ⟨i1, i2, i3⟩ := added_steps1 env view (hy true) b0 w0 ha n w1 one hr hb 0
        cases one with
        | crash =>
          simp only [hr] at h
          cases h
          obtain ⟨w', k', hs, hc⟩ := i3 rfl
          exact ⟨_, hs, .crash1 hc⟩
        | retry w =>
          simp only [hr] at h
          cases h
          obtain ⟨w', k', hs, hc⟩ := i2 w rfl
          exact ⟨_, hs, .retry1 (by rw [gap_eq]; exact ha) hc (same_gap _ _)⟩
        | ok w c =>
          simp only [hr] at h
          obtain ⟨_, hs, _⟩ := i1 w c rfl
          obtain ⟨s, hs', hst⟩ := ih _ _ _ _ h
          refine ⟨s, ?_, hst⟩
          rw [Nat.zero_add] at hs
          exact hs.trans hs'
    rw [if_neg hb] at h
    cases b0 with
    | false =>
      cases b1 with
      | false => simp at hd
      | true =>
        have hb : isAdded env true w1 = false := by simpa using hb
        simp only [Bool.false_eq_true, if_false, if_true] at h
        cases ho : redrawOne env view true w1 with
        | crash =>
          simp only [ho] at h
          cases h
          exact ⟨_, .refl _, .crash1 ho⟩
        | retry w =>
          simp only [ho] at h
          cases h
          exact ⟨_, .refl _, .retry1 ha ho (same_refl _)⟩
        | ok w c =>
          simp only [ho, Bool.not_true, Nat.zero_max] at h
          obtain ⟨s, hs', hst⟩ := ih _ _ _ _ h
          exact ⟨s, .head (.only1 hb ho) hs', hst⟩
    | true =>
      have ha : isAdded env false w0 = false := by simpa using ha
      simp only [if_true] at h
      cases ho : redrawOne env view false w0 with
      | crash =>
        simp only [ho] at h
        cases h
        exact ⟨_, .refl _, .crash0 ho⟩
      | retry w =>
        simp only [ho] at h
        cases h
        exact ⟨_, .refl _, .retry0 ho (same_refl _)⟩
      | ok w c =>
        simp only [ho] at h
        cases b1 with
        | false =>
          simp only [Bool.false_eq_true, if_false, Bool.not_true, Nat.max_zero] at h
          obtain ⟨s, hs', hst⟩ := ih _ _ _ _ h
          exact ⟨s, .head (.only0 ha ho) hs', hst⟩
        | true =>
          have hb : isAdded env true w1 = false := by simpa using hb
          simp only [if_true] at h
          cases ho' : redrawOne env view true w1 with
          | crash =>
            simp only [ho'] at h
            cases h
            exact ⟨_, .refl _, .crash1 ho'⟩
          | retry w =>
            simp only [ho'] at h
            cases h
            exact ⟨_, .refl _, .retryBoth ha hb ho ho'⟩
          | ok w' c' =>
            simp only [ho'] at h
            obtain ⟨s, hs', hst⟩ := ih _ _ _ _ h
            exact ⟨s, .head (.both ha hb ho ho') hs', hst⟩

end Verif.Lemmas.Split
