import Verif.Lemmas.DrawScan
/-! # Events: the line the drawing has come to, and the outcome of `redraw` -/
namespace Verif.Lemmas
open Verif.Model Verif.Model.Search Verif.Model.Tui Verif.Spec

/-- The line after the events, `none` if the bottom of the screen is reached before; `scroll` does not change meanwhile. -/
def yrun (height scroll : Nat) : List Ev → Nat → Option Nat
  | [], y => some y
  | .check _ _ :: es, y => yrun height scroll es y
  | .line _ _ _ _ n lz :: es, y =>
    if y ≤ scroll then (if lz || !hasReachedBottom (y + 1) scroll height then yrun height scroll es (y + 1) else none)
    else if !hasReachedBottom (y + n) scroll height then yrun height scroll es (y + n) else none

theorem yrun_append (h sc : Nat) (a b : List Ev) (y : Nat) : yrun h sc (a ++ b) y = (yrun h sc a y).bind (yrun h sc b) := by
  induction a generalizing y with
  | nil => rfl
  | cons e a ih =>
    cases e with
    | check p ie => simp only [List.cons_append, yrun, ih]
    | line p item x t n lz =>
      simp only [List.cons_append, yrun, ih]
      split <;> split <;> rfl

def nbLines : List Ev → Nat
  | [] => 0
  | .check _ _ :: es => nbLines es
  | .line _ _ _ _ _ _ :: es => nbLines es + 1

theorem nbLines_append (a b : List Ev) : nbLines (a ++ b) = nbLines a + nbLines b := by
  induction a with
  | nil => simp [nbLines]
  | cons e a ih => cases e <;> simp only [List.cons_append, nbLines, ih] <;> omega

theorem yrun_high (h sc : Nat) (es : List Ev) (y : Nat) (hy : y + nbLines es ≤ sc) : yrun h sc es y = some (y + nbLines es) := by
  induction es generalizing y with
  | nil => rfl
  | cons e es ih =>
    cases e with
    | check p ie => exact ih y hy
    | line p item x t n lz =>
      simp only [nbLines] at hy
      have hb : hasReachedBottom (y + 1) sc h = false := by
        simp only [hasReachedBottom, Bool.and_eq_false_iff, decide_eq_false_iff_not]; right; omega
      rw [yrun, if_pos (by omega), hb]
      simp only [Bool.not_false, Bool.or_true, if_true, nbLines]
      rw [ih (y + 1) (by omega)]; congr 1; omega

/-- Without the selection: the run stops exactly when the lines do not fit. -/
theorem exec_absent (env : Env) (view : View) (sel : Option Path) (hn : NoVal env sel) (es : List Ev) (hv : ValChecks env es)
    (hs : ∀ p ∈ checks es, sel ≠ some p) (d : Draw) (hf : d.found = false) :
    match yrun view.height d.scroll es d.y with
    | some y => (exec view sel es d).2 = true ∧ (exec view sel es d).1.y = y
    | none => (exec view sel es d).2 = false := by
  induction es generalizing d with
  | nil => simp [yrun, exec]
  | cons e es ih =>
    have hv' : ValChecks env es := fun p hp => hv p (List.mem_cons_of_mem _ hp)
    cases e with
    | check p ie =>
      have hp : sel ≠ some p := by
        cases ie with
        | false => exact hs p (by simp [checks])
        | true => obtain ⟨a, k, v, rfl, he⟩ := hv p (by simp); exact hn a k v he
      have hs' : ∀ q ∈ checks es, sel ≠ some q := by
        intro q hq; refine hs q ?_; cases ie <;> simp [checks, hq]
      have hc : checkSelection sel p ie d = if ie then d else { d with up := some p } := by
        cases ie <;> simp [checkSelection, hf, hp]
      have := ih hv' hs' (checkSelection sel p ie d) (by rw [hc]; cases ie <;> simp [hf])
      rw [show (checkSelection sel p ie d).scroll = d.scroll by rw [hc]; cases ie <;> rfl,
        show (checkSelection sel p ie d).y = d.y by rw [hc]; cases ie <;> rfl] at this
      exact this
    | line p item x text n lz =>
      simp only [yrun, exec, Ev.run]
      by_cases hy : d.y ≤ d.scroll
      · simp only [hy, if_true]
        cases hb : (lz || !hasReachedBottom (d.y + 1) d.scroll view.height) with
        | true => exact ih hv' hs { d with y := d.y + 1 } hf
        | false => simp
      · simp only [hy, if_false]
        cases hb : (!hasReachedBottom (d.y + n) d.scroll view.height) with
        | true =>
          exact ih hv' hs { d with
            y := d.y + n, screen := d.screen ++ [⟨d.y - d.scroll, x, text, decide (sel = some item), view.results.contains p⟩] } hf
        | false => simp

theorem exec_runAll (view : View) (sel : Option Path) (es : List Ev) (d : Draw) (h : (exec view sel es d).2 = true) :
    (exec view sel es d).1 = runAll view sel es d := by
  obtain ⟨pre, post, h1, h2, h3⟩ := exec_prefix view sel es d
  rw [h3 h, List.append_nil] at h1
  rw [h2, h1]

theorem checks_split {es : List Ev} {q : Path} (h : q ∈ checks es) : ∃ pre post, es = pre ++ .check q false :: post ∧ q ∉ checks pre := by
  induction es with
  | nil => simp [checks] at h
  | cons e es ih =>
    by_cases he : e = .check q false
    · exact ⟨[], es, by rw [he]; rfl, by simp [checks]⟩
    · have h' : q ∈ checks es := by
        cases e with
        | check p ie =>
          cases ie with
          | true => exact h
          | false =>
            simp only [checks, List.mem_cons] at h
            rcases h with rfl | h
            · exact absurd rfl he
            · exact h
        | line => exact h
      obtain ⟨pre, post, h1, h2⟩ := ih h'
      refine ⟨e :: pre, post, by rw [h1]; rfl, ?_⟩
      cases e with
      | check p ie =>
        cases ie with
        | true => exact h2
        | false =>
          simp only [checks, List.mem_cons, not_or]
          exact ⟨fun hh => he (by rw [hh]), h2⟩
      | line => exact h2

/-- The state before anything is drawn. -/
abbrev blank (scroll : Nat) : Draw := ⟨1, scroll, none, none, false, []⟩

/-- Where the selection is found, the scroll position is moved up to it if it is above. -/
def scrollTo (scroll y : Nat) : Nat := if y ≤ scroll then y - 1 else scroll

/-- The drawing of a document with a visible selection. -/
theorem exec_present (env : Env) (view : View) (q : Path) (hn : NoVal env (some q)) (pre post : List Ev)
    (hv : ValChecks env (pre ++ .check q false :: post)) (hq : q ∉ checks pre) (scroll : Nat) :
    let r := exec view (some q) (pre ++ .check q false :: post) (blank scroll)
    match yrun view.height scroll pre 1 with
    | none => r.2 = false ∧ r.1.found = false ∧ r.1.scroll = scroll ∧ r.1.down = none ∧ ∃ cs, cs <+: checks pre ∧ r.1.up = cs.getLast?
    | some y => r.1.found = true ∧ r.1.scroll = scrollTo scroll y ∧ r.1.up = (checks pre).getLast? ∧
        (r.1.down = (checks post).head? ∨ r.2 = false ∧ r.1.down = none) := by
  intro r
  have hv1 : ValChecks env pre := fun p hp => hv p (by simp [hp])
  have hs : ∀ p ∈ checks pre, some q ≠ some p := fun p hp h => by simp at h; exact hq (h ▸ hp)
  have hpre := exec_absent env view (some q) hn pre hv1 hs (blank scroll) rfl
  have hr : r = _ := exec_append view (some q) pre (.check q false :: post) (blank scroll)
  rcases he : exec view (some q) pre (blank scroll) with ⟨d1, b⟩
  rw [he] at hpre hr
  cases hy : yrun view.height scroll pre 1 with
  | none =>
    simp only at hpre
    rw [hy] at hpre
    simp only at hpre
    subst hpre
    simp only at hr
    obtain ⟨a, c, h1, h2, -⟩ := exec_prefix view (some q) pre (blank scroll)
    have hsc := scan_absent env view (some q) hn a (fun p hp => hv1 p (by rw [h1]; simp [hp]))
      (fun p hp => hs p (by rw [h1, checks_append]; simp [hp])) (blank scroll) rfl
    rw [← h2, he] at hsc
    rw [hr]
    refine ⟨rfl, hsc.1, hsc.2.1, hsc.2.2.1, checks a, by rw [h1, checks_append]; simp, by simpa using hsc.2.2.2⟩
  | some y =>
    simp only at hpre
    rw [hy] at hpre
    simp only at hpre
    obtain ⟨rfl, rfl⟩ := hpre
    have hrun := exec_runAll view (some q) pre (blank scroll) (by rw [he])
    rw [he] at hrun
    have hsc := scan_absent env view (some q) hn pre hv1 hs (blank scroll) rfl
    rw [← hrun] at hsc
    simp only at hsc
    obtain ⟨g1, g2, g3, g4⟩ := hsc
    simp only [exec, Ev.run] at hr
    have hc : checkSelection (some q) q false d1 = { d1 with scroll := scrollTo scroll d1.y, found := true } := by
      have hz : (if d1.y = 0 then 0 else d1.y - 1) = d1.y - 1 := by split <;> omega
      simp only [checkSelection, g1, scrollTo, g2, hz]
      simp
    rw [hc] at hr
    generalize hd2 : ({ d1 with scroll := scrollTo scroll d1.y, found := true } : Draw) = d2 at hr
    have hf2 : d2.found = true := by rw [← hd2]
    have hs2 : d2.scroll = scrollTo scroll d1.y := by rw [← hd2]
    have hu2 : d2.up = (checks pre).getLast? := by rw [← hd2]; simpa using g4
    have hw2 : d2.down = none := by rw [← hd2]; exact g3
    obtain ⟨a, c, h1, h2, h3⟩ := exec_prefix view (some q) post d2
    obtain ⟨k1, k2, k3, k4⟩ := scan_found view (some q) a d2 hf2
    rw [← h2] at k1 k2 k3 k4
    rw [hr]
    refine ⟨k1, k3.trans hs2, k2.trans hu2, ?_⟩
    rw [hw2] at k4
    simp only [Option.isSome_none, Bool.false_eq_true, if_false] at k4
    cases hb : (exec view (some q) post d2).2 with
    | true =>
      have := h3 hb
      rw [this, List.append_nil] at h1
      left; rw [k4, h1]
    | false =>
      rw [k4, h1, checks_append]
      cases hca : checks a with
      | nil => right; exact ⟨rfl, rfl⟩
      | cons z zs => left; rfl

theorem yrun_mono (h sc : Nat) : ∀ (es : List Ev) (y y' : Nat), yrun h sc es y = some y' → y ≤ y' := by
  intro es
  induction es with
  | nil => intro y y' hy; simp [yrun] at hy; omega
  | cons e es ih =>
    intro y y' hy
    cases e with
    | check p ie => exact ih y y' hy
    | line p item x t n lz =>
      rw [yrun] at hy
      split at hy <;> split at hy
      · have := ih _ _ hy; omega
      · simp at hy
      · have := ih _ _ hy; omega
      · simp at hy

/-- Once the scroll position has been moved to the selection, it stays. -/
theorem yrun_settled (h sc : Nat) (hh : h ≠ 1) : ∀ (es : List Ev) (y y' : Nat), yrun h sc es y = some y' → yrun h (scrollTo sc y') es y = some y' := by
  intro es y y' hy
  unfold scrollTo
  split
  · next hle =>
    induction es generalizing y with
    | nil => exact hy
    | cons e es ih =>
      cases e with
      | check p ie => exact ih y hy
      | line p item x t n lz =>
        rw [yrun] at hy ⊢
        have h1 : y ≤ sc := by
          split at hy
          · assumption
          · split at hy
            · have := yrun_mono h sc es _ _ hy; omega
            · simp at hy
        rw [if_pos h1] at hy
        have h2 : yrun h sc es (y + 1) = some y' := by
          split at hy
          · exact hy
          · simp at hy
        have h3 := yrun_mono h sc es _ _ h2
        have hb : hasReachedBottom (y + 1) (y' - 1) h = false := by
          simp only [hasReachedBottom, Bool.and_eq_false_iff, decide_eq_false_iff_not]
          by_cases h0 : h = 0
          · left; right; simpa using h0
          · right; omega
        rw [if_pos (by omega), hb]
        simp only [Bool.not_false, Bool.or_true, if_true]
        exact ih (y + 1) h2
  · exact hy

end Verif.Lemmas
