import Verif.Lemmas.Window
import Verif.Lemmas.Tui
/-! # The item after the selection -/
namespace Verif.Lemmas
open Verif.Model Verif.Model.Search Verif.Model.Tui Verif.Spec

theorem exec_found_yrun (view : View) (sel : Option Path) (es : List Ev) (d : Draw) (hf : d.found = true) {y : Nat}
    (h : yrun view.height d.scroll es d.y = some y) : (exec view sel es d).2 = true := by
  induction es generalizing d with
  | nil => rfl
  | cons e es ih =>
    cases e with
    | check p ie =>
      have h1 : (checkSelection sel p ie d).found = true ∧ (checkSelection sel p ie d).scroll = d.scroll ∧ (checkSelection sel p ie d).y = d.y := by
        simp only [checkSelection, hf, Bool.not_true, Bool.false_eq_true, if_false]; split <;> (try split) <;> simp [hf]
      simp only [exec, Ev.run]
      exact ih _ h1.1 (by rw [h1.2.1, h1.2.2]; exact h)
    | line p item x t n lz =>
      simp only [exec, Ev.run]
      rw [yrun] at h
      split at h
      · next hle =>
        split at h
        · next hb => rw [if_pos hle, hb]; exact ih { d with y := d.y + 1 } hf h
        · simp at h
      · next hle =>
        split at h
        · next hb =>
          rw [if_neg hle, hb]
          exact ih { d with
            y := d.y + n, screen := d.screen ++ [⟨d.y - d.scroll, x, t, decide (sel = some item), view.results.contains p⟩] } hf h
        · simp at h

/-- The item after the selection is found if the lines before it fit. -/
theorem exec_next (env : Env) (view : View) (q b : Path) (hn : NoVal env (some q)) (pre p1 p2 : List Ev)
    (hv : ValChecks env pre) (hq : q ∉ checks pre) (hp1 : checks p1 = []) (scroll : Nat) {y y2 : Nat}
    (hy : yrun view.height scroll pre 1 = some y) (hy2 : yrun view.height (scrollTo scroll y) p1 y = some y2) :
    (exec view (some q) (pre ++ .check q false :: (p1 ++ .check b false :: p2)) (blank scroll)).1.down = some b := by
  have hs : ∀ p ∈ checks pre, some q ≠ some p := fun p hp h => by simp at h; exact hq (h ▸ hp)
  have hpre := exec_absent env view (some q) hn pre hv hs (blank scroll) rfl
  simp only at hpre
  rw [hy] at hpre
  simp only at hpre
  have hrun := exec_runAll view (some q) pre (blank scroll) hpre.1
  have hsc := scan_absent env view (some q) hn pre hv hs (blank scroll) rfl
  rw [← hrun] at hsc
  rw [exec_append]
  rcases he : exec view (some q) pre (blank scroll) with ⟨d1, b1⟩
  rw [he] at hpre hsc
  obtain ⟨rfl, rfl⟩ := hpre
  simp only at hsc ⊢
  obtain ⟨g1, g2, g3, -⟩ := hsc
  have hc : checkSelection (some q) q false d1 = { d1 with scroll := scrollTo scroll d1.y, found := true } := by
    have hz : (if d1.y = 0 then 0 else d1.y - 1) = d1.y - 1 := by split <;> omega
    simp only [checkSelection, g1, scrollTo, g2, hz]
    simp
  simp only [exec, Ev.run, hc]
  generalize hd2 : ({ d1 with scroll := scrollTo scroll d1.y, found := true } : Draw) = d2
  have hf2 : d2.found = true := by rw [← hd2]
  have hs2 : d2.scroll = scrollTo scroll d1.y := by rw [← hd2]
  have hyd2 : d2.y = d1.y := by rw [← hd2]
  have hw2 : d2.down = none := by rw [← hd2]; exact g3
  have hex := exec_found_yrun view (some q) p1 d2 hf2 (by rw [hs2, hyd2]; exact hy2)
  have hrun2 := exec_runAll view (some q) p1 d2 hex
  obtain ⟨k1, -, -, k4⟩ := scan_found view (some q) p1 d2 hf2
  rw [← hrun2] at k1 k4
  rw [hp1, hw2] at k4
  simp only [Option.isSome_none, Bool.false_eq_true, if_false, List.head?_nil] at k4
  rw [exec_append]
  rcases he2 : exec view (some q) p1 d2 with ⟨d3, b3⟩
  rw [he2] at hex k1 k4
  subst hex
  simp only at k1 k4 ⊢
  simp only [exec, Ev.run]
  have hc3 : checkSelection (some q) b false d3 = { d3 with down := some b } := by simp [checkSelection, k1, k4]
  rw [hc3]
  obtain ⟨a, c, h1, h2, -⟩ := exec_prefix view (some q) p2 { d3 with down := some b }
  obtain ⟨-, -, -, m4⟩ := scan_found view (some q) a { d3 with down := some b } k1
  rw [h2, m4]
  rfl

theorem redraw_next {env : Env} {s s' : St} (hn : NoVal env s.sel) (h : redraw env s = .done s') {b : Path}
    (hd : (exec (viewOf s) s.sel (evs env s) (blank s.scroll)).1.down = some b) : s'.isLast = false ∧ s'.down = some b := by
  have hd0 := draw_root env s s.sel hn (blank s.scroll)
  have hd' : drawValue env ⟨s.width, s.height, s.collapsed, s.results⟩ s.sel [] false 0 ⟨1, s.scroll, none, none, false, []⟩ env.root = _ := hd0
  unfold redraw at h
  simp only [hd'] at h
  generalize exec (viewOf s) s.sel (evs env s) (blank s.scroll) = r at h hd
  obtain ⟨d, b'⟩ := r
  simp only at h hd
  split at h
  · cases h
  · rw [hd] at h
    cases h
    exact ⟨by simp, rfl⟩

/-- Every line takes one line. -/
def AllOne : List Ev → Prop
  | [] => True
  | .check _ _ :: es => AllOne es
  | .line _ _ _ _ n _ :: es => n = 1 ∧ AllOne es

theorem allOne_of_single {es : List Ev} {rs : List Row} (h : Single es rs) : AllOne es ∧ rs.length = nbLines es := by
  induction es generalizing rs with
  | nil => rw [show rs = [] from h]; exact ⟨trivial, rfl⟩
  | cons e es ih =>
    cases e with
    | check => exact ih h
    | line =>
      obtain ⟨r, rs', rfl, -, -, -, -, h1, h2⟩ := h
      obtain ⟨h3, h4⟩ := ih h2
      exact ⟨⟨h1, h3⟩, by simp [nbLines, h4]⟩

theorem AllOne.parts {a b : List Ev} (h : AllOne (a ++ b)) : AllOne a ∧ AllOne b := by
  induction a with
  | nil => exact ⟨trivial, h⟩
  | cons e a ih =>
    cases e with
    | check => exact ih h
    | line => exact ⟨⟨h.1, (ih h.2).1⟩, (ih h.2).2⟩

theorem yrun_one {h sc : Nat} {es : List Ev} (ho : AllOne es) : ∀ {y : Nat}, y + nbLines es ≤ sc + (h - 1) → yrun h sc es y = some (y + nbLines es) := by
  induction es with
  | nil => intro y _; rfl
  | cons e es ih =>
    intro y hy
    cases e with
    | check => exact ih ho hy
    | line p item x t n lz =>
      obtain ⟨rfl, ho⟩ := ho
      simp only [nbLines] at hy
      have hb : hasReachedBottom (y + 1) sc h = false := by
        simp only [hasReachedBottom, Bool.and_eq_false_iff, decide_eq_false_iff_not]; right; omega
      simp only [yrun, hb, Bool.not_false, Bool.or_true, if_true, ite_self]
      rw [ih ho (by omega)]
      simp only [nbLines]; congr 1; omega

theorem yrun_one_value {h sc : Nat} {es : List Ev} (ho : AllOne es) : ∀ {y y' : Nat}, yrun h sc es y = some y' → y' = y + nbLines es := by
  induction es with
  | nil => intro y y' h; simp [yrun] at h; simp [nbLines, h]
  | cons e es ih =>
    intro y y' hy
    cases e with
    | check => exact ih ho hy
    | line p item x t n lz =>
      obtain ⟨rfl, ho⟩ := ho
      rw [yrun] at hy
      simp only [nbLines]
      split at hy <;> split at hy
      · have := ih ho hy; omega
      · simp at hy
      · have := ih ho hy; omega
      · simp at hy

end Verif.Lemmas
