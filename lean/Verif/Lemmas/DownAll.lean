import Verif.Lemmas.DownStep
import Verif.Lemmas.WindowAll
/-! # The item after the selection, with lines wider than the screen -/
namespace Verif.Lemmas
open Verif.Model Verif.Model.Search Verif.Model.Tui Verif.Spec

/-- Where the drawing is after some lines. -/
theorem yrun_tall {w h sc : Nat} {es : List Ev} {rs : List Row} (ht : Tall w es rs) : ∀ {y z : Nat}, yrun h sc es y = some z →
    z = y + min (sc + 1 - y) rs.length + total w (rs.drop (sc + 1 - y)) := by
  induction es generalizing rs with
  | nil => intro y z hz; cases hz; rw [show rs = [] from ht]; simp [total]
  | cons e es ih =>
    intro y z hz
    cases e with
    | check => exact ih ht hz
    | line p item x t n lz =>
      obtain ⟨r, rs', rfl, -, -, -, -, hn, ht'⟩ := ht
      rw [yrun] at hz
      split at hz
      · next hle =>
        split at hz
        · have := ih ht' hz
          rw [show sc + 1 - y = (sc + 1 - (y + 1)) + 1 from by omega, List.drop_succ_cons, List.length_cons]
          omega
        · cases hz
      · next hle =>
        split at hz
        · have := ih ht' hz
          rw [show sc + 1 - (y + n) = 0 from by omega] at this
          rw [show sc + 1 - y = 0 from by omega]
          simp only [List.drop_zero, total] at this ⊢
          omega
        · cases hz

/-- Below the top of the screen, lines that fit are written. -/
theorem yrun_fits {w h sc : Nat} {es : List Ev} {rs : List Row} (ht : Tall w es rs) : ∀ {y : Nat}, sc < y → y + total w rs < sc + h →
    yrun h sc es y = some (y + total w rs) := by
  induction es generalizing rs with
  | nil => intro y _ _; rw [show rs = [] from ht]; rfl
  | cons e es ih =>
    intro y hy hb
    cases e with
    | check => exact ih ht hy hb
    | line p item x t n lz =>
      obtain ⟨r, rs', rfl, -, -, -, -, rfl, ht'⟩ := ht
      simp only [total] at hb ⊢
      have hh : hasReachedBottom (y + r.lines w) sc h = false := by
        simp only [hasReachedBottom, Bool.and_eq_false_iff, decide_eq_false_iff_not]; right; omega
      rw [yrun, if_neg (by omega), hh]
      simp only [Bool.not_false, if_true]
      rw [ih ht' (by omega) (by omega), Nat.add_assoc]

theorem yrun_fits_conv {w h sc : Nat} (hh : 2 ≤ h) {es : List Ev} {rs : List Row} (ht : Tall w es rs) : ∀ {y z : Nat}, sc < y → y < sc + h →
    yrun h sc es y = some z → y + total w rs < sc + h := by
  induction es generalizing rs with
  | nil => intro y z _ hb _; rw [show rs = [] from ht]; exact hb
  | cons e es ih =>
    intro y z hy hb hz
    cases e with
    | check => exact ih ht hy hb hz
    | line p item x t n lz =>
      obtain ⟨r, rs', rfl, -, -, -, -, rfl, ht'⟩ := ht
      rw [yrun, if_neg (by omega)] at hz
      split at hz
      · next hn =>
        have : y + r.lines w < sc + h := by
          simp only [hasReachedBottom, Bool.not_eq_true', Bool.and_eq_false_iff, decide_eq_false_iff_not] at hn
          rcases hn with (hn | hn) | hn <;> omega
        have := ih ht' (by omega) this hz
        simp only [total]
        omega
      · cases hz

/-- Scrolled further, the same lines still fit. -/
theorem yrun_down {h sc : Nat} (hh : h ≠ 1) {es : List Ev} : ∀ {y z y2 : Nat}, yrun h sc es y = some z → y2 ≤ y + 1 → ∃ z2, yrun h (sc + 1) es y2 = some z2 := by
  induction es with
  | nil => intro y z y2 _ _; exact ⟨y2, rfl⟩
  | cons e es ih =>
    intro y z y2 hz hy
    cases e with
    | check => exact ih (y := y) hz hy
    | line p item x t n lz =>
      rw [yrun] at hz
      rw [yrun]
      by_cases h2 : y2 ≤ sc + 1
      · rw [if_pos h2]
        have hb : hasReachedBottom (y2 + 1) (sc + 1) h = false := by
          simp only [hasReachedBottom, Bool.and_eq_false_iff, decide_eq_false_iff_not]
          by_cases h0 : h = 0
          · left; right; simpa using h0
          · right; omega
        rw [hb]
        simp only [Bool.not_false, Bool.or_true, if_true]
        split at hz
        · split at hz
          · exact ih hz (by omega)
          · cases hz
        · split at hz
          · exact ih hz (by omega)
          · cases hz
      · rw [if_neg h2]
        rw [if_neg (by omega)] at hz
        split at hz
        · next hn =>
          have hb : hasReachedBottom (y2 + n) (sc + 1) h = false := by
            simp only [hasReachedBottom, Bool.not_eq_true', Bool.and_eq_false_iff, decide_eq_false_iff_not] at hn ⊢
            rcases hn with (hn | hn) | hn
            · omega
            · left; right; exact hn
            · right; omega
          rw [hb]
          simp only [Bool.not_false, if_true]
          exact ih hz (by omega)
        · cases hz

/-- What is below some rows is on the screen only if they end before the bottom. -/
theorem onScreen_mem {w h : Nat} {a : Nat × Row} {R2 : List Row} : ∀ {R1 : List Row} {y : Nat}, (∀ r ∈ R1, r.item ≠ a.2.item) → R1 ≠ [] →
    a ∈ onScreen w h y (R1 ++ R2) → y + total w R1 < h := by
  intro R1
  induction R1 with
  | nil => intro y _ h _; exact absurd rfl h
  | cons r R1 ih =>
    intro y hr _ ha
    rw [List.cons_append, onScreen, List.mem_cons] at ha
    rcases ha with rfl | ha
    · exact absurd rfl (hr r (by simp))
    · split at ha
      · next hlt =>
        simp only [total]
        cases R1 with
        | nil => simp only [total]; omega
        | cons r' R1 =>
          have := ih (fun r h => hr r (by simp [h])) (by simp) ha
          omega
      · cases ha

theorem onScreen_reach {w h : Nat} {r : Row} {R2 : List Row} : ∀ {R1 : List Row} {y : Nat}, y + total w R1 < h →
    (y + total w R1, r) ∈ onScreen w h y (R1 ++ r :: R2) := by
  intro R1
  induction R1 with
  | nil => intro y _; simp [onScreen, total]
  | cons r' R1 ih =>
    intro y hy
    simp only [total] at hy
    rw [List.cons_append, onScreen, if_pos (by omega), List.mem_cons]
    right
    have := ih (y := y + r'.lines w) (by omega)
    simpa only [total, Nat.add_assoc] using this

theorem tall_split {w : Nat} {a b : List Ev} : ∀ {rs : List Row}, Tall w (a ++ b) rs → ∃ ra rb, rs = ra ++ rb ∧ Tall w a ra ∧ Tall w b rb ∧ ra.length = nbLines a := by
  induction a with
  | nil => intro rs h; exact ⟨[], rs, rfl, rfl, h, rfl⟩
  | cons e a ih =>
    intro rs h
    cases e with
    | check => obtain ⟨ra, rb, h1, h2, h3, h4⟩ := ih h; exact ⟨ra, rb, h1, h2, h3, h4⟩
    | line p item x t n lz =>
      obtain ⟨r, rs', rfl, g1, g2, g3, g4, g5, h'⟩ := h
      obtain ⟨ra, rb, rfl, h2, h3, h4⟩ := ih h'
      exact ⟨r :: ra, rb, rfl, ⟨r, ra, rfl, g1, g2, g3, g4, g5, h2⟩, h3, by simp [nbLines, h4]⟩

/-- If the lines after the selection reach the bottom before the next item, none is found. -/
theorem exec_stuck (env : Env) (view : View) (q : Path) (hn : NoVal env (some q)) (pre p1 p2 : List Ev)
    (hv : ValChecks env pre) (hq : q ∉ checks pre) (hp1 : checks p1 = []) (scroll : Nat) {y : Nat}
    (hy : yrun view.height scroll pre 1 = some y) (hy2 : yrun view.height (scrollTo scroll y) p1 y = none) :
    (exec view (some q) (pre ++ .check q false :: (p1 ++ p2)) (blank scroll)).1.down = none ∧
    (exec view (some q) (pre ++ .check q false :: (p1 ++ p2)) (blank scroll)).1.found = true ∧
    (exec view (some q) (pre ++ .check q false :: (p1 ++ p2)) (blank scroll)).2 = false := by
  have hs : ∀ p ∈ checks pre, some q ≠ some p := fun p hp h => by simp at h; exact hq (h ▸ hp)
  have hpre := exec_absent env view (some q) hn pre hv hs (blank scroll) rfl
  simp only at hpre
  rw [hy] at hpre
  simp only at hpre
  have hrun := exec_runAll view (some q) pre (blank scroll) hpre.1
  have hsc := scan_absent env view (some q) hn pre hv hs (blank scroll) rfl
  rw [← hrun] at hsc
  rw [exec_append]
  rcases he : exec view (some q) pre (blank scroll) with ⟨d1, b1⟩
  rw [he] at hpre hsc
  obtain ⟨rfl, rfl⟩ := hpre
  simp only at hsc ⊢
  obtain ⟨g1, g2, g3, -⟩ := hsc
  have hc : checkSelection (some q) q false d1 = { d1 with scroll := scrollTo scroll d1.y, found := true } := by
    have hz : (if d1.y = 0 then 0 else d1.y - 1) = d1.y - 1 := by split <;> omega
    simp only [checkSelection, g1, scrollTo, g2, hz]
    simp
  simp only [exec, Ev.run, hc]
  generalize hd2 : ({ d1 with scroll := scrollTo scroll d1.y, found := true } : Draw) = d2
  have hf2 : d2.found = true := by rw [← hd2]
  have hs2 : d2.scroll = scrollTo scroll d1.y := by rw [← hd2]
  have hyd2 : d2.y = d1.y := by rw [← hd2]
  have hw2 : d2.down = none := by rw [← hd2]; exact g3
  have key : ∀ (es : List Ev) (d : Draw), checks es = [] → d.found = true → d.down = none → yrun view.height d.scroll es d.y = none →
      (exec view (some q) (es ++ p2) d).1.down = none ∧ (exec view (some q) (es ++ p2) d).1.found = true ∧ (exec view (some q) (es ++ p2) d).2 = false := by
    intro es
    induction es with
    | nil => intro d _ _ _ h; cases h
    | cons e es ih =>
      intro d hce hf hd h
      cases e with
      | check p ie =>
        cases ie with
        | false => simp [checks] at hce
        | true =>
          have : checkSelection (some q) p true d = d := by simp [checkSelection, hf, hd]
          simp only [List.cons_append, exec, Ev.run, this]
          exact ih d hce hf hd h
      | line p item x t n lz =>
        simp only [List.cons_append, exec, Ev.run]
        rw [yrun] at h
        split at h
        · next hle =>
          rw [if_pos hle]
          split at h
          · next hb => simp only [hb]; exact ih { d with y := d.y + 1 } hce hf hd h
          · next hb =>
            simp only [Bool.not_eq_true] at hb
            simp only [hb]
            exact ⟨hd, hf, trivial⟩
        · next hle =>
          rw [if_neg hle]
          split at h
          · next hb =>
            simp only [hb]
            exact ih { d with y := d.y + n, screen := d.screen ++ [⟨d.y - d.scroll, x, t, decide (some q = some item), view.results.contains p⟩] } hce hf hd h
          · next hb =>
            simp only [Bool.not_eq_true] at hb
            simp only [hb]
            exact ⟨hd, hf, trivial⟩
  exact key p1 d2 hp1 hf2 hw2 (by rw [hs2, hyd2]; exact hy2)

theorem redraw_stuck {env : Env} {s s' : St} (hn : NoVal env s.sel) (h : redraw env s = .done s')
    (hd : (exec (viewOf s) s.sel (evs env s) (blank s.scroll)).1.down = none) (hb : (exec (viewOf s) s.sel (evs env s) (blank s.scroll)).2 = false) :
    s'.isLast = true := by
  have hd0 := draw_root env s s.sel hn (blank s.scroll)
  have hd' : drawValue env ⟨s.width, s.height, s.collapsed, s.results⟩ s.sel [] false 0 ⟨1, s.scroll, none, none, false, []⟩ env.root = _ := hd0
  unfold redraw at h
  simp only [hd'] at h
  generalize exec (viewOf s) s.sel (evs env s) (blank s.scroll) = r at h hd hb
  obtain ⟨d, b'⟩ := r
  simp only at h hd hb
  subst hb
  split at h
  · cases h
  · rw [hd] at h
    cases hs : s.sel with
    | none => rw [hs] at h; cases h
    | some p => rw [hs] at h; cases h; rfl

end Verif.Lemmas
