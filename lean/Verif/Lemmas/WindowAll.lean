import Verif.Lemmas.Window
/-! # The screen and the outline, with lines wider than the screen -/
namespace Verif.Lemmas
open Verif.Model Verif.Model.Search Verif.Model.Tui Verif.Spec

/-- The lines given to rows. -/
def total (w : Nat) : List Row → Nat
  | [] => 0
  | r :: rs => r.lines w + total w rs

/-- Rows one below the other. -/
def stacked (w : Nat) : Nat → List Row → List (Nat × Row)
  | _, [] => []
  | y, r :: rs => (y, r) :: stacked w (y + r.lines w) rs

def cellOf (sel : Option Path) (results : List Path) (a : Nat × Row) : Cell :=
  ⟨a.1, a.2.col, a.2.text, decide (sel = some a.2.item), results.contains a.2.elem⟩

theorem total_append (w : Nat) (a b : List Row) : total w (a ++ b) = total w a + total w b := by
  induction a with
  | nil => simp [total]
  | cons r a ih => simp only [List.cons_append, total, ih]; omega

theorem stacked_append (w : Nat) (a b : List Row) : ∀ y, stacked w y (a ++ b) = stacked w y a ++ stacked w (y + total w a) b := by
  induction a with
  | nil => intro y; simp [stacked, total]
  | cons r a ih => intro y; simp only [List.cons_append, stacked, total, ih, Nat.add_assoc]

theorem onScreen_all (w h : Nat) (a b : List Row) : ∀ y, y + total w a < h → onScreen w h y (a ++ b) = stacked w y a ++ onScreen w h (y + total w a) b := by
  induction a with
  | nil => intro y _; simp [stacked, total]
  | cons r a ih =>
    intro y hy
    simp only [total] at hy
    simp only [List.cons_append, stacked, total, onScreen]
    rw [if_pos (by omega), ih _ (by omega), Nat.add_assoc]

/-- The lines of the events are the rows, each with the lines it is given. -/
def Tall (width : Nat) : List Ev → List Row → Prop
  | [], rs => rs = []
  | .check _ _ :: es, rs => Tall width es rs
  | .line p item x t n _ :: es, rs => ∃ r rs', rs = r :: rs' ∧ r.elem = p ∧ r.item = item ∧ r.col = x ∧ r.text = t ∧ n = r.lines width ∧ Tall width es rs'

theorem getNbLines_ceil {n w : Nat} (hw : 0 < w) : getNbLines n w = (n + (w - 1)) / w := by
  unfold getNbLines
  have h1 := Nat.div_add_mod n w
  have h2 := Nat.mod_lt n hw
  split
  · next h =>
    symm
    rw [Nat.div_eq_iff hw]
    have : n / w * w = w * (n / w) := Nat.mul_comm ..
    omega
  · next h =>
    symm
    rw [Nat.div_eq_iff hw, Nat.add_mul, Nat.one_mul]
    have : n / w * w = w * (n / w) := Nat.mul_comm ..
    omega

theorem Match.tall {w : Nat} (h3 : 3 ≤ w) (hw : w < 4294967296) {es : List Ev} {rs : List Row} (h : Match w es rs) : Tall w es rs := by
  induction es generalizing rs with
  | nil => exact h
  | cons e es ih =>
    cases e with
    | check p ie => exact ih h
    | line p item x t n lz =>
      obtain ⟨r, rs', rfl, h1, h2, h3, h4, hk, h5, h6⟩ := h
      refine ⟨r, rs', rfl, h1, h2, h3, h4, ?_, ih h6⟩
      unfold Row.lines Row.needs
      rw [hk]
      cases lz with
      | false =>
        simp only [Bool.false_eq_true, if_false] at h5 ⊢
        rw [h5]
        exact getNbLines_ceil (by omega)
      | true =>
        simp only [if_true] at h5 ⊢
        have hm : (w + 4294967294) % 4294967296 = w - 2 := by omega
        rw [h5.2, hm, getNbLines_ceil (by omega)]
        congr 1

theorem exec_tall (view : View) (sel : Option Path) (hh : 2 ≤ view.height) : ∀ (es : List Ev) (rs R0 : List Row) (d : Draw), Tall view.width es rs →
    d.y = R0.length - (R0.drop d.scroll).length + total view.width (R0.drop d.scroll) + 1 →
    d.screen = (stacked view.width 1 (R0.drop d.scroll)).map (cellOf sel view.results) → d.y < d.scroll + view.height →
    (exec view sel es d).1.screen =
      (onScreen view.width view.height 1 ((R0 ++ rs).drop (exec view sel es d).1.scroll)).map (cellOf sel view.results) := by
  intro es
  induction es with
  | nil =>
    intro rs R0 d hs hy hsc hb
    simp only [Tall] at hs
    subst hs
    simp only [exec, List.append_nil]
    rw [hsc]
    congr 1
    have hlt : 1 + total view.width (R0.drop d.scroll) < view.height := by
      by_cases hd : R0.drop d.scroll = []
      · rw [hd]; simp only [total]; omega
      · have hlen : (R0.drop d.scroll).length ≠ 0 := fun h => hd (List.length_eq_zero_iff.mp h)
        rw [List.length_drop] at hy hlen
        omega
    have := onScreen_all view.width view.height (R0.drop d.scroll) [] 1 hlt
    rw [List.append_nil] at this
    rw [this]
    simp [onScreen]
  | cons e es ih =>
    intro rs R0 d hs hy hsc hb
    have hdrop : R0.drop d.scroll ≠ [] → R0.length - (R0.drop d.scroll).length = d.scroll := by
      intro h
      have : (R0.drop d.scroll).length ≠ 0 := fun h' => h (List.length_eq_zero_iff.mp h')
      rw [List.length_drop] at this ⊢
      omega
    have hle' : d.y ≤ d.scroll → R0.drop d.scroll = [] := by
      intro h
      cases hd : R0.drop d.scroll with
      | nil => rfl
      | cons r l =>
        have := hdrop (by rw [hd]; simp)
        omega
    have hlen : d.y ≤ d.scroll → d.y = R0.length + 1 := by
      intro h
      have h2 := hle' h
      rw [h2] at hy
      simpa [total] using hy
    cases e with
    | check p ie =>
      simp only [exec, Ev.run]
      have hc : (checkSelection sel p ie d).y = d.y ∧ (checkSelection sel p ie d).screen = d.screen ∧
          ((checkSelection sel p ie d).scroll = d.scroll ∨ d.y ≤ d.scroll ∧ (checkSelection sel p ie d).scroll = d.y - 1) := by
        unfold checkSelection
        split
        · split
          · refine ⟨rfl, rfl, ?_⟩
            simp only
            by_cases h1 : d.y ≤ d.scroll
            · right
              refine ⟨h1, ?_⟩
              rw [if_pos h1]
              split <;> omega
            · left; rw [if_neg h1]
          · split <;> simp
        · split
          · split <;> simp
          · simp
      obtain ⟨c1, c2, c3⟩ := hc
      rcases c3 with c3 | ⟨c3, c4⟩
      · exact ih rs R0 _ hs (by rw [c1, c3]; exact hy) (by rw [c2, c3]; exact hsc) (by rw [c1, c3]; exact hb)
      · have h1 := hlen c3
        have h2 : R0.drop (d.y - 1) = [] := List.drop_eq_nil_of_le (by omega)
        refine ih rs R0 _ hs ?_ ?_ ?_
        · rw [c1, c4, h2]; simpa [total] using h1
        · rw [c2, c4, h2, hsc, hle' c3]
        · rw [c1, c4]; omega
    | line p item x t n lz =>
      obtain ⟨r, rs', rfl, h1, h2, h3, h4, h5, h6⟩ := hs
      subst h1 h2 h3 h4 h5
      simp only [exec, Ev.run]
      have happ : R0 ++ r :: rs' = (R0 ++ [r]) ++ rs' := by simp
      by_cases hle : d.y ≤ d.scroll
      · simp only [hle, if_true]
        have hnb : hasReachedBottom (d.y + 1) d.scroll view.height = false := by
          simp only [hasReachedBottom, Bool.and_eq_false_iff, decide_eq_false_iff_not]; right; omega
        rw [hnb]
        simp only [Bool.not_false, Bool.or_true]
        have hl := hlen hle
        have hd : (R0 ++ [r]).drop d.scroll = [] := List.drop_eq_nil_of_le (by simp; omega)
        rw [happ]
        refine ih rs' (R0 ++ [r]) { d with y := d.y + 1 } h6 ?_ ?_ ?_
        · dsimp only; rw [hd]; simp [total]; omega
        · dsimp only; rw [hd, hsc, hle' hle]
        · dsimp only; omega
      · simp only [hle, if_false]
        have hge : d.scroll ≤ R0.length := by
          by_cases h : d.scroll ≤ R0.length
          · exact h
          · exfalso
            rw [List.drop_eq_nil_of_le (by omega)] at hy
            simp [total] at hy
            omega
        have hyd : d.y = d.scroll + total view.width (R0.drop d.scroll) + 1 := by rw [List.length_drop] at hy; omega
        have hdr : (R0 ++ [r]).drop d.scroll = R0.drop d.scroll ++ [r] := List.drop_append_of_le_length hge
        have hscr : d.screen ++ [⟨d.y - d.scroll, r.col, r.text, decide (sel = some r.item), view.results.contains r.elem⟩] =
            (stacked view.width 1 ((R0 ++ [r]).drop d.scroll)).map (cellOf sel view.results) := by
          rw [hdr, stacked_append, List.map_append, hsc]
          congr 1
          simp only [stacked, List.map_cons, List.map_nil, cellOf]
          rw [show d.y - d.scroll = 1 + total view.width (R0.drop d.scroll) from by omega]
        cases hbt : hasReachedBottom (d.y + r.lines view.width) d.scroll view.height with
        | false =>
          simp only [Bool.not_false]
          have hb' : d.y + r.lines view.width < d.scroll + view.height := by
            simp only [hasReachedBottom, Bool.and_eq_false_iff, decide_eq_false_iff_not] at hbt; omega
          rw [happ]
          refine ih rs' (R0 ++ [r]) { d with
              y := d.y + r.lines view.width, screen := d.screen ++ [⟨d.y - d.scroll, r.col, r.text, decide (sel = some r.item), view.results.contains r.elem⟩] } h6
            ?_ hscr hb'
          dsimp only
          rw [hdr, total_append]
          simp only [List.length_append, List.length_drop, total, List.length_singleton]
          omega
        | true =>
          simp only [Bool.not_true]
          have hb' : d.scroll + view.height ≤ d.y + r.lines view.width := by
            simp only [hasReachedBottom, Bool.and_eq_true, decide_eq_true_eq] at hbt
            omega
          have hlt : 1 + total view.width (R0.drop d.scroll) < view.height := by omega
          rw [happ, List.drop_append_of_le_length (by simp; omega), hdr, List.append_assoc, List.singleton_append, onScreen_all _ _ _ _ _ hlt,
            onScreen, if_neg (by omega), hscr, hdr, stacked_append]
          rfl

/-- The screen is a window on the rows. -/
theorem screen_tall (view : View) (sel : Option Path) (hh : 2 ≤ view.height) (es : List Ev) (rs : List Row) (scroll : Nat) (h : Tall view.width es rs) :
    (exec view sel es (blank scroll)).1.screen =
      (onScreen view.width view.height 1 (rs.drop (exec view sel es (blank scroll)).1.scroll)).map (cellOf sel view.results) := by
  have := exec_tall view sel hh es rs [] (blank scroll) h (by simp [total, blank]) (by simp [stacked, blank]) (by simp only [blank]; omega)
  simpa using this

/-- A row is given at least the lines it needs. -/
theorem needs_le_lines {w : Nat} (hw : 3 ≤ w) (r : Row) (h : 0 < r.size - 2) : r.needs w ≤ r.lines w := by
  unfold Row.lines
  split
  · unfold Row.needs
    have h1 := Nat.lt_mul_div_succ (r.size - 2 + (w - 3)) (show 0 < w - 2 by omega)
    generalize hk : (r.size - 2 + (w - 3)) / (w - 2) = k at h1 ⊢
    have hk1 : 1 ≤ k := by
      rw [← hk, Nat.le_div_iff_mul_le (by omega)]
      omega
    rw [← Nat.lt_succ_iff, Nat.div_lt_iff_lt_mul (by omega)]
    have e1 : (w - 2) * (k + 1) = w * (k + 1) - 2 * (k + 1) := Nat.sub_mul ..
    have e2 : (k + 1) * w = w * (k + 1) := Nat.mul_comm ..
    have e3 : w * (k + 1) = w * k + w := Nat.mul_succ ..
    have e4 : w * 1 ≤ w * k := Nat.mul_le_mul_left _ hk1
    show r.size + (w - 1) < (k + 1) * w
    omega
  · exact Nat.le_refl _

end Verif.Lemmas
