import Verif.Lemmas.Paint
/-! # The calls to the terminal and the outline -/
namespace Verif.Lemmas
open Verif.Model Verif.Model.Search Verif.Model.Tui Verif.Model.Term Verif.Model.Paint Verif.Spec

/-- The calls that write a row, from line `a.1` on. -/
def rowCmds (look : Look) (env : Env) (view : View) (sel : Option Path) (a : Nat × Row) : List Cmd :=
  lineCmds look env view sel a.2.elem a.2.item a.2.col a.2.text a.1

theorem execP_tall (look : Look) (env : Env) (view : View) (sel : Option Path) (out0 : List Cmd) (hh : 2 ≤ view.height) :
    ∀ (es : List Ev) (rs R0 : List Row) (d : Draw) (out : List Cmd), Tall view.width es rs →
    d.y = R0.length - (R0.drop d.scroll).length + total view.width (R0.drop d.scroll) + 1 →
    out = out0 ++ (stacked view.width 1 (R0.drop d.scroll)).flatMap (rowCmds look env view sel) → d.y < d.scroll + view.height →
    (execP look env view sel es ⟨d, out⟩).1.out =
      out0 ++ (onScreen view.width view.height 1 ((R0 ++ rs).drop (exec view sel es d).1.scroll)).flatMap (rowCmds look env view sel) := by
  intro es
  induction es with
  | nil =>
    intro rs R0 d out hs hy hsc hb
    simp only [Tall] at hs
    subst hs
    simp only [exec, execP, List.append_nil]
    rw [hsc]
    congr 2
    have hlt : 1 + total view.width (R0.drop d.scroll) < view.height := by
      by_cases hd : R0.drop d.scroll = []
      · rw [hd]; simp only [total]; omega
      · have hlen : (R0.drop d.scroll).length ≠ 0 := fun h => hd (List.length_eq_zero_iff.mp h)
        rw [List.length_drop] at hy hlen
        omega
    have := onScreen_all view.width view.height (R0.drop d.scroll) [] 1 hlt
    rw [List.append_nil] at this
    rw [this]
    simp [onScreen]
  | cons e es ih =>
    intro rs R0 d out hs hy hsc hb
    have hdrop : R0.drop d.scroll ≠ [] → R0.length - (R0.drop d.scroll).length = d.scroll := by
      intro h
      have : (R0.drop d.scroll).length ≠ 0 := fun h' => h (List.length_eq_zero_iff.mp h')
      rw [List.length_drop] at this ⊢
      omega
    have hle' : d.y ≤ d.scroll → R0.drop d.scroll = [] := by
      intro h
      cases hd : R0.drop d.scroll with
      | nil => rfl
      | cons r l =>
        have := hdrop (by rw [hd]; simp)
        omega
    have hlen : d.y ≤ d.scroll → d.y = R0.length + 1 := by
      intro h
      have h2 := hle' h
      rw [h2] at hy
      simpa [total] using hy
    cases e with
    | check p ie =>
      simp only [exec, execP, Ev.run, Ev.cmds, List.append_nil]
      have hc : (checkSelection sel p ie d).y = d.y ∧
          ((checkSelection sel p ie d).scroll = d.scroll ∨ d.y ≤ d.scroll ∧ (checkSelection sel p ie d).scroll = d.y - 1) := by
        unfold checkSelection
        split
        · split
          · refine ⟨rfl, ?_⟩
            simp only
            by_cases h1 : d.y ≤ d.scroll
            · right
              refine ⟨h1, ?_⟩
              rw [if_pos h1]
              split <;> omega
            · left; rw [if_neg h1]
          · split <;> simp
        · split
          · split <;> simp
          · simp
      obtain ⟨c1, c3⟩ := hc
      rcases c3 with c3 | ⟨c3, c4⟩
      · exact ih rs R0 _ _ hs (by rw [c1, c3]; exact hy) (by rw [c3]; exact hsc) (by rw [c1, c3]; exact hb)
      · have h1 := hlen c3
        have h2 : R0.drop (d.y - 1) = [] := List.drop_eq_nil_of_le (by omega)
        refine ih rs R0 _ _ hs ?_ ?_ ?_
        · rw [c1, c4, h2]; simpa [total] using h1
        · rw [c4, h2, hsc, hle' c3]
        · rw [c1, c4]; omega
    | line p item x t n lz =>
      obtain ⟨r, rs', rfl, h1, h2, h3, h4, h5, h6⟩ := hs
      subst h1 h2 h3 h4 h5
      simp only [exec, execP, Ev.run, Ev.cmds]
      have happ : R0 ++ r :: rs' = (R0 ++ [r]) ++ rs' := by simp
      by_cases hle : d.y ≤ d.scroll
      · simp only [hle, if_true]
        have hnb : hasReachedBottom (d.y + 1) d.scroll view.height = false := by
          simp only [hasReachedBottom, Bool.and_eq_false_iff, decide_eq_false_iff_not]; right; omega
        rw [hnb]
        simp only [Bool.not_false, Bool.or_true]
        have hl := hlen hle
        have hd : (R0 ++ [r]).drop d.scroll = [] := List.drop_eq_nil_of_le (by simp; omega)
        rw [happ, List.append_nil]
        refine ih rs' (R0 ++ [r]) { d with y := d.y + 1 } out h6 ?_ ?_ ?_
        · dsimp only; rw [hd]; simp [total]; omega
        · dsimp only; rw [hd, hsc, hle' hle]
        · dsimp only; omega
      · simp only [hle, if_false]
        have hge : d.scroll ≤ R0.length := by
          by_cases h : d.scroll ≤ R0.length
          · exact h
          · exfalso
            rw [List.drop_eq_nil_of_le (by omega)] at hy
            simp [total] at hy
            omega
        have hyd : d.y = d.scroll + total view.width (R0.drop d.scroll) + 1 := by rw [List.length_drop] at hy; omega
        have hdr : (R0 ++ [r]).drop d.scroll = R0.drop d.scroll ++ [r] := List.drop_append_of_le_length hge
        have hscr : out ++ lineCmds look env view sel r.elem r.item r.col r.text (d.y - d.scroll) =
            out0 ++ (stacked view.width 1 ((R0 ++ [r]).drop d.scroll)).flatMap (rowCmds look env view sel) := by
          rw [hdr, stacked_append, List.flatMap_append, hsc, List.append_assoc]
          congr 2
          simp only [stacked, List.flatMap_cons, List.flatMap_nil, List.append_nil, rowCmds]
          rw [show d.y - d.scroll = 1 + total view.width (R0.drop d.scroll) from by omega]
        cases hbt : hasReachedBottom (d.y + r.lines view.width) d.scroll view.height with
        | false =>
          simp only [Bool.not_false]
          have hb' : d.y + r.lines view.width < d.scroll + view.height := by
            simp only [hasReachedBottom, Bool.and_eq_false_iff, decide_eq_false_iff_not] at hbt; omega
          rw [happ]
          refine ih rs' (R0 ++ [r]) { d with
              y := d.y + r.lines view.width, screen := d.screen ++ [⟨d.y - d.scroll, r.col, r.text, decide (sel = some r.item), view.results.contains r.elem⟩] } _ h6
            ?_ hscr hb'
          dsimp only
          rw [hdr, total_append]
          simp only [List.length_append, List.length_drop, total, List.length_singleton]
          omega
        | true =>
          simp only [Bool.not_true]
          have hb' : d.scroll + view.height ≤ d.y + r.lines view.width := by
            simp only [hasReachedBottom, Bool.and_eq_true, decide_eq_true_eq] at hbt
            omega
          have hlt : 1 + total view.width (R0.drop d.scroll) < view.height := by omega
          rw [happ, List.drop_append_of_le_length (by simp; omega), hdr, List.append_assoc, List.singleton_append, onScreen_all _ _ _ _ _ hlt,
            onScreen, if_neg (by omega), hscr, hdr, stacked_append]
          rfl

/-- The calls of a drawing are those for the rows of a window. -/
theorem out_tall (look : Look) (env : Env) (view : View) (sel : Option Path) (hh : 2 ≤ view.height) (es : List Ev) (rs : List Row) (scroll : Nat) (out0 : List Cmd)
    (h : Tall view.width es rs) :
    (execP look env view sel es ⟨blank scroll, out0⟩).1.out =
      out0 ++ (onScreen view.width view.height 1 (rs.drop (exec view sel es (blank scroll)).1.scroll)).flatMap (rowCmds look env view sel) := by
  have := execP_tall look env view sel out0 hh es rs [] (blank scroll) out0 h (by simp [total, blank]) (by simp [stacked, blank]) (by simp only [blank]; omega)
  simpa using this

end Verif.Lemmas
