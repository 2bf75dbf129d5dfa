import Verif.Lemmas.Redraw
import Verif.Spec.Outline
/-! # The screen and the outline -/
namespace Verif.Lemmas
open Verif.Model Verif.Model.Search Verif.Model.Tui Verif.Spec

/-- The lines of the events are the rows; the number of screen lines follows from the size. -/
def Match (width : Nat) : List Ev → List Row → Prop
  | [], rs => rs = []
  | .check _ _ :: es, rs => Match width es rs
  | .line p item x t n lz :: es, rs =>
    ∃ r rs', rs = r :: rs' ∧ r.elem = p ∧ r.item = item ∧ r.col = x ∧ r.text = t ∧ r.key = lz ∧
      (if lz then 6 ≤ r.size ∧ n = getNbLines (r.size - 2) ((width + 4294967294) % 4294967296) else n = getNbLines r.size width) ∧ Match width es rs'

theorem Match.append {w : Nat} {a b : List Ev} {ra rb : List Row} (ha : Match w a ra) (hb : Match w b rb) : Match w (a ++ b) (ra ++ rb) := by
  induction a generalizing ra with
  | nil => simp only [Match] at ha; subst ha; exact hb
  | cons e a ih =>
    cases e with
    | check p ie => exact ih ha
    | line p item x t n lz =>
      obtain ⟨r, rs', rfl, h1, h2, h3, h4, hk, h5, h6⟩ := ha
      exact ⟨r, rs' ++ rb, rfl, h1, h2, h3, h4, hk, h5, ih h6⟩

theorem Match.line {w : Nat} {p item : Path} {x : Nat} {t : Bytes} {size : Nat} {n : Nat} (hn : n = getNbLines size w) :
    Match w [.line p item x t n false] [⟨p, item, x, t, size, false⟩] :=
  ⟨_, [], rfl, rfl, rfl, rfl, rfl, rfl, by simpa using hn, rfl⟩

theorem Match.check {w : Nat} {p : Path} {ie : Bool} {es : List Ev} {rs : List Row} (h : Match w es rs) : Match w (.check p ie :: es) rs := h

theorem Match.cons {w : Nat} {e : Ev} {es : List Ev} {r : Row} {rs : List Row} (h1 : Match w [e] [r]) (h2 : Match w es rs) : Match w (e :: es) (r :: rs) :=
  Match.append h1 h2

theorem match_prim (env : Env) (w : Nat) (p item : Path) (ie : Bool) (x : Nat) (text : Bytes) :
    Match w [.check p ie, .line p item x (cstr text) (getNbLines (env.len text + x) w) false] [⟨p, item, x, shown text, x + env.len text, false⟩] :=
  Match.check (Match.line (by rw [Nat.add_comm]))

mutual
theorem match_value (env : Env) (w : Nat) (collapsed : List Path) : ∀ (v : Json) (p item : Path) (ie : Bool) (x : Nat),
    Match w (evValue env w collapsed p item ie x v) (rows (hiddenBy collapsed) env.fmt env.len p item x v)
  | .arr xs, p, item, ie, x => by
    rw [evValue, rows]
    refine Match.check ?_
    by_cases h : collapsed.contains p = true
    · simp only [hiddenBy, h, if_true]
      exact Match.line (by rw [Nat.add_comm])
    · simp only [Bool.not_eq_true] at h
      simp only [hiddenBy, h, Bool.false_eq_true, if_false]
      exact Match.cons (Match.line rfl) ((match_items env w collapsed xs p 0 (x + 4)).append (Match.line rfl))
  | .obj es, p, item, ie, x => by
    rw [evValue, rows]
    refine Match.check ?_
    by_cases h : collapsed.contains p = true
    · simp only [hiddenBy, h, if_true]
      exact Match.line (by rw [Nat.add_comm])
    · simp only [Bool.not_eq_true] at h
      simp only [hiddenBy, h, Bool.false_eq_true, if_false]
      exact Match.cons (Match.line rfl) ((match_entries env w collapsed es p 0 (x + 4) (by omega)).append (Match.line rfl))
  | .str s, p, item, ie, x => match_prim env w p item ie x _
  | .bool s, p, item, ie, x => match_prim env w p item ie x _
  | .null, p, item, ie, x => match_prim env w p item ie x _
  | .int s, p, item, ie, x => match_prim env w p item ie x _
  | .long s, p, item, ie, x => match_prim env w p item ie x _
  | .dbl s, p, item, ie, x => match_prim env w p item ie x _
theorem match_items (env : Env) (w : Nat) (collapsed : List Path) : ∀ (vs : List Json) (p : Path) (i x : Nat),
    Match w (evItems env w collapsed p i x vs) (rowsItems (hiddenBy collapsed) env.fmt env.len p i x vs)
  | [], p, i, x => rfl
  | v :: vs, p, i, x => (match_value env w collapsed v _ _ _ _).append (match_items env w collapsed vs p (i + 1) x)
theorem match_entries (env : Env) (w : Nat) (collapsed : List Path) : ∀ (es : List (Bytes × Json)) (p : Path) (i x : Nat), 4 ≤ x →
    Match w (evEntries env w collapsed p i x es) (rowsEntries (hiddenBy collapsed) env.fmt env.len p i x es)
  | [], p, i, x, _ => rfl
  | (k, v) :: es, p, i, x, hx => by
    have hr := match_entries env w collapsed es p (i + 1) x hx
    have hv := match_value env w collapsed v (p ++ [i] ++ [0]) (p ++ [i]) true (x + 2)
    have hkey : Match w [Ev.line (p ++ [i]) (p ++ [i]) x (cstr k ++ b!": ") (getNbLines (env.len k + x) ((w + 4294967294) % 4294967296)) true]
        [⟨p ++ [i], p ++ [i], x, shown k ++ b!": ", x + env.len k + 2, true⟩] :=
      ⟨_, [], rfl, rfl, rfl, rfl, rfl, rfl, by simp; exact ⟨by omega, by rw [Nat.add_comm]⟩, rfl⟩
    cases v with
    | arr xs =>
      rw [evEntries, rowsEntries]
      refine Match.check (Match.append ?_ hr)
      simp only [Json.isContainer, Bool.true_and, hiddenBy]
      by_cases h : collapsed.contains (p ++ [i] ++ [0]) = true
      · simp only [h, if_true]; exact Match.line rfl
      · simp only [Bool.not_eq_true] at h
        simp only [h, Bool.false_eq_true, if_false, Bool.not_true, isEmptyJ, List.isEmpty_iff]
        by_cases he : xs = []
        · simp only [he, if_true]; exact Match.line rfl
        · simp only [he, if_false]; exact Match.cons hkey hv
    | obj es' =>
      rw [evEntries, rowsEntries]
      refine Match.check (Match.append ?_ hr)
      simp only [Json.isContainer, Bool.true_and, hiddenBy]
      by_cases h : collapsed.contains (p ++ [i] ++ [0]) = true
      · simp only [h, if_true]; exact Match.line rfl
      · simp only [Bool.not_eq_true] at h
        simp only [h, Bool.false_eq_true, if_false, Bool.not_true, isEmptyJ, List.isEmpty_iff]
        by_cases he : es' = []
        · simp only [he, if_true]; exact Match.line rfl
        · simp only [he, if_false]; exact Match.cons hkey hv
    | str s | bool s | null | int s | long s | dbl s =>
      rw [evEntries, rowsEntries] <;> try (intros; contradiction)
      exact Match.check (Match.append (Match.line rfl) hr)
end

/-! ## Lines that fit into the width -/

/-- Every line takes one line of the screen. -/
def Single : List Ev → List Row → Prop
  | [], rs => rs = []
  | .check _ _ :: es, rs => Single es rs
  | .line p item x t n _ :: es, rs => ∃ r rs', rs = r :: rs' ∧ r.elem = p ∧ r.item = item ∧ r.col = x ∧ r.text = t ∧ n = 1 ∧ Single es rs'

theorem getNbLines_one {n w : Nat} (h1 : 0 < n) (h2 : n ≤ w) : getNbLines n w = 1 := by
  unfold getNbLines
  by_cases h : n = w
  · subst h; simp [Nat.div_self h1]
  · rw [Nat.mod_eq_of_lt (by omega), Nat.div_eq_of_lt (by omega)]
    simp; omega

theorem Match.single {w : Nat} (hw : w < 4294967296) {es : List Ev} {rs : List Row} (h : Match w es rs) (hf : ∀ r ∈ rs, 0 < r.size ∧ r.size ≤ w) : Single es rs := by
  induction es generalizing rs with
  | nil => exact h
  | cons e es ih =>
    cases e with
    | check p ie => exact ih h hf
    | line p item x t n lz =>
      obtain ⟨r, rs', rfl, h1, h2, h3, h4, -, h5, h6⟩ := h
      refine ⟨r, rs', rfl, h1, h2, h3, h4, ?_, ih h6 fun r hr => hf r (by simp [hr])⟩
      have := hf r (by simp)
      cases lz with
      | false => simp at h5; rw [h5]; exact getNbLines_one this.1 this.2
      | true =>
        simp only [if_true] at h5
        rw [h5.2]
        have hm : (w + 4294967294) % 4294967296 = w - 2 := by omega
        rw [hm]
        exact getNbLines_one (by omega) (by omega)

/-- Rows on the screen, numbered from 1 on. -/
def window (sel : Option Path) (results : List Path) (rs : List Row) : List Cell :=
  rs.mapIdx fun i r => ⟨i + 1, r.col, r.text, decide (sel = some r.item), results.contains r.elem⟩

theorem window_concat (sel : Option Path) (results : List Path) (rs : List Row) (r : Row) :
    window sel results (rs ++ [r]) = window sel results rs ++ [⟨rs.length + 1, r.col, r.text, decide (sel = some r.item), results.contains r.elem⟩] := by
  simp [window, List.mapIdx_append]

theorem exec_window (view : View) (sel : Option Path) (hh : 2 ≤ view.height) : ∀ (es : List Ev) (rs R0 : List Row) (d : Draw), Single es rs →
    d.y = R0.length + 1 → d.screen = window sel view.results (R0.drop d.scroll) → d.y ≤ d.scroll + (view.height - 1) →
    ∃ R1, R1 <+: rs ∧ (exec view sel es d).1.screen = window sel view.results ((R0 ++ R1).drop (exec view sel es d).1.scroll) ∧
      ((exec view sel es d).2 = true → R1 = rs ∧ (R0 ++ R1).length + 1 ≤ (exec view sel es d).1.scroll + (view.height - 1)) ∧
      ((exec view sel es d).2 = false → (R0 ++ R1).length = (exec view sel es d).1.scroll + (view.height - 1)) := by
  intro es
  induction es with
  | nil =>
    intro rs R0 d hs hy hsc hb
    simp only [Single] at hs
    subst hs
    refine ⟨[], List.prefix_refl _, by simpa [exec] using hsc, fun _ => ⟨rfl, ?_⟩, by simp [exec]⟩
    simp only [exec, List.append_nil]; omega
  | cons e es ih =>
    intro rs R0 d hs hy hsc hb
    cases e with
    | check p ie =>
      simp only [exec, Ev.run]
      have hc : (checkSelection sel p ie d).y = d.y ∧ (checkSelection sel p ie d).screen = d.screen ∧
          ((checkSelection sel p ie d).scroll = d.scroll ∨ d.y ≤ d.scroll ∧ (checkSelection sel p ie d).scroll = d.y - 1) := by
        unfold checkSelection
        split
        · split
          · refine ⟨rfl, rfl, ?_⟩
            simp only
            by_cases h1 : d.y ≤ d.scroll
            · right
              refine ⟨h1, ?_⟩
              rw [if_pos h1]
              split <;> omega
            · left; rw [if_neg h1]
          · split <;> simp
        · split
          · split <;> simp
          · simp
      obtain ⟨c1, c2, c3⟩ := hc
      refine ih rs R0 _ hs (by rw [c1]; exact hy) ?_ ?_
      · rw [c2, hsc]
        rcases c3 with c3 | ⟨c3, c4⟩
        · rw [c3]
        · rw [c4, List.drop_eq_nil_of_le (by omega), List.drop_eq_nil_of_le (by omega)]
      · rw [c1]
        rcases c3 with c3 | ⟨c3, c4⟩
        · rw [c3]; exact hb
        · omega
    | line p item x t n lz =>
      obtain ⟨r, rs', rfl, h1, h2, h3, h4, h5, h6⟩ := hs
      subst h1 h2 h3 h4 h5
      simp only [exec, Ev.run]
      by_cases hle : d.y ≤ d.scroll
      · simp only [hle, if_true]
        have hnb : hasReachedBottom (d.y + 1) d.scroll view.height = false := by
          simp only [hasReachedBottom, Bool.and_eq_false_iff, decide_eq_false_iff_not]; right; omega
        rw [hnb]
        simp only [Bool.not_false, Bool.or_true]
        obtain ⟨R1, g1, g2, g3, g4⟩ := ih rs' (R0 ++ [r]) { d with y := d.y + 1 } h6 (by simp; omega)
          (by simp only; rw [hsc, List.drop_eq_nil_of_le (by omega), List.drop_eq_nil_of_le (by simp; omega)]) (by simp only; omega)
        refine ⟨r :: R1, List.cons_prefix_cons.mpr ⟨rfl, g1⟩, by simpa using g2, ?_, by simpa using g4⟩
        intro hb'
        obtain ⟨k1, k2⟩ := g3 hb'
        exact ⟨by rw [k1], by simpa using k2⟩
      · simp only [hle, if_false]
        have hscr : d.screen ++ [⟨d.y - d.scroll, r.col, r.text, decide (sel = some r.item), view.results.contains r.elem⟩] =
            window sel view.results ((R0 ++ [r]).drop d.scroll) := by
          rw [List.drop_append_of_le_length (by omega), window_concat, hsc]
          congr 3
          simp; omega
        cases hbt : hasReachedBottom (d.y + 1) d.scroll view.height with
        | false =>
          simp only [Bool.not_false]
          have hb' : d.y + 1 ≤ d.scroll + (view.height - 1) := by
            simp only [hasReachedBottom, Bool.and_eq_false_iff, decide_eq_false_iff_not] at hbt; omega
          obtain ⟨R1, g1, g2, g3, g4⟩ := ih rs' (R0 ++ [r]) { d with
              y := d.y + 1, screen := d.screen ++ [⟨d.y - d.scroll, r.col, r.text, decide (sel = some r.item), view.results.contains r.elem⟩] } h6
            (by simp; omega) hscr hb'
          refine ⟨r :: R1, List.cons_prefix_cons.mpr ⟨rfl, g1⟩, by simpa using g2, ?_, by simpa using g4⟩
          intro hb2
          obtain ⟨k1, k2⟩ := g3 hb2
          exact ⟨by rw [k1], by simpa using k2⟩
        | true =>
          simp only [Bool.not_true]
          refine ⟨[r], List.cons_prefix_cons.mpr ⟨rfl, List.nil_prefix⟩, hscr, by simp, fun _ => ?_⟩
          simp only [hasReachedBottom, Bool.and_eq_true, decide_eq_true_eq] at hbt
          simp; omega

/-- The screen is a window on the rows. -/
theorem screen_window (view : View) (sel : Option Path) (hh : 2 ≤ view.height) (es : List Ev) (rs : List Row) (scroll : Nat) (h : Single es rs) :
    (exec view sel es (blank scroll)).1.screen =
      window sel view.results ((rs.drop (exec view sel es (blank scroll)).1.scroll).take (view.height - 1)) := by
  obtain ⟨R1, h1, h2, h3, h4⟩ := exec_window view sel hh es rs [] (blank scroll) h rfl (by simp [window]) (by simp only; omega)
  rw [h2]
  simp only [List.nil_append] at h3 h4 ⊢
  cases hb : (exec view sel es (blank scroll)).2 with
  | true =>
    obtain ⟨rfl, h5⟩ := h3 hb
    rw [List.take_of_length_le]
    simp; omega
  | false =>
    have h5 := h4 hb
    obtain ⟨R2, rfl⟩ := h1
    congr 1
    rw [List.drop_append_of_le_length (by omega), List.take_append_of_le_length (by simp; omega), List.take_of_length_le (by simp; omega)]

end Verif.Lemmas
