import Verif.Props.Tui
import Verif.Lemmas.WindowAll
/-! # C40, C62: what is on the screen -/
namespace Verif.Props
open Verif.Model Verif.Model.Search Verif.Model.Nav Verif.Model.Tui Verif.Spec Verif.Lemmas

/-- The lines of the display in a state. -/
def outlineOf (env : Env) (s : St) : List Row := screenOutline (fun p => s.collapsed.contains p) env.fmt env.len env.root

theorem redraw_screen {env : Env} {s s' : St} (hn : NoVal env s.sel) (h : redraw env s = .done s') :
    s'.screen = (exec (viewOf s) s.sel (evs env s) (blank s.scroll)).1.screen ∧ s'.scroll = (exec (viewOf s) s.sel (evs env s) (blank s.scroll)).1.scroll := by
  have hd := draw_root env s s.sel hn (blank s.scroll)
  have hd' : drawValue env ⟨s.width, s.height, s.collapsed, s.results⟩ s.sel [] false 0 ⟨1, s.scroll, none, none, false, []⟩ env.root = _ := hd
  unfold redraw at h
  simp only [hd'] at h
  generalize exec (viewOf s) s.sel (evs env s) (blank s.scroll) = r at h ⊢
  obtain ⟨d, b⟩ := r
  simp only at h ⊢
  split at h
  · cases h
  · split at h
    · cases h; exact ⟨rfl, rfl⟩
    · cases h
    · cases h; exact ⟨rfl, rfl⟩

theorem kept_trans {a b c : St} (h : Kept a b) (h' : Kept b c) : Kept a c :=
  ⟨h'.1.trans h.1, h'.2.1.trans h.2.1, h'.2.2.1.trans h.2.2.1, h'.2.2.2.1.trans h.2.2.2.1, h'.2.2.2.2.trans h.2.2.2.2⟩

/-- The last of the drawings. -/
theorem settle_last {env : Env} : ∀ (n : Nat) (s s' : St), NoVal env s.sel → settle env n s = some (.done s') →
    ∃ s1, Kept s s1 ∧ redraw env s1 = .done s' := by
  intro n
  induction n with
  | zero => intro s s' _ h; simp [settle] at h
  | succ n ih =>
    intro s s' hn h
    rw [settle] at h
    cases hr : redraw env s with
    | crash => rw [hr] at h; simp at h
    | done s1 => rw [hr] at h; cases h; exact ⟨s, ⟨rfl, rfl, rfl, rfl, rfl⟩, hr⟩
    | retry s1 =>
      rw [hr] at h
      obtain ⟨hk, -⟩ := redraw_retry env s s1 hn hr
      obtain ⟨s2, h1, h2⟩ := ih s1 s' (by rw [hk.1]; exact hn) h
      exact ⟨s2, kept_trans hk h1, h2⟩

theorem match_evs (env : Env) (s : St) : Match s.width (evs env s) (outlineOf env s) := by
  have := match_value env s.width s.collapsed env.root [] [] false 0
  exact this

theorem owned_prefix {S : List Path} {a b : List Ev} (h : Owned S (a ++ b)) : Owned S a := by
  induction a generalizing S with
  | nil => trivial
  | cons e a ih =>
    cases e with
    | check p ie =>
      cases ie with
      | false => exact ih (S := p :: S) h
      | true => exact ih h
    | line => exact ⟨h.1, ih h.2⟩

/-! ## C40 -/

/-- **C40.** When the drawing is done, the selection is not inside a collapsed container and the screen has a line below the title line: the first line
of the selection is on the screen below the title line, and marked as selected. (A screen without a line below the title has no room for it.) -/
theorem C40_selected_line_on_screen (env : Env) (n : Nat) (s s' : St) (q : Path) (hs : s.sel = some q) (hq : q ∈ shownNow env s) (hh : 2 ≤ s.height)
    (h : settle env n s = some (.done s')) :
    ∃ r, (outlineOf env s).find? (fun r => r.item = q) = some r ∧
      ∃ cell ∈ s'.screen, cell.col = r.col ∧ cell.text = r.text ∧ cell.selected = true ∧ 1 ≤ cell.row ∧ cell.row < s.height := by
  have hq' : q ∈ shownItems env s := hq
  have hn : NoVal env (some q) := noVal_item (visible_items _ _ _ hq')
  obtain ⟨s1, hk, hr⟩ := settle_last n s s' (by rw [hs]; exact hn) h
  have hs1 : s1.sel = some q := hk.1.trans hs
  have hsc := redraw_screen (by rw [hs1]; exact hn) hr
  have hev := hk.evs (env := env)
  obtain ⟨A, B, hAB⟩ := List.append_of_mem hq'
  obtain ⟨pre, post, h1, h2, h3, h4⟩ := evs_split env s hAB
  have hp := redraw_present env s1 hs1 (by rw [hk.shown]; exact hAB) (by rw [hev]; exact h1) h2 h3 h4
  cases hy : yrun s1.height s1.scroll pre 1 with
  | none => rw [hy] at hp; obtain ⟨s2, g1, -⟩ := hp; rw [hr] at g1; cases g1
  | some y =>
    have hpair : Paired (evs env s) := paired_value env s.width s.collapsed env.root [] [] false 0 (fun _ => rfl)
    obtain ⟨x, t, m, lz, post', rfl⟩ := hpair pre q post h1
    have hval : ValChecks env pre := fun p hp => val_evs env s p (by rw [h1]; simp [hp])
    have hmem := exec_selection env (viewOf s1) q hn pre post' q x t m lz hval (by rw [h2]; exact h4) s1.scroll y hy
    rw [← h1, ← hev, ← hs1, ← hsc.1] at hmem
    obtain ⟨r, f1, f2, f3, f4⟩ := match_first pre [] (outlineOf env s) (by rw [← h1]; exact match_evs env s) (owned_prefix (by
        have ho : Owned [] (evs env s) := owned_value env s.width s.collapsed env.root [] [] [] false 0 (.inr ⟨rfl, rfl⟩)
        rw [h1] at ho; exact ho)) (by simp) (by rw [h2]; exact h4)
    refine ⟨r, f1, _, hmem, f3.symm, f4.symm, rfl, ?_, ?_⟩
    · have := yrun_mono _ _ _ _ _ hy
      simp only [scrollTo]; split <;> omega
    · have hb := yrun_bound (by rw [hk.2.2.2.2]; exact hh) pre 1 y hy (by rw [hk.2.2.2.2]; omega)
      rw [hk.2.2.2.2] at hb
      have := yrun_mono _ _ _ _ _ hy
      simp only [scrollTo]
      split <;> omega

/-! ## C62 -/

/-- **C62.** On a screen of at least three columns with a line below the title line: when the drawing
is done, the screen shows the lines of the outline from number `scroll` on, one below the other (`onScreen`), until the bottom is reached: each in its column, marked as
selected exactly if it belongs to the selection and as found exactly if its element is one of the results. -/
theorem C62_screen_is_window (env : Env) (n : Nat) (s s' : St) (hs : s.sel = none ∨ ∃ q ∈ items env.root, s.sel = some q) (hh : 2 ≤ s.height)
    (h3 : 3 ≤ s.width) (hw : s.width < 4294967296) (h : settle env n s = some (.done s')) :
    s'.screen = (onScreen s.width s.height 1 ((outlineOf env s).drop s'.scroll)).map
      fun a => ⟨a.1, a.2.col, a.2.text, decide (s.sel = some a.2.item), s.results.contains a.2.elem⟩ := by
  have hn : NoVal env s.sel := by
    rcases hs with h | ⟨q, hq, h⟩ <;> rw [h]
    · intro a k v _ h; simp at h
    · exact noVal_item hq
  obtain ⟨s1, hk, hr⟩ := settle_last n s s' hn h
  have hsc := redraw_screen (by rw [hk.1]; exact hn) hr
  have hev := hk.evs (env := env)
  have hm := (match_evs env s).tall h3 hw
  have := screen_tall (viewOf s1) s1.sel (by rw [show (viewOf s1).height = s1.height from rfl, hk.2.2.2.2]; exact hh) (evs env s) (outlineOf env s) s1.scroll
    (by rw [show (viewOf s1).width = s1.width from rfl, hk.2.2.2.1]; exact hm)
  rw [hsc.1, hsc.2, hev]
  rw [this, show (viewOf s1).height = s.height from hk.2.2.2.2, show (viewOf s1).width = s.width from hk.2.2.2.1, hk.1,
    show (viewOf s1).results = s.results from hk.2.2.1]
  rfl

theorem key_size {w : Nat} {es : List Ev} {rs : List Row} (h : Match w es rs) : ∀ r ∈ rs, r.key = true → 6 ≤ r.size := by
  induction es generalizing rs with
  | nil => simp only [Match] at h; subst h; intro r hr; cases hr
  | cons e es ih =>
    cases e with
    | check p ie => exact ih h
    | line p item x t n lz =>
      obtain ⟨r, rs', rfl, h1, h2, h3, h4, hk, h5, h6⟩ := h
      intro r' hr' hk'
      rcases List.mem_cons.mp hr' with rfl | hr'
      · rw [hk] at hk'
        subst hk'
        exact h5.1
      · exact ih h6 r' hr' hk'

theorem onScreen_next {w h : Nat} : ∀ {rs : List Row} {y i : Nat} {a b : Nat × Row}, (onScreen w h y rs)[i]? = some a → (onScreen w h y rs)[i + 1]? = some b →
    b.1 = a.1 + a.2.lines w ∧ a.2 ∈ rs
  | [], y, i, a, b, ha, _ => by simp [onScreen] at ha
  | r :: rs, y, i, a, b, ha, hb => by
    rw [onScreen] at ha hb
    cases i with
    | zero =>
      cases ha
      rw [List.getElem?_cons_succ] at hb
      split at hb
      · cases rs with
        | nil => simp [onScreen] at hb
        | cons r' rs => rw [onScreen] at hb; cases hb; exact ⟨rfl, List.mem_cons_self ..⟩
      · simp at hb
    | succ i =>
      rw [List.getElem?_cons_succ] at ha hb
      split at ha
      · next hl =>
        rw [if_pos hl] at hb
        obtain ⟨h1, h2⟩ := onScreen_next ha hb
        exact ⟨h1, List.mem_cons_of_mem _ h2⟩
      · simp at ha

/-- **C62, no line over another**: each of these lines begins below the last line of the screen that the text of the one before it needs. -/
theorem C62_no_overlap (env : Env) (s : St) (h3 : 3 ≤ s.width) (from_ i : Nat) (a b : Nat × Row)
    (ha : (onScreen s.width s.height 1 ((outlineOf env s).drop from_))[i]? = some a)
    (hb : (onScreen s.width s.height 1 ((outlineOf env s).drop from_))[i + 1]? = some b) : a.1 + a.2.needs s.width ≤ b.1 := by
  obtain ⟨h1, h2⟩ := onScreen_next ha hb
  rw [h1]
  refine Nat.add_le_add_left ?_ _
  by_cases hk : a.2.key = true
  · have := key_size (match_evs env s) a.2 (List.mem_of_mem_drop h2) hk
    exact needs_le_lines h3 _ (by omega)
  · unfold Row.lines
    rw [if_neg hk]
    exact Nat.le_refl _

/-- **C62** with lines that fit. If every line of the display fits into the width of the screen (and there is a line below the title line), the screen shows, when the drawing
is done, the lines of the display from number `scroll` on, as many as there is room for, one below the other: each in its column, marked as
selected exactly if it belongs to the selection and as found exactly if its element is one of the results. -/
theorem C62_one_line_each (env : Env) (n : Nat) (s s' : St) (hs : s.sel = none ∨ ∃ q ∈ items env.root, s.sel = some q) (hh : 2 ≤ s.height)
    (hw : s.width < 4294967296) (hfit : ∀ r ∈ outlineOf env s, 0 < r.size ∧ r.size ≤ s.width) (h : settle env n s = some (.done s')) :
    s'.screen = (((outlineOf env s).drop s'.scroll).take (s.height - 1)).mapIdx
      fun i r => ⟨i + 1, r.col, r.text, decide (s.sel = some r.item), s.results.contains r.elem⟩ := by
  have hn : NoVal env s.sel := by
    rcases hs with h | ⟨q, hq, h⟩ <;> rw [h]
    · intro a k v _ h; simp at h
    · exact noVal_item hq
  obtain ⟨s1, hk, hr⟩ := settle_last n s s' hn h
  have hsc := redraw_screen (by rw [hk.1]; exact hn) hr
  have hev := hk.evs (env := env)
  have hm := (match_evs env s).single hw hfit
  have := screen_window (viewOf s1) s1.sel (by rw [show (viewOf s1).height = s1.height from rfl, hk.2.2.2.2]; exact hh) (evs env s) (outlineOf env s) s1.scroll hm
  rw [hsc.1, hsc.2, hev]
  rw [this, show (viewOf s1).height = s.height from hk.2.2.2.2, hk.1, show (viewOf s1).results = s.results from hk.2.2.1]
  rfl

example : settle (plainEnv navExample noRx) 9 (start 80 4) = some (.done ⟨some [], 0, [], [], some [], some [0], false, 80, 4,
      [⟨1, 0, b!"{", true, false⟩, ⟨2, 4, b!"a: ", false, false⟩, ⟨3, 6, b!"[", false, false⟩]⟩) ∧
    (outlineOf (plainEnv navExample noRx) (start 80 4)).map (fun r => (r.col, r.text, r.size)) =
      [(0, b!"{", 1), (4, b!"a: ", 7), (6, b!"[", 7), (10, b!"x", 11), (10, b!"{", 11), (14, b!"b: a", 18), (10, b!"}", 11), (6, b!"]", 7),
        (4, b!"c: c", 8), (0, b!"}", 1)] := by
  constructor <;> decide +kernel

def wrapped : Env := plainEnv (.obj [(b!"aaaaaaaaaaaaaaa", .arr [.str b!"bbbbbbb", .int 3])]) noRx

/-- A case with wrapped lines, on a screen of eight columns: a key of fifteen bytes needs three lines and is given four, and a text of seven from column 10 on three. -/
example : (∃ s', settle wrapped 9 (start 8 24) = some (.done s') ∧
    s'.screen.map (fun c => (c.row, c.col, c.text)) =
      [(1, 0, b!"{"), (2, 4, b!"aaaaaaaaaaaaaaa: "), (6, 6, b!"["), (7, 10, b!"bbbbbbb"), (10, 10, b!"3"), (12, 6, b!"]"), (13, 0, b!"}")]) ∧
    (outlineOf wrapped (start 8 24)).map (fun r => (r.size, r.needs 8, r.lines 8)) =
      [(1, 1, 1), (21, 3, 4), (7, 1, 1), (17, 3, 3), (11, 2, 2), (7, 1, 1), (1, 1, 1)] := by
  refine ⟨?_, by decide +kernel⟩
  have h : (match settle wrapped 9 (start 8 24) with
    | some (.done s') => decide (s'.screen.map (fun c => (c.row, c.col, c.text)) =
      [(1, 0, b!"{"), (2, 4, b!"aaaaaaaaaaaaaaa: "), (6, 6, b!"["), (7, 10, b!"bbbbbbb"), (10, 10, b!"3"), (12, 6, b!"]"), (13, 0, b!"}")])
    | _ => false) = true := by decide +kernel
  split at h
  · next s' hs => exact ⟨s', hs, of_decide_eq_true h⟩
  · cases h

end Verif.Props
