import Verif.Props.SplitWatch
import Verif.Props.SplitScreen
import Verif.Props.SplitSearch
/-! # C94–C97: what is seen of the diff view -/
namespace Verif.Props
open Verif.Model Verif.Model.Search Verif.Model.Diff Verif.Model.Split Verif.Model.SplitPaint Verif.Model.Term Verif.Spec Verif.Spec.SplitView Verif.Lemmas Verif.Lemmas.Split

/-- A message covers the last line only. -/
theorem under_above (look : Looks) (m : Option Bytes) (d : Display) (y x : Nat) (hy : y + 1 < d.rows) : (under look m d).at_ y x = d.at_ y x := by
  cases m with
  | none => rfl
  | some msg =>
    simp only [under, refresh]
    rw [if_neg (by omega)]

theorem painted_size (look : Paint.Look) (active : Bool) (width height : Nat) (w : Win) :
    (painted look active width height w).width = less width 2 ∧ (painted look active width height w).height = height := runCmds_size _ _

/-- A place of a window is inside of it. -/
theorem place_inside {W H k : Nat} (hk : k < W * H) : k / W < H ∧ k % W < W ∧ k / W * W + k % W = k := by
  have hW : 0 < W := by
    rcases Nat.eq_zero_or_pos W with h | h
    · subst h; simp at hk
    · exact h
  exact ⟨(Nat.div_lt_iff_lt_mul hW).mpr (by rw [Nat.mul_comm]; exact hk), Nat.mod_lt _ hW, by rw [Nat.mul_comm]; exact Nat.div_add_mod k W⟩

theorem windows_at (look : Looks) (s : St) (w0 w1 : Win) (d : Display) (h5 : 5 ≤ s.width) (hw : s.width < 4294967296) (side : Bool) (k : Nat) (hk : k < inner s * s.height) :
    (windowsOn look s w0 w1 d).at_ (1 + k / inner s) ((if side then s.width else 1) + k % inner s) =
      (painted (look.of side) (decide (s.selected = if side then 1 else 0)) s.width s.height (if side then w1 else w0)).at_ k := by
  have h2 : less s.width 2 = inner s := less_eq (w := s.width) (k := 2) (by omega) hw (by omega)
  obtain ⟨p1, p2, p3⟩ := place_inside hk
  have z1 := painted_size (look.of true) (decide (s.selected = 1)) s.width s.height w1
  have z0 := painted_size (look.of false) (decide (s.selected = 0)) s.width s.height w0
  have hin : inner s = s.width - 2 := rfl
  generalize k / inner s = y at *
  generalize k % inner s = x at *
  simp only [windowsOn, refresh, leftOf, z1.1, z1.2, z0.1, z0.2, h2, if_true, if_false, Bool.false_eq_true]
  cases side with
  | true =>
    simp only [if_true]
    rw [if_pos (by omega), show (1 + y - 1) * inner s + (s.width + x - (s.width - 1 + 1)) = k from by
      rw [show 1 + y - 1 = y from by omega, show s.width + x - (s.width - 1 + 1) = x from by omega]; exact p3]
  | false =>
    simp only [if_false, Bool.false_eq_true]
    rw [if_neg (by omega), if_pos (by omega), show (1 + y - 1) * inner s + (1 + x - 1) = k from by
      rw [show 1 + y - 1 = y from by omega, show 1 + x - 1 = x from by omega]; exact p3]

/-- Inside of the frames there is nothing. -/
theorem frames_at (s : St) (d : Display) (h5 : 5 ≤ s.width) (side : Bool) (k : Nat) (hk : k < inner s * s.height) :
    (framesOn s d).at_ (1 + k / inner s) ((if side then s.width else 1) + k % inner s) = nothing := by
  obtain ⟨p1, p2, p3⟩ := place_inside hk
  have hin : inner s = s.width - 2 := rfl
  generalize k / inner s = a at *
  generalize k % inner s = b at *
  have hmod : ∀ y x, x < s.width → (y * s.width + x) / s.width = y ∧ (y * s.width + x) % s.width = x := by
    intro y x hx
    rw [Nat.mul_comm]
    exact ⟨by rw [Nat.mul_add_div (by omega), Nat.div_eq_of_lt hx]; omega, by rw [Nat.mul_add_mod, Nat.mod_eq_of_lt hx]⟩
  simp only [framesOn, refresh, framed]
  cases side with
  | true =>
    simp only [if_true]
    rw [if_pos (by omega)]
    have := hmod (1 + a - 0) (s.width + b - (s.width - 1)) (by omega)
    rw [this.1, this.2, if_neg (by omega)]
  | false =>
    simp only [if_false, Bool.false_eq_true]
    rw [if_neg (by omega), if_pos (by omega)]
    have := hmod (1 + a - 0) (1 + b - 0) (by omega)
    rw [this.1, this.2, if_neg (by omega)]

/-- The character of a title. -/
theorem title_glyph (look : Looks) (s : St) (side : Bool) (h2 : s.selected < 2) (place : Nat) (h : place < inner s) :
    seen (look.of side) ⟨(List.take (s.width - 2) (look.of side).name ++ List.replicate (s.width - 2) 32)[place]?.getD 32,
      ⟨false, if (look.of side).colours then some (if decide (s.selected = if side then 1 else 0) then Paint.specialActiveInputName else specialInputName) else none⟩⟩ = titleSeen look s side place := by
  have hcol : (look.of side).colours = look.colours := rfl
  have hact : decide (s.selected = if side then 1 else 0) = decide (side = activeSide s) := by
    unfold activeSide
    have : s.selected = 0 ∨ s.selected = 1 := by omega
    cases side <;> rcases this with h | h <;> rw [h] <;> rfl
  have hch : (List.take (s.width - 2) (look.of side).name ++ List.replicate (s.width - 2) 32)[place]?.getD 32 = ((look.of side).name ++ List.replicate (inner s) 32).getD place 32 := by
    have hi : s.width - 2 = inner s := rfl
    rw [hi, List.getD_eq_getElem?_getD]
    by_cases hl : place < (look.of side).name.length
    · rw [List.getElem?_append_left (by rw [List.length_take]; omega), List.getElem?_take_of_lt h, List.getElem?_append_left hl]
    · rw [List.getElem?_append_right (by rw [List.length_take]; omega), List.getElem?_append_right (by omega), List.getElem?_replicate, List.getElem?_replicate]
      split <;> split <;> rfl
  rw [hact, hch]
  simp only [seen, titleSeen, hcol]
  cases hc : look.colours
  · rfl
  · cases ha : decide (side = activeSide s)
    · have := of_decide_eq_false ha
      simp [Paint.palette, hcol, hc, this, specialInputName]
    · have := of_decide_eq_true ha
      simp [Paint.palette, hcol, hc, ← this, Paint.specialActiveInputName]

/-- The titles after a drawing. -/
theorem drawn_title {look : Looks} {env : Env} {n : Nat} {s s1 : St} {d0 d : Display} {m : Option Bytes} (hr : redraw env n s1 = some (.done s.first s.second)) (hv : s1.view = s.view)
    (hd : d = under look m (windowsOn look s s.first s.second (framesOn s d0))) (hrows : s.height + 2 = d0.rows) (h2 : s.selected < 2) (side : Bool)
    (hn : 0 ∉ (look.of side).name) (h5 : 5 ≤ s.width) (hw : s.width < 4294967296) (hh : 2 ≤ s.height) (x : Nat) (hx : x < inner s) :
    seenIn look s side d x = titleSeen look s side x := by
  have hle : inner s * 2 ≤ inner s * s.height := Nat.mul_le_mul_left _ hh
  have hpl := place_inside (W := inner s) (H := s.height) (k := x) (by omega)
  obtain ⟨evs, hc⟩ : ∃ evs, Called env s.view side (windowSide s side) evs := by
    have := done_called hr
    rw [hv] at this
    cases side with
    | false => exact this.1
    | true => exact this.2
  have hless : less s.width 2 = s.width - 2 := less_eq (w := s.width) (k := 2) (by omega) hw (by omega)
  have hin : inner s = s.width - 2 := rfl
  have ht := SplitTerm.title_stays (look.of side) (decide (s.selected = if side then 1 else 0)) (width := s.width) (H := s.height) (by rw [hless]; omega) hh hn (called_below hc) x
    (by rw [hless]; exact hx)
  rw [hless] at ht
  unfold seenIn
  rw [hd, under_above look m (windowsOn look s s.first s.second (framesOn s d0)) _ _ (show 1 + x / inner s + 1 < d0.rows from by
    rw [← hrows]; exact (by have := hpl.1; generalize x / inner s = a at *; omega)), windows_at look s s.first s.second _ h5 hw side x (by omega)]
  rw [← title_glyph look s side h2 x hx]
  exact congrArg _ ht

/-- What a window shows after a drawing, up to its last place. -/
theorem drawn_right {look : Looks} {env : Env} {n : Nat} {s s1 : St} {d0 d : Display} {m : Option Bytes} (hr : redraw env n s1 = some (.done s.first s.second)) (hv : s1.view = s.view)
    (hd : d = under look m (windowsOn look s s.first s.second (framesOn s d0))) (hrows : s.height + 2 = d0.rows) (h2 : s.selected < 2) (side : Bool) (hp : Plain env.fmt env.len)
    (hasc : AsciiDoc (env.root side)) (hn : 0 ∉ (look.of side).name) (h5 : 5 ≤ s.width) (hw : s.width < 4294967296) (hh : 0 < s.height) (hin : Inside s (windowSide s side))
    (hfit : (windowSide s side).scroll = 0 ∨ Short s (windowSide s side)) (place : Nat) (hk : place + 1 < inner s * s.height) :
    PlaceRight look env s side d place ∧ ((windowSide s side).scroll = 0 → SignRight look s side d place) := by
  have hpl := place_inside (W := inner s) (H := s.height) (k := place) (by omega)
  have hat : seenIn look s side d place = seen (look.of side) ((painted (look.of side) (decide (s.selected = if side then 1 else 0)) s.width s.height (windowSide s side)).at_ place) := by
    unfold seenIn
    rw [hd, under_above look m (windowsOn look s s.first s.second (framesOn s d0)) _ _ (show 1 + place / inner s + 1 < d0.rows from by rw [← hrows]; exact (by have := hpl.1; generalize place / inner s = a at *; omega)), windows_at look s s.first s.second _ h5 hw side place (by omega)]
    rfl
  obtain ⟨evs, hc⟩ : ∃ evs, Called env s.view side (windowSide s side) evs := by
    have := done_called hr
    rw [hv] at this
    cases side with
    | false => exact this.1
    | true => exact this.2
  have hx := window_at (look.of side) (decide (s.selected = if side then 1 else 0)) hc hp hasc h5 hw hh hn hin hfit
  obtain ⟨t1, t2, t3, t4⟩ := hx.2.2 place hk
  have hcol : (look.of side).colours = look.colours := rfl
  refine ⟨⟨fun h => ?_, fun c hc j hj hl => ?_, fun h1 h2 h3 => ?_⟩, fun hz m hm j hj hl => ?_⟩
  · rw [hat, show (painted (look.of side) (decide (s.selected = if side then 1 else 0)) s.width s.height (windowSide s side)).at_ place = _ from t1 h]
    exact title_glyph look s side h2 place h
  · rw [hat]; exact t2 c hc j hj hl
  · rw [hat, show (painted (look.of side) (decide (s.selected = if side then 1 else 0)) s.width s.height (windowSide s side)).at_ place = nothing from
      t4 h1 (fun c hc h => h2 ⟨c, hc, h⟩) (fun m hm h => h3 ⟨m, hm, h⟩)]
    rfl
  · rw [hat]
    refine t3 hz m hm ?_ j hj hl
    have : m.row * inner s < inner s * s.height := by omega
    rw [Nat.mul_comm] at this
    exact Nat.lt_of_mul_lt_mul_left this

/-- The sizes of the windows. -/
theorem shown_sizes {look : Looks} {env : Env} {s : St} {d : Display} {m : Option Bytes} (h : Shown look env s d m) (hc : 10 ≤ d.cols) (hc' : d.cols < 4294967296) (hr : 3 ≤ d.rows)
    (hr' : d.rows < 4294967296) : 5 ≤ s.width ∧ s.width < 4294967296 ∧ s.height + 2 = d.rows := by
  have h1 := h.width
  have h2 := h.height
  rw [less_eq (w := d.rows) (k := 2) (by omega) hr' (by omega)] at h2
  omega

/-! ## C94 -/

/-- **C94, in part.** In every session, when the diff view waits for an input and there is no message, on a terminal of at least 10 columns and 3 lines, for printable ASCII documents: if all texts of
a window begin inside of it, and it is not scrolled or no text goes on in the next line, then all its places but the last one show what they should; the texts are a stretch of the outline. -/
theorem C94_picture_partial (look : Looks) (env : Env) (n k cols rows : Nat) (ok : St → Split.Input → Prop) (s : St) (d : Display) (h : Watched look env n k cols rows ok s d none)
    (hp : Plain env.fmt env.len) (side : Bool) (hasc : AsciiDoc (env.root side)) (hn : 0 ∉ (look.of side).name) (hc : 10 ≤ d.cols) (hc' : d.cols < 4294967296) (hr : 3 ≤ d.rows)
    (hr' : d.rows < 4294967296) (hin : Inside s (windowSide s side)) (hfit : (windowSide s side).scroll = 0 ∨ Short s (windowSide s side)) :
    (∃ pre mid post, diffOutline env s side = pre ++ mid ++ post ∧ Listing side (windowSide s side).screen mid) ∧
    ∀ place, place + 1 < inner s * s.height → PlaceRight look env s side d place := by
  have hs := watched_shown h
  obtain ⟨h5, hw, hh⟩ := shown_sizes hs hc hc' hr hr'
  refine ⟨?_, fun place hk => ?_⟩
  · obtain ⟨⟨_, _, _, _, h0⟩, _, _, _, _, h1⟩ := pics_reached (watched_reached h)
    cases side with
    | false => obtain ⟨pre, mid, post, h2, h3, _⟩ := pic_listing h0; exact ⟨pre, mid, post, h2, h3⟩
    | true => obtain ⟨pre, mid, post, h2, h3, _⟩ := pic_listing h1; exact ⟨pre, mid, post, h2, h3⟩
  · obtain ⟨d0, hd1, hd2, ⟨n1, s1, hr1, hv, hd⟩ | ⟨hm, _⟩⟩ := hs.picture
    · exact (drawn_right hr1 hv hd (by omega) (has_reached (watched_reached h)).lt side hp hasc hn h5 hw (by omega) hin hfit place hk).1
    · exact absurd rfl hm

/-! ## C95 -/

/-- **C95, in part.** When there is no message, in a window that is not scrolled and all texts of which begin inside of it, the signs of the differences are seen where they should be. -/
theorem C95_signs_partial (look : Looks) (env : Env) (n k cols rows : Nat) (ok : St → Split.Input → Prop) (s : St) (d : Display) (h : Watched look env n k cols rows ok s d none)
    (hp : Plain env.fmt env.len) (side : Bool) (hasc : AsciiDoc (env.root side)) (hn : 0 ∉ (look.of side).name) (hc : 10 ≤ d.cols) (hc' : d.cols < 4294967296) (hr : 3 ≤ d.rows)
    (hr' : d.rows < 4294967296) (hin : Inside s (windowSide s side)) (hz : (windowSide s side).scroll = 0) : SignsSeen look env s side d := by
  have hs := watched_shown h
  obtain ⟨h5, hw, hh⟩ := shown_sizes hs hc hc' hr hr'
  obtain ⟨d0, hd1, hd2, ⟨n1, s1, hr1, hv, hd⟩ | ⟨hm, _⟩⟩ := hs.picture
  · have hall := drawn_right hr1 hv hd (by omega) (has_reached (watched_reached h)).lt side hp hasc hn h5 hw (by omega) hin (.inl hz)
    have hmarks : MarksRight env (windowSide s side) := by
      have hst : settle env n1 1 s1 = some (some { s1 with first := s.first, second := s.second }) := by rw [settle, hr1]
      exact C71_marks_partial env n1 1 s1 _ hst side hz
    have hin3 : 3 ≤ inner s := by unfold inner; omega
    constructor
    · intro c hcell hop j hj
      have hrow := (hin c hcell).1
      have h1 : c.row * inner s + inner s ≤ inner s * s.height := by
        rw [← Nat.succ_mul, Nat.mul_comm (inner s)]
        exact Nat.mul_le_mul_right _ hrow
      exact (hall (c.row * inner s + j) (by omega)).2 hz ⟨c.row, env.op c.who⟩ (hmarks.all c hcell hop) j rfl hj
    · intro place hlow hk ht hu
      obtain ⟨hpr, hsg⟩ := hall place hk
      have hb : TakenBySign s (windowSide s side) place := by
        apply Classical.byContradiction
        intro hb
        exact hu (hpr.rest hlow ht hb)
      obtain ⟨m, hm, hm1, hm2⟩ := hb
      have hpl : place = m.row * inner s + (place - m.row * inner s) := by omega
      have hdm : place / inner s = m.row ∧ place % inner s = place - m.row * inner s := by
        have hlt : place - m.row * inner s < inner s := by omega
        generalize place - m.row * inner s = j at hlt hpl
        subst hpl
        rw [Nat.mul_comm]
        exact ⟨by rw [Nat.mul_add_div (by omega), Nat.div_eq_of_lt hlt]; omega, by rw [Nat.mul_add_mod, Nat.mod_eq_of_lt hlt]⟩
      refine ⟨m.op, ?_, ?_⟩
      · rw [hdm.2]; exact hsg hz m hm _ hpl (by omega)
      · rw [hdm.1]; exact (hmarks.only m hm).2
  · exact absurd rfl hm

/-! ## C96 -/

/-- **C96, in part.** In every session, when the diff view waits for an input, on a terminal of at least 10 columns and 4 lines: if there is no message, the first line of each window has the name of
its document, which tells the active window apart; if there is one, that is so, or both windows are empty. -/
theorem C96_titles_partial (look : Looks) (env : Env) (n k cols rows : Nat) (ok : St → Split.Input → Prop) (s : St) (d : Display) (m : Option Bytes)
    (h : Watched look env n k cols rows ok s d m) (hn : ∀ side, 0 ∉ (look.of side).name) (hc : 10 ≤ d.cols) (hc' : d.cols < 4294967296) (hr : 4 ≤ d.rows) (hr' : d.rows < 4294967296) :
    (∀ side, ∀ x < inner s, seenIn look s side d x = titleSeen look s side x) ∨
    (m ≠ none ∧ ∀ side, ∀ place < inner s * s.height, seenIn look s side d place = unused) := by
  have hs := watched_shown h
  obtain ⟨h5, hw, hh⟩ := shown_sizes hs hc hc' (by omega) hr'
  have h2 := (has_reached (watched_reached h)).lt
  obtain ⟨d0, hd1, hd2, ⟨n1, s1, hr1, hv, hd⟩ | ⟨hm, _, hd⟩⟩ := hs.picture
  · refine .inl fun side x hx => drawn_title hr1 hv hd (by omega) h2 side (hn side) h5 hw (by omega) x hx
  · refine .inr ⟨hm, fun side place hk => ?_⟩
    have hpl := place_inside hk
    unfold seenIn
    rw [hd, under_above look m (framesOn s d0) _ _ (show 1 + place / inner s + 1 < d0.rows from by have := hpl.1; generalize place / inner s = a at *; omega), frames_at s d0 h5 side place hk]
    rfl

/-! ## C97 -/

/-- **C97, what is seen.** In every session, when there is a message, the last line of the terminal shows it, cut at the width of the terminal and followed by blanks, in white on red (in the default
colours with `--color=never`). -/
theorem C97_message_seen (look : Looks) (env : Env) (n k cols rows : Nat) (ok : St → Split.Input → Prop) (s : St) (d : Display) (msg : Bytes)
    (h : Watched look env n k cols rows ok s d (some msg)) (x : Nat) (hx : x < d.cols) (hr : 0 < d.rows) :
    seen (look.of false) (d.at_ (d.rows - 1) x) = ⟨(msg ++ List.replicate d.cols 32).getD x 32, false, if look.colours then some (.white, .red) else none⟩ := by
  have hs := watched_shown h
  have hz := message_clean (hs.msg msg rfl)
  have key : ∀ d1 : Display, d1.cols = d.cols → d1.rows = d.rows → d = under look (some msg) d1 →
      d.at_ (d.rows - 1) x = (bottomWin look d.cols msg).at_ x := by
    intro d1 e1 e2 he
    have hsz : (bottomWin look d1.cols msg).width = d1.cols ∧ (bottomWin look d1.cols msg).height = 1 := runCmds_size _ _
    rw [← e1, ← e2, he]
    simp only [under, refresh, hsz.1, hsz.2]
    rw [if_pos (by omega), Nat.sub_self, Nat.zero_mul, Nat.zero_add, Nat.sub_zero]
  have hat : d.at_ (d.rows - 1) x = (bottomWin look d.cols msg).at_ x := by
    obtain ⟨d0, hd1, hd2, ⟨_, _, _, _, hd⟩ | ⟨_, _, hd⟩⟩ := hs.picture
    · exact key (windowsOn look s s.first s.second (framesOn s d0)) hd1 hd2 hd
    · exact key (framesOn s d0) hd1 hd2 hd
  have := below_keeps (look.of false) (s := Tui.start d.cols 1) (t := blankWin d.cols 1) ⟨rfl, rfl⟩ Nat.zero_lt_one (show 0 < d.cols by omega) msg hz x
    (show x < d.cols * 1 by omega)
  have hw : (Tui.start d.cols 1).width = d.cols ∧ (Tui.start d.cols 1).height = 1 := ⟨rfl, rfl⟩
  rw [hw.1, hw.2, if_pos (show (1 - 1) * d.cols ≤ x by omega), show x - (1 - 1) * d.cols = x from by omega] at this
  rw [hat, show (bottomWin look d.cols msg).at_ x = _ from this]
  simp only [seen, List.getD_eq_getElem?_getD]
  have hcol : (look.of false).colours = look.colours := rfl
  cases hc : look.colours
  · rw [hcol, hc]; rfl
  · simp [Paint.palette, hcol, hc, Paint.specialError]

/-- The input is a search for something, or for the next result. -/
def splitSearches : Split.Input → Prop
  | .key name pat => name = b!"N" ∨ name = b!"/" ∧ ∃ p, pat = some p ∧ p.pattern ≠ []
  | .resize _ _ => False

/-- The positions of the results in the document of the active window that a search goes through. -/
def splitHits (env : Env) (s : St) : Split.Input → List Path
  | .key name pat =>
    (if name = b!"N" then s.active.results else match pat with
      | some p => search env p
      | none => []).filterMap (positionIn (activeSide s))
  | .resize _ _ => []

theorem splitMessageOn_msg {look : Looks} {env : Env} {n : Nat} {s t : St} {d d' : Display} {msg : Bytes} {m : Option Bytes} (h : messageOn look env n s d msg = some (.nextInput t, d', m)) :
    m = some msg := by
  simp only [messageOn] at h
  cases hr : redrawOn look env n s d with
  | none => rw [hr] at h; cases h
  | some r =>
    obtain ⟨r, d1⟩ := r
    rw [hr] at h
    cases r <;> cases h <;> rfl

/-- What is said by N. -/
theorem splitNextResultOn_message {look : Looks} {env : Env} {n : Nat} {s : St} {d : Display} {p : Path} {x : Elem} (hsel : s.active.sel = some (ptr (activeSide s) p))
    (hlast : s.active.last = some (ptr (activeSide s) p)) (hx : (Elem.value (env.root (activeSide s))).at p = some x)
    (hres : s.active.results = [] ∨ ∃ pat, s.active.results = search env pat) (hhead : ∀ q, s.active.results.head? = some q → Owns env (activeSide s) q)
    {a : Answer} {d' : Display} {m : Option Bytes} (h : nextResultOn look env n s d = some (a, d', m)) :
    (∀ t, a = .nextInput t → (s.active.results.filterMap (positionIn (activeSide s)) = [] ∧ m = some Paint.notFound) ∨
      (s.active.results.filterMap (positionIn (activeSide s)) ≠ [] ∧ (∀ q ∈ s.active.results.filterMap (positionIn (activeSide s)), ¬ p < q) ∧ m = some Paint.wrapped)) ∧
    (∀ t, a = .redraw t → ∃ q ∈ s.active.results.filterMap (positionIn (activeSide s)), p < q) := by
  unfold nextResultOn at h
  cases hr : s.active.results with
  | nil =>
    simp only [hr] at h
    refine ⟨fun t ha => .inl ⟨rfl, ?_⟩, fun t ha => ?_⟩
    · subst ha; exact splitMessageOn_msg h
    · subst ha; exact absurd h splitMessageOn_not_redraw
  | cons q0 l =>
    obtain ⟨pat, hpat⟩ := hres.resolve_left (by rw [hr]; simp)
    have hhits : s.active.results.filterMap (positionIn (activeSide s)) = (Nav.search env.rx env.fmt pat (env.root (activeSide s))).1 := by
      rw [hpat]; exact hits_search env pat _
    have hj := Lemmas.jump_next (env.root (activeSide s)) _ (fun q hq => (Props.results_elems env.rx env.fmt pat _ q hq).2) p ⟨x, hx⟩
    rw [← hhits] at hj
    have hnav := jumpValue_side s.active.results p (activeSide s) (env.root (activeSide s)) [] false
    have hsd : decide (s.selected ≠ 0) = activeSide s := rfl
    rw [hr] at h
    dsimp only at h
    rw [← hr, hsd, hsel, hlast, hnav] at h
    rw [← hr]
    rcases hj with ⟨q, h1, h2, h3, h4⟩ | ⟨h1, h2⟩
    · dsimp only [onSide] at h
      rw [h1] at h
      simp only [Option.map_some, Option.some.injEq, Prod.mk.injEq] at h
      refine ⟨fun t ha => ?_, fun t ha => ⟨q, h2, h3⟩⟩
      subst ha; cases h.1
    · dsimp only [onSide] at h
      rw [h1] at h
      simp only [Option.map_none] at h
      refine ⟨fun t ha => .inr ⟨?_, h2, ?_⟩, fun t ha => ?_⟩
      · obtain ⟨q, y, rfl, _⟩ := hhead q0 (by rw [hr]; rfl)
        have : q ∈ s.active.results.filterMap (positionIn (activeSide s)) := mem_hits.mpr (by rw [hr]; exact List.mem_cons_self)
        intro he
        rw [he] at this
        cases this
      · subst ha; exact splitMessageOn_msg h
      · subst ha; exact absurd h splitMessageOn_not_redraw

/-- **C97, what is said, in part.** In a session in which every search is one whose first hit is in the document of the active window: after a search, or N, there is the message "Pattern not found" if
nothing in that document matches, "Search hit BOTTOM, continuing at TOP" if there are hits but none of them after the selection, and no message otherwise. All other inputs leave the terminal as it is,
or the windows are drawn without a message. -/
theorem C97_message_partial (look : Looks) (env : Env) (hcmp : Compared env) (n k cols rows : Nat) (s t : St) (d d' : Display) (m m' : Option Bytes)
    (h : Watched look env n k cols rows (ownSearch env) s d m) (i : Split.Input) (hok : ownSearch env s i) (hs : stepOn look env n k i s d m = some (.nextInput t, d', m')) :
    (splitSearches i → ∃ p, s.active.sel = some (ptr (activeSide s) p) ∧
      (splitHits env s i = [] → m' = some b!"Pattern not found") ∧
      (splitHits env s i ≠ [] → (∀ q ∈ splitHits env s i, ¬ p < q) → m' = some b!"Search hit BOTTOM, continuing at TOP") ∧
      ((∃ q ∈ splitHits env s i, p < q) → m' = none)) ∧
    (¬ splitSearches i → m' = none ∨ m' = m ∧ d' = d ∧ t = s) := by
  have hre := watched_reached h
  obtain ⟨e, he⟩ := Option.ne_none_iff_exists'.mp (has_reached hre).sel
  obtain ⟨p, x, rfl, hx⟩ := (own_reached hcmp hre).active.sel e he
  have hlast : s.active.last = some (ptr (activeSide s) p) := by
    have := selLast_reached hre
    unfold St.active St.at at he ⊢
    split
    · next h0 => rw [if_pos h0] at he; exact this.1 _ he
    · next h0 => rw [if_neg h0] at he; exact this.2 _ he
  have after : ∀ (s1 : St) (d1 : Display), ((settleOn look env n k s1 d1).map fun r => match r with
      | none => (Answer.crash, d1, (none : Option Bytes))
      | some (s, d) => (.nextInput s, d, none)) = some (.nextInput t, d', m') → m' = none := by
    intro s1 d1 h1
    obtain ⟨r, hr, h2⟩ := Option.map_eq_some_iff.mp h1
    cases r with
    | none => cases h2
    | some r => obtain ⟨u, e⟩ := r; cases h2; rfl
  have fin : ∀ (s0 : St), s0.active.sel = s.active.sel → s0.active.last = s.active.last → s0.selected = s.selected →
      (s0.active.results = [] ∨ ∃ pat, s0.active.results = search env pat) → (∀ q, s0.active.results.head? = some q → Owns env (activeSide s) q) →
      (match nextResultOn look env n s0 d with
        | none => none
        | some (.redraw s, d, _) => ((settleOn look env n k s d).map fun r => match r with
          | none => (Answer.crash, d, (none : Option Bytes))
          | some (s, d) => (.nextInput s, d, none))
        | some a => some a) = some (.nextInput t, d', m') →
      (s0.active.results.filterMap (positionIn (activeSide s)) = [] → m' = some b!"Pattern not found") ∧
      (s0.active.results.filterMap (positionIn (activeSide s)) ≠ [] → (∀ q ∈ s0.active.results.filterMap (positionIn (activeSide s)), ¬ p < q) →
        m' = some b!"Search hit BOTTOM, continuing at TOP") ∧
      ((∃ q ∈ s0.active.results.filterMap (positionIn (activeSide s)), p < q) → m' = none) := by
    intro s0 e1 e2 e3 hres hhead h1
    have e5 : activeSide s0 = activeSide s := by unfold activeSide; rw [e3]
    cases hn : nextResultOn look env n s0 d with
    | none => rw [hn] at h1; cases h1
    | some r =>
      obtain ⟨a, d1, m1⟩ := r
      have hm := splitNextResultOn_message (p := p) (x := x) (by rw [e1, e5]; exact he) (by rw [e2, e5]; exact hlast) (by rw [e5]; exact hx) hres (by rw [e5]; exact hhead) hn
      rw [e5] at hm
      rw [hn] at h1
      cases a with
      | crash => cases h1
      | quit => cases h1
      | redraw s1 =>
        obtain ⟨q, hq1, hq2⟩ := hm.2 s1 rfl
        exact ⟨fun h0 => (by rw [h0] at hq1; cases hq1), fun _ hno => absurd hq2 (hno q hq1), fun _ => after _ _ h1⟩
      | nextInput s1 =>
        cases h1
        rcases hm.1 _ rfl with ⟨h2, h3⟩ | ⟨h2, h3, h4⟩
        · exact ⟨fun _ => h3, fun h0 => absurd h2 h0, fun ⟨q, hq, _⟩ => (by rw [h2] at hq; cases hq)⟩
        · exact ⟨fun h0 => absurd h0 h2, fun _ _ => h4, fun ⟨q, hq1, hq2⟩ => absurd hq2 (h3 q hq1)⟩
  cases i with
  | resize c r => exact ⟨fun h => h.elim, fun _ => .inl (after _ _ hs)⟩
  | key name pat =>
    simp only [stepOn] at hs
    unfold evalKeyOn at hs
    by_cases h1 : name = b!"/"
    · subst h1
      rw [if_pos rfl] at hs
      unfold initSearchOn at hs
      cases pat with
      | none =>
        refine ⟨fun h => ?_, fun _ => .inl (after _ _ hs)⟩
        rcases h with h | ⟨_, p, h, _⟩
        · exact absurd h (by decide)
        · cases h
      | some pt =>
        simp only at hs
        by_cases hemp : pt.pattern = []
        · rw [if_pos (by rw [hemp]; rfl)] at hs
          refine ⟨fun h => ?_, fun _ => .inl (after _ _ hs)⟩
          rcases h with h | ⟨_, p', h, h'⟩
          · exact absurd h (by decide)
          · cases h; exact absurd hemp h'
        · rw [if_neg (by rw [List.isEmpty_iff]; exact hemp)] at hs
          refine ⟨fun _ => ⟨p, he, ?_⟩, fun h => absurd (.inr ⟨rfl, pt, rfl, hemp⟩) h⟩
          have hset : ∀ (v : St) (w : Win), (v.set v.selected w).active = w ∧ (v.set v.selected w).selected = v.selected := by
            intro v w
            unfold St.set St.active St.at
            by_cases hz : v.selected = 0 <;> simp [hz]
          obtain ⟨c1, c2⟩ := hset { s with first := { s.first with results := [] }, second := { s.second with results := [] } }
            { ({ s with first := { s.first with results := [] }, second := { s.second with results := [] } } : St).active with results := search env pt }
          have := fin _ (by rw [c1]; unfold St.active St.at; split <;> rfl) (by rw [c1]; unfold St.active St.at; split <;> rfl) c2 (.inr ⟨pt, by rw [c1]⟩)
            (by rw [c1]; exact fun q hq => owns_iff.mpr (hok pt q rfl hq)) hs
          rw [c1] at this
          have hh : splitHits env s (.key b!"/" (some pt)) = (search env pt).filterMap (positionIn (activeSide s)) := by
            simp only [splitHits]
            rw [if_neg (by decide)]
          rw [hh]
          exact this
    · rw [if_neg h1] at hs
      by_cases h2 : name = b!"N"
      · subst h2
        rw [if_pos rfl] at hs
        refine ⟨fun _ => ⟨p, he, ?_⟩, fun h => absurd (.inl rfl) h⟩
        exact fin s rfl rfl rfl (from_active (from_reached hre)) (own_reached hcmp hre).active.results hs
      · rw [if_neg h2] at hs
        refine ⟨fun h => ?_, fun _ => ?_⟩
        · rcases h with h | ⟨h, _⟩
          · exact absurd h h2
          · exact absurd h h1
        · cases ha : evalKey env n name pat s with
          | none => rw [ha] at hs; cases hs
          | some a =>
            rw [ha] at hs
            cases a with
            | crash => cases hs
            | quit => cases hs
            | redraw s1 => exact .inl (after _ _ hs)
            | nextInput s1 =>
              cases hs
              exact .inr ⟨rfl, rfl, split_key_same h1 h2 ha⟩


/-! ## Cases, and where the claims fail -/

/-- Two documents that are compared; every character takes one column, all floating point numbers are shown as `1.5`. -/
def asciiEnv (a b : Json) : Env :=
  let t := (diff (fun _ => b!"1.5") a b).getD ⟨false, 0, [], []⟩
  ⟨a, b, t, t.equivalences, noRx, fun _ => b!"1.5", List.length⟩

theorem asciiEnv_compared {a b : Json} (h : (diff (fun _ => b!"1.5") a b).isSome = true) : Compared (asciiEnv a b) := by
  obtain ⟨t, ht⟩ := Option.isSome_iff_exists.mp h
  unfold Compared asciiEnv
  simp only [ht, Option.getD_some]
  exact ⟨trivial, .refl _⟩

theorem asciiEnv_plain (a b : Json) : Plain (asciiEnv a b).fmt (asciiEnv a b).len := ⟨fun _ _ => rfl, fun _ => by show Ascii b!"1.5"; unfold Ascii; decide⟩

def watchSplit (look : Looks) (env : Env) (n k : Nat) : List Split.Input → St → Display → Option Bytes → Option (St × Display × Option Bytes)
  | [], s, d, m => some (s, d, m)
  | i :: l, s, d, m =>
    match stepOn look env n k i s d m with
    | some (.nextInput t, d, m) => watchSplit look env n k l t d m
    | _ => none

def watchSplitFrom (look : Looks) (env : Env) (n k cols rows : Nat) (l : List Split.Input) : Option (St × Display × Option Bytes) :=
  match settleOn look env n k (Split.start env cols rows) ⟨cols, rows, fun _ _ => Term.nothing⟩ with
  | some (some (s, d)) => watchSplit look env n k l s d none
  | _ => none

theorem watchSplit_watched {look : Looks} {env : Env} {n k cols rows : Nat} {ok : St → Split.Input → Prop} {l : List Split.Input} {s s' : St} {d d' : Display} {m m' : Option Bytes}
    (hok : ∀ s, ∀ i ∈ l, ok s i) (h : Watched look env n k cols rows ok s d m) (hr : watchSplit look env n k l s d m = some (s', d', m')) : Watched look env n k cols rows ok s' d' m' := by
  induction l generalizing s d m with
  | nil => cases hr; exact h
  | cons i l ih =>
    rw [watchSplit] at hr
    split at hr
    · next hs => exact ih (fun s i hi => hok s i (List.mem_cons_of_mem _ hi)) (.input i h (hok s i List.mem_cons_self) hs) hr
    · cases hr

theorem watchSplitFrom_some {look : Looks} {env : Env} {n k cols rows : Nat} (ok : St → Split.Input → Prop) {l : List Split.Input} {p : St → Display → Option Bytes → Bool}
    (hok : ∀ s, ∀ i ∈ l, ok s i) (hr : (watchSplitFrom look env n k cols rows l).any (fun r => p r.1 r.2.1 r.2.2) = true) :
    ∃ s d m, Watched look env n k cols rows ok s d m ∧ p s d m = true := by
  cases hx : watchSplitFrom look env n k cols rows l with
  | none => rw [hx] at hr; cases hr
  | some r =>
    obtain ⟨s, d, m⟩ := r
    rw [hx] at hr
    refine ⟨s, d, m, ?_, hr⟩
    unfold watchSplitFrom at hx
    split at hx
    · next hs => exact watchSplit_watched hok (.start hs) hx
    · cases hx

/-- The two documents are called `a` and `b`, and there are colours. -/
def aAndB : Looks := ⟨true, b!"a", b!"b"⟩

/-- What is read on the terminal; a place of a frame as `#`. -/
def splitReads (d : Display) : List Bytes := (List.range d.rows).map fun y => (List.range d.cols).map fun x => if (d.at_ y x).ch = 256 then 35 else (d.at_ y x).ch

/-- `["x", 0]` and `["y", 0]` -/
def changed : Env := asciiEnv (.arr [.str b!"x", .int 0]) (.arr [.str b!"y", .int 0])

theorem changed_ascii (side : Bool) : AsciiDoc (changed.root side) := by
  cases side
  · show AsciiDoc (.arr [.str b!"x", .int 0])
    simp only [AsciiDoc, AsciiItems, Ascii]; decide
  · show AsciiDoc (.arr [.str b!"y", .int 0])
    simp only [AsciiDoc, AsciiItems, Ascii]; decide

/-- The situation of C94, C95 and C96. -/
example : ∃ s d, Watched aAndB changed 50 50 24 7 anyInput s d none ∧ Plain changed.fmt changed.len ∧ (∀ side, AsciiDoc (changed.root side)) ∧ (∀ side, 0 ∉ (aAndB.of side).name) ∧
    10 ≤ d.cols ∧ d.cols < 4294967296 ∧ 4 ≤ d.rows ∧ d.rows < 4294967296 ∧ Inside s (windowSide s false) ∧ (windowSide s false).scroll = 0 ∧
    splitReads d = [b!"####################### ", b!"#a         #b         # ", b!"#  [       #  [       # ", b!"#!!    x   #!!    y   # ", b!"#      0   #      0   # ",
      b!"#  ]       #  ]       # ", b!"####################### "] ∧ seenIn aAndB s false d 20 = ⟨33, true, some (.cyan, .black)⟩ := by
  obtain ⟨s, d, m, h, hp⟩ := watchSplitFrom_some (look := aAndB) (env := changed) (n := 50) (k := 50) (cols := 24) (rows := 7) (l := []) anyInput (fun _ _ _ => trivial)
    (p := fun s d m => decide (m = none ∧ 10 ≤ d.cols ∧ d.cols < 4294967296 ∧ 4 ≤ d.rows ∧ d.rows < 4294967296 ∧ (∀ c ∈ (windowSide s false).screen, c.row < s.height ∧ c.col < inner s) ∧
      (windowSide s false).scroll = 0 ∧ splitReads d = [b!"####################### ", b!"#a         #b         # ", b!"#  [       #  [       # ", b!"#!!    x   #!!    y   # ",
      b!"#      0   #      0   # ", b!"#  ]       #  ]       # ", b!"####################### "] ∧ seenIn aAndB s false d 20 = ⟨33, true, some (.cyan, .black)⟩)) (by decide +kernel)
  obtain ⟨rfl, h1, h2, h3, h4, h5⟩ := of_decide_eq_true hp
  exact ⟨s, d, h, asciiEnv_plain _ _, changed_ascii, by decide, h1, h2, h3, h4, h5⟩

/-- `[1]` and `["AAAA", "BBBB", "CCCC", 1]` -/
def pushedDown : Env := asciiEnv (.arr [.int 1]) (.arr [.str b!"AAAA", .str b!"BBBB", .str b!"CCCC", .int 1])

theorem pushedDown_ascii (side : Bool) : AsciiDoc (pushedDown.root side) := by
  cases side
  · show AsciiDoc (.arr [.int 1])
    simp [AsciiDoc, AsciiItems]
  · show AsciiDoc (.arr [.str b!"AAAA", .str b!"BBBB", .str b!"CCCC", .int 1])
    simp only [AsciiDoc, AsciiItems, Ascii]; decide

/-- **C94 does not hold** for a text that is pushed below the window, to be level with the one it corresponds to: with `[1]` and `["AAAA", "BBBB", "CCCC", 1]`, in windows of 4 lines, the `1` of the
first document is to be drawn in a fifth line; but it is seen in the fourth one, at the place where the cursor was, where there is nothing to be seen. -/
theorem C94_picture_false : ∃ look env s d, Compared env ∧ Watched look env 50 50 40 6 anyInput s d none ∧ Plain env.fmt env.len ∧ (∀ side, AsciiDoc (env.root side)) ∧
    (∀ side, 0 ∉ (look.of side).name) ∧ (windowSide s false).scroll = 0 ∧ 56 + 1 < inner s * s.height ∧ ¬ PlaceRight look env s false d 56 := by
  obtain ⟨s, d, m, h, hp⟩ := watchSplitFrom_some (look := aAndB) (env := pushedDown) (n := 50) (k := 50) (cols := 40) (rows := 6) (l := []) anyInput (fun _ _ _ => trivial)
    (p := fun s d m => decide (m = none ∧ (windowSide s false).scroll = 0 ∧ 56 + 1 < inner s * s.height ∧ inner s ≤ 56 ∧
      (¬ ∃ c ∈ (windowSide s false).screen, cellPlace s c ≤ 56 ∧ 56 < cellPlace s c + c.text.length) ∧ (¬ ∃ m ∈ (windowSide s false).marks, m.row * inner s ≤ 56 ∧ 56 < m.row * inner s + 2) ∧
      seenIn aAndB s false d 56 ≠ unused)) (by decide +kernel)
  obtain ⟨rfl, h1, h2, h3, h4, h5, h6⟩ := of_decide_eq_true hp
  exact ⟨aAndB, pushedDown, s, d, asciiEnv_compared (by decide +kernel), h, asciiEnv_plain _ _, pushedDown_ascii, by decide, h1, h2, fun hr => h6 (hr.rest h3 h4 h5)⟩

/-- `["x", 0, 1, 2]` and `["y", 0, 1, 2]` -/
def scrolled : Env := asciiEnv (.arr [.str b!"x", .int 0, .int 1, .int 2]) (.arr [.str b!"y", .int 0, .int 1, .int 2])

theorem scrolled_ascii (side : Bool) : AsciiDoc (scrolled.root side) := by
  cases side
  · show AsciiDoc (.arr [.str b!"x", .int 0, .int 1, .int 2])
    simp only [AsciiDoc, AsciiItems, Ascii]; decide
  · show AsciiDoc (.arr [.str b!"y", .int 0, .int 1, .int 2])
    simp only [AsciiDoc, AsciiItems, Ascii]; decide

/-- **C95 does not hold** in a window that is scrolled: after going down three times in windows of 4 lines there is no sign next to `"x"`, which was modified; it is next to the `0` below. -/
theorem C95_signs_false : ∃ look env s d, Compared env ∧ Watched look env 50 50 40 6 anyInput s d none ∧ Plain env.fmt env.len ∧ (∀ side, AsciiDoc (env.root side)) ∧
    (∀ side, 0 ∉ (look.of side).name) ∧ Inside s (windowSide s false) ∧ Short s (windowSide s false) ∧
    (∃ c ∈ (windowSide s false).screen, c.who = ptr false [0] ∧ env.op c.who = .mod ∧ c.row = 1) ∧ (∃ c ∈ (windowSide s false).screen, env.op c.who = .equ ∧ c.row = 2) ∧
    (∀ j < 2, seenIn look s false d (1 * inner s + j) = unused ∧ seenIn look s false d (2 * inner s + j) = ⟨33, true, some (.cyan, .black)⟩) ∧ ¬ SignsSeen look env s false d := by
  obtain ⟨s, d, m, h, hp⟩ := watchSplitFrom_some (look := aAndB) (env := scrolled) (n := 50) (k := 50) (cols := 40) (rows := 6) (l := [skey b!"J", skey b!"J", skey b!"J"]) anyInput (fun _ _ _ => trivial)
    (p := fun s d m => decide (m = none ∧ (∀ c ∈ (windowSide s false).screen, c.row < s.height ∧ c.col < inner s) ∧ (∀ c ∈ (windowSide s false).screen, c.col + c.text.length ≤ inner s)) &&
      (decide ((∃ c ∈ (windowSide s false).screen, c.who = ptr false [0] ∧ scrolled.op c.who = .mod ∧ c.row = 1) ∧ (∃ c ∈ (windowSide s false).screen, scrolled.op c.who = .equ ∧ c.row = 2)) &&
      decide (∀ j : Fin 2, seenIn aAndB s false d (1 * inner s + j) = unused ∧ seenIn aAndB s false d (2 * inner s + j) = ⟨33, true, some (.cyan, .black)⟩))) (by decide +kernel)
  rw [Bool.and_eq_true, Bool.and_eq_true] at hp
  obtain ⟨rfl, h1, h2⟩ := of_decide_eq_true hp.1
  obtain ⟨h3, h4⟩ := of_decide_eq_true hp.2.1
  have h5 : ∀ j < 2, seenIn aAndB s false d (1 * inner s + j) = unused ∧ seenIn aAndB s false d (2 * inner s + j) = ⟨33, true, some (.cyan, .black)⟩ :=
    fun j hj => of_decide_eq_true hp.2.2 ⟨j, hj⟩
  refine ⟨aAndB, scrolled, s, d, asciiEnv_compared (by decide +kernel), h, asciiEnv_plain _ _, scrolled_ascii, by decide, h1, h2, h3, h4, h5, fun hr => ?_⟩
  obtain ⟨c, hc, _, hop, hrow⟩ := h3
  have := hr.all c hc (by rw [hop]; decide) 0 (by decide)
  rw [hop, hrow, (h5 0 (by decide)).1] at this
  revert this
  decide

/-- `[1, "AAAA"]` and `["BBBB", "CCCC", 1]` -/
def crossed : Env := asciiEnv (.arr [.int 1, .str b!"AAAA"]) (.arr [.str b!"BBBB", .str b!"CCCC", .int 1])

/-- **C96 does not hold**: after `^W W` and a search for `AAAA`, which only the other document has, there is a message, and both windows are empty, their titles as well. -/
theorem C96_titles_false : ∃ look env s d, Compared env ∧ Watched look env 50 50 40 6 anyInput s d (some b!"Search hit BOTTOM, continuing at TOP") ∧ (∀ side, 0 ∉ (look.of side).name) ∧
    (∀ side, (windowSide s side).screen ≠ []) ∧ (∀ side, seenIn look s side d 0 ≠ titleSeen look s side 0) ∧
    splitReads d = [b!"####################################### ", b!"#                  #                  # ", b!"#                  #                  # ", b!"#                  #                  # ", b!"#                  #                  # ", b!"Search hit BOTTOM, continuing at TOP    "] := by
  obtain ⟨s, d, m, h, hp⟩ := watchSplitFrom_some (look := aAndB) (env := crossed) (n := 50) (k := 50) (cols := 40) (rows := 6) (l := [skey b!"^W-W", sfind b!"AAAA"]) anyInput (fun _ _ _ => trivial)
    (p := fun s d m => decide (m = some b!"Search hit BOTTOM, continuing at TOP" ∧ (∀ side, (windowSide s side).screen ≠ []) ∧ (∀ side, seenIn aAndB s side d 0 ≠ titleSeen aAndB s side 0) ∧
    splitReads d = [b!"####################################### ", b!"#                  #                  # ", b!"#                  #                  # ", b!"#                  #                  # ", b!"#                  #                  # ", b!"Search hit BOTTOM, continuing at TOP    "])) (by decide +kernel)
  obtain ⟨rfl, h1, h2, h3⟩ := of_decide_eq_true hp
  exact ⟨aAndB, crossed, s, d, asciiEnv_compared (by decide +kernel), h, by decide, h1, h2, h3⟩


/-- The situation of C97: a search without results. -/
example : ∃ s d s' d', Compared changed ∧ Watched aAndB changed 50 50 24 7 (ownSearch changed) s d none ∧ ownSearch changed s (sfind b!"z") ∧ splitSearches (sfind b!"z") ∧
    splitHits changed s (sfind b!"z") = [] ∧ stepOn aAndB changed 50 50 (sfind b!"z") s d none = some (.nextInput s', d', some b!"Pattern not found") ∧
    (splitReads d')[6]? = some b!"Pattern not found       " := by
  have hown : ∀ s, ownSearch changed s (sfind b!"z") := by
    intro s pt q h1 h2
    cases h1
    rw [show (Split.search changed (plainPattern b!"z")).head? = none from by decide +kernel] at h2
    cases h2
  obtain ⟨s, d, m, h, hp⟩ := watchSplitFrom_some (look := aAndB) (env := changed) (n := 50) (k := 50) (cols := 24) (rows := 7) (l := []) (ownSearch changed) (fun _ _ hi => (by cases hi))
    (p := fun s d m => decide (m = none ∧ splitHits changed s (sfind b!"z") = []) && (match stepOn aAndB changed 50 50 (sfind b!"z") s d none with
      | some (.nextInput _, d', m') => decide (m' = some b!"Pattern not found" ∧ (splitReads d')[6]? = some b!"Pattern not found       ")
      | _ => false)) (by decide +kernel)
  rw [Bool.and_eq_true] at hp
  obtain ⟨hp1, hp2⟩ := hp
  obtain ⟨rfl, h1⟩ := of_decide_eq_true hp1
  split at hp2
  · next s' d' m' hs =>
    obtain ⟨rfl, h2⟩ := of_decide_eq_true hp2
    exact ⟨s, d, s', d', asciiEnv_compared (by decide +kernel), h, hown s, .inr ⟨rfl, _, rfl, by decide⟩, h1, hs, h2⟩
  · cases hp2

/-- **C97 does not hold** for a search for something that only the other document has: nothing in the document of the active window matches, but the message is not "Pattern not found". -/
theorem C97_message_false : ∃ look env s d s' d', Compared env ∧ Watched look env 50 50 24 7 anyInput s d none ∧ s.selected = 0 ∧ splitSearches (sfind b!"y") ∧
    splitHits env s (sfind b!"y") = [] ∧ stepOn look env 50 50 (sfind b!"y") s d none = some (.nextInput s', d', some b!"Search hit BOTTOM, continuing at TOP") := by
  obtain ⟨s, d, m, h, hp⟩ := watchSplitFrom_some (look := aAndB) (env := changed) (n := 50) (k := 50) (cols := 24) (rows := 7) (l := []) anyInput (fun _ _ _ => trivial)
    (p := fun s d m => decide (m = none ∧ s.selected = 0 ∧ splitHits changed s (sfind b!"y") = []) && (match stepOn aAndB changed 50 50 (sfind b!"y") s d none with
      | some (.nextInput _, _, m') => decide (m' = some b!"Search hit BOTTOM, continuing at TOP")
      | _ => false)) (by decide +kernel)
  rw [Bool.and_eq_true] at hp
  obtain ⟨hp1, hp2⟩ := hp
  obtain ⟨rfl, h0, h1⟩ := of_decide_eq_true hp1
  split at hp2
  · next s' d' m' hs =>
    have := of_decide_eq_true hp2
    subst this
    exact ⟨aAndB, changed, s, d, s', d', asciiEnv_compared (by decide +kernel), h, h0, .inr ⟨rfl, _, rfl, by decide⟩, h1, hs⟩
  · cases hp2

end Verif.Props
