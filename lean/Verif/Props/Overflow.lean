import Verif.Spec.Overflow
import Verif.Props.Picture
/-! # C87, C88 exactly: what is seen when lines begin to the right of the terminal -/
namespace Verif.Props
open Verif.Model Verif.Model.Search Verif.Model.Nav Verif.Model.Tui Verif.Model.Term Verif.Model.Paint Verif.Spec Verif.Lemmas

theorem move_fails {t : Terminal} {y x : Nat} (hx : t.width ≤ x) : (Cmd.move y x).run t = t := by
  have h : Term.inside t y x = false := by simp only [Term.inside, Bool.and_eq_false_iff, decide_eq_false_iff_not]; omega
  simp only [Cmd.run, h, Bool.false_eq_true, if_false]

theorem mvput_fails {t : Terminal} {y x : Nat} (hx : t.width ≤ x) (text : Bytes) (a : Attr) : (Cmd.mvput y x text a).run t = t := by
  have h : Term.inside t y x = false := by simp only [Term.inside, Bool.and_eq_false_iff, decide_eq_false_iff_not]; omega
  simp only [Cmd.run, h, Bool.false_eq_true, if_false]

/-- A row that begins to the right of the terminal. -/
theorem row_right {look : Look} {env : Env} {view : View} {sel : Option Path} {y : Nat} {r : Row} {t : Terminal} (hr : RowOk env view.collapsed r)
    (hc : t.cursor < t.width * t.height) (hx : t.width ≤ r.col) :
    if loneBracket env.root view.collapsed r then runCmds (rowCmds look env view sel (y, r)) t = t
    else Shows t t.cursor (rowGlyphs look env view.results sel r) (runCmds (rowCmds look env view sel (y, r)) t) := by
  have h0 : Shows t t.cursor [] t := ⟨rfl, rfl, by simp only [List.length_nil]; omega, fun k _ => by simp [over]⟩
  simp only [rowCmds, lineCmds, rowGlyphs, loneBracket]
  unfold RowOk at hr
  cases he : elem env.root r.elem with
  | none => rw [he] at hr; exact hr.elim
  | some e =>
    rw [he] at hr
    cases e with
    | value v =>
      have hput := put_shows h0 hc r.text (attrOf look (decide (sel = some r.item)) (view.results.contains r.elem) (typeOf v))
      have hcase : ∀ b : Bool, (v.isContainer && !view.collapsed.contains r.elem) = b →
          (if b then runCmds (if b = true then [.mvput y r.col r.text (attrOf look (decide (sel = some r.item)) (view.results.contains r.elem) (typeOf v))] else
              [.move y r.col, .put r.text (attrOf look (decide (sel = some r.item)) (view.results.contains r.elem) (typeOf v))]) t = t
          else Shows t t.cursor (r.text.map fun c => ⟨c, attrOf look (decide (sel = some r.item)) (view.results.contains r.elem) (typeOf v)⟩)
            (runCmds (if b = true then [.mvput y r.col r.text (attrOf look (decide (sel = some r.item)) (view.results.contains r.elem) (typeOf v))] else
              [.move y r.col, .put r.text (attrOf look (decide (sel = some r.item)) (view.results.contains r.elem) (typeOf v))]) t)) := by
        intro b _
        cases b with
        | true => rw [if_pos rfl, if_pos rfl]; exact mvput_fails hx _ _
        | false =>
          rw [if_neg (by simp), if_neg (by simp)]
          rw [runCmds_cons, move_fails hx]
          simpa [runCmds] using hput
      have := hcase _ rfl
      cases v with
      | arr xs => simpa [Json.isContainer] using this
      | obj xs => simpa [Json.isContainer] using this
      | _ => simpa [Json.isContainer] using this
    | entry k v =>
      simp only at hr ⊢
      rw [if_neg (by simp)]
      have h1 := put_shows (put_shows h0 hc (cstr k) (attrOf look (decide (sel = some r.item)) (view.results.contains r.elem) typeObjKey)) hc b!": "
        (attrOf look (decide (sel = some r.item)) (view.results.contains r.elem) typeObj)
      rw [List.cons_append, runCmds_cons, move_fails hx]
      split
      · next hcc =>
        rw [hr.2 hcc, List.drop_eq_nil_of_le (by simp), List.map_nil, List.append_nil, List.append_nil]
        simpa [runCmds] using h1
      · have h2 := put_shows h1 hc (r.text.drop ((cstr k).length + 2)) (attrOf look (decide (sel = some r.item)) (view.results.contains r.elem) (typeOf v))
        simpa [runCmds] using h2

theorem onScreen_row {w h : Nat} {a : Nat × Row} : ∀ {rs : List Row} {y : Nat}, a ∈ onScreen w h y rs → a.2 ∈ rs
  | [], y, ha => by simp [onScreen] at ha
  | r :: rs, y, ha => by
    simp only [onScreen, List.mem_cons] at ha
    rcases ha with rfl | ha
    · simp
    · split at ha
      · exact List.mem_cons_of_mem _ (onScreen_row ha)
      · cases ha

/-- The rows of a window on the terminal, wherever they begin. -/
theorem window_written {look : Look} {env : Env} {view : View} {sel : Option Path} : ∀ (as : List (Nat × Row)) (t : Terminal) (cur : Nat),
    t.width = view.width → t.height = view.height → 0 < view.width * view.height → t.cursor = min cur (view.width * view.height - 1) →
    (∀ a ∈ as, RowOk env view.collapsed a.2 ∧ a.1 < view.height) →
    ∀ k, k + 1 < view.width * view.height →
      (runCmds (as.flatMap (rowCmds look env view sel)) t).at_ k =
        (((writtenLines env.root view.collapsed view.width cur as).filterMap fun a => if a.1 ≤ k then (rowGlyphs look env view.results sel a.2)[k - a.1]? else none).getLast?).getD (t.at_ k) := by
  intro as
  induction as with
  | nil => intro t cur _ _ _ _ _ k _; rfl
  | cons a as ih =>
    intro t cur h1 h2 h0 hcur hr k hk
    obtain ⟨y, r⟩ := a
    have hok : RowOk env view.collapsed r := (hr (y, r) List.mem_cons_self).1
    have hy : y < view.height := (hr (y, r) List.mem_cons_self).2
    have hlen : (rowGlyphs look env view.results sel r).length = r.text.length := rowGlyphs_length (look := look) (results := view.results) (sel := sel) hok
    rw [List.flatMap_cons, runCmds_append, writtenLines]
    -- a text from place `p` on
    have step : ∀ p t1, Shows t (min p (view.width * view.height - 1)) (rowGlyphs look env view.results sel r) t1 →
        (runCmds (as.flatMap (rowCmds look env view sel)) t1).at_ k =
          ((((p, r) :: writtenLines env.root view.collapsed view.width (p + r.text.length) as).filterMap
            fun a => if a.1 ≤ k then (rowGlyphs look env view.results sel a.2)[k - a.1]? else none).getLast?).getD (t.at_ k) := by
      intro p t1 hs
      obtain ⟨s1, s2, s3, s4⟩ := hs
      rw [h1, h2] at s3 s4
      rw [ih t1 (p + r.text.length) (s1.trans h1) (s2.trans h2) h0 (by rw [s3, hlen]; omega) (fun b hb => hr b (List.mem_cons_of_mem _ hb)) k hk, List.filterMap_cons, s4 k hk]
      have hov : over (min p (view.width * view.height - 1)) (rowGlyphs look env view.results sel r) t.at_ k =
          (if p ≤ k then (rowGlyphs look env view.results sel r)[k - p]? else none).getD (t.at_ k) := by
        unfold over
        by_cases hp : p ≤ k
        · rw [if_pos (by omega), if_pos hp, show min p (view.width * view.height - 1) = p by omega]
        · rw [if_neg (by omega), if_neg hp]; rfl
      rw [hov]
      dsimp only
      cases (if p ≤ k then (rowGlyphs look env view.results sel r)[k - p]? else none) with
      | none => rfl
      | some g =>
        dsimp only
        rw [List.getLast?_cons]
        cases ((writtenLines env.root view.collapsed view.width (p + r.text.length) as).filterMap
            fun a => if a.1 ≤ k then (rowGlyphs look env view.results sel a.2)[k - a.1]? else none).getLast? <;> rfl
    by_cases hcol : r.col < view.width
    · rw [if_pos hcol]
      have hrow := row_shows (look := look) (sel := sel) (t := t) hok (y := y) (by omega) (by rw [h1]; exact hcol)
      have hlt := place_lt hy hcol
      rw [h1] at hrow
      exact step _ _ (by rw [show min (place view.width y r.col) (view.width * view.height - 1) = y * view.width + r.col by unfold place; omega]; exact hrow)
    · rw [if_neg hcol]
      have hcl : t.cursor < t.width * t.height := by rw [h1, h2, hcur]; generalize view.width * view.height = n at *; omega
      have hrow := row_right (look := look) (sel := sel) (y := y) hok hcl (by omega)
      by_cases hb : loneBracket env.root view.collapsed r = true
      · rw [if_pos hb] at hrow ⊢
        rw [hrow]
        exact ih t cur h1 h2 h0 hcur (fun b hb => hr b (List.mem_cons_of_mem _ hb)) k hk
      · rw [if_neg hb] at hrow ⊢
        rw [hcur] at hrow
        exact step _ _ hrow

theorem drawn_written (look : Look) (env : Env) (s : St) (t : Terminal) (hn : NoVal env s.sel) (hh : 2 ≤ s.height)
    (h3 : 3 ≤ s.width) (hw : s.width < 4294967296) (ht : t.width = s.width ∧ t.height = s.height)
    (hname : 0 ∉ look.name) (from_ : Nat) (hfrom : from_ = (exec (viewOf s) s.sel (evs env s) (blank s.scroll)).1.scroll) (k : Nat) (hk : k + 1 < s.width * s.height) :
    seen look ((runCmds (redrawCmds look env s) t).at_ k) =
      lastWritten ((0, titlePicture look s.width) :: (writtenLines env.root s.collapsed s.width (titlePicture look s.width).length (window env s from_)).map
        fun a => (a.1, picture look.colours env.root s.sel s.results a.2)) k := by
  rw [redrawCmds_rows look env s hn hh h3 hw, runCmds_append, ← hfrom]
  have htop := top_shows look hname t (by rw [ht.1]; exact h3) (by rw [ht.2]; exact hh)
  rw [ht.1] at htop
  generalize runCmds [.clear, topLine look s.width] t = t2 at htop
  obtain ⟨g1, g2, g3, g4⟩ := htop
  simp only [ht.2] at g1 g2 g3 g4
  have htitle : titlePicture look s.width = ((look.name.take s.width ++ List.replicate (max 1 (s.width - look.name.length)) 32).map fun c =>
      (⟨c, ⟨false, if look.colours then some specialActiveInputName else none⟩⟩ : Glyph)).map (seen look) := by
    unfold titlePicture
    rw [List.map_map]
    refine List.map_congr_left fun c _ => ?_
    simp only [Function.comp, seen]
    cases hcl : look.colours
    · simp
    · simp [palette, hcl, specialActiveInputName]
  have h0 : 0 < s.width * s.height := by omega
  have hall := window_written (look := look) (env := env) (view := viewOf s) (sel := s.sel) (window env s from_) t2 (titlePicture look s.width).length
    g1 g2 h0 (by rw [g3, htitle, Nat.zero_add]; simp only [List.length_map])
    (fun a ha => ⟨rows_ok env s.collapsed env.root [] [] 0 rfl _ (by
        have : a.2 ∈ (outlineOf env s).drop from_ := onScreen_row ha
        exact List.mem_of_mem_drop this), (onScreen_lt (show 1 < s.height by omega) a ha).2⟩) k hk
  rw [hall]
  unfold lastWritten
  rw [List.filterMap_cons, List.filterMap_map]
  have hmap : (writtenLines env.root s.collapsed s.width (titlePicture look s.width).length (window env s from_)).filterMap
      ((fun a : Nat × List Seen => if a.1 ≤ k then a.2[k - a.1]? else none) ∘ fun a => (a.1, picture look.colours env.root s.sel s.results a.2)) =
      ((writtenLines env.root s.collapsed s.width (titlePicture look s.width).length (window env s from_)).filterMap
        fun a => if a.1 ≤ k then (rowGlyphs look env s.results s.sel a.2)[k - a.1]? else none).map (seen look) := by
    rw [List.map_filterMap]
    congr 1
    funext a
    simp only [Function.comp]
    split
    · rw [← seen_row, List.getElem?_map]
    · rfl
  rw [hmap, g4 k hk]
  simp only
  generalize (writtenLines env.root s.collapsed s.width (titlePicture look s.width).length (window env s from_)).filterMap
        (fun a => if a.1 ≤ k then (rowGlyphs look env s.results s.sel a.2)[k - a.1]? else none) = L
  simp only [over, Nat.zero_le, if_true, Nat.sub_zero, htitle, List.getElem?_map]
  cases (look.name.take s.width ++ List.replicate (max 1 (s.width - look.name.length)) 32)[k]? with
  | none =>
    simp only [Option.map_none, Option.getD_none, List.getLast?_map]
    cases L.getLast? with
    | none => simp [seen, nothing, unused]
    | some g => rfl
  | some c =>
    simp only [Option.map_some, Option.getD_some, List.getLast?_cons, List.getLast?_map]
    cases L.getLast? <;> rfl

/-- **C87, exactly, wherever the lines begin.** On a terminal of at least 3 columns, with a line below the title line: whatever has happened before, when the program waits for an input, every place of the terminal but
the last one (and, if there is a message, those of the last line) shows the last of the texts that are written there: first the title; then the lines of the display from line `from_` on that are on the screen, in
their order, each where it begins if that is in a column of the terminal, otherwise where the text before ended, or not at all if it is a bracket (`writtenLines`). Nothing is asked of the characters of the document: a place is
a byte here. -/
theorem C87_exactly_partial (look : Look) (env : Env) (ok : St → Tui.Input → Prop) (s : St) (t : Terminal) (m : Option Bytes) (h : Watches look env ok s t m) (hh : 2 ≤ s.height)
    (h3 : 3 ≤ s.width) (hw : s.width < 4294967296) (hname : 0 ∉ look.name) :
    ∃ from_, (s.scroll = from_ ∨ m ≠ none ∧ s.scroll = from_ + 1) ∧
      ∀ k, k + 1 < s.width * s.height → (m ≠ none → k < place s.width (s.height - 1) 0) →
        seen look (t.at_ k) = lastWritten ((0, titlePicture look s.width) ::
          (writtenLines env.root s.collapsed s.width (titlePicture look s.width).length (window env s from_)).map
            fun a => (a.1, picture look.colours env.root s.sel s.results a.2)) k := by
  obtain ⟨s0, t0, hn, ⟨e1, e2, e3, e4, e5⟩, hw0, hh0, hsc, hmsg, ht⟩ := watches_fresh h
  refine ⟨_, hsc, fun k hk hkm => ?_⟩
  generalize hfrom : (exec (viewOf s0) s0.sel (evs env s0) (blank s0.scroll)).1.scroll = from_
  have hwin : window env s from_ = window env s0 from_ := by simp only [window, outlineOf, e2, e4, e5]
  have := drawn_written look env s0 t0 hn (by rw [← e5]; exact hh) (by rw [← e4]; exact h3) (by rw [← e4]; exact hw) ⟨hw0, hh0⟩ hname from_ hfrom.symm
    k (by rw [← e4, ← e5]; exact hk)
  have hat : t.at_ k = (runCmds (redrawCmds look env s0) t0).at_ k := by
    rw [ht, runCmds_append]
    cases m with
    | none => rfl
    | some msg =>
      have hlt := hkm (by simp)
      have hz := runCmds_size (redrawCmds look env s0) t0
      rw [hw0, hh0] at hz
      have := below_keeps look (s := s0) (t := runCmds (redrawCmds look env s0) t0) hz (by rw [← e5]; omega) (by rw [← e4]; omega) msg (message_clean (hmsg msg rfl)) k (by rw [← e4, ← e5]; omega)
      exact this.trans (if_neg (by rw [e4, e5] at hlt; simpa [place] using hlt))
  rw [hat, hwin, e1, e2, e3, e4]
  exact this

/-- `[[[[1]], 2]]` -/
def overflowDoc : Json := .arr [.arr [.arr [.arr [.int 1]], .int 2]]

/-- The hypotheses are met by `[[[[1]], 2]]` on a terminal of 10 columns: two brackets that begin in column 12 are left out, and `1`, which begins in column 16, is written after the bracket of column 8. -/
example : ∃ s t, Watches inColours (textEnv overflowDoc) anything s t none ∧ 2 ≤ s.height ∧ 3 ≤ s.width ∧ s.width < 4294967296 ∧ 0 ∉ inColours.name ∧
    (writtenLines (textEnv overflowDoc).root s.collapsed s.width 10 (window (textEnv overflowDoc) s s.scroll)).map (fun (a : Nat × Row) => (a.1, a.2.text)) =
      [(10, b!"["), (24, b!"["), (38, b!"["), (39, b!"1"), (108, b!"]"), (118, b!"2"), (124, b!"]"), (130, b!"]")] ∧
    seen inColours (t.at_ 39) = ⟨49, false, some (.green, .black)⟩ := by
  obtain ⟨s, t, m, h, hp⟩ := watchFrom_some (look := inColours) (env := textEnv overflowDoc) (n := 5) (w := 10) (h := 20) (is := [])
    (p := fun s t m => decide (m = none ∧ 2 ≤ s.height ∧ 3 ≤ s.width ∧ s.width < 4294967296 ∧
      (writtenLines (textEnv overflowDoc).root s.collapsed s.width 10 (window (textEnv overflowDoc) s s.scroll)).map (fun (a : Nat × Row) => (a.1, a.2.text)) =
      [(10, b!"["), (24, b!"["), (38, b!"["), (39, b!"1"), (108, b!"]"), (118, b!"2"), (124, b!"]"), (130, b!"]")] ∧
      seen inColours (t.at_ 39) = ⟨49, false, some (.green, .black)⟩)) (by decide +kernel)
  obtain ⟨rfl, h1, h2, h3, h4, h5⟩ := of_decide_eq_true hp
  exact ⟨s, t, h, h1, h2, h3, by decide, h4, h5⟩

end Verif.Props
