import Verif.Model.SplitPaint
import Verif.Lemmas.PictureRows
/-!
# What the calls do to a window of the diff view
-/
namespace Verif.Lemmas.SplitTerm
open Verif.Model Verif.Model.Diff Verif.Model.Split Verif.Model.SplitPaint Verif.Model.Term Verif.Lemmas
open Verif.Model.Paint (Look attrOf)

/-- The characters of a mark. -/
def markGlyphs : Op → List Glyph
  | .add => (b!"++" : Bytes).map fun c => ⟨c, ⟨true, some diffAdd⟩⟩
  | .mod => (b!"!!" : Bytes).map fun c => ⟨c, ⟨true, some diffMod⟩⟩
  | .rem => (b!"--" : Bytes).map fun c => ⟨c, ⟨true, some diffRem⟩⟩
  | .equ => []

/-- The characters of the parts of a text. -/
def textGlyphs (look : Look) (sel srch : Bool) (parts : List (Bytes × Nat)) : List Glyph := parts.flatMap fun p => p.1.map fun c => ⟨c, attrOf look sel srch p.2⟩

/-- The first place a call writes to, in a window of width `W` and height `H`. -/
def start (W : Nat) : Call → Nat
  | .mark row _ => row * W
  | .text _ row col _ _ _ => row * W + col

/-- What it writes. -/
def glyphs (look : Look) (H : Nat) : Call → List Glyph
  | .mark row op => if row < H then markGlyphs op else []
  | .text _ _ _ parts sel srch => textGlyphs look sel srch parts

/-- What it writes to place `k`. -/
def glyphIn (look : Look) (W H : Nat) (c : Call) (k : Nat) : Option Glyph := if start W c ≤ k then (glyphs look H c)[k - start W c]? else none

/-- The text begins in the window. -/
def Fits (W H : Nat) : Call → Prop
  | .mark _ _ => True
  | .text ch row col parts _ _ => row < H ∧ col < W ∧ (ch = true → ∃ p, parts = [p])

theorem over_glyph (look : Look) (W H : Nat) (c : Call) (f : Nat → Glyph) (k : Nat) : over (start W c) (glyphs look H c) f k = (glyphIn look W H c k).getD (f k) := by
  unfold over glyphIn
  split <;> rfl

theorem puts_parts (look : Look) (sel srch : Bool) {t : Terminal} {c : Nat} (hc : c < t.width * t.height) : ∀ (parts : List (Bytes × Nat)) (t0 : Terminal) (gs : List Glyph), Shows t c gs t0 →
    Shows t c (gs ++ textGlyphs look sel srch parts) (runCmds (parts.map fun p => .put p.1 (attrOf look sel srch p.2)) t0) := by
  intro parts
  induction parts with
  | nil => intro t0 gs h; simpa [textGlyphs, runCmds] using h
  | cons p ps ih =>
    intro t0 gs h
    have := ih _ _ (put_shows h hc p.1 (attrOf look sel srch p.2))
    rw [List.map_cons, runCmds_cons]
    simpa [textGlyphs] using this

theorem call_run (look : Look) {W H : Nat} (h0 : 0 < W) {c : Call} (hc : Fits W H c) {t : Terminal} (hw : t.width = W) (hh : t.height = H) :
    (runCmds (callCmds look c) t).width = W ∧ (runCmds (callCmds look c) t).height = H ∧
    ∀ k, k + 1 < W * H → (runCmds (callCmds look c) t).at_ k = (glyphIn look W H c k).getD (t.at_ k) := by
  have key : ∀ t', Shows t (start W c) (glyphs look H c) t' → t'.width = W ∧ t'.height = H ∧ ∀ k, k + 1 < W * H → t'.at_ k = (glyphIn look W H c k).getD (t.at_ k) := by
    rintro t' ⟨s1, s2, _, s4⟩
    refine ⟨s1.trans hw, s2.trans hh, fun k hk => ?_⟩
    rw [s4 k (by rw [hw, hh]; exact hk), over_glyph]
  cases c with
  | mark row op =>
    by_cases hr : row < H
    · have hm : ∀ (text : Bytes) (a : Attr), Shows t (row * W) (text.map fun c => ⟨c, a⟩) (runCmds [.mvput row 0 text a] t) := by
        intro text a
        have := mvput_shows (t := t) (y := row) (x := 0) (by omega) (by omega) text a
        rw [hw, Nat.add_zero] at this
        exact this
      cases op with
      | equ => exact ⟨hw, hh, fun k _ => by simp [glyphIn, glyphs, markGlyphs, callCmds, markCmds, runCmds]⟩
      | add => exact key _ (by simp only [start, glyphs, hr, if_true]; exact hm _ _)
      | mod => exact key _ (by simp only [start, glyphs, hr, if_true]; exact hm _ _)
      | rem => exact key _ (by simp only [start, glyphs, hr, if_true]; exact hm _ _)
    · have hin : Term.inside t row 0 = false := by simp [Term.inside, hh, hr]
      have hs : runCmds (callCmds look (.mark row op)) t = t := by
        cases op <;> simp [callCmds, markCmds, runCmds, Cmd.run, hin]
      rw [hs]
      exact ⟨hw, hh, fun k _ => by simp [glyphIn, glyphs, hr]⟩
  | text ch row col parts sel srch =>
    obtain ⟨hr, hcol, h1⟩ := hc
    refine key _ ?_
    simp only [start, glyphs]
    cases ch with
    | true =>
      obtain ⟨p, rfl⟩ := h1 rfl
      have := mvput_shows (t := t) (y := row) (x := col) (by omega) (by omega) p.1 (attrOf look sel srch p.2)
      rw [hw] at this
      simpa [callCmds, runCmds, textGlyphs] using this
    | false =>
      have hm := move_shows (t := t) (y := row) (x := col) (by omega) (by omega)
      have := puts_parts look sel srch (place_lt (w := t.width) (h := t.height) (y := row) (x := col) (by omega) (by omega)) parts _ _ hm
      rw [List.nil_append, hw] at this
      exact this

theorem calls_run (look : Look) {W H : Nat} (h0 : 0 < W) : ∀ (cs : List Call) (t : Terminal), (∀ c ∈ cs, Fits W H c) → t.width = W → t.height = H →
    let t' := runCmds (cs.flatMap (callCmds look)) t
    t'.width = W ∧ t'.height = H ∧ ∀ k, k + 1 < W * H →
      (∀ g, (∀ c ∈ cs, ∀ g', glyphIn look W H c k = some g' → g' = g) → (∃ c ∈ cs, glyphIn look W H c k ≠ none) → t'.at_ k = g) ∧
      ((∀ c ∈ cs, glyphIn look W H c k = none) → t'.at_ k = t.at_ k) := by
  intro cs
  induction cs with
  | nil =>
    intro t _ hw hh
    exact ⟨hw, hh, fun k _ => ⟨fun g _ h => (by obtain ⟨c, hc, _⟩ := h; cases hc), fun _ => rfl⟩⟩
  | cons c cs ih =>
    intro t hf hw hh
    obtain ⟨a1, a2, a3⟩ := call_run look h0 (hf c List.mem_cons_self) hw hh
    obtain ⟨b1, b2, b3⟩ := ih _ (fun d hd => hf d (List.mem_cons_of_mem _ hd)) a1 a2
    rw [List.flatMap_cons, runCmds_append]
    refine ⟨b1, b2, fun k hk => ?_⟩
    obtain ⟨c1, c2⟩ := b3 k hk
    refine ⟨fun g hg he => ?_, fun hn => ?_⟩
    · by_cases hex : ∃ d ∈ cs, glyphIn look W H d k ≠ none
      · exact c1 g (fun d hd => hg d (List.mem_cons_of_mem _ hd)) hex
      · have hno : ∀ d ∈ cs, glyphIn look W H d k = none := by
          intro d hd
          cases h : glyphIn look W H d k with
          | none => rfl
          | some g => exact (hex ⟨d, hd, by rw [h]; simp⟩).elim
        rw [c2 hno, a3 k hk]
        obtain ⟨d, hd, hs⟩ := he
        rcases List.mem_cons.mp hd with rfl | hd
        · cases h : glyphIn look W H d k with
          | none => exact (hs h).elim
          | some g' => exact hg d List.mem_cons_self g' h
        · exact (hs (hno d hd)).elim
    · rw [c2 (fun d hd => hn d (List.mem_cons_of_mem _ hd)), a3 k hk, hn c List.mem_cons_self]
      rfl

/-- The title. -/
theorem title_run (look : Look) (active : Bool) {W H : Nat} (h0 : 0 < W) (hh : 0 < H) (hn : 0 ∉ look.name) :
    let t := runCmds [.clear, titleCmd look active W] (blankWin W H)
    t.width = W ∧ t.height = H ∧ t.cursor = min W (W * H - 1) ∧ ∀ k, k + 1 < W * H → t.at_ k = if k < W then
      ⟨((look.name.take W ++ List.replicate W 32)[k]?).getD 32, ⟨false, if look.colours then some (if active then Paint.specialActiveInputName else specialInputName) else none⟩⟩
      else nothing := by
  have hc : Tui.cstr (look.name.take W) = look.name.take W := by
    have : ∀ l : Bytes, 0 ∉ l → Tui.cstr l = l := by
      intro l
      induction l with
      | nil => intro _; rfl
      | cons c l ih =>
        intro h
        show List.takeWhile _ _ = _
        rw [List.takeWhile_cons_of_pos (by simp; intro h'; subst h'; exact h (by simp))]
        exact congrArg _ (ih fun h' => h (by simp [h']))
    exact this _ (fun h => hn (List.mem_of_mem_take h))
  have hl : (look.name.take W).length ≤ W := by rw [List.length_take]; omega
  have htext : (if (look.name.take W).length = W then Tui.cstr (look.name.take W) else Tui.cstr (look.name.take W) ++ List.replicate (W - (look.name.take W).length) 32) =
      (look.name.take W ++ List.replicate W 32).take W := by
    rw [hc]
    split
    · next h => rw [List.take_append_of_le_length (by omega)]; exact (List.take_of_length_le (l := look.name.take W) hl).symm
    · next h =>
      rw [List.take_append, List.take_of_length_le hl, List.take_replicate]
      congr 2
      omega
  have := mvput_shows (t := blankWin W H) (y := 0) (x := 0) hh h0 ((look.name.take W ++ List.replicate W 32).take W)
    ⟨false, if look.colours then some (if active then Paint.specialActiveInputName else specialInputName) else none⟩
  obtain ⟨s1, s2, s3, s4⟩ := this
  have he : runCmds [.clear, titleCmd look active W] (blankWin W H) = (Cmd.mvput 0 0 ((look.name.take W ++ List.replicate W 32).take W)
      ⟨false, if look.colours then some (if active then Paint.specialActiveInputName else specialInputName) else none⟩).run (blankWin W H) := by
    simp only [runCmds, List.foldl_cons, List.foldl_nil, titleCmd, htext]
    rfl
  rw [he]
  refine ⟨s1, s2, ?_, fun k hk => ?_⟩
  · rw [s3]
    simp only [blankWin, List.length_map, List.length_take, List.length_append, List.length_replicate, Nat.zero_mul, Nat.zero_add]
    congr 1
    omega
  rw [s4 k hk]
  simp only [over, blankWin, Nat.zero_mul, Nat.add_zero, Nat.zero_le, if_true, Nat.sub_zero, List.getElem?_map, List.getElem?_take]
  by_cases hkw : k < W
  · rw [if_pos hkw, if_pos hkw]
    have hlt : k < (look.name.take W ++ List.replicate W 32).length := by simp; omega
    rw [List.getElem?_eq_getElem hlt]
    rfl
  · rw [if_neg hkw, if_neg hkw]
    rfl

/-- A window that is drawn. -/
theorem painted_at (look : Look) (active : Bool) {width H : Nat} {w : Win} (h0 : 0 < less width 2) (hh : 0 < H) (hn : 0 ∉ look.name) (hf : ∀ c ∈ w.calls, Fits (less width 2) H c)
    (hrow : ∀ c ∈ w.calls, less width 2 ≤ start (less width 2) c) :
    (painted look active width H w).width = less width 2 ∧ (painted look active width H w).height = H ∧ ∀ k, k + 1 < less width 2 * H →
      (k < less width 2 → (painted look active width H w).at_ k = ⟨((look.name.take (less width 2) ++ List.replicate (less width 2) 32)[k]?).getD 32,
        ⟨false, if look.colours then some (if active then Paint.specialActiveInputName else specialInputName) else none⟩⟩) ∧
      (∀ g, (∀ c ∈ w.calls, ∀ g', glyphIn look (less width 2) H c k = some g' → g' = g) → (∃ c ∈ w.calls, glyphIn look (less width 2) H c k ≠ none) →
        (painted look active width H w).at_ k = g) ∧
      (less width 2 ≤ k → (∀ c ∈ w.calls, glyphIn look (less width 2) H c k = none) → (painted look active width H w).at_ k = nothing) := by
  obtain ⟨a1, a2, _, a3⟩ := title_run look active h0 hh hn
  obtain ⟨b1, b2, b3⟩ := calls_run look h0 w.calls _ hf a1 a2
  have he : painted look active width H w = runCmds (w.calls.flatMap (callCmds look)) (runCmds [.clear, titleCmd look active (less width 2)] (blankWin (less width 2) H)) := by
    rw [← runCmds_append]; rfl
  rw [he]
  refine ⟨b1, b2, fun k hk => ⟨fun hlt => ?_, (b3 k hk).1, fun hle hno => ?_⟩⟩
  · rw [(b3 k hk).2, a3 k hk, if_pos hlt]
    intro c hc
    have := hrow c hc
    rw [glyphIn, if_neg (by omega)]
  · rw [(b3 k hk).2 hno, a3 k hk, if_neg (by omega)]

/-- The line a call is about. -/
def callRow : Call → Nat
  | .mark row _ => row
  | .text _ row _ _ _ _ => row

/-- The call writes below the first line, wherever the cursor is below it. -/
def Below : Cmd → Prop
  | .clear => False
  | .move y _ => 1 ≤ y
  | .put _ _ => True
  | .mvput y _ _ _ => 1 ≤ y

theorem puts_below (a : Attr) : ∀ (text : Bytes) (t : Terminal), t.width ≤ t.cursor → t.width ≤ (puts a text t).cursor ∧ ∀ k, k < t.width → (puts a text t).at_ k = t.at_ k := by
  intro text
  induction text with
  | nil => intro t h; exact ⟨h, fun k _ => rfl⟩
  | cons c cs ih =>
    intro t h
    simp only [puts]
    split
    · have := ih { t with at_ := fun k => if k = t.cursor then ⟨c, a⟩ else t.at_ k, cursor := t.cursor + 1 } (by dsimp only; omega)
      refine ⟨this.1, fun k hk => ?_⟩
      rw [this.2 k hk]
      dsimp only
      rw [if_neg (by omega)]
    · refine ⟨h, fun k hk => ?_⟩
      dsimp only
      rw [if_neg (by omega)]

theorem run_below (c : Cmd) (t : Terminal) (hc : Below c) (h : t.width ≤ t.cursor) : t.width ≤ (c.run t).cursor ∧ (c.run t).width = t.width ∧ ∀ k, k < t.width → (c.run t).at_ k = t.at_ k := by
  have hw : ∀ y x, 1 ≤ y → t.width ≤ y * t.width + x := by
    intro y x hy
    have := Nat.mul_le_mul_right t.width hy
    omega
  have hp : ∀ a text t, (puts a text t).width = t.width := by
    intro a text
    induction text with
    | nil => intro t; rfl
    | cons c cs ih => intro t; simp only [puts]; split; exact ih _; rfl
  cases c with
  | clear => exact hc.elim
  | move y x =>
    simp only [Cmd.run]
    split
    · exact ⟨hw y x hc, rfl, fun _ _ => rfl⟩
    · exact ⟨h, rfl, fun _ _ => rfl⟩
  | put text a => exact ⟨(puts_below a text t h).1, hp .., (puts_below a text t h).2⟩
  | mvput y x text a =>
    simp only [Cmd.run]
    split
    · have := puts_below a text { t with cursor := y * t.width + x } (hw y x hc)
      exact ⟨this.1, hp .., this.2⟩
    · exact ⟨h, rfl, fun _ _ => rfl⟩

theorem runCmds_below : ∀ (cs : List Cmd) (t : Terminal), (∀ c ∈ cs, Below c) → t.width ≤ t.cursor → ∀ k, k < t.width → (runCmds cs t).at_ k = t.at_ k := by
  intro cs
  induction cs with
  | nil => intro t _ _ k _; rfl
  | cons c cs ih =>
    intro t hc h k hk
    obtain ⟨h1, h2, h3⟩ := run_below c t (hc c (by simp)) h
    rw [runCmds_cons, ih (c.run t) (fun c' h' => hc c' (by simp [h'])) (by rw [h2]; exact h1) k (by rw [h2]; exact hk), h3 k hk]

/-- The title stays, wherever the texts are written. -/
theorem title_stays (look : Look) (active : Bool) {width H : Nat} {w : Win} (h0 : 0 < less width 2) (hh : 2 ≤ H) (hn : 0 ∉ look.name)
    (hrow : ∀ c ∈ w.calls, 1 ≤ callRow c) (k : Nat) (hk : k < less width 2) :
    (painted look active width H w).at_ k = ⟨((look.name.take (less width 2) ++ List.replicate (less width 2) 32)[k]?).getD 32,
        ⟨false, if look.colours then some (if active then Paint.specialActiveInputName else specialInputName) else none⟩⟩ := by
  obtain ⟨a1, a2, a4, a3⟩ := title_run look active h0 (show 0 < H by omega) hn
  have he : painted look active width H w = runCmds (w.calls.flatMap (callCmds look)) (runCmds [.clear, titleCmd look active (less width 2)] (blankWin (less width 2) H)) := by
    rw [← runCmds_append]; rfl
  have hsz : less width 2 * 2 ≤ less width 2 * H := Nat.mul_le_mul_left _ hh
  rw [he, runCmds_below _ _ ?_ (by rw [a1, a4]; omega) k (by rw [a1]; exact hk), a3 k (by omega), if_pos hk]
  intro c hc
  obtain ⟨call, h1, h2⟩ := List.mem_flatMap.mp hc
  have := hrow call h1
  cases call with
  | mark row op =>
    cases op <;> simp only [callCmds, markCmds, List.mem_singleton, List.not_mem_nil] at h2
    all_goals (subst h2; exact this)
  | text char row col parts sel srch =>
    cases char with
    | true =>
      simp only [callCmds, List.mem_map] at h2
      obtain ⟨_, _, rfl⟩ := h2
      exact this
    | false =>
      simp only [callCmds, List.mem_cons, List.mem_map] at h2
      rcases h2 with rfl | ⟨_, _, rfl⟩
      · exact this
      · trivial

end Verif.Lemmas.SplitTerm
