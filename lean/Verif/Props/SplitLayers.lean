import Verif.Spec.SplitLayers
import Verif.Props.SplitPicture
/-! # C71, C94, C95 exactly: the layers of a window -/
namespace Verif.Lemmas.SplitTerm
open Verif.Model Verif.Model.Diff Verif.Model.Split Verif.Model.SplitPaint Verif.Model.Term Verif.Lemmas
open Verif.Model.Paint (Look attrOf)

/-- The last call that writes to a place is the one that counts. -/
theorem calls_last (look : Look) {W H : Nat} (h0 : 0 < W) : ∀ (cs : List Call) (t : Terminal), (∀ c ∈ cs, Fits W H c) → t.width = W → t.height = H → ∀ k, k + 1 < W * H →
    (runCmds (cs.flatMap (callCmds look)) t).at_ k = ((cs.filterMap (glyphIn look W H · k)).getLast?).getD (t.at_ k) := by
  intro cs
  induction cs with
  | nil => intro t _ _ _ k _; rfl
  | cons c cs ih =>
    intro t hf hw hh k hk
    obtain ⟨a1, a2, a3⟩ := call_run look h0 (hf c List.mem_cons_self) hw hh
    rw [List.flatMap_cons, runCmds_append, ih _ (fun d hd => hf d (List.mem_cons_of_mem _ hd)) a1 a2 k hk, a3 k hk, List.filterMap_cons]
    cases hg : glyphIn look W H c k with
    | none => rfl
    | some g =>
      rw [List.getLast?_cons]
      cases (cs.filterMap (glyphIn look W H · k)).getLast? <;> rfl

/-- A window that is drawn. -/
theorem painted_last (look : Look) (active : Bool) {width H : Nat} {w : Win} (h0 : 0 < less width 2) (hh : 0 < H) (hn : 0 ∉ look.name) (hf : ∀ c ∈ w.calls, Fits (less width 2) H c)
    (k : Nat) (hk : k + 1 < less width 2 * H) (hlow : less width 2 ≤ k) :
    (painted look active width H w).at_ k = ((w.calls.filterMap (glyphIn look (less width 2) H · k)).getLast?).getD nothing := by
  obtain ⟨a1, a2, _, a3⟩ := title_run look active h0 hh hn
  have he : painted look active width H w = runCmds (w.calls.flatMap (callCmds look)) (runCmds [.clear, titleCmd look active (less width 2)] (blankWin (less width 2) H)) := by
    rw [← runCmds_append]; rfl
  rw [he, calls_last look h0 w.calls _ hf a1 a2 k hk, a3 k hk, if_neg (by omega)]

end Verif.Lemmas.SplitTerm

namespace Verif.Lemmas.Split
open Verif.Model Verif.Model.Diff Verif.Model.Split Verif.Model.SplitPaint Verif.Model.Term Verif.Spec Verif.Spec.SplitView Verif.Lemmas.SplitTerm
open Verif.Model.Paint (Look attrOf)

/-- Which texts are brackets. -/
theorem prints_char {env : Env} {s : St} {side : Bool} {it : Item} {a : Print} (ha : a ∈ prints env s.view side it) (hcl : it.closing = true → ∃ v, (Elem.value (env.root side)).at it.path = some (.value v))
    {c : Cell} (hw : c.who = a.who) (hc : c.closing = a.closing) : IsBracket env s c ↔ a.char = true := by
  have hel : ∀ p, env.elem (ptr side p) = (Elem.value (env.root side)).at p := by intro p; cases side <;> rfl
  unfold prints at ha
  unfold IsBracket
  rw [hw, hc]
  dsimp only at ha
  split at ha
  · simp only [List.mem_singleton] at ha
    subst ha
    simp
  · split at ha
    · cases ha
    · next k v hv =>
      have hv0 : (Elem.value (env.root side)).at (it.path ++ [0]) = some (.value v) := by rw [at_child hv]; rfl
      split at ha
      · simp only [List.mem_singleton] at ha
        subst ha
        simp [hel, hv]
      · next hn =>
        split at ha
        · simp only [List.mem_singleton] at ha
          subst ha
          simp [hel, hv]
        · next hcon =>
          split at ha
          · simp only [List.mem_singleton] at ha
            subst ha
            simp [hel, hv]
          · simp only [List.mem_cons, List.not_mem_nil, or_false] at ha
            rcases ha with rfl | rfl
            · simp [hel, hv]
            · simp only [Bool.not_eq_true, Bool.and_eq_false_iff] at hn
              simp only [Bool.not_eq_true', Bool.not_eq_false] at hcon
              refine ⟨fun _ => rfl, fun _ => .inr ⟨v, by rw [hel, hv0], hcon, fun hm => ?_⟩⟩
              rcases hn with hn | hn
              · rw [hcon] at hn; cases hn
              · have : s.view.collapsed.contains (ptr side (it.path ++ [0])) = true := List.contains_iff_mem.mpr hm
                rw [hn] at this; cases this
    · next v hv =>
      split at ha
      · next hcon =>
        split at ha
        · next hm =>
          simp only [List.mem_singleton] at ha
          subst ha
          simp only [Bool.false_eq_true, false_or, iff_false]
          rintro ⟨_, _, _, h⟩
          exact h (List.contains_iff_mem.mp hm)
        · next hm =>
          simp only [List.mem_singleton] at ha
          subst ha
          exact ⟨fun _ => rfl, fun _ => .inr ⟨v, by rw [hel, hv], hcon, fun h => hm (List.contains_iff_mem.mpr h)⟩⟩
      · next hcon =>
        simp only [List.mem_singleton] at ha
        subst ha
        simp only [Bool.false_eq_true, false_or, iff_false]
        rintro ⟨v', h1, h2, _⟩
        rw [hel, hv] at h1
        cases h1
        exact hcon h2

/-- The layer of an event. -/
def Ev.layer (env : Env) (view : View) (sel : Option Ptr) (sc : Nat) : Ev → Layer
  | .text col b => .text (cellAt env view sel sc col b)
  | .gap y => .gap y

theorem ev_bracket {env : Env} {s : St} {side : Bool} {sel : Option Ptr} {sc col : Nat} {b : Print × Nat} (h : (Ev.text col b).Real env s.view side sc) :
    IsBracket env s (cellAt env s.view sel sc col b) ↔ b.1.char = true := by
  obtain ⟨_, it, _, _, h3, h4⟩ := h
  exact prints_char h3 h4 rfl rfl

theorem ev_signs {env : Env} {s : St} {side : Bool} {w : Win} {e : Ev} (h : e.Real env s.view side w.scroll) :
    (e.layer env s.view w.sel w.scroll).signs env s w = e.marks env w.scroll := by
  cases e with
  | gap y => rfl
  | text col b =>
    have hb := ev_bracket (sel := w.sel) h
    have hsc : w.scroll < b.2 := h.1
    simp only [Ev.layer, Layer.signs, Ev.marks, markAt, displayDiffOp, hb]
    split
    · rename_i h1
      have h1 : env.op b.1.who = .equ := h1
      rw [if_pos h1]
    · rename_i h1
      have h1 : ¬ env.op b.1.who = .equ := h1
      rw [if_neg h1]
      simp only [cellAt, List.nil_append]
      congr 2
      split
      · rfl
      · omega

theorem flatMap_map_congr {α β γ : Type} (f : α → β) (g : β → List γ) (h : α → List γ) : ∀ (l : List α), (∀ a ∈ l, g (f a) = h a) → (l.map f).flatMap g = l.flatMap h := by
  intro l hl
  induction l with
  | nil => rfl
  | cons a l ih =>
    rw [List.map_cons, List.flatMap_cons, List.flatMap_cons, hl a List.mem_cons_self, ih fun b hb => hl b (List.mem_cons_of_mem _ hb)]

theorem called_layers {env : Env} {s : St} {side : Bool} {w : Win} {evs : List Ev} (h : Called env s.view side w evs) :
    Layers env s w (evs.map (Ev.layer env s.view w.sel w.scroll)) := by
  refine ⟨?_, ?_, ?_⟩
  · rw [h.screen]
    refine (flatMap_map_congr _ _ _ _ fun e _ => ?_).symm
    cases e <;> rfl
  · rw [h.marks]
    exact (flatMap_map_congr _ _ _ _ fun e he => ev_signs (h.real e he)).symm
  · rw [List.pairwise_map]
    have hline : ∀ e ∈ evs, (e.layer env s.view w.sel w.scroll).line w = e.first := by
      intro e he
      cases e with
      | gap y => rfl
      | text col b =>
        have := (h.real _ he).1
        simp only [Ev.layer, Layer.line, cellAt, Ev.first]
        omega
    refine List.Pairwise.imp_of_mem (fun ha hb hab => ?_) h.order
    rw [hline _ ha, hline _ hb]
    have := (h.bounds _ ha).2.1
    omega

theorem mark_seen (look : Looks) (s : St) (side : Bool) (k row : Nat) (op : Op) :
    (([.mark row op] : List Call).filterMap (glyphIn (look.of side) (inner s) s.height · k)).map (seen (look.of side)) = signSeen look s k ⟨row, op⟩ := by
  have hcol : (look.of side).colours = look.colours := rfl
  have hg : glyphIn (look.of side) (inner s) s.height (.mark row op) k =
      if row * inner s ≤ k then (glyphs (look.of side) s.height (.mark row op))[k - row * inner s]? else none := rfl
  unfold signSeen
  simp only [List.filterMap_cons, List.filterMap_nil, hg]
  by_cases hk : row * inner s ≤ k
  · rw [if_pos hk]
    by_cases hr : row < s.height
    · rw [if_pos ⟨hr, hk⟩, ← hcol, ← mark_picture (look.of side) op hr, List.getElem?_map]
      cases (glyphs (look.of side) s.height (.mark row op))[k - row * inner s]? <;> rfl
    · rw [if_neg (by omega)]
      simp [glyphs, hr]
  · rw [if_neg hk, if_neg (by omega)]
    rfl

theorem text_seen (look : Looks) (env : Env) (s : St) (side : Bool) (k : Nat) {row col : Nat} {a : Print} {sel srch : Bool} (hp : PrintOk env (look.of side) (inner s) col a) :
    (([.text a.char row col a.parts sel srch] : List Call).filterMap (glyphIn (look.of side) (inner s) s.height · k)).map (seen (look.of side)) =
      textSeen look env s k ⟨row, col, a.text, sel, srch, a.who, a.closing⟩ := by
  have hcol : (look.of side).colours = look.colours := rfl
  have hg : glyphIn (look.of side) (inner s) s.height (.text a.char row col a.parts sel srch) k =
      if row * inner s + col ≤ k then (textGlyphs (look.of side) sel srch a.parts)[k - (row * inner s + col)]? else none := rfl
  unfold textSeen cellPlace
  simp only [List.filterMap_cons, List.filterMap_nil, hg]
  by_cases hk : row * inner s + col ≤ k
  · rw [if_pos hk, if_pos hk, ← hcol, ← hp.picture, List.getElem?_map]
    cases (textGlyphs (look.of side) sel srch a.parts)[k - (row * inner s + col)]? <;> rfl
  · rw [if_neg hk, if_neg hk]
    rfl

theorem marks_seen (look : Looks) (s : St) (side : Bool) (k row : Nat) (op : Op) :
    ((callMark row op).filterMap (glyphIn (look.of side) (inner s) s.height · k)).map (seen (look.of side)) = (displayDiffOp row op []).flatMap (signSeen look s k) := by
  unfold callMark displayDiffOp
  split
  · rfl
  · rw [mark_seen]; simp

/-- What an event writes to a place. -/
theorem ev_seen (look : Looks) {env : Env} {s : St} {side : Bool} {w : Win} {e : Ev} (h : e.Real env s.view side w.scroll) (k : Nat)
    (hp : ∀ col b, e = .text col b → PrintOk env (look.of side) (inner s) col b.1) :
    ((e.calls env s.view w.sel w.scroll).filterMap (glyphIn (look.of side) (inner s) s.height · k)).map (seen (look.of side)) =
      (e.layer env s.view w.sel w.scroll).seen look env s w k := by
  cases e with
  | gap y =>
    show _ = (([⟨y, .rem⟩] : List Mark).flatMap (signSeen look s k))
    rw [Ev.calls, mark_seen]; simp
  | text col b =>
    have hs := ev_signs h
    have hb := ev_bracket (sel := w.sel) h
    have ht := text_seen look env s side k (row := b.2 - w.scroll) (sel := selOf env w.sel b.1.who) (srch := s.view.results.contains b.1.who) (hp col b rfl)
    simp only [Ev.layer] at hs
    simp only [Ev.calls, callAt, Ev.layer, Layer.seen, hs, Ev.marks, markAt, hb]
    cases hc : b.1.char with
    | true =>
      rw [hc] at ht
      rw [if_pos rfl, if_pos rfl, if_pos rfl, if_pos rfl, List.nil_append, ← List.singleton_append, List.filterMap_append, List.map_append, ht, marks_seen]
      rfl
    | false =>
      rw [hc] at ht
      simp only [Bool.false_eq_true, if_false]
      rw [List.filterMap_append, List.map_append, ht, marks_seen]
      rfl

/-- What is seen in a window. -/
theorem layers_at {env : Env} (look : Looks) (active : Bool) {s : St} {side : Bool} {w : Win} {evs : List Ev} (h : Called env s.view side w evs) (hp : Spec.Plain env.fmt env.len)
    (hd : AsciiDoc (env.root side)) (h5 : 5 ≤ s.width) (hw : s.width < 4294967296) (hh : 0 < s.height) (hn : 0 ∉ (look.of side).name)
    (hin : Inside s w) (k : Nat) (hk : k + 1 < inner s * s.height) (hlow : inner s ≤ k) :
    seen (look.of side) ((painted (look.of side) active s.width s.height w).at_ k) =
      (((evs.map (Ev.layer env s.view w.sel w.scroll)).flatMap (Layer.seen look env s w k)).getLast?).getD unused := by
  have h2 : less s.width 2 = inner s := less_eq (w := s.width) (k := 2) (by omega) hw (by omega)
  have hprint : ∀ col b, .text col b ∈ evs → PrintOk env (look.of side) (inner s) col b.1 := by
    intro col b hb
    obtain ⟨_, it, h1, h2, h3, h4⟩ := h.real _ hb
    have := prints_ok (look.of side) hp hd (view := s.view) h5 hw (by omega) h4 _ h3
    rw [h1] at this
    exact this
  have hfits : ∀ c ∈ w.calls, Fits (less s.width 2) s.height c := by
    intro c hc
    rw [h.calls] at hc
    obtain ⟨e, he, hc⟩ := List.mem_flatMap.mp hc
    rw [h2]
    rcases ev_calls hc with ⟨m, hm, rfl⟩ | ⟨col, b, rfl, rfl⟩
    · trivial
    · have hcell : cellAt env s.view w.sel w.scroll col b ∈ w.screen := by
        rw [h.screen]
        exact List.mem_flatMap.mpr ⟨_, he, List.mem_singleton_self _⟩
      have h1 := hin _ hcell
      exact ⟨h1.1, h1.2, (hprint col b he).char⟩
  rw [painted_last (look.of side) active (by rw [h2]; unfold inner; omega) hh hn hfits k (by rw [h2]; exact hk) (by rw [h2]; exact hlow), h2]
  have hmap : (w.calls.filterMap (glyphIn (look.of side) (inner s) s.height · k)).map (seen (look.of side)) =
      (evs.map (Ev.layer env s.view w.sel w.scroll)).flatMap (Layer.seen look env s w k) := by
    rw [h.calls]
    have hr := h.real
    clear hfits
    clear h
    induction evs with
    | nil => rfl
    | cons e evs ih =>
      rw [List.flatMap_cons, List.filterMap_append, List.map_append, List.map_cons, List.flatMap_cons,
        ev_seen look (hr e List.mem_cons_self) k (fun col b he => hprint col b (by rw [he]; exact List.mem_cons_self)),
        ih (fun col b hb => hprint col b (List.mem_cons_of_mem _ hb)) (fun e he => hr e (List.mem_cons_of_mem _ he))]
  rw [← hmap, List.getLast?_map]
  cases (w.calls.filterMap (glyphIn (look.of side) (inner s) s.height · k)).getLast? <;> rfl

theorem settle_done {env : Env} {n : Nat} : ∀ (k : Nat) {s t : St}, settle env n k s = some (some t) → ∃ s1, redraw env n s1 = some (.done t.first t.second) ∧ s1.view = t.view
  | 0, _, _, h => by cases h
  | k + 1, s, t, h => by
    have hv := settle_view h
    rw [settle] at h
    split at h
    · cases h
    · cases h
    · exact settle_done k h
    · next w0 w1 hr =>
      cases h
      exact ⟨s, hr, hv.symm⟩

end Verif.Lemmas.Split

namespace Verif.Props
open Verif.Model Verif.Model.Search Verif.Model.Diff Verif.Model.Split Verif.Model.SplitPaint Verif.Model.Term Verif.Spec Verif.Spec.SplitView Verif.Lemmas Verif.Lemmas.Split

/-- **C71, exactly.** After any drawing that is completed, scrolled or not: the marks of a window are, in this order, those of its layers. The mark of a bracket is on its line; that of any other text,
and of a gap, is as many lines too low as the window is scrolled. -/
theorem C71_exactly_partial (env : Env) (n k : Nat) (s t : St) (h : settle env n k s = some (some t)) (side : Bool) : ∃ ls, Layers env t (windowSide t side) ls := by
  obtain ⟨s1, hr, hv⟩ := settle_done k h
  have := done_called hr
  rw [hv] at this
  cases side with
  | false => obtain ⟨evs, hc⟩ := this.1; exact ⟨_, called_layers hc⟩
  | true => obtain ⟨evs, hc⟩ := this.2; exact ⟨_, called_layers hc⟩

/-- **C94 and C95, exactly**, for windows all texts of which begin inside of them, scrolled or not: the first line shows the title; and every other place but the last one shows what was written there last,
of the layers of the window. -/
theorem C94_exactly_partial (look : Looks) (env : Env) (n k cols rows : Nat) (ok : St → Split.Input → Prop) (s : St) (d : Display) (h : Watched look env n k cols rows ok s d none)
    (hp : Plain env.fmt env.len) (side : Bool) (hasc : AsciiDoc (env.root side)) (hn : 0 ∉ (look.of side).name) (hc : 10 ≤ d.cols) (hc' : d.cols < 4294967296) (hr : 3 ≤ d.rows)
    (hr' : d.rows < 4294967296) (hin : Inside s (windowSide s side)) :
    ∃ ls, Layers env s (windowSide s side) ls ∧ ∀ place, place + 1 < inner s * s.height → inner s ≤ place →
      seenIn look s side d place = ((ls.flatMap (Layer.seen look env s (windowSide s side) place)).getLast?).getD unused := by
  have hs := watched_shown h
  obtain ⟨h5, hw, hh⟩ := shown_sizes hs hc hc' hr hr'
  obtain ⟨d0, hd1, hd2, ⟨n1, s1, hr1, hv, hd⟩ | ⟨hm, _⟩⟩ := hs.picture
  · obtain ⟨evs, hcl⟩ : ∃ evs, Called env s.view side (windowSide s side) evs := by
      have := done_called hr1
      rw [hv] at this
      cases side with
      | false => exact this.1
      | true => exact this.2
    refine ⟨_, called_layers hcl, fun place hk hlow => ?_⟩
    have hpl := place_inside (W := inner s) (H := s.height) (k := place) (by omega)
    rw [← layers_at look (decide (s.selected = if side then 1 else 0)) hcl hp hasc h5 hw (by omega) hn hin place hk hlow]
    unfold seenIn
    rw [hd, under_above look none (windowsOn look s s.first s.second (framesOn s d0)) _ _ (show 1 + place / inner s + 1 < d0.rows from by rw [hd2, ← hh]; exact (by have := hpl.1; generalize place / inner s = a at *; omega)), windows_at look s s.first s.second _ h5 hw side place (by omega)]
    rfl
  · exact absurd rfl hm

/-- `["x", 0, 1, "A long text, for two lines"]` and the same with `"y"` -/
def scrolledLong : Env := asciiEnv (.arr [.str b!"x", .int 0, .int 1, .str b!"A long text, for two lines"]) (.arr [.str b!"y", .int 0, .int 1, .str b!"A long text, for two lines"])

/-- A window that is scrolled by one line, with a text that goes on in the next one: nothing is seen next to `"x"`, in line 1, and its sign in line 2. -/
example : ∃ look env s d, Compared env ∧ Watched look env 50 50 40 7 anyInput s d none ∧ Plain env.fmt env.len ∧ (windowSide s false).scroll = 1 ∧
    Inside s (windowSide s false) ∧ ¬ Short s (windowSide s false) ∧ (∃ c ∈ (windowSide s false).screen, c.who = .left [0] ∧ env.op c.who = .mod ∧ c.row = 1) ∧
    seenIn look s false d (1 * inner s) = unused ∧ seenIn look s false d (2 * inner s) = ⟨33, true, some (.cyan, .black)⟩ := by
  obtain ⟨s, d, m, h, hp⟩ := watchSplitFrom_some (look := aAndB) (env := scrolledLong) (n := 50) (k := 50) (cols := 40) (rows := 7) (l := [skey b!"J", skey b!"J", skey b!"J", skey b!"J"]) anyInput (fun _ _ _ => trivial)
    (p := fun s d m => decide (m = none ∧ (windowSide s false).scroll = 1 ∧ (∀ c ∈ (windowSide s false).screen, c.row < s.height ∧ c.col < inner s) ∧ (¬ ∀ c ∈ (windowSide s false).screen, c.col + c.text.length ≤ inner s)) &&
      (decide (∃ c ∈ (windowSide s false).screen, c.who = .left [0] ∧ scrolledLong.op c.who = .mod ∧ c.row = 1) &&
      decide (seenIn aAndB s false d (1 * inner s) = unused ∧ seenIn aAndB s false d (2 * inner s) = ⟨33, true, some (.cyan, .black)⟩))) (by decide +kernel)
  rw [Bool.and_eq_true, Bool.and_eq_true] at hp
  obtain ⟨rfl, h1, h2, h3⟩ := of_decide_eq_true hp.1
  obtain ⟨h4, h5⟩ := of_decide_eq_true hp.2.2
  exact ⟨aAndB, scrolledLong, s, d, asciiEnv_compared (by decide +kernel), h, asciiEnv_plain _ _, h1, h2, h3, of_decide_eq_true hp.2.1, h4, h5⟩

end Verif.Props
