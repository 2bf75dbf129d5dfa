import Verif.Lemmas.Prompt
import Verif.Props.Picture
/-! # The prompt in the view of one document -/
namespace Verif.Lemmas.Prompt
open Verif.Model Verif.Model.Search Verif.Model.Loop Verif.Model.Prompt Verif.Model.Term Verif.Model.Paint Verif.Lemmas Verif.Props Verif.Spec

/-- Two terminals of the same size. -/
def SameSize (t t0 : Terminal) : Prop := t.width = t0.width ∧ t.height = t0.height

theorem execP_out (look : Look) (env : Tui.Env) (view : Tui.View) (sel : Option Path) : ∀ (es : List Ev) (e : Pen), ∃ l, (execP look env view sel es e).1.out = e.out ++ l := by
  intro es
  induction es with
  | nil => intro e; exact ⟨[], by simp [execP]⟩
  | cons ev es ih =>
    intro e
    simp only [execP]
    rcases h : ev.run view sel e.d with ⟨d', b'⟩
    cases b' with
    | true =>
      obtain ⟨l, hl⟩ := ih ⟨d', e.out ++ ev.cmds look env view sel e.d⟩
      exact ⟨_, by rw [hl, List.append_assoc]⟩
    | false => exact ⟨_, rfl⟩

/-- A drawing begins with `clear()`. -/
theorem redrawCmds_clear (look : Look) (env : Tui.Env) (s : Tui.St) (hn : NoVal env s.sel) : ∃ l, redrawCmds look env s = .clear :: l := by
  have h1 := paint_value look env (viewOf s) s.sel hn env.root s.sel [] [] false 0 ⟨blank s.scroll, [.clear, topLine look s.width]⟩ rfl (.inl ⟨rfl, Iff.rfl⟩) (.inl rfl)
  obtain ⟨l, hl⟩ := execP_out look env (viewOf s) s.sel (evs env s) ⟨blank s.scroll, [.clear, topLine look s.width]⟩
  refine ⟨topLine look s.width :: l, ?_⟩
  show (paintValue look env (viewOf s) s.sel [] false 0 ⟨blank s.scroll, [.clear, topLine look s.width]⟩ env.root).1.out = _
  rw [h1]
  exact hl

theorem clear_run {t t0 : Terminal} (h : SameSize t t0) : Cmd.clear.run t = Cmd.clear.run t0 := by
  obtain ⟨w, hh, a, c⟩ := t
  obtain ⟨w0, hh0, a0, c0⟩ := t0
  obtain ⟨h1, h2⟩ := h
  dsimp only at h1 h2
  subst h1 h2
  rfl

theorem redraw_run (look : Look) (env : Tui.Env) (s : Tui.St) (hn : NoVal env s.sel) (more : List Cmd) {t t0 : Terminal} (h : SameSize t t0) :
    runCmds (redrawCmds look env s ++ more) t = runCmds (redrawCmds look env s ++ more) t0 := by
  obtain ⟨l, hl⟩ := redrawCmds_clear look env s hn
  rw [hl, List.cons_append, runCmds_cons, runCmds_cons, clear_run h]

/-- What was on the terminal before makes no difference to what is there after a drawing. -/
theorem settleOn_any {look : Look} {env : Tui.Env} : ∀ (n : Nat) (s : Tui.St) (t t0 : Terminal), Ptrs env s → SameSize t t0 → settleOn look env n s t = settleOn look env n s t0 := by
  intro n
  induction n with
  | zero => intro s t t0 _ _; rfl
  | succ n ih =>
    intro s t t0 hp h
    have := redraw_run look env s (ptrs_noVal hp) [] h
    rw [List.append_nil] at this
    rw [settleOn, settleOn, this]

theorem messageOn_any {look : Look} {env : Tui.Env} {s : Tui.St} {t t0 : Terminal} (msg : Bytes) (hp : Ptrs env s) (h : SameSize t t0) : messageOn look env s t msg = messageOn look env s t0 msg := by
  unfold messageOn messageCmds
  rw [redraw_run look env s (ptrs_noVal hp) _ h]

/-- The same answer, on terminals of the same size; the same terminal if nothing is drawn after it. -/
def Erased : Tui.Answer × Terminal × Option Bytes → Tui.Answer × Terminal × Option Bytes → Prop
  | (.redraw s, t, _), (.redraw s0, t0, _) => s = s0 ∧ SameSize t t0
  | (.crash, _), (.crash, _) => True
  | r, r0 => r = r0

theorem erased_rfl (r : Tui.Answer × Terminal × Option Bytes) : Erased r r := by
  obtain ⟨a, t, m⟩ := r
  cases a <;> first | exact ⟨rfl, rfl, rfl⟩ | trivial | rfl

theorem nextResultOn_any {look : Look} {env : Tui.Env} {s : Tui.St} {t t0 : Terminal} (hp : Ptrs env s) (hr : ResultsOK env s.results) (h : SameSize t t0) :
    Erased (nextResultOn look env s t) (nextResultOn look env s t0) := by
  have hall := results_items hr
  have hm : ∀ s msg, Ptrs env s → Erased (messageOn look env s t msg) (messageOn look env s t0 msg) := fun s msg hp => by rw [messageOn_any msg hp h]; exact erased_rfl _
  unfold nextResultOn
  cases hq : s.results with
  | nil => exact hm _ _ hp
  | cons z zs =>
    rw [hq] at hall
    simp only
    cases hsel : s.sel with
    | none =>
      exact hm { s with results := z :: zs, sel := some z, collapsed := Nav.unfold s.collapsed z } _ ⟨ofItems_some (hall z (by simp)).1, hp.2.1, hp.2.2.1, fun q hq => (hall q hq).1⟩
    | some p =>
      simp only
      cases hj : Nav.jump env.root (z :: zs) p s.collapsed with
      | none => trivial
      | some r =>
        obtain ⟨a, c, b⟩ := r
        have ha : a ∈ items env.root := jumpTarget_items (fun q hq => (hall q hq).1)
          (by obtain ⟨e, he⟩ := ((mem_items _ _).mp (hp.1 p hsel)).1; rw [he]; simp) (fun q hq => (hall q hq).2) hj
        cases b with
        | true => exact ⟨rfl, h⟩
        | false => exact hm { s with results := z :: zs, sel := some a, collapsed := c } _ ⟨ofItems_some ha, hp.2.1, hp.2.2.1, fun q hq => (hall q hq).1⟩

theorem initSearchOn_any {look : Look} {env : Tui.Env} {s : Tui.St} {t t0 : Terminal} (pat : Option Pattern) (hp : Ptrs env s) (h : SameSize t t0) (hw : t0.width = s.width)
    (hh : t0.height = s.height) : Erased (initSearchOn look env pat s t) (initSearchOn look env pat s t0) ∧
      ∀ s' t' m, initSearchOn look env pat s t0 = (.redraw s', t', m) → Ptrs env s' := by
  unfold initSearchOn
  cases pat with
  | none => exact ⟨⟨rfl, h⟩, fun s' t' m e => by cases e; exact hp⟩
  | some p =>
    simp only
    split
    · exact ⟨⟨rfl, h⟩, fun s' t' m e => by cases e; exact ⟨hp.1, hp.2.1, hp.2.2.1, by intro q hq; cases hq⟩⟩
    · have hro : ResultsOK env (Nav.search env.rx env.fmt p env.root).1 := .inr ⟨p, rfl⟩
      have hp' : Ptrs env { s with results := (Nav.search env.rx env.fmt p env.root).1 } := ⟨hp.1, hp.2.1, hp.2.2.1, fun q hq => (results_items hro q hq).1⟩
      exact ⟨nextResultOn_any hp' hro h, fun s' t' m e => ((nextResultOn_fresh hp' hro hw hh).2 s' t' m e).1⟩

/-- After the prompt: what it wrote makes no difference. -/
theorem one_search {look : Look} {env : Tui.Env} (n : Nat) {s : Tui.St} {t t0 : Terminal} (m m0 : Option Bytes) (pat : Option Pattern) (hp : Ptrs env s) (h : SameSize t t0) (hw : t0.width = s.width)
    (hh : t0.height = s.height) : (singleOn look env n).key b!"/" pat (s, t, m) = (singleOn look env n).key b!"/" pat (s, t0, m0) := by
  obtain ⟨h1, h2⟩ := initSearchOn_any (look := look) pat hp h hw hh
  have e : ∀ t m, evalKeyOn look env b!"/" pat s t m = initSearchOn look env pat s t := fun _ _ => rfl
  dsimp only [singleOn, stepOn]
  rw [e, e]
  revert h1 h2
  generalize initSearchOn look env pat s t = r
  generalize initSearchOn look env pat s t0 = r0
  intro h1 h2
  obtain ⟨a, u, x⟩ := r
  obtain ⟨a0, u0, x0⟩ := r0
  cases a with
  | redraw s1 =>
    cases a0 <;> first | (simp only [Erased] at h1; cases h1; done) | skip
    obtain ⟨e1, e2⟩ := h1
    subst e1
    simp only
    rw [settleOn_any n s1 u u0 (h2 _ _ _ rfl) e2]
  | crash => cases a0 <;> first | rfl | (simp only [Erased] at h1; cases h1; done)
  | nextInput s1 => cases a0 <;> (simp only [Erased] at h1; cases h1) <;> rfl
  | quit => cases a0 <;> (simp only [Erased] at h1; cases h1) <;> rfl

theorem one_resize {look : Look} {env : Tui.Env} (n w h : Nat) (s : Tui.St) (t t0 : Terminal) (m m0 : Option Bytes) :
    (singleOn look env n).resize w h (s, t, m) = (singleOn look env n).resize w h (s, t0, m0) := rfl

/-- What is written on the last line leaves the rest as it is. -/
theorem promptOne_above (colours : Bool) (wide : List Nat → Bytes) (line : List Nat) (t : Terminal) :
    SameSize (runCmds (promptCmds colours wide t.width t.height line) t) t ∧
    ∀ k, k < (t.height - 1) * t.width → (runCmds (promptCmds colours wide t.width t.height line) t).at_ k = t.at_ k := by
  refine ⟨runCmds_size _ _, fun k hk => ?_⟩
  have hmove : ∀ (y x : Nat) (t : Terminal), ((Cmd.move y x).run t).at_ = t.at_ := by
    intro y x t; simp only [Cmd.run]; split <;> rfl
  have hputs : ∀ (a : Attr) (text : Bytes) (t : Terminal), k < t.cursor → (puts a text t).at_ k = t.at_ k := by
    intro a text
    induction text with
    | nil => intro t _; rfl
    | cons c cs ih =>
      intro t ht
      simp only [puts]
      split
      · rw [ih _ (by show k < t.cursor + 1; omega)]
        exact if_neg (by omega)
      · exact if_neg (by omega)
  simp only [promptCmds, runCmds, List.foldl_cons, List.foldl_nil, hmove]
  simp only [Cmd.run]
  split
  · exact hputs _ _ _ (by show k < (t.height - 1) * t.width + 0; omega)
  · rfl

/-- The last line with the prompt. -/
theorem prompt_shows (colours : Bool) (wide : List Nat → Bytes) (line : List Nat) (t : Terminal) (hw : wide (c%'/' :: line) = c%'/' :: line) (h0 : 0 < t.width) (hh : 0 < t.height) (x : Nat) (hx : x < t.width) :
    (runCmds (promptCmds colours wide t.width t.height line) t).at_ ((t.height - 1) * t.width + x) =
      ⟨(c%'/' :: line).getD x 32, ⟨false, if colours then some specialSearch else none⟩⟩ := by
  have hmove : ∀ (y x : Nat) (t : Terminal), ((Cmd.move y x).run t).at_ = t.at_ := by
    intro y x t; simp only [Cmd.run]; split <;> rfl
  have hin : Term.inside t (t.height - 1) 0 = true := by simp only [Term.inside, h0, decide_true, Bool.and_true, decide_eq_true_eq]; omega
  have hlt := place_lt (w := t.width) (h := t.height) (y := t.height - 1) (x := 0) (by omega) h0
  have hlx := place_lt (w := t.width) (h := t.height) (y := t.height - 1) (x := x) (by omega) hx
  simp only [promptCmds, runCmds, List.foldl_cons, List.foldl_nil, hmove, hw]
  simp only [Cmd.run, hin, if_true]
  rw [puts_at _ _ { t with cursor := (t.height - 1) * t.width + 0 } hlt _ hlx]
  simp only [over, Nat.add_zero]
  rw [if_pos (by omega), show (t.height - 1) * t.width + x - (t.height - 1) * t.width = x from by omega, List.getElem?_map, List.getD_eq_getElem?_getD]
  have hlen : (c%'/' :: line).length = line.length + 1 := List.length_cons ..
  by_cases hx1 : x < (c%'/' :: line).length
  · rw [List.getElem?_append_left hx1, List.getElem?_eq_getElem hx1]; rfl
  · have hc : x - (c%'/' :: line).length < max 1 (if line.length + 1 ≤ t.width then t.width - (line.length + 1) else line.length + 1 - t.width) := by
      rw [hlen] at hx1 ⊢
      rw [if_pos (show line.length + 1 ≤ t.width by omega)]
      omega
    rw [List.getElem?_append_right (by omega), List.getElem?_replicate, if_pos hc, List.getElem?_eq_none (by omega)]
    rfl

/-- The cursor is behind the text. -/
theorem prompt_cursor (colours : Bool) (wide : List Nat → Bytes) (line : List Nat) (t : Terminal) (hh : 0 < t.height) (hl : line.length + 1 < t.width) :
    (runCmds (promptCmds colours wide t.width t.height line) t).cursor = (t.height - 1) * t.width + (line.length + 1) := by
  have hz := runCmds_size ((promptCmds colours wide t.width t.height line).take 1) t
  have : runCmds (promptCmds colours wide t.width t.height line) t = (Cmd.move (t.height - 1) (line.length + 1)).run (runCmds ((promptCmds colours wide t.width t.height line).take 1) t) := rfl
  rw [this]
  generalize runCmds ((promptCmds colours wide t.width t.height line).take 1) t = u at hz ⊢
  have hin : Term.inside u (t.height - 1) (line.length + 1) = true := by
    simp only [Term.inside, hz.1, hz.2, Bool.and_eq_true, decide_eq_true_eq]; omega
  simp only [Cmd.run, hin, if_true, hz.1]

end Verif.Lemmas.Prompt
