import Verif.Props.TuiMoves
import Verif.Props.LoopSize
import Verif.Lemmas.PictureRows
/-! # C87–C89: what is seen on the terminal -/
namespace Verif.Props
open Verif.Model Verif.Model.Search Verif.Model.Nav Verif.Model.Tui Verif.Model.Term Verif.Model.Paint Verif.Spec Verif.Lemmas

/-- The lines of the display, from number `from_` on, that are on the screen, each with the line of the terminal where it begins (C62). -/
def window (env : Env) (s : St) (from_ : Nat) : List (Nat × Row) := onScreen s.width s.height 1 ((outlineOf env s).drop from_)

/-- The program waits for an input in the state `s`, with this on the terminal, after a history of inputs each of which was `ok` in its state; and the message
on the last line, if there is one. -/
inductive Watches (look : Look) (env : Env) (ok : St → Tui.Input → Prop) : St → Terminal → Option Bytes → Prop
  | start {w h n s t} : ok (Tui.start w h) (.resize w h) → settleOn look env n (Tui.start w h) ⟨w, h, fun _ => nothing, 0⟩ = some (.done s, t) → Watches look env ok s t none
  | step {n i s t m s' t' m'} : Watches look env ok s t m → ok s i → stepOn look env n i s t m = some (.nextInput s', t', m') → Watches look env ok s' t' m'

theorem puts_size (a : Attr) (text : Bytes) : ∀ t : Terminal, (puts a text t).width = t.width ∧ (puts a text t).height = t.height := by
  induction text with
  | nil => intro t; exact ⟨rfl, rfl⟩
  | cons c cs ih =>
    intro t
    simp only [puts]
    split
    · exact ih _
    · exact ⟨rfl, rfl⟩

theorem cmd_size (c : Cmd) (t : Terminal) : (c.run t).width = t.width ∧ (c.run t).height = t.height := by
  cases c with
  | clear => exact ⟨rfl, rfl⟩
  | move y x => simp only [Cmd.run]; split <;> exact ⟨rfl, rfl⟩
  | put text a => exact puts_size a text t
  | mvput y x text a =>
    simp only [Cmd.run]; split
    · exact puts_size a text _
    · exact ⟨rfl, rfl⟩

theorem runCmds_size (cs : List Cmd) : ∀ t : Terminal, (runCmds cs t).width = t.width ∧ (runCmds cs t).height = t.height := by
  induction cs with
  | nil => intro t; exact ⟨rfl, rfl⟩
  | cons c cs ih =>
    intro t
    rw [runCmds_cons]
    have := ih (c.run t)
    have h := cmd_size c t
    exact ⟨this.1.trans h.1, this.2.trans h.2⟩

/-- The terminal follows the drawing (and has no effect on it). -/
theorem settleOn_settle {look : Look} {env : Env} : ∀ (n : Nat) (s : St) (t : Terminal), (settleOn look env n s t).map Prod.fst = settle env n s := by
  intro n
  induction n with
  | zero => intro s t; rfl
  | succ n ih =>
    intro s t
    simp only [settleOn, settle]
    cases redraw env s with
    | crash => rfl
    | done s1 => rfl
    | retry s1 => exact ih _ _

theorem nextResultOn_fst (look : Look) (env : Env) (s : St) (t : Terminal) : (nextResultOn look env s t).1 = nextResult env s := by
  unfold nextResultOn nextResult
  cases hr : s.results with
  | nil => rfl
  | cons q rs =>
    cases s.sel with
    | none => rfl
    | some p =>
      simp only
      cases jump env.root (q :: rs) p s.collapsed with
      | none => rfl
      | some r =>
        obtain ⟨a, b, c⟩ := r
        cases c <;> rfl

theorem evalKeyOn_fst (look : Look) (env : Env) (name : Bytes) (pat : Option Pattern) (s : St) (t : Terminal) (m : Option Bytes) :
    (evalKeyOn look env name pat s t m).1 = evalKey env name pat s := by
  unfold evalKeyOn
  split
  · next h =>
    subst h
    have : evalKey env b!"/" pat s = initSearch env pat s := rfl
    rw [this]
    unfold initSearchOn initSearch
    cases pat with
    | none => rfl
    | some p =>
      simp only
      split
      · rfl
      · exact nextResultOn_fst ..
  split
  · next h => subst h; exact nextResultOn_fst ..
  · rfl

/-- The same with the terminal left out is the program of C38–C43. -/
theorem stepOn_step (look : Look) (env : Env) (n : Nat) (i : Tui.Input) (s : St) (t : Terminal) (m : Option Bytes) : (stepOn look env n i s t m).map (·.1) = step env n i s := by
  have key : ∀ (s : St) (t : Terminal), (match settleOn look env n s t with
      | none => none
      | some (.crash, t) => some (Answer.crash, t, (none : Option Bytes))
      | some (.done s, t) => some (Answer.nextInput s, t, none)
      | some (.retry _, _) => none : Option (Answer × Terminal × Option Bytes)).map (·.1) = (match settle env n s with
      | none => none
      | some .crash => some .crash
      | some (.done s) => some (.nextInput s)
      | some (.retry _) => none : Option Answer) := by
    intro s t
    rw [← settleOn_settle (look := look) n s t]
    cases settleOn look env n s t with
    | none => rfl
    | some r =>
      obtain ⟨d, t'⟩ := r
      cases d <;> rfl
  cases i with
  | resize w h => exact key _ _
  | key name pat =>
    simp only [stepOn, step]
    rw [← evalKeyOn_fst look env name pat s t m]
    rcases evalKeyOn look env name pat s t m with ⟨a, t', m'⟩
    cases a with
    | redraw s1 => exact key _ _
    | nextInput s1 => rfl
    | quit => rfl
    | crash => rfl

theorem watches_waits {look : Look} {env : Env} {ok : St → Tui.Input → Prop} {s : St} {t : Terminal} {m : Option Bytes} (h : Watches look env ok s t m) : Waits env ok s := by
  induction h with
  | @start w h n s t hok hs =>
    refine .start (n := n) hok ?_
    rw [← settleOn_settle (look := look) n _ ⟨w, h, fun _ => nothing, 0⟩, hs]; rfl
  | @step n i s t m s' t' m' _ hok hs ih =>
    refine .step (n := n) (i := i) ih hok ?_
    rw [← stepOn_step look env n i s t m, hs]; rfl

/-- What is written below the document. -/
def below (look : Look) (s : St) : Option Bytes → List Cmd
  | none => []
  | some msg => bottomLine look s.width s.height msg specialError

/-- The state, the terminal and the message come from a drawing. -/
def Fresh (look : Look) (env : Env) (s : St) (t : Terminal) (m : Option Bytes) : Prop :=
  ∃ s0 t0, NoVal env s0.sel ∧ Kept s0 s ∧ t0.width = s0.width ∧ t0.height = s0.height ∧
    (s.scroll = (exec (viewOf s0) s0.sel (evs env s0) (blank s0.scroll)).1.scroll ∨
      m ≠ none ∧ s.scroll = (exec (viewOf s0) s0.sel (evs env s0) (blank s0.scroll)).1.scroll + 1) ∧
    (∀ msg, m = some msg → msg = notFound ∨ msg = Paint.wrapped) ∧ t = runCmds (redrawCmds look env s0 ++ below look s0 m) t0

theorem redraw_scroll_retry {env : Env} {s s' : St} (hn : NoVal env s.sel) (h : redraw env s = .retry s') :
    s'.scroll = (exec (viewOf s) s.sel (evs env s) (blank s.scroll)).1.scroll + 1 := by
  have hd := draw_root env s s.sel hn (blank s.scroll)
  have hd' : drawValue env ⟨s.width, s.height, s.collapsed, s.results⟩ s.sel [] false 0 ⟨1, s.scroll, none, none, false, []⟩ env.root = _ := hd
  unfold redraw at h
  simp only [hd'] at h
  generalize exec (viewOf s) s.sel (evs env s) (blank s.scroll) = r at h ⊢
  obtain ⟨d, b⟩ := r
  simp only at h ⊢
  split at h
  · cases h; rfl
  · split at h <;> cases h

theorem ptrs_noVal {env : Env} {s : St} (h : Ptrs env s) : NoVal env s.sel := by
  cases hs : s.sel with
  | none => intro a k v _ h; simp at h
  | some q => exact noVal_item (h.1 q hs)

/-- What is on the terminal comes from the last drawing. -/
theorem settleOn_fresh {look : Look} {env : Env} : ∀ (n : Nat) (s s' : St) (t t' : Terminal), Ptrs env s → t.width = s.width → t.height = s.height →
    settleOn look env n s t = some (.done s', t') → Fresh look env s' t' none := by
  intro n
  induction n with
  | zero => intro s s' t t' _ _ _ h; simp [settleOn] at h
  | succ n ih =>
    intro s s' t t' hp hw hh h
    have hn := ptrs_noVal hp
    rw [settleOn] at h
    cases hr : redraw env s with
    | crash => simp only [hr] at h; cases h
    | done s1 =>
      simp only [hr] at h; cases h
      exact ⟨s, t, hn, ((redraw_ptrs hp).1 _ hr).1, hw, hh, .inl (redraw_screen hn hr).2, (by intro msg h; cases h), by simp [below]⟩
    | retry s1 =>
      simp only [hr] at h
      obtain ⟨hk, hp1⟩ := (redraw_ptrs hp).2 _ hr
      have hz := runCmds_size (redrawCmds look env s) t
      exact ih s1 s' _ t' hp1 (by rw [hk.2.2.2.1, ← hw]; exact hz.1) (by rw [hk.2.2.2.2, ← hh]; exact hz.2) h

theorem messageOn_fresh {look : Look} {env : Env} {s s' : St} {t t' : Terminal} {msg : Bytes} {m : Option Bytes} (hm : msg = notFound ∨ msg = Paint.wrapped) (hp : Ptrs env s)
    (hw : t.width = s.width) (hh : t.height = s.height) (h : messageOn look env s t msg = (.nextInput s', t', m)) : Fresh look env s' t' m := by
  simp only [messageOn, Prod.mk.injEq] at h
  obtain ⟨h1, h2, h3⟩ := h
  subst h2 h3
  have hmsg : ∀ msg', some msg = some msg' → msg' = notFound ∨ msg' = Paint.wrapped := by intro msg' h; cases h; exact hm
  have hn := ptrs_noVal hp
  unfold redrawMessage at h1
  cases hr : redraw env s with
  | crash => rw [hr] at h1; cases h1
  | done s1 =>
    rw [hr] at h1; cases h1
    exact ⟨s, t, hn, ((redraw_ptrs hp).1 _ hr).1, hw, hh, .inl (redraw_screen hn hr).2, hmsg, rfl⟩
  | retry s1 =>
    rw [hr] at h1; cases h1
    exact ⟨s, t, hn, ((redraw_ptrs hp).2 _ hr).1, hw, hh, .inr ⟨by simp, redraw_scroll_retry hn hr⟩, hmsg, rfl⟩

theorem fresh_size {look : Look} {env : Env} {s : St} {t : Terminal} {m : Option Bytes} (h : Fresh look env s t m) : t.width = s.width ∧ t.height = s.height := by
  obtain ⟨s0, t0, -, hk, hw, hh, -, -, rfl⟩ := h
  have hz := runCmds_size (redrawCmds look env s0 ++ below look s0 m) t0
  exact ⟨hz.1.trans (hw.trans hk.2.2.2.1.symm), hz.2.trans (hh.trans hk.2.2.2.2.symm)⟩

theorem results_items {env : Env} {results : List Path} (h : ResultsOK env results) : ∀ q ∈ results, q ∈ items env.root ∧ ∃ e, elem env.root q = some e ∧ e.isContainer = false := by
  rcases h with rfl | ⟨pat, rfl⟩ <;> intro q hq
  · simp at hq
  · exact results_elems env.rx env.fmt pat env.root q hq

/-- What N does: either the screen is to be drawn, with the same size, or it has been drawn with a message. -/
theorem nextResultOn_fresh {look : Look} {env : Env} {s : St} {t : Terminal} (hp : Ptrs env s) (hr : ResultsOK env s.results) (hw : t.width = s.width) (hh : t.height = s.height) :
    (∀ s' t' m, nextResultOn look env s t = (.nextInput s', t', m) → Fresh look env s' t' m) ∧
    (∀ s' t' m, nextResultOn look env s t = (.redraw s', t', m) → Ptrs env s' ∧ t'.width = s'.width ∧ t'.height = s'.height) := by
  have hall := results_items hr
  have hm : ∀ s0 msg s' t' m, messageOn look env s0 t msg ≠ (.redraw s', t', m) := by
    intro s0 msg s' t' m h
    simp only [messageOn, Prod.mk.injEq] at h
    have := h.1
    unfold redrawMessage at this
    split at this <;> cases this
  unfold nextResultOn
  cases hq : s.results with
  | nil => exact ⟨fun s' t' m h => messageOn_fresh (.inl rfl) hp hw hh h, fun s' t' m h => (hm _ _ _ _ _ h).elim⟩
  | cons z zs =>
    rw [hq] at hall
    simp only
    cases hsel : s.sel with
    | none =>
      exact ⟨fun s' t' m h => messageOn_fresh (s := { s with results := z :: zs, sel := some z, collapsed := unfold s.collapsed z }) (.inr rfl)
        ⟨ofItems_some (hall z (by simp)).1, hp.2.1, hp.2.2.1, fun q hq => (hall q hq).1⟩ hw hh h, fun s' t' m h => (hm _ _ _ _ _ h).elim⟩
    | some p =>
      simp only
      cases hj : jump env.root (z :: zs) p s.collapsed with
      | none => exact ⟨fun s' t' m h => (by cases h), fun s' t' m h => (by cases h)⟩
      | some r =>
        obtain ⟨a, c, b⟩ := r
        have ha : a ∈ items env.root := jumpTarget_items (fun q hq => (hall q hq).1)
          (by obtain ⟨e, he⟩ := ((mem_items _ _).mp (hp.1 p hsel)).1; rw [he]; simp) (fun q hq => (hall q hq).2) hj
        have hp' : Ptrs env { s with results := z :: zs, sel := some a, collapsed := c } := ⟨ofItems_some ha, hp.2.1, hp.2.2.1, fun q hq => (hall q hq).1⟩
        cases b with
        | true =>
          refine ⟨fun s' t' m h => (by cases h), fun s' t' m h => ?_⟩
          cases h
          exact ⟨hp', hw, hh⟩
        | false => exact ⟨fun s' t' m h => messageOn_fresh (.inr rfl) hp' hw hh h, fun s' t' m h => (hm _ _ _ _ _ h).elim⟩

/-- The state is as it was if nothing is to be drawn. -/
def Untouched (s : St) : Answer → Prop
  | .nextInput s' => s' = s
  | _ => True

theorem evalKey_same (env : Env) (name : Bytes) (pat : Option Pattern) (s : St) (h1 : name ≠ b!"/") (h2 : name ≠ b!"N") : Untouched s (evalKey env name pat s) := by
  unfold evalKey
  split
  · trivial
  split
  · trivial
  split
  · unfold selectDown; split; trivial; split; trivial; exact rfl
  split
  · unfold selectPUp; split; trivial; split; trivial; split; trivial; exact rfl
  split
  · unfold selectPDown; split; trivial; split; trivial; exact rfl
  split
  · unfold expandSelection; split; exact rfl; simp only; split; trivial; split; exact rfl; split; trivial; split; exact rfl; trivial
  split
  · unfold collapseSelection; split; trivial; simp only; split; trivial; split <;> trivial
  exact rfl

theorem watches_fresh {look : Look} {env : Env} {ok : St → Tui.Input → Prop} {s : St} {t : Terminal} {m : Option Bytes} (h : Watches look env ok s t m) : Fresh look env s t m := by
  induction h with
  | @start w h n s t hok hs =>
    exact settleOn_fresh n (Tui.start w h) s _ t ⟨ofItems_some (by simp [items, visible]), (by intro p hp; cases hp), (by intro p hp; cases hp), (by intro q hq; cases hq)⟩ rfl rfl hs
  | @step n i s t m s' t' m' hprev hok hs ih =>
    obtain ⟨hp, hr⟩ := waits_ptrs (watches_waits hprev)
    obtain ⟨hw, hh⟩ := fresh_size ih
    have after : ∀ s1 t1, Ptrs env s1 → t1.width = s1.width → t1.height = s1.height → (match settleOn look env n s1 t1 with
        | none => none
        | some (.crash, t) => some (Answer.crash, t, (none : Option Bytes))
        | some (.done s, t) => some (Answer.nextInput s, t, none)
        | some (.retry _, _) => none) = some (.nextInput s', t', m') → Fresh look env s' t' m' := by
      intro s1 t1 hp1 hw1 hh1 h1
      cases hx : settleOn look env n s1 t1 with
      | none => rw [hx] at h1; cases h1
      | some r =>
        obtain ⟨d, t2⟩ := r
        rw [hx] at h1
        cases d with
        | crash => cases h1
        | retry s2 => cases h1
        | done s2 => cases h1; exact settleOn_fresh n s1 s' t1 t' hp1 hw1 hh1 hx
    cases i with
    | resize w h => exact after { s with width := w, height := h } _ hp rfl rfl hs
    | key name pat =>
      simp only [stepOn] at hs
      have hkey : (∀ s' t' m', evalKeyOn look env name pat s t m = (.nextInput s', t', m') → Fresh look env s' t' m') ∧
          (∀ s' t' m', evalKeyOn look env name pat s t m = (.redraw s', t', m') → Ptrs env s' ∧ t'.width = s'.width ∧ t'.height = s'.height) := by
        unfold evalKeyOn
        split
        · unfold initSearchOn
          cases pat with
          | none => exact ⟨fun _ _ _ h => (by cases h), fun _ _ _ h => (by cases h; exact ⟨hp, hw, hh⟩)⟩
          | some p =>
            simp only
            split
            · exact ⟨fun _ _ _ h => (by cases h), fun _ _ _ h => (by cases h; exact ⟨⟨hp.1, hp.2.1, hp.2.2.1, by intro q hq; cases hq⟩, hw, hh⟩)⟩
            · have hro : ResultsOK env (Nav.search env.rx env.fmt p env.root).1 := .inr ⟨p, rfl⟩
              exact nextResultOn_fresh (s := { s with results := (Nav.search env.rx env.fmt p env.root).1 }) ⟨hp.1, hp.2.1, hp.2.2.1, fun q hq => (results_items hro q hq).1⟩ hro hw hh
        split
        · exact nextResultOn_fresh hp hr hw hh
        · next hn1 hn2 =>
          have hk := evalKey_ptrs hp hr name pat
          have hsz := tui_key_size env name pat s
          have hkeep : ∀ s', evalKey env name pat s = .nextInput s' → s' = s := by
            intro s' h
            have := evalKey_same env name pat s hn1 hn2
            rw [h] at this
            exact this
          refine ⟨fun s' t' m' h => ?_, fun s' t' m' h => ?_⟩
          · simp only [Prod.mk.injEq] at h
            obtain ⟨h1, rfl, rfl⟩ := h
            rw [hkeep s' h1]; exact ih
          · simp only [Prod.mk.injEq] at h
            obtain ⟨h1, rfl, rfl⟩ := h
            rw [h1] at hk hsz
            exact ⟨hk, hw.trans hsz.1.symm, hh.trans hsz.2.symm⟩
      rcases hx : evalKeyOn look env name pat s t m with ⟨a, t1, m1⟩
      rw [hx] at hkey hs
      cases a with
      | redraw s1 => obtain ⟨g1, g2, g3⟩ := hkey.2 s1 t1 m1 rfl; exact after s1 t1 g1 g2 g3 hs
      | nextInput s1 => cases hs; exact hkey.1 _ _ _ rfl
      | quit => cases hs
      | crash => cases hs

/-- The calls of a drawing. -/
theorem redrawCmds_rows (look : Look) (env : Env) (s : St) (hn : NoVal env s.sel) (hh : 2 ≤ s.height) (h3 : 3 ≤ s.width) (hw : s.width < 4294967296) :
    redrawCmds look env s = [.clear, topLine look s.width] ++
      (window env s (exec (viewOf s) s.sel (evs env s) (blank s.scroll)).1.scroll).flatMap (rowCmds look env (viewOf s) s.sel) := by
  have h1 := paint_value look env (viewOf s) s.sel hn env.root s.sel [] [] false 0 ⟨blank s.scroll, [.clear, topLine look s.width]⟩ rfl (.inl ⟨rfl, Iff.rfl⟩) (.inl rfl)
  have h2 := out_tall look env (viewOf s) s.sel hh (evs env s) (outlineOf env s) s.scroll [.clear, topLine look s.width] ((match_evs env s).tall h3 hw)
  show (paintValue look env (viewOf s) s.sel [] false 0 ⟨blank s.scroll, [.clear, topLine look s.width]⟩ env.root).1.out = _
  rw [h1]
  show (execP look env (viewOf s) s.sel (evs env s) ⟨blank s.scroll, [.clear, topLine look s.width]⟩).1.out = _
  rw [h2]; rfl

theorem cstr_clean {l : Bytes} (h : 0 ∉ l) : cstr l = l := by
  unfold cstr
  induction l with
  | nil => rfl
  | cons c l ih =>
    rw [List.takeWhile_cons_of_pos (by simp; intro h'; subst h'; exact h (by simp)), ih (fun h' => h (by simp [h']))]

/-- The first line. -/
theorem top_shows (look : Look) (hname : 0 ∉ look.name) (t : Terminal) (h3 : 3 ≤ t.width) (hh : 2 ≤ t.height) :
    Shows { t with at_ := fun _ => nothing, cursor := 0 } 0
      ((look.name.take t.width ++ List.replicate (max 1 (t.width - look.name.length)) 32).map fun c => ⟨c, ⟨false, if look.colours then some specialActiveInputName else none⟩⟩)
      (runCmds [.clear, topLine look t.width] t) := by
  have hc : cstr (look.name.take t.width) = look.name.take t.width := cstr_clean (fun h => hname (List.mem_of_mem_take h))
  have hl : max 1 (t.width - (look.name.take t.width).length) = max 1 (t.width - look.name.length) := by
    rw [List.length_take]; omega
  have := mvput_shows (t := { t with at_ := fun _ => nothing, cursor := 0 }) (y := 0) (x := 0) (show 0 < t.height by omega) (show 0 < t.width by omega)
    (look.name.take t.width ++ List.replicate (max 1 (t.width - look.name.length)) 32) ⟨false, if look.colours then some specialActiveInputName else none⟩
  simp only [Nat.zero_mul, Nat.zero_add] at this
  simp only [runCmds, List.foldl_cons, List.foldl_nil, topLine, hc, hl]
  exact this

theorem message_clean {msg : Bytes} (h : msg = notFound ∨ msg = Paint.wrapped) : 0 ∉ msg := by
  rcases h with rfl | rfl <;> decide

theorem puts_at (a : Attr) : ∀ (text : Bytes) (t : Terminal), t.cursor < t.width * t.height → ∀ k, k < t.width * t.height →
    (puts a text t).at_ k = over t.cursor (text.map fun c => ⟨c, a⟩) t.at_ k := by
  intro text
  induction text with
  | nil => intro t ht k hk; simp [puts, over]
  | cons c cs ih =>
    intro t ht k hk
    simp only [puts]
    by_cases h : t.cursor + 1 < t.width * t.height
    · rw [if_pos h, ih { t with at_ := fun k => if k = t.cursor then ⟨c, a⟩ else t.at_ k, cursor := t.cursor + 1 } h k hk]
      simp only [over]
      by_cases hk1 : t.cursor + 1 ≤ k
      · rw [if_pos hk1, if_neg (show ¬ k = t.cursor by omega), if_pos (show t.cursor ≤ k by omega), List.map_cons, show k - t.cursor = (k - (t.cursor + 1)) + 1 from by omega, List.getElem?_cons_succ]
      · rw [if_neg hk1]
        by_cases hk2 : k = t.cursor
        · subst hk2; simp
        · rw [if_neg hk2, if_neg (by omega)]
    · rw [if_neg h]
      simp only [over]
      by_cases hk2 : k = t.cursor
      · subst hk2; simp
      · rw [if_neg hk2, if_neg (by omega)]

/-- The last line with a message. -/
theorem below_keeps (look : Look) {s : St} {t : Terminal} (ht : t.width = s.width ∧ t.height = s.height) (hh : 0 < s.height) (h0 : 0 < s.width) (msg : Bytes) (hz : 0 ∉ msg)
    (k : Nat) (hk : k < s.width * s.height) :
    (runCmds (bottomLine look s.width s.height msg specialError) t).at_ k = if (s.height - 1) * s.width ≤ k
      then ⟨((msg ++ List.replicate s.width 32)[k - (s.height - 1) * s.width]?).getD 32, ⟨false, if look.colours then some specialError else none⟩⟩ else t.at_ k := by
  have hmove : ∀ (y x : Nat) (t : Terminal), ((Cmd.move y x).run t).at_ = t.at_ := by
    intro y x t; simp only [Cmd.run]; split <;> rfl
  have hin : Term.inside t (s.height - 1) 0 = true := by simp only [Term.inside, ht.1, ht.2, h0, decide_true, Bool.and_true, decide_eq_true_eq]; omega
  have hlt := place_lt (w := t.width) (h := t.height) (y := s.height - 1) (x := 0) (by rw [ht.2]; omega) (by rw [ht.1]; exact h0)
  simp only [bottomLine, runCmds, List.foldl_cons, List.foldl_nil, hmove, cstr_clean hz]
  simp only [Cmd.run, hin, if_true]
  rw [puts_at _ _ { t with cursor := (s.height - 1) * t.width + 0 } hlt k (by rw [show t.width * t.height = s.width * s.height from by rw [ht.1, ht.2]]; exact hk)]
  simp only [over, ht.1, Nat.add_zero]
  split
  · next hle =>
    have hlast : k - (s.height - 1) * s.width < s.width := by
      have : (s.height - 1) * s.width + s.width = s.width * s.height := by
        rw [← Nat.succ_mul, Nat.mul_comm]; congr 1; omega
      omega
    generalize k - (s.height - 1) * s.width = x at hlast ⊢
    rw [List.getElem?_map]
    by_cases hx : x < msg.length
    · rw [List.getElem?_append_left hx, List.getElem?_append_left hx, List.getElem?_eq_getElem hx]; rfl
    · have hc : x - msg.length < max 1 (if msg.length ≤ s.width then s.width - msg.length else msg.length - s.width) := by
        rw [if_pos (show msg.length ≤ s.width by omega)]; omega
      rw [List.getElem?_append_right (by omega), List.getElem?_append_right (by omega), List.getElem?_replicate, List.getElem?_replicate, if_pos hc,
        if_pos (show x - msg.length < s.width by omega)]
      rfl
  · rfl

/-- Place `k` of the terminal shows what it should, if the display is from line `from_` on:
- on the first line the name of the input, cut at the width of the terminal, and blanks,
- each line of the display with its characters in their places, in its colours, and reversed exactly if it belongs to the selection,
- nothing anywhere else; but after a name that is as long as the terminal is wide the first place below it, if nothing else is there, has the colours of the first line. -/
def Pictured (look : Look) (env : Env) (s : St) (from_ : Nat) (t : Terminal) (k : Nat) : Prop :=
  (k < s.width → seen look (t.at_ k) =
    ⟨(look.name ++ List.replicate s.width 32).getD k 32, false, if look.colours then some (.black, .green) else none⟩) ∧
  (∀ a ∈ window env s from_, ∀ i, i < a.2.text.length → k = place s.width a.1 a.2.col + i →
    (picture look.colours env.root s.sel s.results a.2)[i]? = some (seen look (t.at_ k))) ∧
  (s.width ≤ k → (∀ a ∈ window env s from_, ∀ i, i < a.2.text.length → k ≠ place s.width a.1 a.2.col + i) → seen look (t.at_ k) =
    if s.width ≤ look.name.length ∧ k = s.width ∧ look.colours = true then ⟨32, false, some (.black, .green)⟩ else unused)

theorem drawn_pictured (look : Look) (env : Env) (s : St) (t : Terminal) (hn : NoVal env s.sel) (hh : 2 ≤ s.height)
    (h3 : 3 ≤ s.width) (hw : s.width < 4294967296) (ht : t.width = s.width ∧ t.height = s.height) (hp : Plain env.fmt env.len) (hd : AsciiDoc env.root)
    (hname : 0 ∉ look.name) (from_ : Nat) (hfrom : from_ = (exec (viewOf s) s.sel (evs env s) (blank s.scroll)).1.scroll)
    (hcol : ∀ a ∈ window env s from_, a.2.col < s.width) (k : Nat) (hk : k + 1 < s.width * s.height) :
    Pictured look env s from_ (runCmds (redrawCmds look env s) t) k := by
  generalize ht' : runCmds (redrawCmds look env s) t = t'
  rw [redrawCmds_rows look env s hn hh h3 hw, runCmds_append, ← hfrom] at ht'
  have ha : window env s from_ = onScreen s.width s.height 1 ((outlineOf env s).drop from_) := rfl
  have htop := top_shows look hname t (by rw [ht.1]; exact h3) (by rw [ht.2]; exact hh)
  rw [ht.1] at htop
  generalize runCmds [.clear, topLine look s.width] t = t2 at htop ht'
  obtain ⟨g1, g2, -, g4⟩ := htop
  simp only [ht.2] at g1 g2 g4
  have hrows : ∀ r ∈ (outlineOf env s).drop from_, RowOk env s.collapsed r ∧ r.size = r.col + r.text.length ∧ r.needs s.width ≤ r.lines s.width := by
    intro r hr'
    have hm := List.mem_of_mem_drop hr'
    refine ⟨rows_ok env s.collapsed env.root [] [] 0 rfl r hm, rows_size _ _ _ hp env.root [] [] 0 hd r hm, ?_⟩
    by_cases hkey : r.key = true
    · have := key_size (match_evs env s) r hm hkey
      exact needs_le_lines h3 _ (by omega)
    · unfold Row.lines; rw [if_neg hkey]; exact Nat.le_refl _
  have hshow := window_shows (look := look) (env := env) (view := viewOf s) (sel := s.sel) h3 ((outlineOf env s).drop from_) 1 t2
    g1 g2 (show 1 < s.height by omega) hrows hcol
  simp only [show (viewOf s).height = s.height from rfl, show (viewOf s).results = s.results from rfl] at hshow
  simp only [← ha] at hshow
  rw [ht'] at hshow
  obtain ⟨-, -, hall⟩ := hshow
  obtain ⟨hin, hout⟩ := hall k hk
  have hstart : ∀ a ∈ window env s from_, s.width ≤ a.1 * s.width := by
    intro a ha'
    have := (onScreen_lt (show 1 < s.height by omega) a ha').1
    calc s.width = 1 * s.width := (Nat.one_mul _).symm
      _ ≤ a.1 * s.width := Nat.mul_le_mul_right _ this
  have htl : (look.name.take s.width ++ List.replicate (max 1 (s.width - look.name.length)) 32).length =
      if look.name.length < s.width then s.width else s.width + 1 := by
    simp only [List.length_append, List.length_take, List.length_replicate]
    split <;> omega
  refine ⟨fun hkw => ?_, fun a ha' i hi hki => ?_, fun hkw hno => ?_⟩
  · rw [hout (fun a ha' hc => by have := hstart a ha'; have := hc.1; omega), g4 k hk]
    simp only [over, Nat.zero_le, if_true, Nat.sub_zero, List.getElem?_map]
    have hget : (look.name.take s.width ++ List.replicate (max 1 (s.width - look.name.length)) 32)[k]? =
        some ((look.name ++ List.replicate s.width 32).getD k 32) := by
      rw [List.getD_eq_getElem?_getD]
      by_cases hkn : k < look.name.length
      · rw [List.getElem?_append_left (by rw [List.length_take]; omega), List.getElem?_take_of_lt hkw, List.getElem?_append_left hkn, List.getElem?_eq_getElem hkn]; rfl
      · rw [List.getElem?_append_right (by rw [List.length_take]; omega), List.getElem?_append_right (by omega), List.getElem?_replicate, List.getElem?_replicate, List.length_take,
          if_pos (show k - min s.width look.name.length < max 1 (s.width - look.name.length) by omega), if_pos (show k - look.name.length < s.width by omega)]
        rfl
    rw [hget]
    simp only [Option.map_some, Option.getD_some, seen]
    cases hcl : look.colours
    · simp
    · simp [palette, hcl, specialActiveInputName]
  · have hc : covers s.width a k := by
      unfold covers; unfold place at hki; constructor <;> omega
    have := hin a ha' hc
    rw [show k - (a.1 * s.width + a.2.col) = i from by unfold place at hki; omega] at this
    rw [← seen_row, List.getElem?_map, this]
    rfl
  · rw [hout (fun a ha' hc => hno a ha' (k - (a.1 * s.width + a.2.col)) (by have := hc.1; have := hc.2; omega) (by have := hc.1; unfold place; omega)), g4 k hk]
    simp only [over, Nat.zero_le, if_true, Nat.sub_zero]
    by_cases hlong : s.width ≤ look.name.length ∧ k = s.width
    · obtain ⟨hl1, hl2⟩ := hlong
      have hb : (look.name.take s.width ++ List.replicate (max 1 (s.width - look.name.length)) 32)[k]? = some 32 := by
        rw [List.getElem?_append_right (by rw [List.length_take]; omega), List.length_take, List.getElem?_replicate, if_pos (by omega)]
      rw [List.getElem?_map, hb]
      simp only [Option.map_some, Option.getD_some, seen, hl1, hl2, true_and]
      cases hcl : look.colours
      · simp [unused]
      · simp [palette, hcl, specialActiveInputName]
    · have hc' : ¬ (s.width ≤ look.name.length ∧ k = s.width ∧ look.colours = true) := fun hc => hlong ⟨hc.1, hc.2.1⟩
      rw [if_neg hc', List.getElem?_eq_none (by
        rw [List.length_map, htl]
        split <;> omega)]
      rfl

/-- **C87, the part that holds.** A document of printable ASCII characters, on a terminal at least 3 columns wide, with a line below the title line: whatever has happened before, when the program waits for
an input and every line of the display that is on the screen begins in a column of the terminal, then all places of the terminal show what they should (`Pictured`), except the last place and, if there is
a message, the last line. The display is from line `scroll` on; the screen of a message may be one drawn without
the selection, from the line before on. Missing: lines that begin to the right of the terminal, the last place. -/
theorem C87_picture_partial (look : Look) (env : Env) (ok : St → Tui.Input → Prop) (s : St) (t : Terminal) (m : Option Bytes) (h : Watches look env ok s t m) (hh : 2 ≤ s.height)
    (h3 : 3 ≤ s.width) (hw : s.width < 4294967296) (hp : Plain env.fmt env.len) (hd : AsciiDoc env.root) (hname : 0 ∉ look.name) :
    ∃ from_, (s.scroll = from_ ∨ m ≠ none ∧ s.scroll = from_ + 1) ∧
      ((∀ a ∈ window env s from_, a.2.col < s.width) → ∀ k, k + 1 < s.width * s.height → (m ≠ none → k < place s.width (s.height - 1) 0) → Pictured look env s from_ t k) := by
  obtain ⟨s0, t0, hn, ⟨e1, e2, e3, e4, e5⟩, hw0, hh0, hsc, hmsg, ht⟩ := watches_fresh h
  refine ⟨_, hsc, fun hcol k hk hkm => ?_⟩
  generalize hfrom : (exec (viewOf s0) s0.sel (evs env s0) (blank s0.scroll)).1.scroll = from_ at hcol ⊢
  have hwin : window env s from_ = window env s0 from_ := by simp only [window, outlineOf, e2, e4, e5]
  have := drawn_pictured look env s0 t0 hn (by rw [← e5]; exact hh) (by rw [← e4]; exact h3) (by rw [← e4]; exact hw) ⟨hw0, hh0⟩ hp hd hname from_ hfrom.symm
    (by rw [← hwin, ← e4]; exact hcol) k (by rw [← e4, ← e5]; exact hk)
  have hat : t.at_ k = (runCmds (redrawCmds look env s0) t0).at_ k := by
    rw [ht, runCmds_append]
    cases m with
    | none => rfl
    | some msg =>
      have hlt := hkm (by simp)
      have hz := runCmds_size (redrawCmds look env s0) t0
      rw [hw0, hh0] at hz
      have := below_keeps look (s := s0) (t := runCmds (redrawCmds look env s0) t0) hz (by rw [← e5]; omega) (by rw [← e4]; omega) msg (message_clean (hmsg msg rfl)) k (by rw [← e4, ← e5]; omega)
      exact this.trans (if_neg (by rw [e4, e5] at hlt; simpa [place] using hlt))
  unfold Pictured at this ⊢
  rw [hat, hwin, e1, e3, e4]
  exact this

/-- **C88, the part that holds.** In the same situation the places in reverse video are exactly those of the lines of the selection; and if colours are not switched off, the places in white on blue are exactly
those of the lines that are results of the search. Missing: results with `--color=never`, lines that begin to the right of the terminal, the last place. -/
theorem C88_marks_partial (look : Look) (env : Env) (ok : St → Tui.Input → Prop) (s : St) (t : Terminal) (m : Option Bytes) (h : Watches look env ok s t m) (hh : 2 ≤ s.height)
    (h3 : 3 ≤ s.width) (hw : s.width < 4294967296) (hp : Plain env.fmt env.len) (hd : AsciiDoc env.root) (hname : 0 ∉ look.name) :
    ∃ from_, (s.scroll = from_ ∨ m ≠ none ∧ s.scroll = from_ + 1) ∧
      ((∀ a ∈ window env s from_, a.2.col < s.width) → ∀ k, k + 1 < s.width * s.height → (m ≠ none → k < place s.width (s.height - 1) 0) →
        ((seen look (t.at_ k)).inverse = true ↔ ∃ a ∈ window env s from_, s.sel = some a.2.item ∧ ∃ i, i < a.2.text.length ∧ k = place s.width a.1 a.2.col + i) ∧
        (look.colours = true → ((seen look (t.at_ k)).colours = some (.white, .blue) ↔
          ∃ a ∈ window env s from_, a.2.elem ∈ s.results ∧ ∃ i, i < a.2.text.length ∧ k = place s.width a.1 a.2.col + i))) := by
  obtain ⟨from_, hsc, hall⟩ := C87_picture_partial look env ok s t m h hh h3 hw hp hd hname
  refine ⟨from_, hsc, fun hcol k hk hkm => ?_⟩
  obtain ⟨h1, h2, h4⟩ := hall hcol k hk hkm
  have hstart : ∀ a ∈ window env s from_, s.width ≤ a.1 * s.width := by
    intro a ha'
    have := (onScreen_lt (show 1 < s.height by omega) a ha').1
    calc s.width = 1 * s.width := (Nat.one_mul _).symm
      _ ≤ a.1 * s.width := Nat.mul_le_mul_right _ this
  have hpic : ∀ (a : Row) (i : Nat) (g : Seen), (picture look.colours env.root s.sel s.results a)[i]? = some g → g.inverse = decide (s.sel = some a.item) ∧
      (look.colours = true → (g.colours = some (.white, .blue) ↔ a.elem ∈ s.results)) := by
    intro a i g hg
    have hm := List.mem_of_getElem? hg
    simp only [picture, List.mem_flatMap, List.mem_map] at hm
    obtain ⟨part, hpart, c, -, rfl⟩ := hm
    refine ⟨rfl, fun hc => ?_⟩
    simp only [hc, Bool.not_true, Bool.false_eq_true, if_false, List.contains_iff_mem]
    split
    · next hin => simp [hin]
    · next hin =>
      simp only [hin, iff_false]
      have hne : part.2 ≠ some (.white, .blue) := by
        have hsh : ∀ v, shade v ≠ some (.white, .blue) := by intro v; cases v <;> simp [shade]
        unfold parts at hpart
        cases he : elem env.root a.elem with
        | none => rw [he] at hpart; cases hpart
        | some e =>
          rw [he] at hpart
          cases e with
          | value v => rw [List.mem_singleton] at hpart; subst hpart; exact hsh v
          | entry k v =>
            simp only [List.mem_cons, List.not_mem_nil, or_false] at hpart
            rcases hpart with rfl | rfl | rfl
            · simp
            · simp
            · exact hsh v
      exact hne
  by_cases hcov : ∃ a ∈ window env s from_, ∃ i, i < a.2.text.length ∧ k = place s.width a.1 a.2.col + i
  · obtain ⟨a, ha, i, hi, hki⟩ := hcov
    have hga := hpic _ _ _ (h2 a ha i hi hki)
    refine ⟨⟨fun hinv => ?_, ?_⟩, fun hc => ⟨fun hwb => ?_, ?_⟩⟩
    · rw [hga.1] at hinv
      exact ⟨a, ha, by simpa using hinv, i, hi, hki⟩
    · rintro ⟨b, hb, hsel, j, hj, hkj⟩
      rw [(hpic _ _ _ (h2 b hb j hj hkj)).1]
      simpa using hsel
    · exact ⟨a, ha, (hga.2 hc).mp hwb, i, hi, hki⟩
    · rintro ⟨b, hb, hel, j, hj, hkj⟩
      exact ((hpic _ _ _ (h2 b hb j hj hkj)).2 hc).mpr hel
  · have hno : ∀ a ∈ window env s from_, ∀ i, i < a.2.text.length → k ≠ place s.width a.1 a.2.col + i := fun a ha i hi hki => hcov ⟨a, ha, i, hi, hki⟩
    have hseen : (seen look (t.at_ k)).inverse = false ∧ (seen look (t.at_ k)).colours ≠ some (.white, .blue) := by
      by_cases hkw : k < s.width
      · rw [h1 hkw]; refine ⟨rfl, ?_⟩; simp only; split <;> simp
      · rw [h4 (by omega) hno]; split <;> simp [unused]
    refine ⟨⟨fun hinv => (by rw [hseen.1] at hinv; cases hinv), ?_⟩, fun _ => ⟨fun hwb => absurd hwb hseen.2, ?_⟩⟩
    · rintro ⟨b, hb, -, j, hj, hkj⟩; exact absurd hkj (hno b hb j hj)
    · rintro ⟨b, hb, -, j, hj, hkj⟩; exact absurd hkj (hno b hb j hj)

/-! ## C89: messages -/

/-- The input is a search for something, or for the next result. -/
def searches : Tui.Input → Prop
  | .key name pat => name = b!"N" ∨ name = b!"/" ∧ ∃ p, pat = some p ∧ p.pattern ≠ []
  | .resize _ _ => False

theorem nextResultOn_message {look : Look} {env : Env} {s s' : St} {t t' : Terminal} {m : Option Bytes} (hp : Ptrs env s) (hr : ResultsOK env s.results) :
    (nextResultOn look env s t = (.nextInput s', t', m) →
      s.results = [] ∧ m = some notFound ∨ s.results ≠ [] ∧ (∀ q ∈ s.results, ∀ p, s.sel = some p → ¬ p < q) ∧ m = some Paint.wrapped) ∧
    (nextResultOn look env s t = (.redraw s', t', m) → ∃ q ∈ s.results, ∃ p, s.sel = some p ∧ p < q) := by
  have hm : ∀ s0 msg s' t' m, messageOn look env s0 t msg ≠ (.redraw s', t', m) := by
    intro s0 msg s' t' m h
    simp only [messageOn, Prod.mk.injEq] at h
    have := h.1
    unfold redrawMessage at this
    split at this <;> cases this
  have hmm : ∀ s0 msg s' t' m, messageOn look env s0 t msg = (.nextInput s', t', m) → m = some msg := by
    intro s0 msg s' t' m h
    simp only [messageOn, Prod.mk.injEq] at h
    exact h.2.2.symm
  unfold nextResultOn
  cases hq : s.results with
  | nil => exact ⟨fun h => .inl ⟨rfl, hmm _ _ _ _ _ h⟩, fun h => (hm _ _ _ _ _ h).elim⟩
  | cons z zs =>
    simp only
    cases hsel : s.sel with
    | none => exact ⟨fun h => .inr ⟨by simp, by simp, hmm _ _ _ _ _ h⟩, fun h => (hm _ _ _ _ _ h).elim⟩
    | some p =>
      simp only
      rcases hr with hr | ⟨pat, hr⟩
      · rw [hq] at hr; cases hr
      rw [hq] at hr
      obtain ⟨a, c, b, j1, j2, j3⟩ := C36_next_result env.rx env.fmt pat env.root p s.collapsed ((mem_items _ _).mp (hp.1 p hsel)).1 (by rw [← hr]; simp)
      rw [← hr] at j1 j2 j3
      rw [j1]
      cases b with
      | true =>
        refine ⟨fun h => (by cases h), fun _ => ?_⟩
        split at j3
        · next he => obtain ⟨q, h1, h2⟩ := he; exact ⟨q, h1, p, rfl, h2⟩
        · simp at j3
      | false =>
        refine ⟨fun h => .inr ⟨by simp, ?_, hmm _ _ _ _ _ h⟩, fun h => (hm _ _ _ _ _ h).elim⟩
        intro q hq' p' hp' hlt
        cases hp'
        rw [if_pos ⟨q, hq', hlt⟩] at j3
        simp at j3

/-- **C89, what is said.** Whatever has happened before: after a search, or N, there is the message "Pattern not found" if there are no results, "Search hit BOTTOM, continuing at TOP" if
there are some but none of them after the selection, and no message otherwise. All other inputs leave the terminal as it is, or the screen is drawn without a message. -/
theorem C89_message (look : Look) (env : Env) (ok : St → Tui.Input → Prop) (s s' : St) (t t' : Terminal) (m m' : Option Bytes) (h : Watches look env ok s t m) (n : Nat) (i : Tui.Input)
    (hs : stepOn look env n i s t m = some (.nextInput s', t', m')) :
    (searches i →
      (looksThrough env s i = [] → m' = some b!"Pattern not found") ∧
      (looksThrough env s i ≠ [] → (∀ q ∈ looksThrough env s i, ∀ p, s.sel = some p → ¬ p < q) → m' = some b!"Search hit BOTTOM, continuing at TOP") ∧
      ((∃ q ∈ looksThrough env s i, ∃ p, s.sel = some p ∧ p < q) → m' = none)) ∧
    (¬ searches i → m' = none ∨ m' = m ∧ t' = t ∧ s' = s) := by
  obtain ⟨hp, hr⟩ := waits_ptrs (watches_waits h)
  have after : ∀ (s1 : St) (t1 : Terminal), (match settleOn look env n s1 t1 with
      | none => none
      | some (.crash, t) => some (Answer.crash, t, (none : Option Bytes))
      | some (.done s, t) => some (Answer.nextInput s, t, none)
      | some (.retry _, _) => none) = some (.nextInput s', t', m') → m' = none := by
    intro s1 t1 h1
    cases hx : settleOn look env n s1 t1 with
    | none => rw [hx] at h1; cases h1
    | some r =>
      obtain ⟨d, t2⟩ := r
      rw [hx] at h1
      cases d with
      | crash => cases h1
      | retry s2 => cases h1
      | done s2 => cases h1; rfl
  cases i with
  | resize w h' => exact ⟨fun h => h.elim, fun _ => .inl (after _ _ hs)⟩
  | key name pat =>
    simp only [stepOn] at hs
    have search : ∀ results : List Path, ResultsOK env results → (match nextResultOn look env { s with results := results } t with
        | (.redraw s, t, _) => (match settleOn look env n s t with
          | none => none
          | some (.crash, t) => some (Answer.crash, t, (none : Option Bytes))
          | some (.done s, t) => some (Answer.nextInput s, t, none)
          | some (.retry _, _) => none)
        | a => some a) = some (.nextInput s', t', m') →
        (results = [] → m' = some b!"Pattern not found") ∧
        (results ≠ [] → (∀ q ∈ results, ∀ p, s.sel = some p → ¬ p < q) → m' = some b!"Search hit BOTTOM, continuing at TOP") ∧
        ((∃ q ∈ results, ∃ p, s.sel = some p ∧ p < q) → m' = none) := by
      intro results hres h1
      have hp' : Ptrs env { s with results := results } := ⟨hp.1, hp.2.1, hp.2.2.1, fun q hq => (results_items hres q hq).1⟩
      rcases hx : nextResultOn look env { s with results := results } t with ⟨a, t1, m1⟩
      rw [hx] at h1
      cases a with
      | crash => cases h1
      | quit => cases h1
      | redraw s1 =>
        obtain ⟨q, h2, p, h3, h4⟩ := (nextResultOn_message (s' := s1) (t' := t1) (m := m1) hp' hres).2 hx
        have h2' : q ∈ results := h2
        have h3' : s.sel = some p := h3
        exact ⟨fun h0 => (by rw [h0] at h2'; cases h2'), fun _ hno => absurd h4 (hno q h2' p h3'), fun _ => after _ _ h1⟩
      | nextInput s1 =>
        cases h1
        rcases (nextResultOn_message (s' := s') (t' := t') (m := m') hp' hres).1 hx with ⟨h2, h3⟩ | ⟨h2, h3, h4⟩
        · have h2' : results = [] := h2
          exact ⟨fun _ => h3, fun h0 => absurd h2' h0, fun ⟨q, hq, _⟩ => (by rw [h2'] at hq; cases hq)⟩
        · exact ⟨fun h0 => absurd h0 h2, fun _ _ => h4, fun ⟨q, hq, p, hp1, hp2⟩ => absurd hp2 (h3 q hq p hp1)⟩
    unfold evalKeyOn at hs
    by_cases h1 : name = b!"/"
    · subst h1
      rw [if_pos rfl] at hs
      unfold initSearchOn at hs
      cases pat with
      | none =>
        refine ⟨fun h => ?_, fun _ => .inl (after _ _ hs)⟩
        rcases h with h | ⟨_, p, h, _⟩
        · exact absurd h (by decide)
        · cases h
      | some p =>
        simp only at hs
        by_cases he : p.pattern = []
        · rw [if_pos (by rw [he]; rfl)] at hs
          refine ⟨fun h => ?_, fun _ => .inl (after _ _ hs)⟩
          rcases h with h | ⟨_, p', h, h'⟩
          · exact absurd h (by decide)
          · cases h; exact absurd he h'
        · rw [if_neg (by rw [List.isEmpty_iff]; exact he)] at hs
          refine ⟨fun _ => search _ (.inr ⟨p, rfl⟩) hs, fun h => absurd (.inr ⟨rfl, p, rfl, he⟩) h⟩
    · rw [if_neg h1] at hs
      by_cases h2 : name = b!"N"
      · subst h2
        rw [if_pos rfl] at hs
        exact ⟨fun _ => search s.results hr hs, fun h => absurd (.inl rfl) h⟩
      · rw [if_neg h2] at hs
        refine ⟨fun h => ?_, fun _ => ?_⟩
        · rcases h with h | ⟨h, _⟩
          · exact absurd h h2
          · exact absurd h h1
        · have hsame := evalKey_same env name pat s h1 h2
          cases ha : evalKey env name pat s with
          | crash => rw [ha] at hs; cases hs
          | quit => rw [ha] at hs; cases hs
          | redraw s1 => rw [ha] at hs; exact .inl (after _ _ hs)
          | nextInput s1 =>
            rw [ha] at hs hsame
            cases hs
            exact .inr ⟨rfl, rfl, hsame⟩

/-- **C89, what is seen.** When there is a message, the last line of the terminal shows it, cut at the width of the terminal and followed by blanks, in white on red (in the default colours with
`--color=never`). -/
theorem C89_message_seen (look : Look) (env : Env) (ok : St → Tui.Input → Prop) (s : St) (t : Terminal) (msg : Bytes) (h : Watches look env ok s t (some msg)) (x : Nat) (hx : x < s.width)
    (hh : 0 < s.height) :
    seen look (t.at_ (place s.width (s.height - 1) x)) =
      ⟨(msg ++ List.replicate s.width 32).getD x 32, false, if look.colours then some (.white, .red) else none⟩ := by
  obtain ⟨s0, t0, hn, ⟨e1, e2, e3, e4, e5⟩, hw0, hh0, hsc, hmsg, ht⟩ := watches_fresh h
  have hz := runCmds_size (redrawCmds look env s0) t0
  rw [hw0, hh0] at hz
  have hk := place_lt (w := s.width) (h := s.height) (y := s.height - 1) (x := x) (by omega) hx
  have := below_keeps look (s := s0) (t := runCmds (redrawCmds look env s0) t0) hz (by rw [← e5]; exact hh) (by rw [← e4]; omega) msg (message_clean (hmsg msg rfl))
    (place s.width (s.height - 1) x) (by rw [← e4, ← e5]; exact hk)
  rw [ht, runCmds_append]
  show seen look ((runCmds (bottomLine look s0.width s0.height msg specialError) (runCmds (redrawCmds look env s0) t0)).at_ _) = _
  rw [this, ← e4, ← e5, if_pos (by unfold place; omega), show place s.width (s.height - 1) x - (s.height - 1) * s.width = x from by unfold place; omega]
  simp only [seen, List.getD_eq_getElem?_getD]
  cases hc : look.colours
  · rfl
  · simp [palette, hc, specialError]

/-! ## Examples -/

/-- Inputs one after the other, with at most `n` drawings each, on a terminal. -/
def watch (look : Look) (env : Env) (n : Nat) : List Tui.Input → St → Terminal → Option Bytes → Option (St × Terminal × Option Bytes)
  | [], s, t, m => some (s, t, m)
  | i :: is, s, t, m =>
    match stepOn look env n i s t m with
    | some (.nextInput s', t', m') => watch look env n is s' t' m'
    | _ => none

def watchFrom (look : Look) (env : Env) (n w h : Nat) (is : List Tui.Input) : Option (St × Terminal × Option Bytes) :=
  match settleOn look env n (Tui.start w h) ⟨w, h, fun _ => nothing, 0⟩ with
  | some (.done s, t) => watch look env n is s t none
  | _ => none

/-- Any history. -/
def anything : St → Tui.Input → Prop := fun _ _ => True

theorem watch_watches {look : Look} {env : Env} {n : Nat} {is : List Tui.Input} {s s' : St} {t t' : Terminal} {m m' : Option Bytes} (h : Watches look env anything s t m)
    (hr : watch look env n is s t m = some (s', t', m')) : Watches look env anything s' t' m' := by
  induction is generalizing s t m with
  | nil => cases hr; exact h
  | cons i is ih =>
    rw [watch] at hr
    split at hr
    · next hs => exact ih (.step h trivial hs) hr
    · cases hr

theorem watchFrom_some {look : Look} {env : Env} {n w h : Nat} {is : List Tui.Input} {p : St → Terminal → Option Bytes → Bool}
    (hr : (watchFrom look env n w h is).any (fun r => p r.1 r.2.1 r.2.2) = true) : ∃ s t m, Watches look env anything s t m ∧ p s t m = true := by
  cases hx : watchFrom look env n w h is with
  | none => rw [hx] at hr; cases hr
  | some r =>
    obtain ⟨s, t, m⟩ := r
    rw [hx] at hr
    refine ⟨s, t, m, ?_, hr⟩
    unfold watchFrom at hx
    split at hx
    · next hs => exact watch_watches (.start trivial hs) hx
    · cases hx

/-- Every character takes one column, all floating point numbers are shown as `1.5`. -/
def textEnv (root : Json) : Env := ⟨root, noRx, fun _ => b!"1.5", List.length⟩

theorem textEnv_plain (root : Json) : Plain (textEnv root).fmt (textEnv root).len := ⟨fun _ _ => rfl, fun _ => by show Ascii b!"1.5"; unfold Ascii; decide⟩

def inColours : Look := ⟨true, b!"a.json"⟩
def noColours : Look := ⟨false, b!"a.json"⟩

/-- `{"ab": ["hello world", true], "c": 1.5}` -/
def someDoc : Json := .obj [(b!"ab", .arr [.str b!"hello world", .bool true]), (b!"c", .dbl b!"1.5")]

theorem someDoc_ascii : AsciiDoc (textEnv someDoc).root := by
  show AsciiDoc someDoc
  simp only [someDoc, AsciiDoc, AsciiEntries, AsciiItems, Ascii]
  decide

/-- What is read on a terminal. -/
def readsAs (t : Terminal) : List Bytes := (List.range t.height).map fun y => (List.range t.width).map fun x => (t.at_ (y * t.width + x)).ch

/-- The situation of C87 and C88, after Down and a search for `o`, on a terminal of 14 columns and 11 lines; the string takes two lines. -/
example : ∃ s t m, Watches inColours (textEnv someDoc) anything s t m ∧ 2 ≤ s.height ∧ 3 ≤ s.width ∧ s.width < 4294967296 ∧ Plain (textEnv someDoc).fmt (textEnv someDoc).len ∧
    AsciiDoc (textEnv someDoc).root ∧ 0 ∉ inColours.name ∧ (∀ a ∈ window (textEnv someDoc) s s.scroll, a.2.col < s.width) ∧ s.sel = some [0, 0, 0] ∧ s.results = [[0, 0, 0]] ∧
    readsAs t = [b!"a.json        ", b!"{             ", b!"    ab:       ", b!"      [       ", b!"          hell", b!"o world       ", b!"          true", b!"      ]       ",
      b!"    c: 1.5    ", b!"}             ", b!"              "] ∧ seen inColours (t.at_ (place s.width 5 0)) = ⟨111, true, some (.white, .blue)⟩ := by
  obtain ⟨s, t, m, h, hp⟩ := watchFrom_some (look := inColours) (env := textEnv someDoc) (n := 5) (w := 14) (h := 11) (is := [key b!"J", .key b!"/" (some (plainPattern b!"o"))])
    (p := fun s t _ => decide (2 ≤ s.height ∧ 3 ≤ s.width ∧ s.width < 4294967296 ∧ (∀ a ∈ window (textEnv someDoc) s s.scroll, a.2.col < s.width) ∧ s.sel = some [0, 0, 0] ∧ s.results = [[0, 0, 0]] ∧
    readsAs t = [b!"a.json        ", b!"{             ", b!"    ab:       ", b!"      [       ", b!"          hell", b!"o world       ", b!"          true", b!"      ]       ",
      b!"    c: 1.5    ", b!"}             ", b!"              "] ∧ seen inColours (t.at_ (place s.width 5 0)) = ⟨111, true, some (.white, .blue)⟩)) (by decide +kernel)
  obtain ⟨h1, h2, h3, h4, h5, h6, h7, h8⟩ := of_decide_eq_true hp
  exact ⟨s, t, m, h, h1, h2, h3, textEnv_plain _, someDoc_ascii, by decide, h4, h5, h6, h7, h8⟩

/-- The situation of C89: a search without results, on a terminal that is too narrow for the message. -/
example : ∃ s t, Watches inColours (textEnv someDoc) anything s t (some b!"Pattern not found") ∧ s.width = 14 ∧ 0 < s.height ∧
    (readsAs t)[10]? = some b!"Pattern not fo" ∧ seen inColours (t.at_ (place s.width 10 0)) = ⟨80, false, some (.white, .red)⟩ := by
  obtain ⟨s, t, m, h, hp⟩ := watchFrom_some (look := inColours) (env := textEnv someDoc) (n := 5) (w := 14) (h := 11) (is := [.key b!"/" (some (plainPattern b!"x"))])
    (p := fun s t m => decide (m = some b!"Pattern not found" ∧ s.width = 14 ∧ 0 < s.height ∧
    (readsAs t)[10]? = some b!"Pattern not fo" ∧ seen inColours (t.at_ (place s.width 10 0)) = ⟨80, false, some (.white, .red)⟩)) (by decide +kernel)
  obtain ⟨rfl, h2⟩ := of_decide_eq_true hp
  exact ⟨s, t, h, h2⟩

/-- `[[[1]]]` -/
def nestedDoc : Json := .arr [.arr [.arr [.int 1]]]

theorem nestedDoc_ascii : AsciiDoc (textEnv nestedDoc).root := by
  show AsciiDoc nestedDoc
  simp [nestedDoc, AsciiDoc, AsciiItems]

/-- **C87 does not hold** for documents nested more deeply than the terminal is wide: with `[[[1]]]` on a terminal of 10 columns the line of `1`, which begins in column 12, is on the screen according to the
program, but where it should be, at the beginning of the line below, there is nothing: it is written right of the bracket of the line above, wherever the cursor was. -/
theorem C87_picture_false : ∃ look env s t, Watches look env anything s t none ∧ 2 ≤ s.height ∧ 3 ≤ s.width ∧ s.width < 4294967296 ∧ Plain env.fmt env.len ∧ AsciiDoc env.root ∧ 0 ∉ look.name ∧
    (∃ a ∈ window env s s.scroll, ∃ i, i < a.2.text.length ∧ place s.width a.1 a.2.col + i + 1 < s.width * s.height ∧ a.2.text[i]? = some 49 ∧
      seen look (t.at_ (place s.width a.1 a.2.col + i)) = unused ∧ seen look (t.at_ (place s.width 3 9)) = ⟨49, false, some (.green, .black)⟩) := by
  obtain ⟨s, t, m, h, hp⟩ := watchFrom_some (look := inColours) (env := textEnv nestedDoc) (n := 5) (w := 10) (h := 12) (is := [])
    (p := fun s t m => decide (m = none ∧ 2 ≤ s.height ∧ 3 ≤ s.width ∧ s.width < 4294967296 ∧ (∃ a ∈ window (textEnv nestedDoc) s s.scroll,
      0 < a.2.text.length ∧ place s.width a.1 a.2.col + 0 + 1 < s.width * s.height ∧ a.2.text[0]? = some 49 ∧
      seen inColours (t.at_ (place s.width a.1 a.2.col + 0)) = unused ∧ seen inColours (t.at_ (place s.width 3 9)) = ⟨49, false, some (.green, .black)⟩))) (by decide +kernel)
  obtain ⟨rfl, h1, h2, h3, a, ha, h4⟩ := of_decide_eq_true hp
  exact ⟨inColours, textEnv nestedDoc, s, t, h, h1, h2, h3, textEnv_plain _, nestedDoc_ascii, by decide, a, ha, 0, h4⟩

/-- `["a", "b"]` -/
def twoStrings : Json := .arr [.str b!"a", .str b!"b"]

/-- The picture of `["a", "b"]` with the first item selected, on a terminal of 8 columns and 5 lines, without colours. -/
def onlyLetters (k : Nat) : Seen := ⟨b!"a.json  [           a       b   ]       ".getD k 0, decide (k = 20), none⟩

/-- **C88 does not hold** with `--color=never`: after a search for `a` in `["a", "b"]` the first item is a result, and after Down there are no results; but the terminal shows the same. -/
theorem C88_marks_false : ∃ look env s t s' t', Watches look env anything s t none ∧ Watches look env anything s' t' none ∧ s.width = 8 ∧ s.height = 5 ∧ s'.width = 8 ∧ s'.height = 5 ∧
    [0] ∈ s.results ∧ [0] ∉ s'.results ∧ (∃ a ∈ window env s s.scroll, a.2.elem = [0] ∧ a.2.text = b!"a") ∧ ∀ k < 8 * 5, seen look (t.at_ k) = seen look (t'.at_ k) := by
  obtain ⟨s, t, m, h, hp⟩ := watchFrom_some (look := noColours) (env := textEnv twoStrings) (n := 5) (w := 8) (h := 5) (is := [.key b!"/" (some (plainPattern b!"a"))])
    (p := fun s t m => decide (m = none ∧ s.width = 8 ∧ s.height = 5 ∧ [0] ∈ s.results ∧ (∃ a ∈ window (textEnv twoStrings) s s.scroll, a.2.elem = [0] ∧ a.2.text = b!"a") ∧
      ∀ k < 8 * 5, seen noColours (t.at_ k) = onlyLetters k)) (by decide +kernel)
  obtain ⟨s', t', m', h', hp'⟩ := watchFrom_some (look := noColours) (env := textEnv twoStrings) (n := 5) (w := 8) (h := 5) (is := [key b!"J"])
    (p := fun s t m => decide (m = none ∧ s.width = 8 ∧ s.height = 5 ∧ [0] ∉ s.results ∧ ∀ k < 8 * 5, seen noColours (t.at_ k) = onlyLetters k)) (by decide +kernel)
  obtain ⟨rfl, h1, h2, h3, h4, h5⟩ := of_decide_eq_true hp
  obtain ⟨rfl, g1, g2, g3, g4⟩ := of_decide_eq_true hp'
  exact ⟨noColours, textEnv twoStrings, s, t, s', t', h, h', h1, h2, g1, g2, h3, g3, h4, fun k hk => (h5 k hk).trans (g4 k hk).symm⟩

end Verif.Props
