import Verif.Props.LoopSize
import Verif.Props.Picture
import Verif.Lemmas.SplitSeen
import Verif.Lemmas.SplitPic
/-! # The terminal of the diff view follows its drawings -/
namespace Verif.Props
open Verif.Model Verif.Model.Search Verif.Model.Diff Verif.Model.Split Verif.Model.SplitPaint Verif.Model.Term Verif.Spec Verif.Spec.SplitView Verif.Lemmas Verif.Lemmas.Split

theorem refresh_size (w : Terminal) (top left : Nat) (d : Display) : (refresh w top left d).cols = d.cols ∧ (refresh w top left d).rows = d.rows := ⟨rfl, rfl⟩

theorem splitSettleOn_settle (look : Looks) (env : Env) (n : Nat) : ∀ (k : Nat) (s : St) (d : Display), (settleOn look env n k s d).map (·.map Prod.fst) = settle env n k s := by
  intro k
  induction k with
  | zero => intro s d; rfl
  | succ k ih =>
    intro s d
    simp only [settleOn, settle, redrawOn]
    cases redraw env n s with
    | none => rfl
    | some r =>
      cases r with
      | crash => rfl
      | done a b => rfl
      | retry a b => exact ih _ _

theorem splitMessageOn_fst (look : Looks) (env : Env) (n : Nat) (s : St) (d : Display) (msg : Bytes) : (messageOn look env n s d msg).map (·.1) = redrawMessage env n s := by
  unfold messageOn redrawMessage redrawOn
  cases redraw env n s with
  | none => rfl
  | some r => cases r <;> rfl

theorem splitNextResultOn_fst (look : Looks) (env : Env) (n : Nat) (s : St) (d : Display) : (nextResultOn look env n s d).map (·.1) = nextResult env n s := by
  unfold nextResultOn nextResult
  cases hr : s.active.results with
  | nil => exact splitMessageOn_fst ..
  | cons q rs =>
    simp only
    cases (Split.jumpValue (q :: rs) s.active.last s.active.sel (decide (s.selected ≠ 0)) [] false (env.root (decide (s.selected ≠ 0)))).2 with
    | some e => rfl
    | none => exact splitMessageOn_fst ..

theorem splitEvalKeyOn_fst (look : Looks) (env : Env) (n : Nat) (name : Bytes) (pat : Option Pattern) (s : St) (d : Display) (m : Option Bytes) :
    (evalKeyOn look env n name pat s d m).map (·.1) = evalKey env n name pat s := by
  unfold evalKeyOn
  split
  · next h =>
    subst h
    have : evalKey env n b!"/" pat s = initSearch env n pat s := rfl
    rw [this]
    unfold initSearchOn initSearch
    cases pat with
    | none => rfl
    | some p =>
      simp only
      split
      · rfl
      · exact splitNextResultOn_fst ..
  split
  · next h => subst h; exact splitNextResultOn_fst ..
  · cases evalKey env n name pat s <;> rfl

/-- The same with the terminal left out is the program of C44, C45, C70–C80. -/
theorem splitStepOn_step (look : Looks) (env : Env) (n k : Nat) (i : Split.Input) (s : St) (d : Display) (m : Option Bytes) :
    (stepOn look env n k i s d m).map (·.1) = step env n k i s := by
  have key : ∀ (s : St) (d : Display), ((settleOn look env n k s d).map fun r => match r with
      | none => (Answer.crash, d, (none : Option Bytes))
      | some (s, d) => (.nextInput s, d, none)).map (·.1) = (settle env n k s).map fun r => match r with
      | none => Answer.crash
      | some s => .nextInput s := by
    intro s d
    rw [← splitSettleOn_settle look env n k s d]
    cases settleOn look env n k s d with
    | none => rfl
    | some r => cases r <;> rfl
  cases i with
  | resize c r => exact key _ _
  | key name pat =>
    simp only [stepOn, step]
    rw [← splitEvalKeyOn_fst look env n name pat s d m]
    cases evalKeyOn look env n name pat s d m with
    | none => rfl
    | some r =>
      obtain ⟨a, d', m'⟩ := r
      cases a with
      | redraw s1 => exact key _ _
      | nextInput s1 => rfl
      | quit => rfl
      | crash => rfl

/-- What is watched is a session. -/
theorem watched_reached {look : Looks} {env : Env} {n k cols rows : Nat} {ok : St → Split.Input → Prop} {s : St} {d : Display} {m : Option Bytes}
    (h : Watched look env n k cols rows ok s d m) : Reached env n k cols rows ok s := by
  induction h with
  | @start s d hs =>
    refine .start ?_
    rw [← splitSettleOn_settle look env n k _ ⟨cols, rows, fun _ _ => Term.nothing⟩, hs]; rfl
  | @input s t d d' m m' i _ hok hs ih =>
    refine .input i ih hok ?_
    rw [← splitStepOn_step look env n k i s d m, hs]; rfl

/-- The terminal with a message on its last line. -/
def under (look : Looks) (m : Option Bytes) (d : Display) : Display :=
  match m with
  | none => d
  | some msg => refresh (bottomWin look d.cols msg) (d.rows - 1) 0 d

/-- The terminal shows the last drawing of the windows; or the windows are empty, in their frames, above a message. -/
structure Shown (look : Looks) (env : Env) (s : St) (d : Display) (m : Option Bytes) : Prop where
  width : s.width = d.cols / 2
  height : s.height = less d.rows 2
  msg : ∀ msg, m = some msg → msg = Paint.notFound ∨ msg = Paint.wrapped
  picture : ∃ d0 : Display, d0.cols = d.cols ∧ d0.rows = d.rows ∧
    ((∃ n s1, redraw env n s1 = some (.done s.first s.second) ∧ s1.view = s.view ∧ d = under look m (windowsOn look s s.first s.second (framesOn s d0))) ∨
     (m ≠ none ∧ (∃ n s1, redraw env n s1 = some (.retry s.first s.second) ∧ s1.view = s.view) ∧ d = under look m (framesOn s d0)))

theorem splitSettleOn_shown {look : Looks} {env : Env} {n : Nat} : ∀ (k : Nat) (s t : St) (d d' : Display), s.width = d.cols / 2 → s.height = less d.rows 2 →
    settleOn look env n k s d = some (some (t, d')) → Shown look env t d' none := by
  intro k
  induction k with
  | zero => intro s t d d' _ _ h; simp [settleOn] at h
  | succ k ih =>
    intro s t d d' hw hh h
    simp only [settleOn, redrawOn] at h
    cases hr : redraw env n s with
    | none => rw [hr] at h; cases h
    | some r =>
      rw [hr] at h
      cases r with
      | crash => cases h
      | done a b =>
        cases h
        obtain ⟨k0, k1⟩ := done_spec hr
        exact ⟨hw, hh, (by intro msg h; cases h), d, rfl, rfl, .inl ⟨n, s, hr, (view_keeps k0 k1).symm, rfl⟩⟩
      | retry a b => exact ih { s with first := a, second := b } t (framesOn s d) d' hw hh h

theorem splitMessageOn_shown {look : Looks} {env : Env} {n : Nat} {s t : St} {d d' : Display} {msg : Bytes} {m : Option Bytes} (hm : msg = Paint.notFound ∨ msg = Paint.wrapped)
    (hw : s.width = d.cols / 2) (hh : s.height = less d.rows 2) (h : messageOn look env n s d msg = some (.nextInput t, d', m)) : m = some msg ∧ Shown look env t d' m := by
  simp only [messageOn, redrawOn] at h
  have hmsg : ∀ msg', some msg = some msg' → msg' = Paint.notFound ∨ msg' = Paint.wrapped := by intro msg' h; cases h; exact hm
  cases hr : redraw env n s with
  | none => rw [hr] at h; cases h
  | some r =>
    rw [hr] at h
    cases r with
    | crash => cases h
    | done a b =>
      cases h
      obtain ⟨k0, k1⟩ := done_spec hr
      exact ⟨rfl, hw, hh, hmsg, d, rfl, rfl, .inl ⟨n, s, hr, (view_keeps k0 k1).symm, rfl⟩⟩
    | retry a b =>
      cases h
      obtain ⟨k0, k1, _⟩ := retry_spec hr
      exact ⟨rfl, hw, hh, hmsg, d, rfl, rfl, .inr ⟨by simp, ⟨n, s, hr, (view_keeps k0 k1).symm⟩, rfl⟩⟩

theorem splitMessageOn_not_redraw {look : Looks} {env : Env} {n : Nat} {s t : St} {d d' : Display} {msg : Bytes} {m : Option Bytes} : messageOn look env n s d msg ≠ some (.redraw t, d', m) := by
  unfold messageOn
  cases redrawOn look env n s d with
  | none => simp
  | some r => obtain ⟨r, d1⟩ := r; cases r <;> simp

/-- What N does: either the windows are to be drawn, or they have been drawn with a message. -/
theorem splitNextResultOn_shown {look : Looks} {env : Env} {n : Nat} {s : St} {d : Display} (hw : s.width = d.cols / 2) (hh : s.height = less d.rows 2) {a : Answer} {d' : Display}
    {m : Option Bytes} (h : nextResultOn look env n s d = some (a, d', m)) :
    (∀ t, a = .nextInput t → m ≠ none ∧ Shown look env t d' m) ∧ (∀ t, a = .redraw t → d' = d ∧ t.width = s.width ∧ t.height = s.height) := by
  unfold nextResultOn at h
  cases hr : s.active.results with
  | nil =>
    simp only [hr] at h
    refine ⟨fun t ha => ?_, fun t ha => ?_⟩
    · subst ha; obtain ⟨h1, h2⟩ := splitMessageOn_shown (.inl rfl) hw hh h; exact ⟨by rw [h1]; simp, h2⟩
    · subst ha; exact absurd h splitMessageOn_not_redraw
  | cons q rs =>
    simp only [hr] at h
    cases hj : (Split.jumpValue (q :: rs) s.active.last s.active.sel (decide (s.selected ≠ 0)) [] false (env.root (decide (s.selected ≠ 0)))).2 with
    | some e =>
      rw [hj] at h
      have hz := split_set_size env (some e) s
      simp only [Option.some.injEq, Prod.mk.injEq] at h
      obtain ⟨h1, h2, h3⟩ := h
      refine ⟨fun t ha => ?_, fun t ha => ?_⟩
      · subst ha; cases h1
      · subst ha; cases h1; exact ⟨h2.symm, hz⟩
    | none =>
      rw [hj] at h
      have hz := split_set_size env (some q) s
      refine ⟨fun t ha => ?_, fun t ha => ?_⟩
      · subst ha; obtain ⟨h1, h2⟩ := splitMessageOn_shown (s := { setSelection env (some q) s with collapsed := unfold q (setSelection env (some q) s).collapsed }) (.inr rfl) (hz.1.trans hw) (hz.2.trans hh) h; exact ⟨by rw [h1]; simp, h2⟩
      · subst ha; exact absurd h splitMessageOn_not_redraw

/-- Keys other than `/` and `N` change nothing if nothing is to be drawn. -/
theorem split_key_same {env : Env} {n : Nat} {name : Bytes} {pat : Option Pattern} {s t : St} (h1 : name ≠ b!"/") (h2 : name ≠ b!"N")
    (h : evalKey env n name pat s = some (.nextInput t)) : t = s := by
  have ho := out_key ⟨h1, h2⟩ h
  generalize ha : Answer.nextInput t = a at ho
  cases ho with
  | quit => cases ha
  | crash _ => cases ha
  | stay => cases ha; rfl
  | select _ => cases ha
  | fold _ => cases ha
  | window d c hd =>
    unfold changeWindow at ha
    split at ha
    · cases ha; rfl
    · dsimp only at ha
      split at ha <;> cases ha

/-- What a key comes to on the terminal. -/
theorem splitEvalKeyOn_shown {look : Looks} {env : Env} {n : Nat} {name : Bytes} {pat : Option Pattern} {s : St} {d : Display} {m : Option Bytes} (hs : Shown look env s d m)
    {a : Answer} {d' : Display} {m' : Option Bytes} (h : evalKeyOn look env n name pat s d m = some (a, d', m')) :
    (∀ t, a = .nextInput t → Shown look env t d' m' ∧ (m' = none → m = none)) ∧ (∀ t, a = .redraw t → d' = d ∧ t.width = s.width ∧ t.height = s.height) := by
  unfold evalKeyOn at h
  split at h
  · unfold initSearchOn at h
    cases pat with
    | none => cases h; exact ⟨fun t ha => (by cases ha), fun t ha => (by cases ha; exact ⟨rfl, rfl, rfl⟩)⟩
    | some p =>
      simp only at h
      split at h
      · cases h; exact ⟨fun t ha => (by cases ha), fun t ha => (by cases ha; exact ⟨rfl, rfl, rfl⟩)⟩
      · generalize hs0 : St.set _ _ _ = s0 at h
        have hz : s0.width = s.width ∧ s0.height = s.height := by
          subst hs0; unfold St.set; split <;> exact ⟨rfl, rfl⟩
        have := splitNextResultOn_shown (s := s0) (hz.1.trans hs.width) (hz.2.trans hs.height) h
        exact ⟨fun t ha => ⟨(this.1 t ha).2, fun hm => absurd hm (this.1 t ha).1⟩, fun t ha => ⟨(this.2 t ha).1, (this.2 t ha).2.1.trans hz.1, (this.2 t ha).2.2.trans hz.2⟩⟩
  split at h
  · have := splitNextResultOn_shown hs.width hs.height h
    exact ⟨fun t ha => ⟨(this.1 t ha).2, fun hm => absurd hm (this.1 t ha).1⟩, this.2⟩
  · next hn1 hn2 =>
    obtain ⟨b, hb, h⟩ := Option.map_eq_some_iff.mp h
    cases h
    refine ⟨fun t ha => ?_, fun t ha => ?_⟩
    · subst ha; rw [split_key_same hn1 hn2 hb]; exact ⟨hs, id⟩
    · subst ha; exact ⟨rfl, split_key_size hb (.inl rfl)⟩

theorem splitStepOn_shown {look : Looks} {env : Env} {n k : Nat} {i : Split.Input} {s t : St} {d d' : Display} {m m' : Option Bytes} (hs : Shown look env s d m)
    (h : stepOn look env n k i s d m = some (.nextInput t, d', m')) : Shown look env t d' m' := by
  have after : ∀ (s1 : St) (d1 : Display), s1.width = d1.cols / 2 → s1.height = less d1.rows 2 → ((settleOn look env n k s1 d1).map fun r => match r with
      | none => (Answer.crash, d1, (none : Option Bytes))
      | some (s, d) => (.nextInput s, d, none)) = some (.nextInput t, d', m') → Shown look env t d' m' := by
    intro s1 d1 hw hh h1
    obtain ⟨r, hr, h2⟩ := Option.map_eq_some_iff.mp h1
    cases r with
    | none => cases h2
    | some r => obtain ⟨u, e⟩ := r; cases h2; exact splitSettleOn_shown k s1 _ d1 _ hw hh hr
  cases i with
  | resize c r => exact after { s with width := c / 2, height := less r 2 } ⟨c, r, fun _ _ => nothing⟩ rfl rfl h
  | key name pat =>
    simp only [stepOn] at h
    cases hx : evalKeyOn look env n name pat s d m with
    | none => rw [hx] at h; cases h
    | some r =>
      obtain ⟨a, d1, m1⟩ := r
      have hk := splitEvalKeyOn_shown hs hx
      rw [hx] at h
      cases a with
      | redraw s1 =>
        obtain ⟨h1, h2, h3⟩ := hk.2 s1 rfl
        exact after s1 d1 (by rw [h1, h2]; exact hs.width) (by rw [h1, h3]; exact hs.height) h
      | nextInput s1 => cases h; exact (hk.1 _ rfl).1
      | quit => cases h
      | crash => cases h

theorem watched_shown {look : Looks} {env : Env} {n k cols rows : Nat} {ok : St → Split.Input → Prop} {s : St} {d : Display} {m : Option Bytes}
    (h : Watched look env n k cols rows ok s d m) : Shown look env s d m := by
  induction h with
  | @start s d hs =>
    have hz : (Split.start env cols rows).width = cols / 2 ∧ (Split.start env cols rows).height = less rows 2 := split_set_size env _ _
    exact splitSettleOn_shown k _ _ ⟨cols, rows, fun _ _ => Term.nothing⟩ _ hz.1 hz.2 hs
  | @input s t d d' m m' i _ hok hs ih => exact splitStepOn_shown ih hs

end Verif.Props
