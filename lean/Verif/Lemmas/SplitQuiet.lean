import Verif.Lemmas.SplitPic
import Verif.Lemmas.SplitInv
import Verif.Lemmas.SplitHist
/-!
# A diff view without signs
-/
namespace Verif.Lemmas.Split
open Verif.Model Verif.Model.Diff Verif.Model.Split Verif.Spec.SplitView
open Verif.Model.Tui (getNbLines hasReachedBottom)

/-- Every element has a counterpart, and no sign. -/
def Quiet (env : Env) : Prop :=
  ∀ (side : Bool) (p : Path) (e : Elem), (Elem.value (env.root side)).at p = some e → env.equiv (ptr side p) ≠ none ∧ env.op (ptr side p) = .equ

/-- The window has no sign, and none was written. -/
def NoMarks (w : Win) : Prop := w.marks = [] ∧ ∀ row op, Call.mark row op ∉ w.calls

theorem noMarks_reset (w : Win) : NoMarks w.reset := ⟨rfl, fun _ _ h => (by cases h)⟩

theorem at_inside {a : Elem} {k : Bytes} {v : Json} (p : Path) (h : a.at p = some (.entry k v)) : a.at (p ++ [0]) = some (.value v) := by
  induction p generalizing a with
  | nil => cases h; rfl
  | cons j p ih =>
    cases hk : a.kids[j]? with
    | none => simp [Elem.at, hk] at h
    | some c =>
      simp only [Elem.at, hk, List.cons_append] at h ⊢
      exact ih h

theorem prints_quiet {env : Env} (hq : Quiet env) {view : View} {side : Bool} {it : Item} {e : Elem} (he : (Elem.value (env.root side)).at it.path = some e) :
    ∀ a ∈ prints env view side it, env.op a.who = .equ := by
  have h0 := (hq side _ _ he).2
  intro a ha
  unfold prints at ha
  dsimp only at ha
  split at ha
  · simp only [List.mem_singleton] at ha
    subst ha
    exact h0
  · rw [he] at ha
    cases e with
    | entry k v =>
      have h1 := (hq side _ _ (at_inside _ he)).2
      dsimp only at ha
      split at ha
      · simp only [List.mem_singleton] at ha; subst ha; exact h0
      · split at ha
        · simp only [List.mem_singleton] at ha; subst ha; exact h0
        · split at ha
          · simp only [List.mem_singleton] at ha; subst ha; exact h0
          · simp only [List.mem_cons, List.not_mem_nil, or_false] at ha
            rcases ha with rfl | rfl
            · exact h0
            · exact h1
    | value v =>
      dsimp only at ha
      split at ha
      · split at ha
        · simp only [List.mem_singleton] at ha; subst ha; exact h0
        · simp only [List.mem_singleton] at ha; subst ha; exact h0
      · simp only [List.mem_singleton] at ha; subst ha; exact h0

theorem putLines_of (height sc : Nat) (l : List Print) : ∀ y, ∀ b ∈ putLines height sc y l, b.1 ∈ l := by
  induction l with
  | nil => intro y b hb; simp [putLines] at hb
  | cons a l ih =>
    intro y b hb
    cases l with
    | nil =>
      simp only [putLines] at hb
      split at hb
      · cases hb
      · simp only [List.mem_singleton] at hb; subst hb; exact List.mem_cons_self
    | cons c l =>
      rw [putLines] at hb
      split at hb
      · exact List.mem_cons_of_mem _ (ih _ b hb)
      · split at hb
        · simp only [List.mem_singleton] at hb; subst hb; exact List.mem_cons_self
        · rcases List.mem_cons.mp hb with rfl | hb
          · exact List.mem_cons_self
          · exact List.mem_cons_of_mem _ (ih _ b hb)

theorem marks_quiet {env : Env} {view : View} {sel : Option Ptr} {sc col : Nat} {ls : List (Print × Nat)} (h : ∀ b ∈ ls, env.op b.1.who = .equ) :
    ls.flatMap (markAt env sc) = [] ∧ ∀ row op, Call.mark row op ∉ ls.flatMap (callAt env view sel sc col) := by
  constructor
  · rw [List.flatMap_eq_nil_iff]
    intro b hb
    simp [markAt, displayDiffOp, h b hb]
  · intro row op hm
    obtain ⟨b, hb, hm⟩ := List.mem_flatMap.mp hm
    simp [callAt, callMark, h b hb] at hm

theorem noMarks_more {env : Env} {view : View} {sel : Option Ptr} {sc col : Nat} {ls : List (Print × Nat)} (h : ∀ b ∈ ls, env.op b.1.who = .equ) {w w' : Win} (hn : NoMarks w)
    (hm : w'.marks = w.marks ++ ls.flatMap (markAt env sc)) (hc : w'.calls = w.calls ++ ls.flatMap (callAt env view sel sc col)) : NoMarks w' := by
  obtain ⟨h1, h2⟩ := marks_quiet (view := view) (sel := sel) (sc := sc) (col := col) h
  refine ⟨by rw [hm, hn.1, h1]; rfl, fun row op hx => ?_⟩
  rw [hc] at hx
  rcases List.mem_append.mp hx with hx | hx
  · exact hn.2 _ _ hx
  · exact h2 _ _ hx

theorem retry_win {env : Env} {view : View} {side : Bool} {w w' : Win} {it : Item} {st : List (Nat × Path)} (hdraw : draw1 env view side w = drawIt env view side it st w)
    (ho : redrawOne env view side w = .retry w') :
    w' = { (putAll env view (prints env view side it) (before side it st w)).1 with scroll := (putAll env view (prints env view side it) (before side it st w)).1.scroll + 1 } := by
  have ho' := ho
  rw [redrawOne_eq, hdraw] at ho'
  unfold drawIt at ho'
  cases hp : putAll env view (prints env view side it) (before side it st w) with
  | mk w2 r =>
    rw [hp] at ho'
    cases r with
    | true =>
      dsimp only at ho'
      simp only [Bool.not_true, Bool.false_and, Bool.false_eq_true, if_false, Bool.false_or] at ho'
      generalize (if it.closing = true then none else opens (env.root side) (cOf view side) it.path) = o at ho'
      split at ho'
      · rcases complete_spec env view true (enter o w2) with ⟨h, _⟩ | ⟨u, d, l, h, _⟩ <;> (rw [h] at ho'; cases ho')
      · cases ho'
    | false =>
      dsimp only at ho'
      simp only [Bool.not_false, Bool.true_and, Bool.true_or, if_true] at ho'
      split at ho'
      · cases ho'; rfl
      · rcases complete_spec env view false w2 with ⟨h, _⟩ | ⟨u, d, l, h, _⟩ <;> (rw [h] at ho'; cases ho')

/-- A turn in a view without signs. -/
theorem one_quiet {env : Env} (hq : Quiet env) {view : View} {side : Bool} {w : Win} (hs : Sound (env.root side) w.stack) (hx : Col w) (hn : NoMarks w) :
    isAdded env side w = false ∧
    (∀ w' c, redrawOne env view side w = .ok w' c → NoMarks w' ∧ ((!c) = true → Sound (env.root side) w'.stack ∧ Col w')) ∧
    (∀ w', redrawOne env view side w = .retry w' → NoMarks w') := by
  obtain ⟨it, rest, st, hrem, hex, hadd, hdraw, hst⟩ := draw1_eq env view side w hs
  have hex' : ∃ e, (Elem.value (env.root side)).at it.path = some e := by
    cases hcl : it.closing with
    | false => exact hex hcl
    | true => obtain ⟨v, hv⟩ := close_real hs hrem hcl; exact ⟨_, hv⟩
  obtain ⟨e, he⟩ := hex'
  refine ⟨?_, ?_, ?_⟩
  · rw [hadd]
    have := (hq side _ _ he).1
    cases hv : env.equiv (ptr side it.path) with
    | none => exact absurd hv this
    | some _ => rfl
  · intro w' c ho
    obtain ⟨it', rest', ls, hw⟩ := wrote hs hx ho
    have hsame := hw.rem
    rw [hrem] at hsame
    injection hsame with h1 h2
    subst h1 h2
    refine ⟨noMarks_more (view := view) (sel := w.sel) (col := it.col) ?_ hn hw.marks hw.calls, fun hc => ?_⟩
    · intro b hb
      rw [hw.exactly] at hb
      exact prints_quiet hq he _ (putLines_of _ _ _ _ b hb)
    · have := hw.next (by simpa using hc)
      exact ⟨this.1, this.2.1⟩
  · intro w' ho
    have hli := putAll_lines env view (prints env view side it) (before side it st w)
    obtain ⟨b1, b2, b3, b4, b5, b6, b7, b8, b9, b10, b11⟩ := before_spec side it st w
    rw [retry_win hdraw ho]
    refine noMarks_more (ls := putLines view.height (before side it st w).scroll (before side it st w).y (prints env view side it)) ?_ hn
      (by show _ = _; rw [hli.2.1, b10]) (by show _ = _; rw [hli.2.2, before_calls])
    intro b hb
    exact prints_quiet hq he _ (putLines_of _ _ _ _ b hb)

theorem loop_quiet {env : Env} (hq : Quiet env) {view : View} (n : Nat) : ∀ (b0 b1 : Bool) (w0 w1 : Win) (r : Drawn),
    (b0 = true → Sound (env.root false) w0.stack ∧ Col w0) → (b1 = true → Sound (env.root true) w1.stack ∧ Col w1) → NoMarks w0 → NoMarks w1 →
    redrawLoop env view n b0 b1 w0 w1 = some r → ∀ a b, r = .done a b ∨ r = .retry a b → NoMarks a ∧ NoMarks b := by
  induction n with
  | zero => intro b0 b1 w0 w1 r _ _ _ _ h; simp [redrawLoop] at h
  | succ n ih =>
    intro b0 b1 w0 w1 r s0 s1 n0 n1 h a b hr
    rw [redrawLoop] at h
    by_cases hd : (!b0 && !b1) = true
    · rw [if_pos hd] at h
      cases h
      rcases hr with hr | hr
      · cases hr; exact ⟨n0, n1⟩
      · cases hr
    rw [if_neg hd] at h
    have a0 : (b0 && isAdded env false w0) = false := by
      cases b0 with
      | false => rfl
      | true => exact (one_quiet hq (view := view) (s0 rfl).1 (s0 rfl).2 n0).1
    have a1 : (b1 && isAdded env true w1) = false := by
      cases b1 with
      | false => rfl
      | true => exact (one_quiet hq (view := view) (s1 rfl).1 (s1 rfl).2 n1).1
    rw [a0, a1] at h
    simp only [Bool.false_eq_true, if_false] at h
    have k0 : (∀ w c, (if b0 = true then redrawOne env view false w0 else .ok w0 true) = .ok w c → NoMarks w ∧ ((!c) = true → Sound (env.root false) w.stack ∧ Col w)) ∧
        (∀ w, (if b0 = true then redrawOne env view false w0 else .ok w0 true) = .retry w → NoMarks w) := by
      cases b0 with
      | false => exact ⟨fun w c hw => (by cases hw; exact ⟨n0, fun h => (by cases h)⟩), fun w hw => (by cases hw)⟩
      | true => exact (one_quiet hq (s0 rfl).1 (s0 rfl).2 n0).2
    have k1 : (∀ w c, (if b1 = true then redrawOne env view true w1 else .ok w1 true) = .ok w c → NoMarks w ∧ ((!c) = true → Sound (env.root true) w.stack ∧ Col w)) ∧
        (∀ w, (if b1 = true then redrawOne env view true w1 else .ok w1 true) = .retry w → NoMarks w) := by
      cases b1 with
      | false => exact ⟨fun w c hw => (by cases hw; exact ⟨n1, fun h => (by cases h)⟩), fun w hw => (by cases hw)⟩
      | true => exact (one_quiet hq (s1 rfl).1 (s1 rfl).2 n1).2
    generalize (if b0 = true then redrawOne env view false w0 else .ok w0 true) = o0 at h k0
    generalize (if b1 = true then redrawOne env view true w1 else .ok w1 true) = o1 at h k1
    cases o0 with
    | crash => cases h; rcases hr with hr | hr <;> cases hr
    | retry w =>
      cases h
      rcases hr with hr | hr
      · cases hr
      · cases hr; exact ⟨k0.2 _ rfl, n1⟩
    | ok w c =>
      cases o1 with
      | crash => cases h; rcases hr with hr | hr <;> cases hr
      | retry w' =>
        cases h
        rcases hr with hr | hr
        · cases hr
        · cases hr; exact ⟨(k0.1 _ _ rfl).1, k1.2 _ rfl⟩
      | ok w' c' =>
        obtain ⟨m0, p0⟩ := k0.1 _ _ rfl
        obtain ⟨m1, p1⟩ := k1.1 _ _ rfl
        dsimp only at h
        refine ih _ _ _ _ r ?_ ?_ ?_ ?_ h a b hr
        · exact p0
        · exact p1
        · exact m0
        · exact m1

theorem redraw_quiet {env : Env} (hq : Quiet env) {n : Nat} {s : St} {a b : Win} (h : redraw env n s = some (.done a b) ∨ redraw env n s = some (.retry a b)) : NoMarks a ∧ NoMarks b := by
  rcases h with h | h
  · exact loop_quiet hq n true true s.first.reset s.second.reset _ (fun _ => ⟨sound_nil _, rfl⟩) (fun _ => ⟨sound_nil _, rfl⟩) (noMarks_reset _) (noMarks_reset _) h a b (.inl rfl)
  · exact loop_quiet hq n true true s.first.reset s.second.reset _ (fun _ => ⟨sound_nil _, rfl⟩) (fun _ => ⟨sound_nil _, rfl⟩) (noMarks_reset _) (noMarks_reset _) h a b (.inr rfl)

theorem settle_quiet {env : Env} (hq : Quiet env) {n k : Nat} {s t : St} (h : settle env n k s = some (some t)) : NoMarks t.first ∧ NoMarks t.second := by
  induction k generalizing s with
  | zero => cases h
  | succ k ih =>
    rw [settle] at h
    cases hr : redraw env n s with
    | none => rw [hr] at h; cases h
    | some r =>
      rw [hr] at h
      cases r with
      | crash => cases h
      | done a b => cases h; exact redraw_quiet hq (.inl hr)
      | retry a b => exact ih h

theorem message_quiet {env : Env} (hq : Quiet env) {n : Nat} {s t : St} (h : redrawMessage env n s = some (.nextInput t)) : NoMarks t.first ∧ NoMarks t.second := by
  unfold redrawMessage at h
  cases hr : redraw env n s with
  | none => rw [hr] at h; cases h
  | some r =>
    rw [hr] at h
    cases r with
    | crash => cases h
    | retry a b => cases h; exact redraw_quiet hq (.inr hr)
    | done a b => cases h; exact redraw_quiet hq (.inl hr)

theorem key_quiet {env : Env} (hq : Quiet env) {n : Nat} {name : Bytes} {pat : Option Search.Pattern} {s t : St} (h : NoMarks s.first ∧ NoMarks s.second)
    (he : evalKey env n name pat s = some (.nextInput t)) : NoMarks t.first ∧ NoMarks t.second := by
  have hj : ∀ s0 : St, Jump env n s0 (.nextInput t) → NoMarks t.first ∧ NoMarks t.second := by
    intro s0 hj
    generalize ha : Answer.nextInput t = a at hj
    cases hj with
    | nothing _ hm => subst ha; exact message_quiet hq hm
    | next _ => cases ha
    | wrap _ hm => subst ha; exact message_quiet hq hm
  rcases key_cases he with ⟨_, _, ho⟩ | ⟨_, hs⟩ | ⟨_, hj'⟩
  · generalize ha : Answer.nextInput t = a at ho
    cases ho with
    | quit => cases ha
    | crash _ => cases ha
    | stay => cases ha; exact h
    | select _ => cases ha
    | fold _ => cases ha
    | window d c hd =>
      unfold changeWindow at ha
      split at ha
      · cases ha; exact h
      · dsimp only at ha
        split at ha <;> cases ha
  · rcases search_spec hs with ⟨_, h'⟩ | ⟨p, _, h' | hj'⟩
    · cases h'
    · cases h'
    · exact hj _ hj'
  · exact hj _ hj'

theorem reached_quiet {env : Env} (hq : Quiet env) {n k cols rows : Nat} {ok : St → Input → Prop} {s : St} (h : Reached env n k cols rows ok s) : NoMarks s.first ∧ NoMarks s.second := by
  induction h with
  | start hs => exact settle_quiet hq hs
  | @input s t i _ _ hs ih =>
    rcases step_cases hs with ⟨c, r, _, hst⟩ | ⟨name, pat, _, ⟨s', he, hst⟩ | he⟩
    · exact settle_quiet hq hst
    · exact settle_quiet hq hst
    · exact key_quiet hq ih he

end Verif.Lemmas.Split
