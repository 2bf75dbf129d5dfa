import Verif.Lemmas.SplitInv
/-!
# The selection of a window is in its document, and the view does not crash, unless a search selects an element of the other document
-/
namespace Verif.Lemmas.Split
open Verif.Model Verif.Model.Diff Verif.Model.Split Verif.Spec.SplitView

theorem owns_iff {env : Env} {side : Bool} {e : Ptr} : Owns env side e ↔ IsElement env side e := by
  constructor
  · rintro ⟨p, x, rfl, hx⟩
    cases side with
    | false =>
      simp only [Env.root, Bool.false_eq_true, if_false] at hx
      simp [ptr, IsElement, hx]
    | true =>
      simp only [Env.root, if_true] at hx
      simp [ptr, IsElement, hx]
  · intro h
    cases side with
    | false =>
      cases e with
      | left p =>
        obtain ⟨x, hx⟩ := Option.isSome_iff_exists.mp (show ((Elem.value env.left).at p).isSome from h)
        exact ⟨p, x, rfl, hx⟩
      | right p => exact h.elim
    | true =>
      cases e with
      | left p => exact h.elim
      | right p =>
        obtain ⟨x, hx⟩ := Option.isSome_iff_exists.mp (show ((Elem.value env.right).at p).isSome from h)
        exact ⟨p, x, rfl, hx⟩

/-- The counterpart of an element of one document is one of the other. -/
def Across (env : Env) : Prop := ∀ side e f, Owns env side e → env.equiv e = some f → Owns env (!side) f

theorem across_of_compared {env : Env} (h : Compared env) : Across env := by
  obtain ⟨_, hsym, hex⟩ := Props.C30_tree_matching env.fmt env.left env.right env.table h.1 env.order h.2
  intro side e f he hf
  obtain ⟨p, x, rfl, hx⟩ := he
  cases side with
  | false =>
    obtain ⟨q, x', y, rfl, _, hy⟩ := hex p f hf
    exact ⟨q, y, rfl, hy⟩
  | true =>
    have h1 := (hsym _ _).mp hf
    cases f with
    | left q =>
      obtain ⟨q', x', y, _, hx', _⟩ := hex q _ h1
      exact ⟨q, x', rfl, hx'⟩
    | right q =>
      exfalso
      have g := Lemmas.Diff.build_good env.fmt (.value env.left) (.value env.right) [] [] env.table h.1
      obtain ⟨p', q', h1, h2⟩ | ⟨p', q', h1, h2⟩ := Lemmas.Diff.scan_side g h.2 hf
      · cases h1
      · cases h2

/-- All that a window may select without drawing is of its document. -/
structure OwnR (env : Env) (side : Bool) (w : Win) : Prop extends OwnW env side w where
  results : ∀ q, w.results.head? = some q → Owns env side q

structure OwnS (env : Env) (s : St) : Prop where
  lt : s.selected < 2
  first : OwnR env false s.first
  second : OwnR env true s.second

theorem OwnS.active {env : Env} {s : St} (h : OwnS env s) : OwnR env (activeSide s) s.active := by
  unfold activeSide St.active St.at
  by_cases hc : s.selected = 0
  · simpa [hc] using h.first
  · simpa [hc] using h.second

theorem OwnS.other {env : Env} {s : St} (h : OwnS env s) : OwnR env (!activeSide s) (Spec.SplitView.other s) := by
  unfold activeSide Spec.SplitView.other
  by_cases hc : s.selected = 0
  · simpa [hc] using h.second
  · simpa [hc] using h.first

theorem own_of {env : Env} {s : St} (hl : s.selected < 2) (ha : OwnR env (activeSide s) s.active) (ho : OwnR env (!activeSide s) (Spec.SplitView.other s)) : OwnS env s := by
  unfold activeSide St.active St.at Spec.SplitView.other at *
  by_cases hc : s.selected = 0
  · simp only [hc, ne_eq, not_true_eq_false, decide_false, if_true, Bool.not_false] at ha ho
    exact ⟨by rw [hc]; decide, ha, ho⟩
  · simp only [hc, ne_eq, not_false_eq_true, decide_true, if_false, Bool.not_true] at ha ho
    exact ⟨hl, ho, ha⟩

theorem own_set {env : Env} (hx : Across env) {s : St} (h : OwnS env s) {e : Option Ptr} (he : ∀ f, e = some f → Owns env (activeSide s) f) :
    OwnS env (setSelection env e s) := by
  have hs : activeSide (setSelection env e s) = activeSide s := by unfold activeSide; rw [set_selected]
  obtain ⟨h1, h2⟩ := set_active env e s
  refine own_of (by rw [set_selected]; exact h.lt) ?_ ?_
  · rw [hs, h1]
    have := h.active
    exact ⟨⟨he, he, this.up, this.down⟩, this.results⟩
  · rw [hs, h2]
    have := h.other
    unfold follow
    cases hb : e.bind env.equiv with
    | none => exact ⟨⟨fun e h => (by cases h), this.last, this.up, this.down⟩, this.results⟩
    | some q =>
      have hq : ∀ f, some q = some f → Owns env (!activeSide s) f := by
        intro f hf
        cases hf
        obtain ⟨f, hf, hq⟩ := Option.bind_eq_some_iff.mp hb
        exact hx _ f q (he f hf) hq
      exact ⟨⟨hq, hq, this.up, this.down⟩, this.results⟩

theorem own_sel {env : Env} {s : St} (h : OwnS env s) {e : Option Ptr} (he : Sel env s e) : ∀ f, e = some f → Owns env (activeSide s) f := by
  intro f hf
  have ha := h.active
  cases he with
  | up => exact ha.up f hf
  | down => exact ha.down f hf
  | prev h1 h2 => cases hf; exact owns_findPrev (ha.sel _ h1) h2
  | next h1 h2 => cases hf; exact owns_findNext (ha.sel _ h1) h2
  | par h1 h2 => cases hf; exact owns_parent (ha.sel _ h1) h2
  | par2 h1 h2 h3 => cases hf; exact owns_parent (owns_parent (ha.sel _ h1) h2) h3

theorem own_swap {env : Env} {s : St} (h : OwnS env s) : OwnS env { s with selected := 1 - s.selected } :=
  ⟨by dsimp only; omega, h.first, h.second⟩

theorem own_out {env : Env} (hx : Across env) {s t : St} {a : Answer} (h : OwnS env s) (ho : Out env s a) (ha : a = .redraw t ∨ a = .nextInput t) :
    OwnS env t := by
  cases ho with
  | quit => rcases ha with ha | ha <;> cases ha
  | crash => rcases ha with ha | ha <;> cases ha
  | stay => rcases ha with ha | ha <;> cases ha; exact h
  | select hs => rcases ha with ha | ha <;> cases ha; exact own_set hx h (own_sel h hs)
  | fold _ => rcases ha with ha | ha <;> cases ha; exact ⟨h.lt, h.first, h.second⟩
  | window d c hd =>
    rcases window_spec env d c s h.lt hd with hw | ⟨u, rfl, ⟨_, hw⟩ | hw⟩
    · rw [hw] at ha; rcases ha with ha | ha <;> cases ha; exact h
    · rw [hw] at ha; rcases ha with ha | ha <;> cases ha; exact own_swap h
    · rw [hw] at ha; rcases ha with ha | ha <;> cases ha
      exact own_set hx (own_swap h) (own_swap h).active.last

theorem own_kept {env : Env} {side : Bool} {v w : Win} (h : OwnR env side v) (hw : OwnW env side w) (hk : Keeps v w) : OwnR env side w :=
  ⟨hw, fun q hq => h.results q (by rw [← hk.2.2]; exact hq)⟩

theorem own_message {env : Env} {n : Nat} {s t : St} (h : OwnS env s) (hm : redrawMessage env n s = some (.nextInput t)) : OwnS env t := by
  obtain ⟨k0, k1, hsel, _⟩ := message_spec hm
  unfold redrawMessage at hm
  obtain ⟨hr, hd⟩ := own_redraw (n := n) h.first.toOwnW h.second.toOwnW
  cases hx : redraw env n s with
  | none => rw [hx] at hm; cases hm
  | some d =>
    rw [hx] at hm
    cases d with
    | crash => cases hm
    | retry a b => cases hm; obtain ⟨o0, o1⟩ := hr a b hx; exact ⟨h.lt, own_kept h.first o0 k0, own_kept h.second o1 k1⟩
    | done a b => cases hm; obtain ⟨o0, o1, _⟩ := hd a b hx; exact ⟨h.lt, own_kept h.first o0 k0, own_kept h.second o1 k1⟩

theorem own_settled {env : Env} {n k : Nat} {s t : St} (h : OwnS env s) (hs : settle env n k s = some (some t)) : OwnS env t := by
  obtain ⟨k0, k1, hsel, _⟩ := settle_keeps hs
  obtain ⟨o0, o1, _⟩ := own_settle h.first.toOwnW h.second.toOwnW hs
  exact ⟨by rw [hsel]; exact h.lt, own_kept h.first o0 k0, own_kept h.second o1 k1⟩

theorem own_jump {env : Env} (hx : Across env) {n : Nat} {s t : St} {a : Answer} (h : OwnS env s) (hj : Jump env n s a) (ha : a = .redraw t ∨ a = .nextInput t) :
    OwnS env t := by
  cases hj with
  | nothing _ hm =>
    rcases ha with rfl | rfl
    · exact absurd hm message_not_redraw
    · exact own_message h hm
  | @next e he =>
    rcases ha with ha | ha <;> cases ha
    have := own_set hx h (e := some e) (fun f hf => by cases hf; exact he)
    exact ⟨this.lt, this.first, this.second⟩
  | @wrap q _ hq hm =>
    rcases ha with rfl | rfl
    · exact absurd hm message_not_redraw
    · have := own_set hx h (e := some q) (fun f hf => by cases hf; exact h.active.results q hq)
      exact own_message (s := { setSelection env (some q) s with collapsed := unfold q s.collapsed }) ⟨this.lt, this.first, this.second⟩ hm

theorem own_key {env : Env} (hx : Across env) {n : Nat} {name : Bytes} {pat : Option Search.Pattern} {s t : St} {a : Answer} (h : OwnS env s)
    (hok : ownSearch env s (.key name pat)) (he : evalKey env n name pat s = some a) (ha : a = .redraw t ∨ a = .nextInput t) : OwnS env t := by
  rcases key_cases he with ⟨_, _, ho⟩ | ⟨hn, hs⟩ | ⟨_, hj⟩
  · exact own_out hx h ho ha
  · have hclear : OwnS env { s with first := { s.first with results := [] }, second := { s.second with results := [] } } :=
      ⟨h.lt, ⟨⟨h.first.sel, h.first.last, h.first.up, h.first.down⟩, fun q hq => (by cases hq)⟩,
        ⟨⟨h.second.sel, h.second.last, h.second.up, h.second.down⟩, fun q hq => (by cases hq)⟩⟩
    rcases search_spec hs with ⟨_, rfl⟩ | ⟨p, rfl, rfl | hj⟩
    · rcases ha with ha | ha <;> cases ha; exact h
    · rcases ha with ha | ha <;> cases ha; exact hclear
    · refine own_jump hx ?_ hj ha
      have hown : ∀ q, (search env p).head? = some q → Owns env (activeSide s) q := fun q hq => owns_iff.mpr (hok p q (by rw [hn]) hq)
      unfold activeSide at hown
      unfold St.set St.active St.at
      by_cases hc : s.selected = 0
      · simp only [hc, ne_eq, not_true_eq_false, decide_false] at hown
        simp only [hc, if_true]
        exact ⟨Nat.zero_lt_two, ⟨⟨h.first.sel, h.first.last, h.first.up, h.first.down⟩, hown⟩, hclear.second⟩
      · simp only [hc, ne_eq, not_false_eq_true, decide_true] at hown
        simp only [hc, if_false]
        exact ⟨h.lt, hclear.first, ⟨⟨h.second.sel, h.second.last, h.second.up, h.second.down⟩, hown⟩⟩
  · exact own_jump hx h hj ha

theorem own_start (env : Env) (hx : Across env) (cols rows : Nat) : OwnS env (start env cols rows) := by
  have hroot : ∀ side, Owns env side (ptr side []) := fun side => ⟨[], _, rfl, rfl⟩
  have hw : ∀ side, OwnR env side (Win.mk none (some (ptr side [])) none none [] 0 0 0 [] false false [] [] []) := fun side =>
    ⟨⟨fun e h => (by cases h), fun e h => (by cases h; exact hroot side), fun e h => (by cases h), fun e h => (by cases h)⟩, fun q h => (by cases h)⟩
  refine own_set hx ⟨Nat.zero_lt_two, hw false, hw true⟩ ?_
  intro f hf
  cases hf
  exact hroot false

theorem own_reached {env : Env} (hc : Compared env) {n k cols rows : Nat} {s : St} (h : Reached env n k cols rows (ownSearch env) s) : OwnS env s := by
  have hx := across_of_compared hc
  induction h with
  | start hs => exact own_settled (own_start env hx cols rows) hs
  | @input s t i _ hok hs ih =>
    rcases step_cases hs with ⟨c, r, _, hst⟩ | ⟨name, pat, rfl, ⟨s', he, hst⟩ | he⟩
    · exact own_settled (s := { s with width := c / 2, height := less r 2 }) ⟨ih.lt, ih.first, ih.second⟩ hst
    · exact own_settled (own_key hx ih hok he (.inl rfl)) hst
    · exact own_key hx ih hok he (.inr rfl)

/-- A state after a complete drawing, of a session without searches. -/
structure Live (env : Env) (s : St) : Prop extends OwnS env s where
  sel : s.active.sel ≠ none
  last0 : s.first.last ≠ none
  last1 : s.second.last ≠ none
  moves0 : s.first.up ≠ none ∧ s.first.down ≠ none
  moves1 : s.second.up ≠ none ∧ s.second.down ≠ none

/-- A state before a drawing. -/
structure Ready (env : Env) (s : St) : Prop extends OwnS env s where
  sel : s.active.sel ≠ none
  last0 : s.first.last ≠ none
  last1 : s.second.last ≠ none

theorem Live.ready {env : Env} {s : St} (h : Live env s) : Ready env s := ⟨h.toOwnS, h.sel, h.last0, h.last1⟩

theorem live_settled {env : Env} {n k : Nat} {s t : St} (h : Ready env s) (hs : settle env n k s = some (some t)) : Live env t := by
  obtain ⟨k0, k1, hsel, _⟩ := settle_keeps hs
  obtain ⟨_, _, m0, m1⟩ := own_settle h.first.toOwnW h.second.toOwnW hs
  refine ⟨own_settled h.toOwnS hs, ?_, by rw [k0.2.1]; exact h.last0, by rw [k1.2.1]; exact h.last1, m0 h.last0, m1 h.last1⟩
  have := h.sel
  unfold St.active St.at at this ⊢
  rw [hsel]
  split
  · next hc => simp only [hc, if_true] at this; rw [k0.1]; exact this
  · next hc => simp only [hc, if_false] at this; rw [k1.1]; exact this

theorem ready_set {env : Env} (hx : Across env) {s : St} (h : OwnS env s) (l0 : s.first.last ≠ none) (l1 : s.second.last ≠ none) {e : Option Ptr} (hn : e ≠ none)
    (he : ∀ f, e = some f → Owns env (activeSide s) f) : Ready env (setSelection env e s) := by
  have hf : ∀ w : Win, w.last ≠ none → (follow env e w).last ≠ none := by
    intro w hw
    unfold follow
    cases e.bind env.equiv with
    | none => exact hw
    | some q => simp
  refine ⟨own_set hx h he, ?_, ?_, ?_⟩
  · rw [(set_active env e s).1]; exact hn
  · unfold setSelection; split
    · exact hn
    · exact hf _ l0
  · unfold setSelection; split
    · exact hf _ l1
    · exact hn

theorem sel_some {env : Env} {s : St} (h : Live env s) {e : Option Ptr} (he : Sel env s e) : e ≠ none := by
  cases he with
  | up =>
    unfold St.active St.at
    split
    · exact h.moves0.1
    · exact h.moves1.1
  | down =>
    unfold St.active St.at
    split
    · exact h.moves0.2
    · exact h.moves1.2
  | prev => simp
  | next => simp
  | par => simp
  | par2 => simp

/-- A key does not crash a live view. -/
theorem live_out {env : Env} (hx : Across env) {s : St} {a : Answer} (h : Live env s) (ho : Out env s a) :
    a ≠ .crash ∧ (∀ t, a = .nextInput t → Live env t) ∧ ∀ t, a = .redraw t → Ready env t := by
  cases ho with
  | quit => exact ⟨by simp, fun t ht => (by cases ht), fun t ht => (by cases ht)⟩
  | crash hn => exact absurd hn h.sel
  | stay => exact ⟨by simp, fun t ht => (by cases ht; exact h), fun t ht => (by cases ht)⟩
  | select hs =>
    exact ⟨by simp, fun t ht => (by cases ht), fun t ht => (by cases ht; exact ready_set hx h.toOwnS h.last0 h.last1 (sel_some h hs) (own_sel h.toOwnS hs))⟩
  | fold _ => exact ⟨by simp, fun t ht => (by cases ht), fun t ht => (by cases ht; exact ⟨⟨h.lt, h.first, h.second⟩, h.sel, h.last0, h.last1⟩)⟩
  | window d c hd =>
    rcases window_spec env d c s h.lt hd with hw | ⟨u, rfl, ⟨hsel, hw⟩ | hw⟩
    · rw [hw]; exact ⟨by simp, fun t ht => (by cases ht; exact h), fun t ht => (by cases ht)⟩
    · rw [hw]
      exact ⟨by simp, fun t ht => (by cases ht), fun t ht => (by cases ht; exact ⟨own_swap h.toOwnS, hsel, h.last0, h.last1⟩)⟩
    · rw [hw]
      refine ⟨by simp, fun t ht => (by cases ht), fun t ht => ?_⟩
      cases ht
      refine ready_set hx (own_swap h.toOwnS) h.last0 h.last1 ?_ (own_swap h.toOwnS).active.last
      unfold St.active St.at
      split
      · exact h.last0
      · exact h.last1

theorem own_of_noSearch {env : Env} {s : St} {i : Input} (h : noSearch s i) : ownSearch env s i :=
  fun _ _ hi _ => absurd rfl (h _ _ hi).1

theorem live_reached {env : Env} (hc : Compared env) {n k cols rows : Nat} {s : St} (h : Reached env n k cols rows noSearch s) : Live env s := by
  have hx := across_of_compared hc
  induction h with
  | start hs =>
    refine live_settled (ready_set hx ?_ ?_ ?_ (by simp) ?_) hs
    · have hroot : ∀ side, Owns env side (ptr side []) := fun side => ⟨[], _, rfl, rfl⟩
      have hw : ∀ side, OwnR env side (Win.mk none (some (ptr side [])) none none [] 0 0 0 [] false false [] [] []) := fun side =>
        ⟨⟨fun e h => (by cases h), fun e h => (by cases h; exact hroot side), fun e h => (by cases h), fun e h => (by cases h)⟩, fun q h => (by cases h)⟩
      exact ⟨Nat.zero_lt_two, hw false, hw true⟩
    · simp
    · simp
    · intro f hf; cases hf; exact ⟨[], _, rfl, rfl⟩
  | @input s t i _ hok hs ih =>
    rcases step_cases hs with ⟨c, r, _, hst⟩ | ⟨name, pat, rfl, ⟨s', he, hst⟩ | he⟩
    · exact live_settled (s := { s with width := c / 2, height := less r 2 }) ⟨⟨ih.lt, ih.first, ih.second⟩, ih.sel, ih.last0, ih.last1⟩ hst
    · exact live_settled ((live_out hx ih (out_key (hok _ _ rfl) he)).2.2 _ rfl) hst
    · exact (live_out hx ih (out_key (hok _ _ rfl) he)).2.1 _ rfl

/-- No input but a search crashes the view. -/
theorem live_step {env : Env} (hc : Compared env) {n k : Nat} {s : St} {i : Input} (h : Live env s) (hok : noSearch s i) : step env n k i s ≠ some .crash := by
  have hx := across_of_compared hc
  have hset : ∀ s', Ready env s' → settle env n k s' ≠ some none := by
    intro s' hr hs
    rcases settle_crash hs with hn | hn
    · exact hr.last0 hn
    · exact hr.last1 hn
  intro hs
  rcases step_crash hs with ⟨c, r, _, hst⟩ | ⟨name, pat, rfl, ⟨s', he, hst⟩ | he⟩
  · exact hset { s with width := c / 2, height := less r 2 } ⟨⟨h.lt, h.first, h.second⟩, h.sel, h.last0, h.last1⟩ hst
  · exact hset _ ((live_out hx h (out_key (hok _ _ rfl) he)).2.2 _ rfl) hst
  · exact (live_out hx h (out_key (hok _ _ rfl) he)).1 rfl

/-- Collapsed containers are collapsed with their counterparts. -/
def Alike (env : Env) (c : List Ptr) : Prop := ∀ e q, env.equiv e = some q → (e ∈ c ↔ q ∈ c)

theorem mem_insert (e q : Ptr) (c : List Ptr) : e ∈ Split.insert q c ↔ e = q ∨ e ∈ c := by
  unfold Split.insert
  split
  · next h =>
    have : q ∈ c := by simpa using h
    constructor
    · exact .inr
    · rintro (rfl | h)
      · exact this
      · exact h
  · simp [or_comm]

theorem mem_collapsedWith (env : Env) (v e : Ptr) (c : List Ptr) : e ∈ collapsedWith env v c ↔ e = v ∨ some e = env.equiv v ∨ e ∈ c := by
  unfold collapsedWith
  cases env.equiv v with
  | none => simp [mem_insert]
  | some q =>
    simp only [mem_insert, Option.some.injEq]
    constructor
    · rintro (h | h | h)
      · exact .inr (.inl h)
      · exact .inl h
      · exact .inr (.inr h)
    · rintro (h | h | h)
      · exact .inr (.inl h)
      · exact .inl h
      · exact .inr (.inr h)

theorem mem_expanded (env : Env) (v e : Ptr) (c : List Ptr) : e ∈ expanded env v c ↔ e ∈ c ∧ e ≠ v ∧ some e ≠ env.equiv v := by
  simp [expanded, and_comm, and_left_comm]

theorem alike_fold {env : Env} (hb : Both env) {s : St} {c : List Ptr} (h : Alike env s.collapsed) (hf : Fold env s c) : Alike env c := by
  have key : ∀ v e q, env.equiv e = some q → ((e = v ∨ some e = env.equiv v) ↔ (q = v ∨ some q = env.equiv v)) := by
    intro v e q heq
    have hqe := hb _ _ heq
    constructor
    · rintro (rfl | h')
      · exact .inr heq.symm
      · have := hb _ _ h'.symm
        rw [heq] at this
        cases this
        exact .inl rfl
    · rintro (rfl | h')
      · exact .inr hqe.symm
      · have := hb _ _ h'.symm
        rw [hqe] at this
        cases this
        exact .inl rfl
  intro e q heq
  cases hf with
  | expand v =>
    rw [mem_expanded, mem_expanded, h e q heq]
    have := key v e q heq
    constructor
    · rintro ⟨h1, h2, h3⟩
      refine ⟨h1, fun h' => ?_, fun h' => ?_⟩
      · rcases this.mpr (.inl h') with h4 | h4
        · exact h2 h4
        · exact h3 h4
      · rcases this.mpr (.inr h') with h4 | h4
        · exact h2 h4
        · exact h3 h4
    · rintro ⟨h1, h2, h3⟩
      refine ⟨h1, fun h' => ?_, fun h' => ?_⟩
      · rcases this.mp (.inl h') with h4 | h4
        · exact h2 h4
        · exact h3 h4
      · rcases this.mp (.inr h') with h4 | h4
        · exact h2 h4
        · exact h3 h4
  | collapse v =>
    rw [mem_collapsedWith, mem_collapsedWith, ← or_assoc, ← or_assoc, key v e q heq, h e q heq]

theorem alike_out {env : Env} (hb : Both env) {s t : St} {a : Answer} (h : Alike env s.collapsed) (hl : s.selected < 2) (ho : Out env s a)
    (ha : a = .redraw t ∨ a = .nextInput t) : Alike env t.collapsed := by
  cases ho with
  | quit => rcases ha with ha | ha <;> cases ha
  | crash => rcases ha with ha | ha <;> cases ha
  | stay => rcases ha with ha | ha <;> cases ha; exact h
  | select _ => rcases ha with ha | ha <;> cases ha; rw [set_collapsed]; exact h
  | fold hf => rcases ha with ha | ha <;> cases ha; exact alike_fold hb h hf
  | window d c hd =>
    rcases window_spec env d c s hl hd with hw | ⟨u, rfl, ⟨_, hw⟩ | hw⟩
    · rw [hw] at ha; rcases ha with ha | ha <;> cases ha; exact h
    · rw [hw] at ha; rcases ha with ha | ha <;> cases ha; exact h
    · rw [hw] at ha; rcases ha with ha | ha <;> cases ha; rw [set_collapsed]; exact h

theorem alike_reached {env : Env} (hc : Compared env) {n k cols rows : Nat} {s : St} (h : Reached env n k cols rows noSearch s) : Alike env s.collapsed := by
  have hb := both_of_compared hc
  induction h with
  | start hs =>
    obtain ⟨_, _, _, hcol, _⟩ := settle_keeps hs
    rw [hcol]
    intro e q _
    simp [start, set_collapsed]
  | @input s t i hr hok hs ih =>
    have hl := (live_reached hc hr).lt
    rcases step_cases hs with ⟨c, r, _, hst⟩ | ⟨name, pat, rfl, ⟨s', he, hst⟩ | he⟩
    · obtain ⟨_, _, _, hcol, _⟩ := settle_keeps hst
      rw [hcol]; exact ih
    · obtain ⟨_, _, _, hcol, _⟩ := settle_keeps hst
      rw [hcol]
      exact alike_out hb ih hl (out_key (hok _ _ rfl) he) (.inl rfl)
    · exact alike_out hb ih hl (out_key (hok _ _ rfl) he) (.inr rfl)

end Verif.Lemmas.Split
