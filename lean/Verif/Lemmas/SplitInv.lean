import Verif.Lemmas.SplitHist
/-!
# Invariants of the sessions of the diff view
-/
namespace Verif.Lemmas.Split
open Verif.Model Verif.Model.Diff Verif.Model.Split Verif.Spec.SplitView

theorem step_cases {env : Env} {n k : Nat} {i : Input} {s t : St} (h : step env n k i s = some (.nextInput t)) :
    (∃ c r, i = .resize c r ∧ settle env n k { s with width := c / 2, height := less r 2 } = some (some t)) ∨
    (∃ name pat, i = .key name pat ∧ ((∃ s', evalKey env n name pat s = some (.redraw s') ∧ settle env n k s' = some (some t)) ∨
      evalKey env n name pat s = some (.nextInput t))) := by
  have key : ∀ s', (settle env n k s').map (fun r => match r with
      | none => Answer.crash
      | some s => .nextInput s) = some (.nextInput t) → settle env n k s' = some (some t) := by
    intro s' h
    obtain ⟨r, hr, h⟩ := Option.map_eq_some_iff.mp h
    cases r with
    | none => cases h
    | some u => cases h; exact hr
  cases i with
  | resize c r => exact .inl ⟨c, r, rfl, key _ h⟩
  | key name pat =>
    refine .inr ⟨name, pat, rfl, ?_⟩
    simp only [step] at h
    cases he : evalKey env n name pat s with
    | none => rw [he] at h; cases h
    | some a =>
      rw [he] at h
      cases a with
      | redraw s' => exact .inl ⟨s', rfl, key _ h⟩
      | nextInput s' => cases h; exact .inr rfl
      | quit => cases h
      | crash => cases h

theorem step_crash {env : Env} {n k : Nat} {i : Input} {s : St} (h : step env n k i s = some .crash) :
    (∃ c r, i = .resize c r ∧ settle env n k { s with width := c / 2, height := less r 2 } = some none) ∨
    (∃ name pat, i = .key name pat ∧ ((∃ s', evalKey env n name pat s = some (.redraw s') ∧ settle env n k s' = some none) ∨
      evalKey env n name pat s = some .crash)) := by
  have key : ∀ s', (settle env n k s').map (fun r => match r with
      | none => Answer.crash
      | some s => .nextInput s) = some .crash → settle env n k s' = some none := by
    intro s' h
    obtain ⟨r, hr, h⟩ := Option.map_eq_some_iff.mp h
    cases r with
    | none => exact hr
    | some u => cases h
  cases i with
  | resize c r => exact .inl ⟨c, r, rfl, key _ h⟩
  | key name pat =>
    refine .inr ⟨name, pat, rfl, ?_⟩
    simp only [step] at h
    cases he : evalKey env n name pat s with
    | none => rw [he] at h; cases h
    | some a =>
      rw [he] at h
      cases a with
      | redraw s' => exact .inl ⟨s', rfl, key _ h⟩
      | nextInput s' => cases h
      | quit => cases h
      | crash => exact .inr rfl

/-- What a key comes to, searches included. -/
theorem key_cases {env : Env} {n : Nat} {name : Bytes} {pat : Option Search.Pattern} {s : St} {a : Answer} (h : evalKey env n name pat s = some a) :
    (name ≠ b!"/" ∧ name ≠ b!"N" ∧ Out env s a) ∨ (name = b!"/" ∧ initSearch env n pat s = some a) ∨ (name = b!"N" ∧ Jump env n s a) := by
  by_cases h1 : name = b!"/"
  · subst h1
    refine .inr (.inl ⟨rfl, ?_⟩)
    unfold evalKey at h
    rw [if_neg (by decide), if_neg (by decide), if_neg (by decide), if_neg (by decide), if_neg (by decide), if_neg (by decide), if_neg (by decide), if_pos rfl] at h
    exact h
  by_cases h2 : name = b!"N"
  · subst h2
    refine .inr (.inr ⟨rfl, jump_spec ?_⟩)
    unfold evalKey at h
    rw [if_neg (by decide), if_neg (by decide), if_neg (by decide), if_neg (by decide), if_neg (by decide), if_neg (by decide), if_neg (by decide), if_neg (by decide), if_pos rfl] at h
    exact h
  · exact .inl ⟨h1, h2, out_key ⟨h1, h2⟩ h⟩

theorem message_spec {env : Env} {n : Nat} {s t : St} (h : redrawMessage env n s = some (.nextInput t)) :
    Keeps s.first t.first ∧ Keeps s.second t.second ∧ t.selected = s.selected ∧ t.collapsed = s.collapsed := by
  unfold redrawMessage at h
  cases hr : redraw env n s with
  | none => rw [hr] at h; cases h
  | some d =>
    rw [hr] at h
    cases d with
    | crash => cases h
    | retry a b => cases h; obtain ⟨k0, k1, _⟩ := retry_spec hr; exact ⟨k0, k1, rfl, rfl⟩
    | done a b => cases h; obtain ⟨k0, k1⟩ := done_spec hr; exact ⟨k0, k1, rfl, rfl⟩

theorem message_not_redraw {env : Env} {n : Nat} {s t : St} : redrawMessage env n s ≠ some (.redraw t) := by
  unfold redrawMessage
  cases redraw env n s with
  | none => simp
  | some d => cases d <;> simp

/-- What changing the window does. -/
theorem window_spec (env : Env) (d : Int) (c : Bool) (s : St) (hs : s.selected < 2) (hd : d = 1 ∨ (d = -1 ∧ c = false)) :
    changeWindow env d c s = .nextInput s ∨
    ∃ t : St, t = { s with selected := 1 - s.selected } ∧
      ((t.active.sel ≠ none ∧ changeWindow env d c s = .redraw t) ∨ changeWindow env d c s = .redraw (setSelection env t.active.last t)) := by
  unfold changeWindow
  split
  · exact .inl rfl
  · next h =>
    have hx : ((((s.selected : Int) + d).tmod 2) % 65536).toNat = 1 - s.selected := by
      have h2 : s.selected = 0 ∨ s.selected = 1 := by omega
      rcases hd with rfl | ⟨rfl, rfl⟩
      · rcases h2 with h2 | h2 <;> rw [h2] <;> rfl
      · rcases h2 with h2 | h2
        · rw [h2] at h; simp at h
        · rw [h2]; rfl
    rw [hx]
    refine .inr ⟨_, rfl, ?_⟩
    dsimp only
    split
    · next ha => exact .inl ⟨by intro hn; rw [hn] at ha; simp at ha, rfl⟩
    · exact .inr rfl

/-- The other selection is the counterpart of the active one. -/
def Linked (env : Env) (s : St) : Prop := s.selected < 2 ∧ (other s).sel = s.active.sel.bind env.equiv

theorem set_selected (env : Env) (e : Option Ptr) (s : St) : (setSelection env e s).selected = s.selected := by
  unfold setSelection; split <;> rfl

theorem follow_sel (env : Env) (e : Option Ptr) (w : Win) : (follow env e w).sel = e.bind env.equiv := by
  unfold follow
  cases e.bind env.equiv <;> rfl

theorem set_active (env : Env) (e : Option Ptr) (s : St) :
    (setSelection env e s).active = { s.active with sel := e, last := e } ∧ other (setSelection env e s) = follow env e (other s) := by
  unfold setSelection St.active St.at other
  by_cases h : s.selected = 0 <;> simp [h]

theorem linked_set (env : Env) (e : Option Ptr) (s : St) (h : s.selected < 2) : Linked env (setSelection env e s) := by
  refine ⟨by rw [set_selected]; exact h, ?_⟩
  rw [(set_active env e s).1, (set_active env e s).2, follow_sel]

theorem linked_keeps {env : Env} {s t : St} (h : Linked env s) (h0 : Keeps s.first t.first) (h1 : Keeps s.second t.second)
    (hs : t.selected = s.selected) : Linked env t := by
  obtain ⟨hl, h⟩ := h
  refine ⟨by rw [hs]; exact hl, ?_⟩
  unfold other St.active St.at at h ⊢
  rw [hs]
  split
  · next h' => simp only [h', if_true] at h; rw [h0.1, h1.1]; exact h
  · next h' => simp only [h', if_false] at h; rw [h0.1, h1.1]; exact h

theorem linked_collapsed {env : Env} {s : St} (h : Linked env s) (c : List Ptr) : Linked env { s with collapsed := c } := h

/-- `getEquivalence` goes both ways. -/
def Both (env : Env) : Prop := ∀ e f, env.equiv e = some f → env.equiv f = some e

theorem both_of_compared {env : Env} (h : Compared env) : Both env := by
  intro e f he
  exact (Props.C30_tree_matching env.fmt env.left env.right env.table h.1 env.order h.2).2.1 e f |>.mp he

theorem linked_window {env : Env} (hb : Both env) {s t : St} {d : Int} {c : Bool} (hd : d = 1 ∨ (d = -1 ∧ c = false)) (h : Linked env s)
    (ht : changeWindow env d c s = .redraw t ∨ changeWindow env d c s = .nextInput t) : Linked env t := by
  rcases window_spec env d c s h.1 hd with hw | ⟨u, rfl, hw | hw⟩
  · rw [hw] at ht
    rcases ht with ht | ht <;> cases ht
    exact h
  · rw [hw.2] at ht
    rcases ht with ht | ht <;> cases ht
    refine ⟨by dsimp only; omega, ?_⟩
    obtain ⟨h1, h2⟩ := h
    have hcase : s.selected = 0 ∨ s.selected = 1 := by omega
    have hsel := hw.1
    unfold other St.active St.at at h2 hsel ⊢
    rcases hcase with hc | hc
    · simp only [hc, if_true, Nat.sub_zero, Nat.one_ne_zero, if_false] at h2 hsel ⊢
      cases hf : s.first.sel with
      | none => rw [hf] at h2; exact absurd h2 hsel
      | some e =>
        rw [hf] at h2
        rw [h2]
        cases he : env.equiv e with
        | none => rw [h2] at hsel; exact absurd he hsel
        | some f =>
          show some e = (env.equiv e).bind env.equiv
          rw [he]
          exact (hb e f he).symm
    · simp only [hc, Nat.one_ne_zero, if_false, Nat.sub_self, if_true] at h2 hsel ⊢
      cases hf : s.second.sel with
      | none => rw [hf] at h2; exact absurd h2 hsel
      | some e =>
        rw [hf] at h2
        rw [h2]
        cases he : env.equiv e with
        | none => rw [h2] at hsel; exact absurd he hsel
        | some f =>
          show some e = (env.equiv e).bind env.equiv
          rw [he]
          exact (hb e f he).symm
  · rw [hw] at ht
    rcases ht with ht | ht <;> cases ht
    exact linked_set env _ _ (by dsimp only; omega)

theorem linked_out {env : Env} (hb : Both env) {s t : St} {a : Answer} (h : Linked env s) (ho : Out env s a) (ha : a = .redraw t ∨ a = .nextInput t) :
    Linked env t := by
  cases ho with
  | quit => rcases ha with ha | ha <;> cases ha
  | crash => rcases ha with ha | ha <;> cases ha
  | stay => rcases ha with ha | ha <;> cases ha; exact h
  | select _ => rcases ha with ha | ha <;> cases ha; exact linked_set env _ s h.1
  | fold _ => rcases ha with ha | ha <;> cases ha; exact linked_collapsed h _
  | window d c hd => exact linked_window hb hd h ha

theorem linked_jump {env : Env} {n : Nat} {s t : St} {a : Answer} (h : Linked env s) (hj : Jump env n s a) (ha : a = .redraw t ∨ a = .nextInput t) :
    Linked env t := by
  cases hj with
  | nothing _ hm =>
    rcases ha with rfl | rfl
    · exact absurd hm message_not_redraw
    · obtain ⟨k0, k1, hs, _⟩ := message_spec hm
      exact linked_keeps h k0 k1 hs
  | @next e _ =>
    rcases ha with ha | ha <;> cases ha
    exact linked_collapsed (linked_set env (some e) s h.1) _
  | @wrap q _ _ hm =>
    rcases ha with rfl | rfl
    · exact absurd hm message_not_redraw
    · obtain ⟨k0, k1, hs, _⟩ := message_spec hm
      exact linked_keeps (linked_collapsed (linked_set env (some q) s h.1) _) k0 k1 hs

/-- The sessions in which only the results have changed. -/
theorem linked_results {env : Env} {s t : St} (h : Linked env s) (h0 : t.first.sel = s.first.sel) (h1 : t.second.sel = s.second.sel) (hs : t.selected = s.selected) :
    Linked env t := by
  obtain ⟨hl, h⟩ := h
  refine ⟨by rw [hs]; exact hl, ?_⟩
  unfold other St.active St.at at h ⊢
  rw [hs]
  split
  · next h' => simp only [h', if_true] at h; rw [h0, h1]; exact h
  · next h' => simp only [h', if_false] at h; rw [h0, h1]; exact h

theorem linked_key {env : Env} (hb : Both env) {n : Nat} {name : Bytes} {pat : Option Search.Pattern} {s t : St} {a : Answer} (h : Linked env s)
    (he : evalKey env n name pat s = some a) (ha : a = .redraw t ∨ a = .nextInput t) : Linked env t := by
  rcases key_cases he with ⟨_, _, ho⟩ | ⟨_, hs⟩ | ⟨_, hj⟩
  · exact linked_out hb h ho ha
  · rcases search_spec hs with ⟨_, rfl⟩ | ⟨p, _, rfl | hj⟩
    · rcases ha with ha | ha <;> cases ha; exact h
    · rcases ha with ha | ha <;> cases ha
      exact linked_results h rfl rfl rfl
    · refine linked_jump (linked_results h ?_ ?_ ?_) hj ha
      · unfold St.set St.active St.at; dsimp only; split <;> rfl
      · unfold St.set St.active St.at; dsimp only; split <;> rfl
      · unfold St.set; dsimp only; split <;> rfl
  · exact linked_jump h hj ha

theorem linked_reached {env : Env} (hb : Both env) {n k cols rows : Nat} {ok : St → Input → Prop} {s : St} (h : Reached env n k cols rows ok s) : Linked env s := by
  induction h with
  | start hs =>
    obtain ⟨k0, k1, hsel, _⟩ := settle_keeps hs
    exact linked_keeps (linked_set env _ _ (by dsimp only; omega)) k0 k1 hsel
  | @input s i t _ _ hs ih =>
    rcases step_cases hs with ⟨c, r, _, hst⟩ | ⟨name, pat, _, ⟨s', he, hst⟩ | he⟩
    · obtain ⟨k0, k1, hsel, _⟩ := settle_keeps hst
      exact linked_keeps (s := { s with width := c / 2, height := less r 2 }) ih k0 k1 hsel
    · obtain ⟨k0, k1, hsel, _⟩ := settle_keeps hst
      exact linked_keeps (linked_key hb ih he (.inl rfl)) k0 k1 hsel
    · exact linked_key hb ih he (.inr rfl)

end Verif.Lemmas.Split
