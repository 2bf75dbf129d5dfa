import Verif.Lemmas.SplitHas
/-!
# The active window of the diff view, and sessions
-/
namespace Verif.Lemmas.Split
open Verif.Model Verif.Model.Diff Verif.Model.Split Verif.Spec.SplitView

/-- The answer does not change the active window. -/
def Plain (s : St) (a : Answer) : Prop := ∀ t, a = .redraw t ∨ a = .nextInput t → t.selected = s.selected

theorem plain_set (env : Env) (e : Option Ptr) (s : St) : Plain s (.redraw (setSelection env e s)) := by
  intro t ht
  rcases ht with ht | ht <;> cases ht
  exact set_selected env e s

theorem plain_stay (s : St) : Plain s (.nextInput s) := by
  intro t ht
  rcases ht with ht | ht <;> cases ht
  rfl

theorem plain_crash (s : St) : Plain s .crash := by
  intro t ht
  rcases ht with ht | ht <;> cases ht

theorem plain_quit (s : St) : Plain s .quit := by
  intro t ht
  rcases ht with ht | ht <;> cases ht

theorem plain_fold (s : St) (c : List Ptr) : Plain s (.redraw { s with collapsed := c }) := by
  intro t ht
  rcases ht with ht | ht <;> cases ht
  rfl

theorem plain_pup (env : Env) (s : St) : Plain s (selectPUp env s) := by
  unfold selectPUp
  cases s.active.sel with
  | none => exact plain_crash s
  | some e =>
    dsimp only
    cases env.findPrev e with
    | some q => exact plain_set env _ s
    | none =>
      dsimp only
      cases parent e with
      | none => exact plain_stay s
      | some q =>
        dsimp only
        split
        · exact plain_set env _ s
        · exact plain_stay s

theorem plain_pdown (env : Env) (s : St) : Plain s (selectPDown env s) := by
  unfold selectPDown
  cases s.active.sel with
  | none => exact plain_crash s
  | some e =>
    dsimp only
    cases env.findNext e with
    | some q => exact plain_set env _ s
    | none => exact plain_stay s

theorem plain_expand (env : Env) (s : St) : Plain s (expandSelection env s) := by
  unfold expandSelection
  cases s.active.sel with
  | none => exact plain_stay s
  | some e =>
    dsimp only
    split
    · exact plain_stay s
    split
    · exact plain_fold s _
    split
    · exact plain_stay s
    · exact plain_set env _ s

theorem plain_collapse (env : Env) (s : St) : Plain s (collapseSelection env s) := by
  unfold collapseSelection
  cases s.active.sel with
  | none => exact plain_crash s
  | some e =>
    dsimp only
    split
    · cases parent e with
      | none => exact plain_crash s
      | some q => exact plain_set env _ s
    · exact plain_fold s _

theorem plain_jump {env : Env} {n : Nat} {s : St} {a : Answer} (hj : Jump env n s a) : Plain s a := by
  intro t ha
  cases hj with
  | nothing _ hm =>
    rcases ha with rfl | rfl
    · exact absurd hm message_not_redraw
    · exact (message_spec hm).2.2.1
  | @next e _ => rcases ha with ha | ha <;> cases ha; exact set_selected ..
  | @wrap q _ _ hm =>
    rcases ha with rfl | rfl
    · exact absurd hm message_not_redraw
    · exact (message_spec hm).2.2.1.trans (set_selected ..)

theorem window_selected (env : Env) (d : Int) (c : Bool) (s t : St) (hs : s.selected < 2) (hd : d = 1 ∨ (d = -1 ∧ c = false))
    (ha : changeWindow env d c s = .redraw t ∨ changeWindow env d c s = .nextInput t) :
    t.selected = if c then 1 - s.selected else if d = 1 then 1 else 0 := by
  by_cases hc : ((s.selected : Int) + d < 0 ∨ (s.selected : Int) + d ≥ 2) ∧ c = false
  · unfold changeWindow at ha
    rw [if_pos hc] at ha
    rcases ha with ha | ha <;> cases ha
    rw [hc.2]
    simp only [Bool.false_eq_true, if_false]
    rcases hd with rfl | ⟨rfl, _⟩
    · simp only [if_true]; omega
    · rw [if_neg (by decide)]; omega
  · have hx : ((((s.selected : Int) + d).tmod 2) % 65536).toNat = 1 - s.selected := by
      have h2 : s.selected = 0 ∨ s.selected = 1 := by omega
      rcases hd with rfl | ⟨rfl, rfl⟩
      · rcases h2 with h2 | h2 <;> rw [h2] <;> rfl
      · rcases h2 with h2 | h2
        · rw [h2] at hc; simp at hc
        · rw [h2]; rfl
    have hv : (1 - s.selected) = if c then 1 - s.selected else if d = 1 then 1 else 0 := by
      cases c with
      | true => rfl
      | false =>
        simp only [and_true] at hc
        simp only [Bool.false_eq_true, if_false]
        rcases hd with rfl | ⟨rfl, _⟩
        · simp only [if_true]; omega
        · rw [if_neg (by decide)]; omega
    rw [← hv]
    unfold changeWindow at ha
    rw [if_neg hc] at ha
    dsimp only at ha
    rw [hx] at ha
    split at ha
    · rcases ha with ha | ha <;> cases ha; rfl
    · rcases ha with ha | ha <;> cases ha; exact set_selected ..

theorem after_other {name : Bytes} (h1 : ¬ name = b!"^W-W") (h2 : ¬ (name = b!"^W-KEY_RIGHT" ∨ name = b!"^W-L")) (h3 : ¬ (name = b!"^W-KEY_LEFT" ∨ name = b!"^W-H"))
    (w : Nat) : windowAfter name w = w := by
  unfold windowAfter
  rw [if_neg h1, if_neg (fun h => h2 h.symm), if_neg (fun h => h3 h.symm)]

theorem selected_key {env : Env} {n : Nat} {name : Bytes} {pat : Option Search.Pattern} {s t : St} {a : Answer} (hs : s.selected < 2)
    (h : evalKey env n name pat s = some a) (ha : a = .redraw t ∨ a = .nextInput t) : t.selected = windowAfter name s.selected := by
  unfold evalKey at h
  by_cases hc : name = b!"Q"
  · rw [if_pos hc] at h; cases h; subst hc; exact plain_quit s t ha
  rw [if_neg hc] at h; clear hc
  by_cases hc : name = b!"K" ∨ name = b!"KEY_UP"
  · rw [if_pos hc] at h; cases h; rcases hc with rfl | rfl <;> exact plain_set _ _ _ t ha
  rw [if_neg hc] at h; clear hc
  by_cases hc : name = b!"J" ∨ name = b!"KEY_DOWN"
  · rw [if_pos hc] at h; cases h; rcases hc with rfl | rfl <;> exact plain_set _ _ _ t ha
  rw [if_neg hc] at h; clear hc
  by_cases hc : name = b!"KEY_PPAGE"
  · rw [if_pos hc] at h; cases h; subst hc; exact plain_pup env s t ha
  rw [if_neg hc] at h; clear hc
  by_cases hc : name = b!"KEY_NPAGE"
  · rw [if_pos hc] at h; cases h; subst hc; exact plain_pdown env s t ha
  rw [if_neg hc] at h; clear hc
  by_cases hc : name = b!"L" ∨ name = b!"KEY_RIGHT"
  · rw [if_pos hc] at h; cases h; rcases hc with rfl | rfl <;> exact plain_expand env s t ha
  rw [if_neg hc] at h; clear hc
  by_cases hc : name = b!"H" ∨ name = b!"KEY_LEFT"
  · rw [if_pos hc] at h; cases h; rcases hc with rfl | rfl <;> exact plain_collapse env s t ha
  rw [if_neg hc] at h; clear hc
  by_cases hc : name = b!"/"
  · rw [if_pos hc] at h; subst hc
    show t.selected = s.selected
    rcases search_spec h with ⟨_, rfl⟩ | ⟨p, _, rfl | hj⟩
    · rcases ha with ha | ha <;> cases ha; rfl
    · rcases ha with ha | ha <;> cases ha; rfl
    · have := plain_jump hj t ha
      rw [this]
      unfold St.set; dsimp only; split <;> rfl
  rw [if_neg hc] at h; clear hc
  by_cases hc : name = b!"N"
  · rw [if_pos hc] at h; subst hc; exact plain_jump (jump_spec h) t ha
  rw [if_neg hc] at h; clear hc
  by_cases hc : name = b!"^W-W"
  · rw [if_pos hc] at h; cases h; subst hc; exact window_selected env 1 true s t hs (.inl rfl) ha
  rw [if_neg hc] at h
  by_cases hc2 : name = b!"^W-KEY_RIGHT" ∨ name = b!"^W-L"
  · rw [if_pos hc2] at h; cases h
    have := window_selected env 1 false s t hs (.inl rfl) ha
    rcases hc2 with rfl | rfl <;> exact this
  rw [if_neg hc2] at h
  by_cases hc3 : name = b!"^W-KEY_LEFT" ∨ name = b!"^W-H"
  · rw [if_pos hc3] at h; cases h
    have := window_selected env (-1) false s t hs (.inr ⟨rfl, rfl⟩) ha
    rcases hc3 with rfl | rfl <;> exact this
  rw [if_neg hc3] at h
  cases h
  rw [after_other hc hc2 hc3]
  exact plain_stay s t ha

theorem selected_step {env : Env} {n k : Nat} {s t : St} (hs : s.selected < 2) :
    (∀ c r, step env n k (.resize c r) s = some (.nextInput t) → t.selected = s.selected) ∧
    ∀ name pat, step env n k (.key name pat) s = some (.nextInput t) → t.selected = windowAfter name s.selected := by
  constructor
  · intro c r h
    rcases step_cases h with ⟨c, r, _, hst⟩ | ⟨name, pat, hi, _⟩
    · exact (settle_keeps hst).2.2.1
    · cases hi
  · intro name pat h
    rcases step_cases h with ⟨c, r, hi, _⟩ | ⟨name, pat, hi, ⟨s', he, hst⟩ | he⟩
    · cases hi
    · cases hi
      exact (settle_keeps hst).2.2.1.trans (selected_key hs he (.inl rfl))
    · cases hi
      exact selected_key hs he (.inr rfl)

theorem reached_session {env : Env} {n k cols rows : Nat} {ok : St → Input → Prop} (l : List Input) (hok : ∀ i ∈ l, ∀ s, ok s i) {s t : St}
    (h : Reached env n k cols rows ok s) (hs : session env n k l s = some t) : Reached env n k cols rows ok t := by
  induction l generalizing s with
  | nil => cases hs; exact h
  | cons i l ih =>
    rw [session] at hs
    cases hst : step env n k i s with
    | none => rw [hst] at hs; cases hs
    | some a =>
      rw [hst] at hs
      cases a with
      | nextInput u => exact ih (fun j hj => hok j (List.mem_cons_of_mem _ hj)) (.input i h (hok i List.mem_cons_self s) hst) hs
      | redraw u => cases hs
      | quit => cases hs
      | crash => cases hs

theorem reached_from {env : Env} {n k cols rows : Nat} {ok : St → Input → Prop} (l : List Input) (hok : ∀ i ∈ l, ∀ s, ok s i) {t : St}
    (hs : sessionFrom env n k cols rows l = some t) : Reached env n k cols rows ok t := by
  unfold sessionFrom at hs
  cases h : settle env n k (start env cols rows) with
  | none => rw [h] at hs; cases hs
  | some o =>
    rw [h] at hs
    cases o with
    | none => cases hs
    | some s => exact reached_session l hok (.start h) hs

end Verif.Lemmas.Split
