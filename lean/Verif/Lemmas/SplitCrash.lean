import Verif.Lemmas.SplitHas
import Verif.Spec.SplitCrash
/-!
# When the diff view crashes
-/
namespace Verif.Lemmas.Split
open Verif.Model Verif.Model.Diff Verif.Model.Split Verif.Spec.SplitView

/-- A window that is drawn knows where `Up` and `Down` go. -/
def Knows (_ : Bool) (busy : Bool) (w : Win) : Prop := busy = false → w.last ≠ none → w.up ≠ none ∧ w.down ≠ none

theorem knows_complete {env : Env} {view : View} {r c side : Bool} {w w' : Win} (h : complete env view r w = .ok w' c) : Knows side (!c) w' := by
  unfold complete at h
  dsimp only at h
  have hup : ∀ l : Option Ptr, l ≠ none → (if w.up.isNone = true then l else w.up) ≠ none := by
    intro l hl
    cases hu : w.up with
    | none => simpa using hl
    | some u => simp
  cases hd : w.down with
  | some d =>
    simp only [hd] at h
    cases h
    intro _ hl
    exact ⟨hup _ hl, by simp⟩
  | none =>
    simp only [hd] at h
    split at h
    · cases h
      intro _ hl
      exact ⟨hup _ hl, by simp⟩
    · cases hl : w.last with
      | none => rw [hl] at h; cases h
      | some l =>
        simp only [hl] at h
        cases h
        intro _ hl'
        exact ⟨hup _ (by simp), by simp⟩

theorem knows_one {env : Env} {view : View} {side : Bool} {w w' : Win} {c : Bool} (h : redrawOne env view side w = .ok w' c) : Knows side (!c) w' := by
  unfold redrawOne at h
  split at h
  split at h
  · cases h
  split at h
  · exact knows_complete h
  · cases h
    intro hb
    cases hb

theorem done_knows {env : Env} {n : Nat} {s : St} {a b : Win} (h : redraw env n s = some (.done a b)) :
    (s.first.last ≠ none → a.up ≠ none ∧ a.down ≠ none) ∧ (s.second.last ≠ none → b.up ≠ none ∧ b.down ≠ none) := by
  obtain ⟨h0, h1⟩ := done_inv Knows (fun _ _ _ _ _ _ h => h) (fun _ _ _ _ _ _ => knows_one) (fun h => by cases h) (fun h => by cases h) h
  obtain ⟨k0, k1⟩ := done_spec h
  exact ⟨fun hl => h0 rfl (by rw [k0.2.1]; exact hl), fun hl => h1 rfl (by rw [k1.2.1]; exact hl)⟩

theorem settle_knows {env : Env} {n k : Nat} {s t : St} (h : settle env n k s = some (some t)) :
    (s.first.last ≠ none → t.first.up ≠ none ∧ t.first.down ≠ none) ∧ (s.second.last ≠ none → t.second.up ≠ none ∧ t.second.down ≠ none) := by
  induction k generalizing s with
  | zero => cases h
  | succ k ih =>
    rw [settle] at h
    cases hr : redraw env n s with
    | none => rw [hr] at h; cases h
    | some r =>
      rw [hr] at h
      cases r with
      | crash => cases h
      | done a b => cases h; exact done_knows hr
      | retry a b =>
        obtain ⟨ha, hb, _⟩ := retry_spec hr
        have := ih h
        dsimp only at this
        rwa [ha.2.1, hb.2.1] at this

/-- Both windows know where `Up` and `Down` go. -/
def Poised (s : St) : Prop := (s.first.up ≠ none ∧ s.first.down ≠ none) ∧ (s.second.up ≠ none ∧ s.second.down ≠ none)

theorem poised_active {s : St} (h : Poised s) : s.active.up ≠ none ∧ s.active.down ≠ none := by
  unfold St.active St.at
  split
  · exact h.1
  · exact h.2

theorem message_crash {env : Env} {n : Nat} {s : St} (h : redrawMessage env n s = some .crash) : s.first.last = none ∨ s.second.last = none := by
  unfold redrawMessage at h
  cases hr : redraw env n s with
  | none => rw [hr] at h; cases h
  | some d =>
    rw [hr] at h
    cases d with
    | crash => exact crash_spec hr
    | retry a b => cases h
    | done a b => cases h

theorem message_poised {env : Env} {n : Nat} {s t : St} (hs : s.first.last ≠ none ∧ s.second.last ≠ none) (h : redrawMessage env n s = some (.nextInput t)) :
    Poised t ∨ ∃ u, redraw env n u = some (.retry t.first t.second) := by
  unfold redrawMessage at h
  cases hr : redraw env n s with
  | none => rw [hr] at h; cases h
  | some d =>
    rw [hr] at h
    cases d with
    | crash => cases h
    | retry a b => cases h; exact .inr ⟨s, hr⟩
    | done a b => cases h; exact .inl ⟨(done_knows hr).1 hs.1, (done_knows hr).2 hs.2⟩

/-- Selecting nothing ends in a crash. -/
theorem nothing_crash {env : Env} {n k : Nat} {s t : St} : settle env n k (setSelection env none s) ≠ some (some t) := by
  intro h
  obtain ⟨h0, h1⟩ := settle_blind h
  unfold setSelection at h0 h1
  split at h0
  · exact h0 ⟨rfl, rfl⟩
  · next hc => rw [if_neg hc] at h1; exact h1 ⟨rfl, rfl⟩

theorem out_keys {env : Env} {n : Nat} {name : Bytes} {pat : Option Search.Pattern} {s : St} {a : Answer} (hn : name ≠ b!"/" ∧ name ≠ b!"N")
    (h : evalKey env n name pat s = some a) :
    (ToNothing env name s ∧ a = .redraw (setSelection env none s)) ∨
    (¬ ToNothing env name s ∧ (a = .quit ∨ (a = .crash ∧ s.active.sel = none) ∨ a = .nextInput s ∨ (∃ e, a = .redraw (setSelection env (some e) s)) ∨
      (∃ c, a = .redraw { s with collapsed := c }) ∨ ∃ d c, (d = 1 ∨ (d = -1 ∧ c = false)) ∧ a = changeWindow env d c s)) := by
  unfold evalKey at h
  have none_sel : ∀ (e : Option Ptr), e = none ∨ ∃ x, e = some x := fun e => by cases e <;> simp
  by_cases hc : name = b!"Q"
  · rw [if_pos hc] at h; cases h; subst hc; exact .inr ⟨by unfold ToNothing; simp, .inl rfl⟩
  rw [if_neg hc] at h; clear hc
  by_cases hc : name = b!"K" ∨ name = b!"KEY_UP"
  · rw [if_pos hc] at h; cases h
    cases hu : s.active.up with
    | none => exact .inl ⟨.inl ⟨hc, hu⟩, by rw [selectUp, hu]⟩
    | some e =>
      refine .inr ⟨?_, .inr (.inr (.inr (.inl ⟨e, by rw [selectUp, hu]⟩)))⟩
      rcases hc with rfl | rfl <;> simp [ToNothing, hu]
  rw [if_neg hc] at h; have hK := hc; clear hc
  by_cases hc : name = b!"J" ∨ name = b!"KEY_DOWN"
  · rw [if_pos hc] at h; cases h
    cases hu : s.active.down with
    | none => exact .inl ⟨.inr (.inl ⟨hc, hu⟩), by rw [selectDown, hu]⟩
    | some e =>
      refine .inr ⟨?_, .inr (.inr (.inr (.inl ⟨e, by rw [selectDown, hu]⟩)))⟩
      rcases hc with rfl | rfl <;> simp [ToNothing, hu]
  rw [if_neg hc] at h; have hJ := hc; clear hc
  by_cases hc : name = b!"KEY_PPAGE"
  · rw [if_pos hc] at h; cases h
    refine .inr ⟨by subst hc; simp [ToNothing], ?_⟩
    unfold selectPUp
    cases hs : s.active.sel with
    | none => exact .inr (.inl ⟨rfl, rfl⟩)
    | some e =>
      dsimp only
      cases hp : env.findPrev e with
      | some q => exact .inr (.inr (.inr (.inl ⟨q, rfl⟩)))
      | none =>
        dsimp only
        cases hq : parent e with
        | none => exact .inr (.inr (.inl rfl))
        | some q =>
          dsimp only
          split
          · exact .inr (.inr (.inr (.inl ⟨_, rfl⟩)))
          · exact .inr (.inr (.inl rfl))
  rw [if_neg hc] at h; clear hc
  by_cases hc : name = b!"KEY_NPAGE"
  · rw [if_pos hc] at h; cases h
    refine .inr ⟨by subst hc; simp [ToNothing], ?_⟩
    unfold selectPDown
    cases hs : s.active.sel with
    | none => exact .inr (.inl ⟨rfl, rfl⟩)
    | some e =>
      dsimp only
      cases hp : env.findNext e with
      | some q => exact .inr (.inr (.inr (.inl ⟨q, rfl⟩)))
      | none => exact .inr (.inr (.inl rfl))
  rw [if_neg hc] at h; clear hc
  by_cases hc : name = b!"L" ∨ name = b!"KEY_RIGHT"
  · rw [if_pos hc] at h; cases h
    have hkj : ∀ x, ToNothing env name s → x = name → s.active.down = none ∧ ∃ e, s.active.sel = some e ∧ env.isContainer (env.value e) = true ∧ env.value e ∉ s.collapsed ∧ env.size (env.value e) ≠ 0 := by
      intro x ht _
      rcases hc with rfl | rfl <;> simpa [ToNothing] using ht
    unfold expandSelection
    cases hs : s.active.sel with
    | none =>
      refine .inr ⟨fun ht => ?_, .inr (.inr (.inl rfl))⟩
      obtain ⟨_, e, he, _⟩ := hkj _ ht rfl
      rw [hs] at he; cases he
    | some e =>
      dsimp only
      by_cases h1 : (!env.isContainer (env.value e)) = true
      · rw [if_pos h1]
        refine .inr ⟨fun ht => ?_, .inr (.inr (.inl rfl))⟩
        obtain ⟨_, e', he, hcon, _⟩ := hkj _ ht rfl
        rw [hs] at he; cases he
        rw [hcon] at h1; cases h1
      rw [if_neg h1]
      by_cases h2 : s.collapsed.contains (env.value e) = true
      · rw [if_pos h2]
        refine .inr ⟨fun ht => ?_, .inr (.inr (.inr (.inr (.inl ⟨_, rfl⟩))))⟩
        obtain ⟨_, e', he, _, hnc, _⟩ := hkj _ ht rfl
        rw [hs] at he; cases he
        exact hnc (by simpa using h2)
      rw [if_neg h2]
      by_cases h3 : env.size (env.value e) = 0
      · rw [if_pos h3]
        refine .inr ⟨fun ht => ?_, .inr (.inr (.inl rfl))⟩
        obtain ⟨_, e', he, _, _, hsz⟩ := hkj _ ht rfl
        rw [hs] at he; cases he
        exact hsz h3
      rw [if_neg h3]
      cases hu : s.active.down with
      | none => exact .inl ⟨.inr (.inr ⟨hc, hu, e, hs, by simpa using h1, by simpa using h2, h3⟩), by rw [selectDown, hu]⟩
      | some q =>
        refine .inr ⟨fun ht => ?_, .inr (.inr (.inr (.inl ⟨q, by rw [selectDown, hu]⟩)))⟩
        obtain ⟨hd, _⟩ := hkj _ ht rfl
        rw [hu] at hd; cases hd
  rw [if_neg hc] at h; have hL := hc; clear hc
  by_cases hc : name = b!"H" ∨ name = b!"KEY_LEFT"
  · rw [if_pos hc] at h; cases h
    refine .inr ⟨by rcases hc with rfl | rfl <;> simp [ToNothing], ?_⟩
    have ho := out_collapse env s
    have hcase : collapseSelection env s = .crash ∧ s.active.sel = none ∨ (∃ e, collapseSelection env s = .redraw (setSelection env (some e) s)) ∨
        (∃ c, collapseSelection env s = .redraw { s with collapsed := c }) := by
      generalize hx : collapseSelection env s = x at ho
      unfold collapseSelection at hx
      cases hs : s.active.sel with
      | none => simp only [hs] at hx; exact .inl ⟨hx.symm, rfl⟩
      | some e =>
        simp only [hs] at hx
        split at hx
        · cases hp : parent e with
          | some q => rw [hp] at hx; exact .inr (.inl ⟨_, hx.symm⟩)
          | none =>
            rw [hp] at hx
            dsimp only at hx
            cases ho with
            | crash hn => rw [hs] at hn; cases hn
            | quit => cases hx
            | stay => cases hx
            | select _ => cases hx
            | fold _ => cases hx
            | window d c hd =>
              exfalso
              unfold changeWindow at hx
              split at hx
              · cases hx
              · dsimp only at hx; split at hx <;> cases hx
        · exact .inr (.inr ⟨_, hx.symm⟩)
    rcases hcase with h | h | h
    · exact .inr (.inl h)
    · exact .inr (.inr (.inr (.inl h)))
    · exact .inr (.inr (.inr (.inr (.inl h))))
  rw [if_neg hc] at h; clear hc
  rw [if_neg hn.1, if_neg hn.2] at h
  by_cases hc : name = b!"^W-W"
  · rw [if_pos hc] at h; cases h; subst hc
    exact .inr ⟨by simp [ToNothing], .inr (.inr (.inr (.inr (.inr ⟨1, true, .inl rfl, rfl⟩))))⟩
  rw [if_neg hc] at h; clear hc
  by_cases hc : name = b!"^W-KEY_RIGHT" ∨ name = b!"^W-L"
  · rw [if_pos hc] at h; cases h
    exact .inr ⟨by rcases hc with rfl | rfl <;> simp [ToNothing], .inr (.inr (.inr (.inr (.inr ⟨1, false, .inl rfl, rfl⟩))))⟩
  rw [if_neg hc] at h; clear hc
  by_cases hc : name = b!"^W-KEY_LEFT" ∨ name = b!"^W-H"
  · rw [if_pos hc] at h; cases h
    exact .inr ⟨by rcases hc with rfl | rfl <;> simp [ToNothing], .inr (.inr (.inr (.inr (.inr ⟨-1, false, .inr ⟨rfl, rfl⟩, rfl⟩))))⟩
  rw [if_neg hc] at h; clear hc
  cases h
  refine .inr ⟨fun ht => ?_, .inr (.inr (.inl rfl))⟩
  rcases ht with ht | ht | ht
  · exact hK ht.1
  · exact hJ ht.1
  · exact hL ht.1

theorem has_lasts {s : St} (h : Has s) : ¬ (s.first.last = none ∨ s.second.last = none) := by
  rintro (hn | hn)
  · exact h.last0 hn
  · exact h.last1 hn

theorem has_jump_crash {env : Env} {n : Nat} {s : St} {a : Answer} (h : Has s) (hj : Jump env n s a) : a ≠ .crash := by
  rintro rfl
  cases hj with
  | nothing _ hm => exact has_lasts h (message_crash hm)
  | @wrap q _ _ hm =>
    have := has_set (env := env) h.lt h.last0 h.last1 (e := some q) (by simp)
    rcases message_crash hm with hn | hn
    · exact this.last0 hn
    · exact this.last1 hn

theorem has_searched {env : Env} {s : St} (h : Has s) (p : Search.Pattern) :
    Has (St.set { s with first := { s.first with results := [] }, second := { s.second with results := [] } } s.selected
      { St.active { s with first := { s.first with results := [] }, second := { s.second with results := [] } } with results := search env p }) := by
  refine has_results h ?_ ?_ ?_
  · unfold St.set St.active St.at; dsimp only; split <;> exact ⟨rfl, rfl⟩
  · unfold St.set St.active St.at; dsimp only; split <;> exact ⟨rfl, rfl⟩
  · unfold St.set; dsimp only; split <;> rfl

/-- The keys of the search do not crash, nor does the drawing after them. -/
theorem search_alive {env : Env} {n : Nat} {name : Bytes} {pat : Option Search.Pattern} {s : St} {a : Answer} (h : Has s) (hn : name = b!"/" ∨ name = b!"N")
    (he : evalKey env n name pat s = some a) : a ≠ .crash ∧ ∀ t, a = .redraw t → Has t := by
  rcases key_cases he with ⟨h1, h2, _⟩ | ⟨_, hs⟩ | ⟨_, hj⟩
  · rcases hn with hn | hn
    · exact absurd hn h1
    · exact absurd hn h2
  · rcases search_spec hs with ⟨_, rfl⟩ | ⟨p, _, rfl | hj⟩
    · exact ⟨by simp, fun t ht => by cases ht; exact h⟩
    · exact ⟨by simp, fun t ht => by cases ht; exact has_results h ⟨rfl, rfl⟩ ⟨rfl, rfl⟩ rfl⟩
    · exact ⟨has_jump_crash (has_searched h p) hj, fun t ht => has_jump (has_searched h p) hj (.inl ht)⟩
  · exact ⟨has_jump_crash h hj, fun t ht => has_jump h hj (.inl ht)⟩

theorem toNothing_key {env : Env} {name : Bytes} {s : St} (h : ToNothing env name s) : name ≠ b!"/" ∧ name ≠ b!"N" := by
  rcases h with ⟨h | h, _⟩ | ⟨h | h, _⟩ | ⟨h | h, _⟩ <;> subst h <;> decide

theorem has_window {env : Env} {s t : St} {d : Int} {c : Bool} (h : Has s) (hd : d = 1 ∨ (d = -1 ∧ c = false)) (hw : changeWindow env d c s = .redraw t) : Has t := by
  rcases window_spec env d c s h.lt hd with hx | ⟨v, rfl, ⟨hsel, hx⟩ | hx⟩
  · rw [hx] at hw; cases hw
  · rw [hx] at hw; cases hw; exact has_swap h hsel
  · rw [hx] at hw
    cases hw
    refine has_set (s := { s with selected := 1 - s.selected }) (by show 1 - s.selected < 2; omega) h.last0 h.last1 ?_
    unfold St.active St.at
    split
    · exact h.last0
    · exact h.last1

theorem crash_iff {env : Env} {n k : Nat} {i : Input} {s : St} {a : Answer} (h : Has s) (hs : step env n k i s = some a) :
    a = .crash ↔ ∃ name pat, i = .key name pat ∧ ToNothing env name s := by
  constructor
  · rintro rfl
    rcases step_crash hs with ⟨c, r, _, hst⟩ | ⟨name, pat, rfl, hk⟩
    · exact absurd (settle_crash hst) (has_lasts (s := { s with width := c / 2, height := less r 2 }) ⟨h.lt, h.sel, h.last0, h.last1⟩)
    refine ⟨name, pat, rfl, ?_⟩
    by_cases hn : name = b!"/" ∨ name = b!"N"
    · exfalso
      rcases hk with ⟨s', he, hst⟩ | he
      · exact has_lasts ((search_alive h hn he).2 _ rfl) (settle_crash hst)
      · exact (search_alive h hn he).1 rfl
    have hn : name ≠ b!"/" ∧ name ≠ b!"N" := ⟨fun h => hn (.inl h), fun h => hn (.inr h)⟩
    rcases hk with ⟨s', he, hst⟩ | he
    · rcases out_keys hn he with ⟨ht, _⟩ | ⟨_, ho⟩
      · exact ht
      exfalso
      have hx : Has s' := by
        rcases ho with ho | ⟨ho, _⟩ | ho | ⟨e, ho⟩ | ⟨c, ho⟩ | ⟨d, c, hd, ho⟩
        · cases ho
        · cases ho
        · cases ho
        · cases ho; exact has_set h.lt h.last0 h.last1 (by simp)
        · cases ho; exact ⟨h.lt, h.sel, h.last0, h.last1⟩
        · exact has_window h hd ho.symm
      exact has_lasts hx (settle_crash hst)
    · rcases out_keys hn he with ⟨ht, _⟩ | ⟨_, ho⟩
      · exact ht
      exfalso
      rcases ho with ho | ⟨_, ho⟩ | ho | ⟨e, ho⟩ | ⟨c, ho⟩ | ⟨d, c, hd, ho⟩
      · cases ho
      · exact h.sel ho
      · cases ho
      · cases ho
      · cases ho
      · rcases window_spec env d c s h.lt hd with hx | ⟨v, rfl, ⟨_, hx⟩ | hx⟩ <;> rw [hx] at ho <;> cases ho
  · rintro ⟨name, pat, rfl, ht⟩
    simp only [step] at hs
    cases he : evalKey env n name pat s with
    | none => rw [he] at hs; cases hs
    | some b =>
      rcases out_keys (toNothing_key ht) he with ⟨_, rfl⟩ | ⟨hn, _⟩
      · rw [he] at hs
        dsimp only at hs
        obtain ⟨r, hr, hs⟩ := Option.map_eq_some_iff.mp hs
        cases r with
        | none => exact hs.symm
        | some u => exact absurd hr nothing_crash
      · exact absurd ht hn

/-- A message is shown over a screen that was not drawn completely. -/
theorem poised_reached {env : Env} {n k cols rows : Nat} {ok : St → Input → Prop} {s : St} (h : Reached env n k cols rows ok s) :
    Poised s ∨ ∃ s0 name pat, Reached env n k cols rows ok s0 ∧ ok s0 (.key name pat) ∧ (name = b!"/" ∨ name = b!"N") ∧
      step env n k (.key name pat) s0 = some (.nextInput s) ∧ ∃ u, redraw env n u = some (.retry s.first s.second) := by
  induction h with
  | start hs =>
    have hx : Has (start env cols rows) := has_set Nat.zero_lt_two (by simp) (by simp) (by simp)
    exact .inl ⟨(settle_knows hs).1 hx.last0, (settle_knows hs).2 hx.last1⟩
  | @input s t i h0 hok hs ih =>
    have hx := has_reached h0
    have after : ∀ s', Has s' → settle env n k s' = some (some t) → Poised t := fun s' hx hst => ⟨(settle_knows hst).1 hx.last0, (settle_knows hst).2 hx.last1⟩
    rcases step_cases hs with ⟨c, r, _, hst⟩ | ⟨name, pat, rfl, ⟨s', he, hst⟩ | he⟩
    · exact .inl (after { s with width := c / 2, height := less r 2 } ⟨hx.lt, hx.sel, hx.last0, hx.last1⟩ hst)
    · exact .inl (after _ ((has_key hx he).2 rfl hst) hst)
    · by_cases hn : name = b!"/" ∨ name = b!"N"
      · have fin : Poised t ∨ ∃ u, redraw env n u = some (.retry t.first t.second) := by
          have jump : ∀ u, Has u → Jump env n u (.nextInput t) → Poised t ∨ ∃ u, redraw env n u = some (.retry t.first t.second) := by
            intro u hu hj
            cases hj with
            | nothing _ hm => exact message_poised ⟨hu.last0, hu.last1⟩ hm
            | @wrap q _ _ hm =>
              have := has_set (env := env) hu.lt hu.last0 hu.last1 (e := some q) (by simp)
              exact message_poised (s := { setSelection env (some q) u with collapsed := unfold q u.collapsed }) ⟨this.last0, this.last1⟩ hm
          rcases key_cases he with ⟨h1, h2, _⟩ | ⟨_, hi⟩ | ⟨_, hj⟩
          · rcases hn with hn | hn
            · exact absurd hn h1
            · exact absurd hn h2
          · rcases search_spec hi with ⟨_, hc⟩ | ⟨p, _, hc | hj⟩
            · cases hc
            · cases hc
            · exact jump _ (has_searched hx p) hj
          · exact jump _ hx hj
        rcases fin with hp | hu
        · exact .inl hp
        · exact .inr ⟨s, name, pat, h0, hok, hn, hs, hu⟩
      · have hn : name ≠ b!"/" ∧ name ≠ b!"N" := ⟨fun h => hn (.inl h), fun h => hn (.inr h)⟩
        have hst : t = s := by
          rcases out_keys hn he with ⟨_, hc⟩ | ⟨_, hc | ⟨hc, _⟩ | hc | ⟨e, hc⟩ | ⟨c, hc⟩ | ⟨d, c, hd, hc⟩⟩
          · cases hc
          · cases hc
          · cases hc
          · cases hc; rfl
          · cases hc
          · cases hc
          · rcases window_spec env d c s hx.lt hd with hw | ⟨v, rfl, ⟨_, hw⟩ | hw⟩ <;> rw [hw] at hc <;> cases hc
            rfl
        rw [hst]
        exact ih

end Verif.Lemmas.Split
