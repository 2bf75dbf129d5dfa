import Verif.Lemmas.SplitLogged
/-!
# The marks in the margins of the diff view
-/
namespace Verif.Lemmas.Split
open Verif.Model Verif.Model.Diff Verif.Model.Split Verif.Spec.SplitView
open Verif.Model.Tui (getNbLines hasReachedBottom)

/-- What holds of the windows one at a time, with their marks. -/
theorem Logged.winMarks {env : Env} {view : View} {v0 v1 : Win} {t : Pass} {l0 l1 : List Entry} (P : Bool → Bool → Win → List Entry → Prop)
    (h : Logged env view v0 v1 t l0 l1) (h0 : P false true v0.reset []) (h1 : P true true v1.reset [])
    (hsame : ∀ side b w l y, w.y ≤ y → P side b w l → P side b { w with y := y } l)
    (hgap : ∀ side b n w l, P side b w l → P side b (gap n w) l)
    (hone : ∀ side w w' c l it rest ls, Wrote env view side w it rest w' c ls → P side true w l → P side (!c) w' (l ++ [⟨it, w.y, ls⟩])) :
    P false t.b0 t.w0 l0 ∧ P true t.b1 t.w1 l1 := by
  induction h with
  | start => exact ⟨h0, h1⟩
  | add0 _ _ hw ih => exact ⟨hone _ _ _ _ _ _ _ _ hw ih.1, hgap _ _ _ _ _ ih.2⟩
  | add1 _ _ _ hw ih => exact ⟨hgap _ _ _ _ _ ih.1, hone _ _ _ _ _ _ _ _ hw ih.2⟩
  | @both w0 w1 w w' _ _ _ _ _ _ _ _ _ _ _ _ _ hw hw' ih =>
    have := hw.y
    have := hw'.y
    exact ⟨hsame _ _ w _ _ (by omega) (hone _ _ _ _ _ _ _ _ hw ih.1), hsame _ _ w' _ _ (by omega) (hone _ _ _ _ _ _ _ _ hw' ih.2)⟩
  | @only0 w0 w1 w _ _ _ _ _ _ _ _ hw ih =>
    have := hw.y
    exact ⟨hsame _ _ w _ _ (by omega) (hone _ _ _ _ _ _ _ _ hw ih.1), hsame _ _ w1 _ _ (by omega) ih.2⟩
  | @only1 w0 w1 w _ _ _ _ _ _ _ _ hw ih =>
    have := hw.y
    exact ⟨hsame _ _ w0 _ _ (by omega) ih.1, hsame _ _ w _ _ (by omega) (hone _ _ _ _ _ _ _ _ hw ih.2)⟩

/-- The marks are those of the texts and those of the gaps. -/
structure Marked (env : Env) (view : View) (v : Win) (side busy : Bool) (w : Win) (l : List Entry) : Prop where
  shows : Shows env view v side busy w l
  all : ∀ e ∈ l, ∀ b ∈ e.ls, ∀ m ∈ markAt env w.scroll b, m ∈ w.marks
  only : ∀ m ∈ w.marks, (∃ e ∈ l, ∃ b ∈ e.ls, m ∈ markAt env w.scroll b) ∨
    (m.op = .rem ∧ 1 ≤ m.row ∧ m.row < w.y ∧ ∀ e ∈ l, ∀ b ∈ e.ls, m.row < b.2 ∨ b.2 + b.1.lines ≤ m.row)

theorem gap_marks (n : Nat) (w : Win) : (∀ m ∈ w.marks, m ∈ (gap n w).marks) ∧
    (∀ m ∈ (gap n w).marks, m ∈ w.marks ∨ (m.op = .rem ∧ w.y ≤ m.row ∧ m.row < w.y + n)) := by
  induction n generalizing w with
  | zero => exact ⟨fun m hm => hm, fun m hm => .inl hm⟩
  | succ n ih =>
    obtain ⟨h1, h2⟩ := ih { w with y := w.y + 1, marks := displayDiffOp w.y .rem w.marks, calls := w.calls ++ callMark w.y .rem }
    refine ⟨fun m hm => h1 m ?_, fun m hm => ?_⟩
    · show m ∈ displayDiffOp w.y .rem w.marks
      rw [display_append]
      exact List.mem_append_left _ hm
    · rcases h2 m hm with h | ⟨ha, hb, hc⟩
      · have h : m ∈ displayDiffOp w.y .rem w.marks := h
        rw [display_append] at h
        rcases List.mem_append.mp h with h | h
        · exact .inl h
        · simp only [displayDiffOp, reduceCtorEq, if_false, List.nil_append, List.mem_singleton] at h
          subst h
          exact .inr ⟨rfl, Nat.le_refl _, by dsimp only; omega⟩
      · dsimp only at hb hc
        exact .inr ⟨ha, by omega, by omega⟩

theorem marked_reset (env : Env) (view : View) (v : Win) (side : Bool) : Marked env view v side true v.reset [] :=
  ⟨shows_reset .., fun e he => (by cases he), fun m hm => (by cases hm)⟩

theorem marked_same {env : Env} {view : View} {v : Win} {side b : Bool} {w : Win} {l : List Entry} {y : Nat} (hy : w.y ≤ y) (h : Marked env view v side b w l) :
    Marked env view v side b { w with y := y } l := by
  refine ⟨shows_same hy h.shows, h.all, fun m hm => ?_⟩
  rcases h.only m hm with h | ⟨h1, h2, h3, h4⟩
  · exact .inl h
  · exact .inr ⟨h1, h2, by dsimp only; omega, h4⟩

theorem marked_gap {env : Env} {view : View} {v : Win} {side b : Bool} {w : Win} {l : List Entry} (n : Nat) (h : Marked env view v side b w l) :
    Marked env view v side b (gap n w) l := by
  obtain ⟨g1, g2⟩ := gap_marks n w
  have he := gap_eq n w
  have hsc : (gap n w).scroll = w.scroll := by rw [he]
  have hy : (gap n w).y = w.y + n := by rw [he]
  have hsh : Shows env view v side b (gap n w) l := by
    rw [he]
    exact shows_same (by omega) h.shows
  refine ⟨hsh, ?_, ?_⟩
  · rw [hsc]
    exact fun e he b hb m hm => g1 m (h.all e he b hb m hm)
  · rw [hsc, hy]
    intro m hm
    rcases g2 m hm with hm | ⟨h1, h2, h3⟩
    · rcases h.only m hm with h | ⟨h1, h2, h3, h4⟩
      · exact .inl h
      · exact .inr ⟨h1, h2, by omega, h4⟩
    · refine .inr ⟨h1, Nat.le_trans h.shows.pos h2, h3, fun e he b hb => .inr ?_⟩
      have := h.shows.lines e he b hb
      omega

theorem marked_one {env : Env} {view : View} {v : Win} {side : Bool} {w w' : Win} {c : Bool} {l : List Entry} {it : Item} {rest : List Item}
    {ls : List (Print × Nat)} (hw : Wrote env view side w it rest w' c ls) (h : Marked env view v side true w l) :
    Marked env view v side (!c) w' (l ++ [⟨it, w.y, ls⟩]) := by
  have hcase : w'.scroll = w.scroll ∨ ∀ e ∈ l, e.ls = [] := by
    have hsc := hw.scroll
    split at hsc
    · next hc =>
      simp only [Bool.and_eq_true, Bool.not_eq_true', decide_eq_true_eq] at hc
      refine .inr fun e he => ?_
      cases hls : e.ls with
      | nil => rfl
      | cons b bs =>
        have := h.shows.lines e he b (by rw [hls]; exact List.mem_cons_self)
        omega
    · exact .inl hsc
  have hold : ∀ e ∈ l, ∀ b ∈ e.ls, markAt env w'.scroll b = markAt env w.scroll b := by
    intro e he b hb
    rcases hcase with h | h
    · rw [h]
    · rw [h e he] at hb; cases hb
  refine ⟨shows_one hw h.shows, ?_, ?_⟩
  · intro e he b hb m hm
    rw [hw.marks]
    rcases List.mem_append.mp he with he | he
    · rw [hold e he b hb] at hm
      exact List.mem_append_left _ (h.all e he b hb m hm)
    · simp only [List.mem_singleton] at he
      subst he
      exact List.mem_append_right _ (List.mem_flatMap.mpr ⟨b, hb, hm⟩)
  · intro m hm
    rw [hw.marks] at hm
    rcases List.mem_append.mp hm with hm | hm
    · rcases h.only m hm with ⟨e, he, b, hb, hm⟩ | ⟨h1, h2, h3, h4⟩
      · exact .inl ⟨e, List.mem_append_left _ he, b, hb, by rw [hold e he b hb]; exact hm⟩
      · have := hw.y
        refine .inr ⟨h1, h2, by omega, fun e he b hb => ?_⟩
        rcases List.mem_append.mp he with he | he
        · exact h4 e he b hb
        · simp only [List.mem_singleton] at he
          subst he
          have := hw.lines b hb
          exact .inl (by omega)
    · obtain ⟨b, hb, hm⟩ := List.mem_flatMap.mp hm
      exact .inl ⟨_, List.mem_append_right _ List.mem_cons_self, b, hb, hm⟩

theorem settle_marked {env : Env} {n k : Nat} {s t : St} (h : settle env n k s = some (some t)) :
    ∃ (v0 v1 : Win) (l0 l1 : List Entry), Marked env t.view v0 false false t.first l0 ∧ Marked env t.view v1 true false t.second l1 ∧
      v0.sel = t.first.sel ∧ v1.sel = t.second.sel := by
  obtain ⟨v0, v1, l0, l1, k0, k1, hl, h0, h1⟩ := settle_shows h
  have hv : t.view = s.view := by
    obtain ⟨k0, k1, h1, h2, h3, h4⟩ := settle_keeps h
    have := view_keeps k0 k1
    unfold St.view St.active St.at at this ⊢
    rw [h1, h2, h3, h4]
    exact this
  rw [hv]
  have := hl.winMarks (fun side b w l => Marked env s.view (if side then v1 else v0) side b w l) (marked_reset ..) (marked_reset ..)
    (fun _ _ _ _ _ hy hp => marked_same hy hp) (fun _ _ n _ _ hp => marked_gap n hp) (fun _ _ _ _ _ _ _ _ hw hp => marked_one hw hp)
  exact ⟨v0, v1, l0, l1, this.1, this.2, h0.sel.symm, h1.sel.symm⟩

end Verif.Lemmas.Split
