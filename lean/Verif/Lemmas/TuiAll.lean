import Verif.Lemmas.Tui
/-! # Every reachable state: what the pointers point to -/
namespace Verif.Lemmas
open Verif.Model Verif.Model.Search Verif.Model.Tui Verif.Spec Verif.Model.Nav Verif.Props

/-- Only displayed items. -/
def OfItems (env : Env) (o : Option Path) : Prop := ∀ p, o = some p → p ∈ items env.root

/-- The pointers of the state point to displayed items, or are null. -/
def Ptrs (env : Env) (s : St) : Prop := OfItems env s.sel ∧ OfItems env s.up ∧ OfItems env s.down ∧ ∀ q ∈ s.results, q ∈ items env.root

theorem OfItems.noVal {env : Env} {o : Option Path} (h : OfItems env o) : NoVal env o := by
  cases o with
  | none => intro a k v _ hq; simp at hq
  | some q => exact noVal_item (h q rfl)

theorem exec_ptrs (P : Path → Prop) (view : View) (sel : Option Path) (es : List Ev) (d : Draw) (hes : ∀ p ∈ checks es, P p)
    (h1 : ∀ p, d.up = some p → P p) (h2 : ∀ p, d.down = some p → P p) :
    (∀ p, (exec view sel es d).1.up = some p → P p) ∧ ∀ p, (exec view sel es d).1.down = some p → P p := by
  induction es generalizing d with
  | nil => exact ⟨h1, h2⟩
  | cons e es ih =>
    have key : (∀ p ∈ checks es, P p) ∧ (∀ p, (e.run view sel d).1.up = some p → P p) ∧ ∀ p, (e.run view sel d).1.down = some p → P p := by
      cases e with
      | line p item x t n lz =>
        refine ⟨hes, ?_⟩
        simp only [Ev.run]
        split <;> exact ⟨h1, h2⟩
      | check q ie =>
        cases ie with
        | true =>
          refine ⟨hes, ?_⟩
          simp only [Ev.run, checkSelection]
          split
          · split <;> exact ⟨h1, h2⟩
          · split <;> exact ⟨h1, h2⟩
        | false =>
          simp only [checks, List.mem_cons, forall_eq_or_imp] at hes
          refine ⟨hes.2, ?_⟩
          simp only [Ev.run, checkSelection]
          split
          · split
            · exact ⟨h1, h2⟩
            · exact ⟨by rintro p hp; cases hp; exact hes.1, h2⟩
          · split
            · exact ⟨h1, by rintro p hp; cases hp; exact hes.1⟩
            · exact ⟨h1, h2⟩
    simp only [exec]
    rcases hr : e.run view sel d with ⟨d', b⟩
    rw [hr] at key
    cases b with
    | true => exact ih d' key.1 key.2.1 key.2.2
    | false => exact key.2

theorem fallback_items {env : Env} {collapsed : List Path} {q : Path} (h : q ∈ items env.root) : fallback env collapsed q ∈ items env.root := by
  unfold fallback
  split
  · next ho =>
    obtain ⟨c, h1, h2, h3, -⟩ := isOpen_iff.mp ho
    exact (kid_visible (hidden := fun _ => false) h h1 h2 rfl h3).1
  · cases hn : findNext env.root q with
    | none => exact h
    | some r => exact (findNext_visible (hidden := fun _ => false) h hn).1

/-- Drawing keeps the pointers on items. -/
theorem redraw_ptrs {env : Env} {s : St} (h : Ptrs env s) :
    (∀ s', redraw env s = .done s' → Kept s s' ∧ Ptrs env s') ∧ (∀ s', redraw env s = .retry s' → Kept s s' ∧ Ptrs env s') := by
  have hd := draw_root env s s.sel h.1.noVal (blank s.scroll)
  have hd' : drawValue env ⟨s.width, s.height, s.collapsed, s.results⟩ s.sel [] false 0 ⟨1, s.scroll, none, none, false, []⟩ env.root = _ := hd
  have hp := exec_ptrs (· ∈ items env.root) (viewOf s) s.sel (evs env s) (blank s.scroll)
    (fun p hp => by rw [checks_evs] at hp; exact visible_items _ _ _ hp) (by intro p hp; cases hp) (by intro p hp; cases hp)
  unfold redraw
  simp only [hd']
  generalize exec (viewOf s) s.sel (evs env s) (blank s.scroll) = r at hp ⊢
  obtain ⟨d, b⟩ := r
  simp only at hp ⊢
  have hup : OfItems env (if d.up.isNone then s.sel else d.up) := by
    split
    · exact h.1
    · exact hp.1
  split
  · refine ⟨(by intro s' hs; cases hs), ?_⟩
    intro s' hs
    cases hs
    exact ⟨⟨rfl, rfl, rfl, rfl, rfl⟩, h.1, hp.1, hp.2, h.2.2.2⟩
  · refine ⟨?_, (by intro s' hs; split at hs <;> cases hs)⟩
    intro s' hs
    split at hs
    · cases hs
      exact ⟨⟨rfl, rfl, rfl, rfl, rfl⟩, h.1, hup, hp.2, h.2.2.2⟩
    · cases hs
    · next p _ hsel =>
      cases hs
      refine ⟨⟨rfl, rfl, rfl, rfl, rfl⟩, h.1, hup, ?_, h.2.2.2⟩
      intro r hr
      cases hr
      exact fallback_items (collapsed := s.collapsed) (h.1 p hsel)

theorem settle_ptrs {env : Env} : ∀ (n : Nat) {s : St}, Ptrs env s → ∀ s', settle env n s = some (.done s') → Kept s s' ∧ Ptrs env s' := by
  intro n
  induction n with
  | zero => intro s _ s' h; simp [settle] at h
  | succ n ih =>
    intro s hp s' h
    rw [settle] at h
    cases hr : redraw env s with
    | crash => rw [hr] at h; simp at h
    | done s1 =>
      rw [hr] at h
      cases h
      exact (redraw_ptrs hp).1 _ hr
    | retry s1 =>
      rw [hr] at h
      obtain ⟨h1, h2⟩ := (redraw_ptrs hp).2 _ hr
      obtain ⟨h3, h4⟩ := ih h2 _ h
      exact ⟨⟨h3.1.trans h1.1, h3.2.1.trans h1.2.1, h3.2.2.1.trans h1.2.2.1, h3.2.2.2.1.trans h1.2.2.2.1, h3.2.2.2.2.trans h1.2.2.2.2⟩, h4⟩

/-- The answer keeps the pointers on items. -/
def Kind (env : Env) : Answer → Prop
  | .redraw s => Ptrs env s
  | .nextInput s => Ptrs env s
  | .quit => True
  | .crash => True

theorem message_ptrs {env : Env} {s : St} (h : Ptrs env s) : Kind env (redrawMessage env s) := by
  unfold redrawMessage
  have := redraw_ptrs h
  cases hr : redraw env s with
  | crash => trivial
  | done s' => exact (this.1 _ hr).2
  | retry s' => exact (this.2 _ hr).2

theorem ofItems_some {env : Env} {q : Path} (h : q ∈ items env.root) : OfItems env (some q) := by
  intro p hp; cases hp; exact h

theorem jumpTarget_items {env : Env} {results : List Path} (hr : ∀ q ∈ results, q ∈ items env.root) {p q : Path} {c c' : List Path} {b : Bool}
    (hp : elem env.root p ≠ none) (hpl : ∀ q ∈ results, ∃ e, elem env.root q = some e ∧ e.isContainer = false)
    (h : jump env.root results p c = some (q, c', b)) : q ∈ items env.root := by
  have hj := jump_next env.root results hpl p (Option.ne_none_iff_exists'.mp hp)
  unfold jump at h
  rcases hj with ⟨q', h1, h2, -⟩ | ⟨h1, -⟩
  · rw [h1] at h; simp at h; obtain ⟨rfl, -⟩ := h; exact hr _ h2
  · rw [h1] at h
    cases results with
    | nil => simp at h
    | cons r rs => simp at h; obtain ⟨rfl, -⟩ := h; exact hr _ (by simp)

theorem nextResult_ptrs {env : Env} {s : St} (h : Ptrs env s) (hpl : ∀ q ∈ s.results, ∃ e, elem env.root q = some e ∧ e.isContainer = false) :
    Kind env (nextResult env s) := by
  unfold nextResult
  cases hres : s.results with
  | nil => exact message_ptrs h
  | cons q rs =>
    simp only
    have hall : ∀ r ∈ q :: rs, r ∈ items env.root := by rw [← hres]; exact h.2.2.2
    have hq : q ∈ items env.root := hall q (by simp)
    cases hsel : s.sel with
    | none => exact message_ptrs ⟨ofItems_some hq, h.2.1, h.2.2.1, hall⟩
    | some p =>
      simp only
      have hp := h.1 p hsel
      cases hj : jump env.root (q :: rs) p s.collapsed with
      | none => trivial
      | some r =>
        obtain ⟨z, c, b⟩ := r
        have hz : z ∈ items env.root := jumpTarget_items (by rw [← hres]; exact h.2.2.2)
          (by obtain ⟨e, he⟩ := ((mem_items _ _).mp hp).1; rw [he]; simp) (by rw [← hres]; exact hpl) hj
        cases b with
        | true => exact ⟨ofItems_some hz, h.2.1, h.2.2.1, hall⟩
        | false => exact message_ptrs ⟨ofItems_some hz, h.2.1, h.2.2.1, hall⟩

theorem around_items {env : Env} {q : Path} (h : q ∈ items env.root) (hq : q ≠ []) :
    (if inEntry env q.dropLast then q.dropLast.dropLast else q.dropLast) ∈ items env.root := around_visible (hidden := fun _ => false) h hq

theorem Ptrs.withSel {env : Env} {s : St} (h : Ptrs env s) {o : Option Path} (ho : OfItems env o) : Ptrs env { s with sel := o } := ⟨ho, h.2⟩

theorem inContainer_ne {env : Env} {p : Path} (h : inContainer env p = true) : p ≠ [] := by
  rintro rfl; simp [inContainer, parent] at h

theorem evalKey_ptrs {env : Env} {s : St} (h : Ptrs env s) (hr : ResultsOK env s.results) (name : Bytes) (pat : Option Pattern) :
    Kind env (evalKey env name pat s) := by
  have hpl : ∀ results, ResultsOK env results → ∀ q ∈ results, q ∈ items env.root ∧ ∃ e, elem env.root q = some e ∧ e.isContainer = false := by
    rintro results (rfl | ⟨pat, rfl⟩) q hq
    · simp at hq
    · exact results_elems env.rx env.fmt pat env.root q hq
  unfold evalKey
  split
  · trivial
  split
  · exact h.withSel h.2.1
  split
  · unfold selectDown
    split
    · exact ⟨h.1, h.2⟩
    split
    · exact h.withSel h.2.2.1
    · exact h
  split
  · unfold selectPUp
    split
    · trivial
    · next p hp =>
      split
      · next q hq =>
        refine h.withSel (ofItems_some ?_)
        obtain ⟨a, i, c, rfl, rfl, h3, h4⟩ := ((C43_next_partial env.root p ((mem_items _ _).mp (h.1 p hp)).1).2.2.1 q).mp hq
        exact (visible_sibling (hidden := fun _ => false) (a := a) (j := i) (h.1 _ hp) (List.prefix_append _ _) (by simp)
          (by
            have hk : i < c.kids.length := by
              obtain ⟨e, he⟩ := ((mem_items _ _).mp (h.1 _ hp)).1
              rw [elem, at_concat, ← elem, h3] at he
              simp only [Option.bind_some] at he
              have := (List.getElem?_eq_some_iff.mp he).1
              omega
            exact elem_kid h3 hk) ⟨c, h3, h4⟩)
      · split
        · next hc => exact h.withSel (ofItems_some (around_items (h.1 p hp) (inContainer_ne hc)))
        · exact h
  split
  · unfold selectPDown
    split
    · trivial
    · next p hp =>
      split
      · next q hq => exact h.withSel (ofItems_some (findNext_visible (hidden := fun _ => false) (h.1 p hp) hq).1)
      · exact h
  split
  · unfold expandSelection
    split
    · exact h
    · simp only
      split
      · trivial
      split
      · exact h
      split
      · exact ⟨h.1, h.2⟩
      split
      · exact h
      · exact h.withSel h.2.2.1
  split
  · unfold collapseSelection
    split
    · trivial
    · next p hp =>
      simp only
      split
      · trivial
      · next e he =>
        split
        · next hc =>
          refine h.withSel (ofItems_some (around_items (h.1 p hp) ?_))
          rintro rfl
          rw [show valuePath env [] = [] from rfl] at hc
          simp [parent] at hc
        · exact ⟨h.1, h.2⟩
  split
  · unfold initSearch
    cases pat with
    | none => exact h
    | some p =>
      simp only
      split
      · exact ⟨h.1, h.2.1, h.2.2.1, by simp⟩
      · have := hpl _ (.inr ⟨p, rfl⟩)
        exact nextResult_ptrs ⟨h.1, h.2.1, h.2.2.1, fun q hq => (this q hq).1⟩ fun q hq => (this q hq).2
  split
  · exact nextResult_ptrs h fun q hq => (hpl _ hr q hq).2
  · exact h

end Verif.Lemmas
