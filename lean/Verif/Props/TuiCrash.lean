import Verif.Props.TuiScreen
/-! # C38 exactly: which keys crash the interactive mode, and when -/
namespace Verif.Props
open Verif.Model Verif.Model.Search Verif.Model.Nav Verif.Model.Tui Verif.Spec Verif.Lemmas

/-- No line on the screen is marked as selected. -/
def Unmarked (s : St) : Prop := ∀ c ∈ s.screen, c.selected = false

/-- `q` is a container, or an entry with a container, that is not empty and not collapsed. -/
def OpenAt (env : Env) (s : St) (q : Path) : Prop :=
  ∃ p v, (elem env.root q = some (.value v) ∧ p = q ∨ ∃ k, elem env.root q = some (.entry k v) ∧ p = q ++ [0]) ∧
    v.isContainer = true ∧ (Elem.value v).kids ≠ [] ∧ p ∉ s.collapsed

/-- The keys that ask for the item below: Down, and Right on an open container that is not empty. -/
def Downward (env : Env) (s : St) (name : Bytes) : Prop :=
  (name = b!"J" ∨ name = b!"KEY_DOWN") ∨ (name = b!"L" ∨ name = b!"KEY_RIGHT") ∧ ∃ q, s.sel = some q ∧ OpenAt env s q

/-! ## The drawing -/

theorem exec_unmarked (view : View) (sel : Option Path) : ∀ (es : List Ev) (S : List Path) (d : Draw), Owned S es → (∀ p ∈ S, sel ≠ some p) →
    (∀ c ∈ d.screen, c.selected = false) → (exec view sel es d).1.found = false → ∀ c ∈ (exec view sel es d).1.screen, c.selected = false := by
  intro es
  induction es with
  | nil => intro S d _ _ h _; exact h
  | cons e es ih =>
    intro S d ho hS hd hf
    have hf0 : d.found = false := by
      cases h : d.found with
      | false => rfl
      | true => rw [exec_found view sel _ d h] at hf; cases hf
    cases e with
    | check p ie =>
      simp only [exec, Ev.run] at hf ⊢
      have hp : sel ≠ some p := by
        intro hs
        rw [exec_found view sel es _ (by simp [checkSelection, hf0, hs])] at hf
        cases hf
      have hsc : (checkSelection sel p ie d).screen = d.screen := by
        simp only [checkSelection, hf0, Bool.not_false, if_true, if_neg hp]; split <;> rfl
      cases ie with
      | false => exact ih (p :: S) _ ho (by intro q hq; rcases List.mem_cons.mp hq with rfl | hq; exact hp; exact hS q hq) (by rw [hsc]; exact hd) hf
      | true => exact ih S _ ho hS (by rw [hsc]; exact hd) hf
    | line p item x t n lz =>
      have hline : ∀ c ∈ ((Ev.line p item x t n lz).run view sel d).1.screen, c.selected = false := by
        simp only [Ev.run]
        split
        · exact hd
        · intro c hc
          rcases List.mem_append.mp hc with hc | hc
          · exact hd c hc
          · rw [List.mem_singleton] at hc
            subst hc
            exact decide_eq_false (hS item ho.1)
      simp only [exec] at hf ⊢
      rcases hr : (Ev.line p item x t n lz).run view sel d with ⟨d', b⟩
      rw [hr] at hf hline
      cases b with
      | true => exact ih S d' ho.2 hS hline hf
      | false => exact hline

theorem exec_up (view : View) (sel : Option Path) (es : List Ev) (d : Draw) (h : d.up.isSome = true) : (exec view sel es d).1.up.isSome = true := by
  induction es generalizing d with
  | nil => exact h
  | cons e es ih =>
    have hrun : (e.run view sel d).1.up.isSome = true := by
      cases e with
      | check p ie =>
        simp only [Ev.run, checkSelection]
        split
        · split
          · exact h
          · split
            · rfl
            · exact h
        · split
          · split <;> exact h
          · exact h
      | line => simp only [Ev.run]; split <;> exact h
    simp only [exec]
    rcases hr : e.run view sel d with ⟨d', b⟩
    rw [hr] at hrun
    cases b with
    | true => exact ih d' hrun
    | false => exact hrun

theorem evs_root (env : Env) (s : St) : ∃ es, evs env s = .check [] false :: es := by
  unfold evs
  cases env.root <;> exact ⟨_, by rw [evValue] <;> (intro _ h; cases h)⟩

/-- The program waits, whatever has happened before. -/
structure Stands (env : Env) (s : St) : Prop where
  sel : ∃ q, s.sel = some q ∧ q ∈ shownItems env s
  up : ∃ q, s.up = some q ∧ q ∈ shownItems env s
  results : ResultsOK env s.results
  seen : (∃ q, s.down = some q ∧ q ∈ shownItems env s) ∧ (∃ c ∈ s.screen, c.selected = true) ∨
    s.down = none ∧ s.isLast = false ∧ Unmarked s

theorem redraw_stands {env : Env} {s : St} {q : Path} (hs : s.sel = some q) (hq : q ∈ shownItems env s) (hr : ResultsOK env s.results) :
    redraw env s ≠ .crash ∧
    (∀ s', redraw env s = .done s' → Kept s s' ∧ Stands env s' ∧ ∃ c ∈ s'.screen, c.selected = true) ∧
    (∀ s', redraw env s = .retry s' → Kept s s' ∧ Stands env s') := by
  have hn : NoVal env (some q) := noVal_item (visible_items _ _ _ hq)
  obtain ⟨A, B, hAB⟩ := List.append_of_mem hq
  obtain ⟨pre, post, h1, h2, h3, h4⟩ := evs_split env s hAB
  have hp := redraw_present env s hs hAB h1 h2 h3 h4
  cases hy : yrun s.height s.scroll pre 1 with
  | some y =>
    rw [hy] at hp
    obtain ⟨s', g1, g2, g3, g4, g5⟩ := hp
    refine ⟨by rw [g1]; simp, ?_, by rw [g1]; simp⟩
    intro s2 hs2
    rw [g1] at hs2
    cases hs2
    have hcell : ∃ c ∈ s'.screen, c.selected = true := by
      have hsc := redraw_screen (by rw [hs]; exact hn) g1
      have hpair : Paired (evs env s) := paired_value env s.width s.collapsed env.root [] [] false 0 (fun _ => rfl)
      obtain ⟨x, t, m, lz, post', rfl⟩ := hpair pre q post h1
      have hval : ValChecks env pre := fun p hp => val_evs env s p (by rw [h1]; simp [hp])
      have hmem := exec_selection env (viewOf s) q hn pre post' q x t m lz hval (by rw [h2]; exact h4) s.scroll y hy
      rw [← h1, ← hs, ← hsc.1] at hmem
      exact ⟨_, hmem, rfl⟩
    have hsh : shownItems env s' = A ++ q :: B := by rw [g2.shown]; exact hAB
    refine ⟨g2, ⟨⟨q, g2.1.trans hs, by rw [hsh]; simp⟩, ⟨_, g4, ?_⟩, by rw [g2.2.2.1]; exact hr, .inl ⟨?_, hcell⟩⟩, hcell⟩
    · rw [hsh]
      cases hA : A.getLast? with
      | none => simp
      | some z => have := List.mem_of_getLast? hA; simp [this]
    · rcases g5 with ⟨-, g5⟩ | ⟨-, g5⟩
      · refine ⟨_, g5, ?_⟩
        rw [hsh]
        cases hB : B.head? with
        | none => simp
        | some z => have := List.mem_of_head? hB; simp [this]
      · exact ⟨_, g5, by rw [g2.shown]; exact (fallback_visible hq).1⟩
  | none =>
    rw [hy] at hp
    obtain ⟨s', g1, g2, g3⟩ := hp
    refine ⟨by rw [g1]; simp, by rw [g1]; simp, ?_⟩
    intro s2 hs2
    refine ⟨(by rw [g1] at hs2; cases hs2; exact g2), ?_⟩
    have hx := exec_present env (viewOf s) q hn pre post (by rw [← h1]; exact val_evs env s) (by rw [h2]; exact h4) s.scroll
    rw [show yrun (viewOf s).height s.scroll pre 1 = none from hy, ← h1, ← hs] at hx
    have hd := draw_root env s s.sel (by rw [hs]; exact hn) (blank s.scroll)
    have hd' : drawValue env ⟨s.width, s.height, s.collapsed, s.results⟩ s.sel [] false 0 ⟨1, s.scroll, none, none, false, []⟩ env.root = _ := hd
    have hun := exec_unmarked (viewOf s) s.sel (evs env s) [] (blank s.scroll)
      (owned_value env s.width s.collapsed env.root [] [] [] false 0 (.inr ⟨rfl, rfl⟩)) (by simp) (by simp)
    have hps := exec_ptrs (· ∈ shownItems env s) (viewOf s) s.sel (evs env s) (blank s.scroll)
      (fun p hp => by rw [checks_evs] at hp; exact hp) (by intro p hp; cases hp) (by intro p hp; cases hp)
    have hup : (exec (viewOf s) s.sel (evs env s) (blank s.scroll)).1.found = false →
        (exec (viewOf s) s.sel (evs env s) (blank s.scroll)).1.up.isSome = true := by
      obtain ⟨es, he⟩ := evs_root env s
      rw [he]
      simp only [exec, Ev.run]
      intro hf
      by_cases hsr : s.sel = some []
      · rw [exec_found _ _ es _ (by simp [checkSelection, hsr])] at hf; cases hf
      · exact exec_up _ _ _ _ (by simp [checkSelection, hsr])
    unfold redraw at hs2
    simp only [hd'] at hs2
    generalize exec (viewOf s) s.sel (evs env s) (blank s.scroll) = r at hs2 hx hun hps hup
    obtain ⟨d, b⟩ := r
    simp only at hs2 hx hun hps hup
    obtain ⟨rfl, k2, k3, k4, -⟩ := hx
    simp only [k2, Bool.not_false, Bool.and_self, if_true] at hs2
    cases hs2
    obtain ⟨u, hu⟩ := Option.isSome_iff_exists.mp (hup k2)
    exact ⟨⟨q, hs, hq⟩, ⟨u, hu, hps.1 u hu⟩, hr, .inr ⟨k4, rfl, hun k2⟩⟩

theorem settle_stands {env : Env} : ∀ (n : Nat) {s : St} {q : Path} {r : Drawn}, s.sel = some q → q ∈ shownItems env s → ResultsOK env s.results →
    settle env n s = some r → ∃ s', r = .done s' ∧ Stands env s' ∧ ∃ c ∈ s'.screen, c.selected = true := by
  intro n
  induction n with
  | zero => intro s q r _ _ _ h; simp [settle] at h
  | succ n ih =>
    intro s q r hs hq hr h
    obtain ⟨a1, a2, a3⟩ := redraw_stands hs hq hr
    rw [settle] at h
    cases hd : redraw env s with
    | crash => exact absurd hd a1
    | done s1 =>
      rw [hd] at h
      cases h
      exact ⟨s1, rfl, (a2 s1 hd).2⟩
    | retry s1 =>
      rw [hd] at h
      obtain ⟨hk, -⟩ := a3 s1 hd
      exact ih (hk.1.trans hs) (by rw [hk.shown]; exact hq) (by rw [hk.2.2.1]; exact hr) h

/-- Without a selection the drawing comes to a crash. -/
theorem settle_null {env : Env} : ∀ (n : Nat) {s : St} {r : Drawn}, s.sel = none → settle env n s = some r → r = .crash := by
  intro n
  induction n with
  | zero => intro s r _ h; simp [settle] at h
  | succ n ih =>
    intro s r hs h
    have hn : NoVal env s.sel := by rw [hs]; intro a k v _ h; cases h
    have hd := draw_root env s s.sel hn (blank s.scroll)
    have hd' : drawValue env ⟨s.width, s.height, s.collapsed, s.results⟩ s.sel [] false 0 ⟨1, s.scroll, none, none, false, []⟩ env.root = _ := hd
    obtain ⟨pre, post, h1, h2, h3⟩ := exec_prefix (viewOf s) s.sel (evs env s) (blank s.scroll)
    have hsc := scan_absent env (viewOf s) s.sel hn pre (fun p hp => val_evs env s p (by rw [h1]; simp [hp]))
      (fun p _ => by rw [hs]; simp) (blank s.scroll) rfl
    rw [← h2] at hsc
    rw [settle] at h
    cases hr : redraw env s with
    | crash => rw [hr] at h; cases h; rfl
    | retry s1 =>
      rw [hr] at h
      exact ih ((redraw_retry env s s1 hn hr).1.1.trans hs) h
    | done s1 =>
      exfalso
      unfold redraw at hr
      simp only [hd'] at hr
      generalize exec (viewOf s) s.sel (evs env s) (blank s.scroll) = r at hr hsc
      obtain ⟨d, b⟩ := r
      simp only at hr hsc
      simp only [hsc.2.2.1, hs] at hr
      split at hr <;> cases hr

/-! ## The keys -/

/-- The answer to a key while the program waits. -/
def Sound (env : Env) (s : St) (name : Bytes) : Answer → Prop
  | .redraw s' => (∃ q, s'.sel = some q ∧ q ∈ shownItems env s') ∧ ResultsOK env s'.results ∧ ¬ (Unmarked s ∧ Downward env s name) ∨
      s'.sel = none ∧ Unmarked s ∧ Downward env s name
  | .nextInput s' => (s' = s ∨ (name = b!"N" ∨ name = b!"/") ∧ Stands env s') ∧ ¬ (Unmarked s ∧ Downward env s name)
  | .quit => name = b!"Q"
  | .crash => False

theorem sound_message {env : Env} {s t : St} {name : Bytes} (hname : name = b!"N" ∨ name = b!"/") {q : Path} (hs : t.sel = some q) (hq : q ∈ shownItems env t)
    (hr : ResultsOK env t.results) (hd : ¬ Downward env s name) : Sound env s name (redrawMessage env t) := by
  obtain ⟨a1, a2, a3⟩ := redraw_stands hs hq hr
  unfold redrawMessage
  cases h : redraw env t with
  | crash => exact absurd h a1
  | done s' => exact ⟨.inr ⟨hname, (a2 s' h).2.1⟩, fun h => hd h.2⟩
  | retry s' => exact ⟨.inr ⟨hname, (a3 s' h).2⟩, fun h => hd h.2⟩

theorem sound_next {env : Env} {s t : St} {name : Bytes} (hname : name = b!"N" ∨ name = b!"/") {q : Path} (hs : t.sel = some q) (hq : q ∈ shownItems env t)
    (hr : ResultsOK env t.results) (hd : ¬ Downward env s name) : Sound env s name (nextResult env t) := by
  unfold nextResult
  cases hres : t.results with
  | nil => exact sound_message hname hs hq hr hd
  | cons r rs =>
    simp only [hs]
    rw [hres] at hr
    rcases hr with hr | ⟨pat, hr⟩
    · simp at hr
    have hne : (Nav.search env.rx env.fmt pat env.root).1 ≠ [] := by rw [← hr]; simp
    obtain ⟨z, c, after, j1, j2, j3⟩ := C36_next_result env.rx env.fmt pat env.root q t.collapsed ((mem_visible _ _ _).mp hq).1 hne
    rw [← hr] at j1 j2
    have hz := (results_elems env.rx env.fmt pat env.root z (by rw [← hr]; exact j2)).1
    have hrev := (C37_revealed env.root (r :: rs) q t.collapsed z c after j1).1
    have hzv := revealed_visible hz hrev
    rw [j1]
    cases after with
    | true => exact .inl ⟨⟨z, rfl, hzv⟩, .inr ⟨pat, hr⟩, fun h => hd h.2⟩
    | false => exact sound_message (t := { t with results := r :: rs, sel := some z, collapsed := c }) hname (q := z) rfl hzv (.inr ⟨pat, hr⟩) hd

theorem openAt_iff {env : Env} {s : St} {q : Path} {v : Json} (h : elem env.root (valuePath env q) = some (.value v)) :
    OpenAt env s q ↔ v.isContainer = true ∧ (Elem.value v).kids ≠ [] ∧ valuePath env q ∉ s.collapsed := by
  rcases valuePath_cases env q with ⟨h1, h2⟩ | ⟨h1, k, w, h2⟩
  · rw [h1] at h
    rw [h1]
    constructor
    · rintro ⟨p, v', ⟨g1, rfl⟩ | ⟨k, g1, -⟩, g2⟩
      · rw [h] at g1; cases g1; exact g2
      · exact absurd g1 (h2 _ _)
    · exact fun g => ⟨q, v, .inl ⟨h, rfl⟩, g⟩
  · have hw : w = v := by
      rw [h1, elem, at_concat, ← elem, h2] at h
      simpa [Elem.kids] using h
    subst hw
    constructor
    · rintro ⟨p, v', ⟨g1, rfl⟩ | ⟨k, g1, rfl⟩, g2⟩
      · rw [h2] at g1; cases g1
      · rw [h2] at g1; cases g1; rw [h1]; exact g2
    · exact fun g => ⟨q ++ [0], w, .inr ⟨k, h2, rfl⟩, by rw [← h1]; exact g⟩

theorem container_value (v : Json) : (Elem.value v).isContainer = v.isContainer := by cases v <;> rfl

theorem not_down {env : Env} {s : St} {name : Bytes} (h : name ≠ b!"J" ∧ name ≠ b!"KEY_DOWN" ∧ name ≠ b!"L" ∧ name ≠ b!"KEY_RIGHT") :
    ¬ Downward env s name := by
  rintro ((h1 | h1) | ⟨h1 | h1, -⟩)
  · exact h.1 h1
  · exact h.2.1 h1
  · exact h.2.2.1 h1
  · exact h.2.2.2 h1

theorem Stands.kept {env : Env} {s s' : St} (h : Target env s s') {name : Bytes} (hd : ¬ Downward env s name) : Sound env s name (.redraw s') :=
  .inl ⟨h.1, h.2.1, fun h => hd h.2⟩

theorem sound_same {env : Env} {s : St} {name : Bytes} (hd : ¬ Downward env s name) : Sound env s name (.nextInput s) := ⟨.inl rfl, fun h => hd h.2⟩

theorem evalKey_sound {env : Env} {s : St} (h : Stands env s) (name : Bytes) (pat : Option Pattern) : Sound env s name (evalKey env name pat s) := by
  obtain ⟨q, hs, hq⟩ := h.sel
  unfold evalKey
  by_cases hQ : name = b!"Q"
  · rw [if_pos hQ]; exact hQ
  rw [if_neg hQ]
  by_cases hK : name = b!"K" ∨ name = b!"KEY_UP"
  · rw [if_pos hK]
    exact .inl ⟨h.up, h.results, fun h => not_down (by rcases hK with rfl | rfl <;> decide) h.2⟩
  rw [if_neg hK]
  by_cases hJ : name = b!"J" ∨ name = b!"KEY_DOWN"
  · rw [if_pos hJ]
    unfold selectDown
    rcases h.seen with ⟨hd, c, hc, hsel⟩ | ⟨hd, hl, hu⟩
    · have hnu : ¬ (Unmarked s ∧ Downward env s name) := fun h => by rw [h.1 c hc] at hsel; cases hsel
      split
      · exact .inl ⟨⟨q, hs, hq⟩, h.results, hnu⟩
      split
      · exact .inl ⟨hd, h.results, hnu⟩
      · exact ⟨.inl rfl, hnu⟩
    · rw [if_neg (by rw [hl]; simp), if_pos (by rw [hs, hd]; simp)]
      exact .inr ⟨hd, hu, .inl hJ⟩
  rw [if_neg hJ]
  by_cases hPU : name = b!"KEY_PPAGE"
  · rw [if_pos hPU]
    have hnd : ¬ Downward env s name := not_down (by subst hPU; decide)
    unfold selectPUp
    rw [hs]
    simp only
    cases hp : findPrev env.root q with
    | some r =>
      obtain ⟨a, i, c, rfl, rfl, h3, h4⟩ := ((C43_next_partial env.root q ((mem_visible _ _ _).mp hq).1).2.2.1 r).mp hp
      refine .inl ⟨⟨a ++ [i], rfl, ?_⟩, h.results, fun h => hnd h.2⟩
      obtain ⟨e, he⟩ := ((mem_visible _ _ _).mp hq).1
      have hlen : i + 1 < c.kids.length := by
        rw [elem, at_concat, ← elem, h3] at he
        by_cases hl : i + 1 < c.kids.length
        · exact hl
        · simp only [Option.bind_some] at he
          rw [List.getElem?_eq_none (by omega)] at he; simp at he
      exact visible_sibling hq (List.prefix_append _ _) (fun h => by simpa using congrArg List.length h) (elem_kid h3 (by omega)) ⟨c, h3, h4⟩
    | none =>
      simp only
      split
      · next hc =>
        refine .inl ⟨⟨_, rfl, around_visible hq ?_⟩, h.results, fun h => hnd h.2⟩
        rintro rfl
        simp [inContainer, parent] at hc
      · exact sound_same hnd
  rw [if_neg hPU]
  by_cases hPD : name = b!"KEY_NPAGE"
  · rw [if_pos hPD]
    have hnd : ¬ Downward env s name := not_down (by subst hPD; decide)
    unfold selectPDown
    rw [hs]
    simp only
    cases hp : findNext env.root q with
    | some r => exact .inl ⟨⟨r, rfl, (findNext_visible hq hp).1⟩, h.results, fun h => hnd h.2⟩
    | none => exact sound_same hnd
  rw [if_neg hPD]
  by_cases hL : name = b!"L" ∨ name = b!"KEY_RIGHT"
  · rw [if_pos hL]
    unfold expandSelection
    rw [hs]
    simp only
    obtain ⟨v, hv⟩ := valuePath_elem ((mem_visible _ _ _).mp hq).1
    have hop := openAt_iff (s := s) hv
    have hnd : ¬ OpenAt env s q → ¬ Downward env s name := by
      intro hno
      rintro (h1 | ⟨-, q', h1, h2⟩)
      · rcases hL with rfl | rfl <;> revert h1 <;> decide
      · rw [hs] at h1; cases h1; exact hno h2
    rw [elem] at hv
    rw [hv]
    simp only
    by_cases hc : (Elem.value v).isContainer = true
    · rw [if_neg (by rw [hc]; simp)]
      by_cases hcol : s.collapsed.contains (valuePath env q) = true
      · rw [if_pos hcol]
        refine .inl ⟨⟨q, rfl, visible_mono hq fun a _ _ ha => hiddenBy_filter ha⟩, h.results, fun hh => hnd ?_ hh.2⟩
        intro ho
        exact (hop.mp ho).2.2 (List.contains_iff_mem.mp hcol)
      · rw [if_neg hcol]
        by_cases hk : (Elem.value v).kids.isEmpty = true
        · rw [if_pos hk]
          refine sound_same (hnd fun ho => (hop.mp ho).2.1 (List.isEmpty_iff.mp hk))
        · rw [if_neg hk]
          have ho : OpenAt env s q := hop.mpr ⟨(container_value v).symm.trans hc, fun h => hk (List.isEmpty_iff.mpr h), fun h => hcol (List.contains_iff_mem.mpr h)⟩
          rcases h.seen with ⟨hd, c, hcc, hsel⟩ | ⟨hd, hl, hu⟩
          · exact .inl ⟨hd, h.results, fun h => by rw [h.1 c hcc] at hsel; cases hsel⟩
          · exact .inr ⟨hd, hu, .inr ⟨hL, q, hs, ho⟩⟩
    · rw [if_pos (by simpa using hc)]
      exact sound_same (hnd fun ho => hc ((container_value v).trans (hop.mp ho).1))
  rw [if_neg hL]
  have hnd : ¬ Downward env s name := not_down ⟨fun h => hJ (.inl h), fun h => hJ (.inr h), fun h => hL (.inl h), fun h => hL (.inr h)⟩
  by_cases hH : name = b!"H" ∨ name = b!"KEY_LEFT"
  · rw [if_pos hH]
    unfold collapseSelection
    rw [hs]
    simp only
    obtain ⟨v, hv⟩ := valuePath_elem ((mem_visible _ _ _).mp hq).1
    rw [elem] at hv
    rw [hv]
    simp only
    split
    · next hc =>
      refine .inl ⟨⟨_, rfl, around_visible hq ?_⟩, h.results, fun h => hnd h.2⟩
      rintro rfl
      simp [valuePath, Elem.at, parent] at hc
    · refine .inl ⟨⟨q, rfl, visible_mono hq fun a ha hne hh => ?_⟩, h.results, fun h => hnd h.2⟩
      simp only [hiddenBy, ← Bool.not_eq_true, List.contains_iff_mem] at hh ⊢
      split
      · exact hh
      · rw [List.mem_append, not_or]
        refine ⟨hh, ?_⟩
        simp only [List.mem_singleton]
        rintro rfl
        have h2 := (valuePath_prefix env q)
        exact hne (ha.eq_of_length_le h2.length_le)
  rw [if_neg hH]
  by_cases hS : name = b!"/"
  · rw [if_pos hS]
    unfold initSearch
    cases pat with
    | none => exact .inl ⟨⟨q, hs, hq⟩, h.results, fun h => hnd h.2⟩
    | some p =>
      simp only
      split
      · exact .inl ⟨⟨q, hs, hq⟩, .inl rfl, fun h => hnd h.2⟩
      · exact sound_next (.inr hS) (t := { s with results := (Nav.search env.rx env.fmt p env.root).1 }) hs hq (.inr ⟨p, rfl⟩) hnd
  rw [if_neg hS]
  by_cases hN : name = b!"N"
  · rw [if_pos hN]; exact sound_next (.inl hN) hs hq h.results hnd
  rw [if_neg hN]
  exact sound_same hnd

/-- One input, whatever has happened before. -/
theorem step_stands {env : Env} {s : St} (h : Stands env s) {n : Nat} {i : Input} {a : Answer} (ha : step env n i s = some a) :
    (a = .crash ∧ Unmarked s ∧ ∃ name pat, i = .key name pat ∧ Downward env s name) ∨
    (¬ (Unmarked s ∧ ∃ name pat, i = .key name pat ∧ Downward env s name)) ∧ (a = .quit ∧ (∃ pat, i = .key b!"Q" pat) ∨
      ∃ s', a = .nextInput s' ∧ Stands env s' ∧
        (Unmarked s' → s' = s ∨ ∃ pat, i = .key b!"N" pat ∨ i = .key b!"/" pat)) := by
  obtain ⟨q, hs, hq⟩ := h.sel
  have after : ∀ {t : St} {z : Path}, t.sel = some z → z ∈ shownItems env t → ResultsOK env t.results → ∀ {a : Answer},
      (match settle env n t with | none => none | some .crash => some Answer.crash | some (.done s) => some (.nextInput s) | some (.retry _) => none) = some a →
      ∃ s', a = .nextInput s' ∧ Stands env s' ∧ ¬ Unmarked s' := by
    intro t z h1 h2 h3 a ha
    cases hn : settle env n t with
    | none => rw [hn] at ha; cases ha
    | some r =>
      obtain ⟨s', rfl, g1, c, g2, g3⟩ := settle_stands n h1 h2 h3 hn
      rw [hn] at ha
      cases ha
      exact ⟨s', rfl, g1, fun hu => by rw [hu c g2] at g3; cases g3⟩
  cases i with
  | resize w h' =>
    obtain ⟨s', h1, h2, h3⟩ := after (t := { s with width := w, height := h' }) hs hq h.results ha
    refine .inr ⟨?_, .inr ⟨s', h1, h2, fun hu => absurd hu h3⟩⟩
    rintro ⟨-, name, pat, hi, -⟩
    cases hi
  | key name pat =>
    have hsd := evalKey_sound h name pat
    have hcond : (Unmarked s ∧ ∃ name' pat', Input.key name pat = .key name' pat' ∧ Downward env s name') ↔ Unmarked s ∧ Downward env s name := by
      constructor
      · rintro ⟨h1, name', pat', hi, h2⟩; cases hi; exact ⟨h1, h2⟩
      · rintro ⟨h1, h2⟩; exact ⟨h1, name, pat, rfl, h2⟩
    rw [hcond]
    simp only [step] at ha
    cases hk : evalKey env name pat s with
    | crash => rw [hk] at hsd; exact hsd.elim
    | quit =>
      rw [hk] at hsd ha
      cases ha
      have hQ : name = b!"Q" := hsd
      subst hQ
      exact .inr ⟨fun h => not_down (by decide) h.2, .inl ⟨rfl, pat, rfl⟩⟩
    | nextInput s' =>
      rw [hk] at hsd ha
      cases ha
      refine .inr ⟨hsd.2, .inr ⟨s', rfl, ?_, ?_⟩⟩
      · rcases hsd.1 with rfl | ⟨-, h1⟩
        · exact h
        · exact h1
      · intro _
        rcases hsd.1 with rfl | ⟨rfl | rfl, -⟩
        · exact .inl rfl
        · exact .inr ⟨pat, .inl rfl⟩
        · exact .inr ⟨pat, .inr rfl⟩
    | redraw t =>
      rw [hk] at hsd ha
      rcases hsd with ⟨⟨z, h1, h2⟩, h3, h4⟩ | ⟨h1, h2, h3⟩
      · obtain ⟨s', g1, g2, g3⟩ := after h1 h2 h3 ha
        exact .inr ⟨h4, .inr ⟨s', g1, g2, fun hu => absurd hu g3⟩⟩
      · refine .inl ⟨?_, h2, h3⟩
        simp only at ha
        cases hn : settle env n t with
        | none => rw [hn] at ha; cases ha
        | some r =>
          have hr := settle_null n h1 hn
          subst hr
          rw [hn] at ha
          cases ha
          rfl

theorem waits_stands {env : Env} {ok : St → Input → Prop} {s : St} (h : Waits env ok s) : Stands env s := by
  induction h with
  | @start w h n s _ hs =>
    obtain ⟨s', h1, h2, -⟩ := settle_stands n (s := start w h) (q := []) rfl (start_shown env w h) (.inl rfl) hs
    cases h1
    exact h2
  | step _ _ hs ih =>
    rcases step_stands ih hs with ⟨h, -⟩ | ⟨-, ⟨h, -⟩ | ⟨s', h, h1, -⟩⟩
    · cases h
    · cases h
    · cases h; exact h1

/-- **C38, exactly.** Whatever has happened before, in every state in which the program waits for an input: the selection is a displayed item of the
document, not inside a collapsed container. An input ends in a crash exactly when no line on the screen is marked as selected and the input is Down, or
Right on an open container that is not empty. And every other input ends the program if it is Q, or leads to the next such state; one in which no
line is marked comes about only with a search or N. -/
theorem C38_exactly_partial (env : Env) (ok : St → Input → Prop) (s : St) (h : Waits env ok s) :
    (∃ q, s.sel = some q ∧ q ∈ shownNow env s) ∧
    ∀ i, (∃ n a, step env n i s = some a) ∧ ∀ n a, step env n i s = some a →
      (a = .crash ↔ Unmarked s ∧ ∃ name pat, i = .key name pat ∧ Downward env s name) ∧
      (a ≠ .crash → a = .quit ∧ (∃ pat, i = .key b!"Q" pat) ∨
        ∃ s', a = .nextInput s' ∧ (∃ q, s'.sel = some q ∧ q ∈ shownNow env s') ∧
          (Unmarked s' → s' = s ∨ ∃ pat, i = .key b!"N" pat ∨ i = .key b!"/" pat)) := by
  have hst := waits_stands h
  refine ⟨hst.sel, fun i => ⟨C39_every_input_ends env ok s h i, fun n a ha => ?_⟩⟩
  rcases step_stands hst ha with ⟨rfl, h1⟩ | ⟨h1, h2⟩
  · exact ⟨⟨fun _ => h1, fun _ => rfl⟩, fun h => absurd rfl h⟩
  · refine ⟨⟨fun hc => ?_, fun hc => absurd hc h1⟩, fun _ => ?_⟩
    · subst hc
      rcases h2 with ⟨h2, -⟩ | ⟨s', h2, -⟩ <;> cases h2
    · rcases h2 with h2 | ⟨s', h2, h3, h4⟩
      · exact .inl h2
      · exact .inr ⟨s', h2, h3.sel, h4⟩

/-- Without the searches left out in `C38_selection_partial`, a line is marked in every state. -/
theorem calm_marked (env : Env) (s : St) (h : Waits env (Calm env) s) : ∃ c ∈ s.screen, c.selected = true := by
  rcases (waits_stands h).seen with ⟨-, h1⟩ | ⟨hd, -⟩
  · exact h1
  · obtain ⟨q, hq, -⟩ := (waits_fine h).1.down
    rw [hd] at hq
    cases hq

/-- A state in which no line is marked: the one of `C38_selection_false`; and one in which a line is. -/
example : Waits (plainEnv crashDoc noRx) (fun _ _ => True) crashState ∧ Unmarked crashState ∧ Downward (plainEnv crashDoc noRx) crashState b!"J" :=
  ⟨runFrom_waits (fun _ _ => trivial) crash_reached, by unfold Unmarked; decide, .inl (.inl rfl)⟩

end Verif.Props
