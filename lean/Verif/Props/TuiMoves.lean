import Verif.Props.TuiScreen
import Verif.Lemmas.DownAll
/-! # C41, C42, C63, C64: moving, collapsing, expanding -/
namespace Verif.Props
open Verif.Model Verif.Model.Search Verif.Model.Nav Verif.Model.Tui Verif.Spec Verif.Lemmas

/-- The state `s` is drawn, with the selection `q`, which is displayed between the items `A` before and `B` after it. -/
def Drawing (env : Env) (s : St) (A : List Path) (q : Path) (B : List Path) : Prop :=
  shownNow env s = A ++ q :: B ∧ s.sel = some q ∧ s.height ≠ 1 ∧
  ∃ n s0, s0.sel = some q ∧ s0.collapsed = s.collapsed ∧ s0.height ≠ 1 ∧ settle env n s0 = some (.done s)

/-- The item `b` begins on the screen (the first line of it, of as many lines of the screen as it takes). -/
def BeginsOnScreen (env : Env) (s : St) (b : Path) : Prop :=
  ∃ a ∈ onScreen s.width s.height 1 ((outlineOf env s).drop s.scroll), a.2.item = b

theorem step_redraw {env : Env} {name : Bytes} {pat : Option Pattern} {s s1 : St} (h : evalKey env name pat s = .redraw s1) {n : Nat} {a : Answer}
    {q : Path} (h1 : s1.sel = some q) (h2 : q ∈ shownItems env s1) (h3 : s1.height ≠ 1) (ha : step env n (.key name pat) s = some a) :
    ∃ s', a = .nextInput s' ∧ settle env n s1 = some (.done s') ∧ Kept s1 s' := by
  simp only [step, h] at ha
  cases hn : settle env n s1 with
  | none => rw [hn] at ha; simp at ha
  | some r =>
    obtain ⟨s', rfl, hk, -⟩ := settle_ready env n s1 r h1 h2 h3 hn
    rw [hn] at ha
    simp at ha
    exact ⟨s', ha.symm, rfl, hk⟩

theorem Drawing.drawn {env : Env} {s : St} {A B : List Path} {q : Path} (h : Drawing env s A q B) :
    ∃ s1, Kept s1 s ∧ redraw env s1 = .done s ∧ s1.sel = some q ∧ shownItems env s1 = A ++ q :: B := by
  obtain ⟨h1, h2, h3, n, s0, h4, h5, h6, h7⟩ := h
  have hq : shownItems env s0 = A ++ q :: B := by rw [shownItems, h5]; exact h1
  have hn : NoVal env (some q) := noVal_item (visible_items (hiddenBy s0.collapsed) _ _ (by rw [show visible (hiddenBy s0.collapsed) env.root = _ from hq]; simp))
  obtain ⟨s1, g1, g2⟩ := settle_last n s0 s (by rw [h4]; exact hn) h7
  have hq1 : shownItems env s1 = A ++ q :: B := by rw [g1.shown]; exact hq
  obtain ⟨k, -⟩ := redraw_ready env s1 s (g1.1.trans h4) (by rw [hq1]; simp) (by rw [g1.2.2.2.2]; exact h6) g2
  exact ⟨s1, k, g2, g1.1.trans h4, hq1⟩

theorem Drawing.parts {env : Env} {s : St} {A B : List Path} {q : Path} (h : Drawing env s A q B) : s.up = some (A.getLast?.getD q) ∧
    (s.isLast = false ∧ s.down = some (B.head?.getD q) ∨ s.isLast = true ∧ s.down = some (fallback env s.collapsed q)) := by
  obtain ⟨s1, hk, hr, hs, hAB⟩ := h.drawn
  obtain ⟨pre, post, h1, h2, h3, h4⟩ := evs_split env s1 hAB
  have hp := redraw_present env s1 hs hAB h1 h2 h3 h4
  cases hy : yrun s1.height s1.scroll pre 1 with
  | none => rw [hy] at hp; obtain ⟨s2, g1, -⟩ := hp; rw [hr] at g1; cases g1
  | some y =>
    rw [hy] at hp
    obtain ⟨s2, g1, g2, g3, g4, g5⟩ := hp
    rw [hr] at g1
    cases g1
    exact ⟨g4, by rw [hk.2.1]; exact g5⟩

theorem Drawing.mem {env : Env} {s : St} {A B : List Path} {q : Path} (h : Drawing env s A q B) : q ∈ shownItems env s := by
  rw [show shownItems env s = _ from h.1]; simp

/-- A drawing with a visible selection. -/
theorem shows_of_settle {env : Env} {n : Nat} {s0 s : St} {A B : List Path} {q : Path} (h1 : s0.sel = some q) (h2 : shownNow env s0 = A ++ q :: B)
    (h3 : s0.height ≠ 1) (h : settle env n s0 = some (.done s)) : Drawing env s A q B := by
  obtain ⟨s', he, hk, -⟩ := settle_ready env n s0 _ h1 (show q ∈ shownItems env s0 by rw [show shownItems env s0 = _ from h2]; simp) h3 h
  cases he
  exact ⟨by rw [shownNow, hk.2.1]; exact h2, hk.1.trans h1, by rw [hk.2.2.2.2]; exact h3, n, s0, h1, hk.2.1.symm, h3, h⟩

theorem splits {l : List Path} {z : Path} (h : z ∈ l) : ∃ A B, l = A ++ z :: B := List.append_of_mem h

theorem exec_down_none (view : View) (sel : Option Path) (es : List Ev) (d : Draw) (h : d.found = false → d.down = none) :
    (exec view sel es d).1.found = false → (exec view sel es d).1.down = none := by
  induction es generalizing d with
  | nil => exact h
  | cons e es ih =>
    have key : (e.run view sel d).1.found = false → (e.run view sel d).1.down = none := by
      cases e with
      | line => simp only [Ev.run]; split <;> exact h
      | check p ie =>
        simp only [Ev.run, checkSelection]
        cases hf : d.found with
        | false =>
          simp only [Bool.not_false, if_true]
          split
          · simp
          · split
            · intro _; exact h hf
            · intro _; exact h hf
        | true =>
          simp only [Bool.not_true, Bool.false_eq_true, if_false]
          split
          · split <;> simp [hf]
          · simp [hf]
    simp only [exec]
    rcases hr : e.run view sel d with ⟨d', b⟩
    rw [hr] at key
    cases b with
    | true => exact ih d' key
    | false => exact key

/-- A drawing that is not done has no next item. -/
theorem retry_down {env : Env} {s s' : St} (hn : NoVal env s.sel) (h : redraw env s = .retry s') : s'.down = none := by
  have hd := draw_root env s s.sel hn (blank s.scroll)
  have hd' : drawValue env ⟨s.width, s.height, s.collapsed, s.results⟩ s.sel [] false 0 ⟨1, s.scroll, none, none, false, []⟩ env.root = _ := hd
  have hx := exec_down_none (viewOf s) s.sel (evs env s) (blank s.scroll) (fun _ => rfl)
  unfold redraw at h
  simp only [hd'] at h
  generalize exec (viewOf s) s.sel (evs env s) (blank s.scroll) = r at h hx
  obtain ⟨d, b⟩ := r
  simp only at h hx
  split at h
  · next hc => cases h; simp only [Bool.and_eq_true, Bool.not_eq_true'] at hc; exact hx hc.2
  · split at h <;> cases h

/-- A state without a new drawing, or one drawn once. -/
def Once (env : Env) (s : St) : Answer → Prop
  | .nextInput s' => s' = s ∨ ∃ s1, Ptrs env s1 ∧ s1.height = s.height ∧ redrawMessage env s1 = .nextInput s'
  | _ => True

theorem evalKey_once {env : Env} {s : St} (h : Ptrs env s) (hr : ResultsOK env s.results) (name : Bytes) (pat : Option Pattern) :
    Once env s (evalKey env name pat s) := by
  have hm : ∀ t, Ptrs env t → t.height = s.height → Once env s (redrawMessage env t) := by
    intro t ht hh
    cases hx : redrawMessage env t with
    | nextInput s' => exact .inr ⟨t, ht, hh, hx⟩
    | _ => trivial
  have hpl : ∀ results, ResultsOK env results → ∀ q ∈ results, q ∈ items env.root ∧ ∃ e, elem env.root q = some e ∧ e.isContainer = false := by
    rintro results (rfl | ⟨pat, rfl⟩) q hq
    · simp at hq
    · exact results_elems env.rx env.fmt pat env.root q hq
  have hnr : ∀ t, Ptrs env t → ResultsOK env t.results → t.height = s.height → Once env s (nextResult env t) := by
    intro t ht hres hh
    unfold nextResult
    cases hq : t.results with
    | nil => exact hm _ ht hh
    | cons z zs =>
      have hall := hpl _ hres
      rw [hq] at hall
      simp only
      cases hsel : t.sel with
      | none => exact hm _ ⟨ofItems_some (hall z (by simp)).1, ht.2.1, ht.2.2.1, fun q hq => (hall q hq).1⟩ hh
      | some p =>
        simp only
        cases hj : jump env.root (z :: zs) p t.collapsed with
        | none => trivial
        | some r =>
          obtain ⟨a, c, b⟩ := r
          have ha : a ∈ items env.root := jumpTarget_items (fun q hq => (hall q hq).1)
            (by obtain ⟨e, he⟩ := ((mem_items _ _).mp (ht.1 p hsel)).1; rw [he]; simp) (fun q hq => (hall q hq).2) hj
          cases b with
          | true => trivial
          | false => exact hm _ ⟨ofItems_some ha, ht.2.1, ht.2.2.1, fun q hq => (hall q hq).1⟩ hh
  unfold evalKey
  split
  · trivial
  split
  · trivial
  split
  · unfold selectDown; split; trivial; split; trivial; exact .inl rfl
  split
  · unfold selectPUp; split; trivial; split; trivial; split; trivial; exact .inl rfl
  split
  · unfold selectPDown; split; trivial; split; trivial; exact .inl rfl
  split
  · unfold expandSelection; split; exact .inl rfl; simp only; split; trivial; split; exact .inl rfl; split; trivial; split; exact .inl rfl; trivial
  split
  · unfold collapseSelection; split; trivial; simp only; split; trivial; split <;> trivial
  split
  · unfold initSearch
    cases pat with
    | none => trivial
    | some p =>
      simp only
      split
      · trivial
      · exact hnr _ ⟨h.1, h.2.1, h.2.2.1, fun q hq => (hpl _ (.inr ⟨p, rfl⟩) q hq).1⟩ (.inr ⟨p, rfl⟩) rfl
  split
  · exact hnr _ h hr rfl
  · exact .inl rfl

/-- Every state in which the program waits is drawn (for the inputs of `C38_selection_partial`). -/
theorem waits_shows {env : Env} {s : St} (h : Waits env (Calm env) s) : ∃ A q B, Drawing env s A q B := by
  have hready := waits_fine h
  induction h with
  | @start w h n s hok hs =>
    exact ⟨[], [], _, shows_of_settle (s0 := start w h) rfl rfl (hok.1 w h rfl) hs⟩
  | @step n i s s' hw hok hs ih =>
    obtain ⟨f1, f2, f3⟩ := waits_fine hw
    obtain ⟨p1, p2⟩ := waits_ptrs hw
    cases i with
    | resize w h =>
      obtain ⟨q, k1, k2⟩ := f1.sel
      simp only [step] at hs
      split at hs <;> simp at hs
      next heq =>
      subst hs
      obtain ⟨A, B, hAB⟩ := splits k2
      exact ⟨A, q, B, shows_of_settle (s0 := { s with width := w, height := h }) k1 hAB (hok.1 w h rfl) heq⟩
    | key name pat =>
      have ho := evalKey_once p1 p2 name pat
      have hrev := calm_reveals hok (looksThrough_ok f2 _) f1.sel.choose_spec.1 ((mem_visible _ _ _).mp f1.sel.choose_spec.2).1
      have hf := evalKey_fine f1 f2 f3 name pat (by
        rintro results (⟨rfl, rfl⟩ | ⟨rfl, p, rfl, rfl⟩)
        · exact hrev
        · exact hrev)
      simp only [step] at hs
      split at hs
      · next s1 hk =>
        rw [hk] at hf
        obtain ⟨⟨z, g1, g2⟩, g3, g4, -⟩ := hf
        split at hs <;> simp at hs
        next heq =>
        subst hs
        obtain ⟨A, B, hAB⟩ := splits g2
        exact ⟨A, z, B, shows_of_settle g1 hAB (by rw [g4]; exact f3) heq⟩
      · simp at hs
        rw [hs] at ho hf
        rcases ho with rfl | ⟨s1, t1, t2, t3⟩
        · exact ih ⟨f1, f2, f3⟩
        · obtain ⟨q, k1, k2⟩ := hf.1.sel
          obtain ⟨q', k3, -⟩ := hf.1.down
          unfold redrawMessage at t3
          cases hd : redraw env s1 with
          | crash => rw [hd] at t3; cases t3
          | retry s2 =>
            rw [hd] at t3; cases t3
            rw [retry_down t1.1.noVal hd] at k3
            cases k3
          | done s2 =>
            rw [hd] at t3; cases t3
            obtain ⟨hk, -⟩ := (redraw_ptrs t1).1 _ hd
            obtain ⟨A, B, hAB⟩ := splits k2
            refine ⟨A, q, B, shows_of_settle (n := 1) (s0 := s1) (hk.1.symm.trans k1) ?_ (by rw [t2]; exact f3) (by simp [settle, hd])⟩
            rw [shownNow, ← hk.2.1]
            exact hAB

/-! ## C41 -/

theorem key_up (env : Env) (pat : Option Pattern) (s : St) : evalKey env b!"K" pat s = selectUp s ∧ evalKey env b!"KEY_UP" pat s = selectUp s := ⟨rfl, rfl⟩
theorem key_down (env : Env) (pat : Option Pattern) (s : St) : evalKey env b!"J" pat s = selectDown s ∧ evalKey env b!"KEY_DOWN" pat s = selectDown s := ⟨rfl, rfl⟩

/-- The index of the first line of an item. -/
theorem match_index {w : Nat} {q p : Path} {x : Nat} {t : Bytes} {n : Nat} {lz : Bool} {post : List Ev} : ∀ (pre : List Ev) (S : List Path) (rs : List Row),
    Match w (pre ++ .check q false :: .line p q x t n lz :: post) rs → Owned S pre → q ∉ S → q ∉ checks pre →
    rs.findIdx (fun r => decide (r.item = q)) = nbLines pre := by
  intro pre
  induction pre with
  | nil =>
    intro S rs hm _ _ _
    obtain ⟨r, rs', rfl, h1, h2, h3, h4, -⟩ := hm
    simp [List.findIdx_cons, h2, nbLines]
  | cons e pre ih =>
    intro S rs hm ho hq hc
    cases e with
    | check p' ie =>
      cases ie with
      | true => exact ih S rs hm ho hq hc
      | false =>
        simp only [checks, List.mem_cons, not_or] at hc
        exact ih (p' :: S) rs hm ho (by simp [hc.1, hq]) hc.2
    | line p' item x' t' n' lz' =>
      obtain ⟨r, rs', rfl, h1, h2, h3, h4, -, h5, h6⟩ := hm
      have g1 := ih S rs' h6 ho.2 hq hc
      have : decide (r.item = q) = false := by
        rw [h2]; simp; rintro rfl; exact hq ho.1
      rw [List.findIdx_cons, this, cond_false, g1, nbLines]

/-- The number of the first line of an item in the display, from 0 on. -/
def lineOf (env : Env) (s : St) (q : Path) : Nat := (outlineOf env s).findIdx (fun r => decide (r.item = q))

theorem line_index {env : Env} {s : St} {q : Path} {pre post : List Ev} (h : evs env s = pre ++ .check q false :: post) (hq : q ∉ checks pre) :
    lineOf env s q = nbLines pre := by
  have hpair : Paired (evs env s) := paired_value env s.width s.collapsed env.root [] [] false 0 (fun _ => rfl)
  obtain ⟨x, t, m, lz, post', rfl⟩ := hpair pre q post h
  have ho : Owned [] (evs env s) := owned_value env s.width s.collapsed env.root [] [] [] false 0 (.inr ⟨rfl, rfl⟩)
  rw [h] at ho
  exact match_index pre [] (outlineOf env s) (by rw [← h]; exact match_evs env s) (owned_prefix ho) (by simp) hq

theorem Drawing.next_ne {env : Env} {s : St} {A B : List Path} {q b : Path} (h : Drawing env s A q (b :: B)) : b ≠ q := by
  rintro rfl
  exact visible_nodup _ _ (q := b) (a := A ++ [b]) (b := B) (by rw [show visible _ env.root = _ from h.1]; simp) (by simp)

/-- Where the selection and the next item are. -/
theorem next_layout {env : Env} {s : St} {A B : List Path} {q b : Path} (h : Drawing env s A q (b :: B)) (h3 : 3 ≤ s.width) (hw : s.width < 4294967296)
    (hh : 2 ≤ s.height) :
    s.scroll ≤ lineOf env s q ∧ (BeginsOnScreen env s b → s.isLast = false ∧ s.down = some b) ∧ (¬ BeginsOnScreen env s b → s.isLast = true) := by
  obtain ⟨s1, hk, hr, hs, hAB⟩ := h.drawn
  obtain ⟨pre, post, h1, h2, h3', h4⟩ := evs_split env s1 hAB
  obtain ⟨p1, p2, h5, h6⟩ := checks_split (q := b) (es := post) (by rw [h3']; simp)
  have hp1 : checks p1 = [] := by
    rw [h5, checks_append] at h3'
    cases hc : checks p1 with
    | nil => rfl
    | cons z zs => rw [hc] at h3'; simp at h3'; rw [hc, h3'.1] at h6; simp at h6
  have hev : evs env s = evs env s1 := hk.evs
  have hbq : b ∉ A ++ [q] := by
    exact visible_nodup _ _ (q := b) (a := A ++ [q]) (b := B) (by rw [show visible _ env.root = _ from h.1]; simp)
  have hiq : lineOf env s q = nbLines pre := line_index (by rw [hev]; exact h1) (by rw [h2]; exact h4)
  have hib : lineOf env s b = nbLines pre + nbLines p1 := by
    have := line_index (env := env) (s := s) (q := b) (pre := pre ++ .check q false :: p1) (post := p2) (by rw [hev, h1, h5]; simp)
      (by rw [checks_append, h2]; simp only [checks, hp1]; exact hbq)
    rw [this, nbLines_append]; rfl
  have hpair : Paired (evs env s1) := paired_value env s1.width s1.collapsed env.root [] [] false 0 (fun _ => rfl)
  have hp1pos : 1 ≤ nbLines p1 := by
    obtain ⟨x, t, m, lz, p3, hp3⟩ := hpair pre q post h1
    rw [h5] at hp3
    cases p1 with
    | nil => simp at hp3
    | cons e p1 => simp at hp3; rw [hp3.1]; simp [nbLines]
  obtain ⟨x, t, m, lz, p3, rfl⟩ : ∃ x t m lz p3, p2 = .line b b x t m lz :: p3 := hpair (pre ++ .check q false :: p1) b p2 (by rw [h1, h5]; simp)
  have hq : q ∈ shownItems env s1 := by rw [hAB]; simp
  have hn : NoVal env (some q) := noVal_item (visible_items _ _ _ hq)
  have hheight : s1.height = s.height := hk.2.2.2.2.symm
  -- the rows
  have ht : Tall s.width (evs env s) (outlineOf env s) := (match_evs env s).tall h3 hw
  rw [hev, h1, h5] at ht
  obtain ⟨R1, R', hR, t1, ht', len1⟩ := tall_split ht
  obtain ⟨R2, R'', rfl, t2, t3, len2⟩ := tall_split (show Tall s.width (p1 ++ _) R' from ht')
  obtain ⟨rb, R3, rfl, -, hrb, -⟩ := t3
  have hp := redraw_present env s1 hs hAB h1 h2 h3' h4
  cases hy : yrun s1.height s1.scroll pre 1 with
  | none => rw [hy] at hp; obtain ⟨s2, g1, -⟩ := hp; rw [hr] at g1; cases g1
  | some y =>
    rw [hy] at hp
    obtain ⟨s2, g1, g2, g3, -⟩ := hp
    rw [hr] at g1
    cases g1
    have hbnd := yrun_bound (by rw [hheight]; exact hh) pre 1 y hy (by omega)
    have hset := yrun_settled s1.height s1.scroll (by omega) pre 1 y hy
    rw [← g3, hheight] at hset
    have hyv0 := yrun_tall t1 hy
    have hscroll : s.scroll ≤ R1.length := by
      rw [g3]; unfold scrollTo
      split
      · have : s1.scroll ≥ R1.length ∨ s1.scroll < R1.length := by omega
        rcases this with hc | hc
        · rw [List.drop_eq_nil_of_le (by omega)] at hyv0; simp only [total] at hyv0; omega
        · omega
      · apply Classical.byContradiction
        intro hc
        rw [List.drop_eq_nil_of_le (by omega)] at hyv0
        simp only [total] at hyv0
        omega
    have hyv : y = 1 + s.scroll + total s.width (R1.drop s.scroll) := by
      have := yrun_tall t1 hset
      rw [show s.scroll + 1 - 1 = s.scroll from by omega, Nat.min_eq_left hscroll] at this
      exact this
    have hylt : y < s.scroll + s.height := by
      rw [g3]; rw [hheight] at hbnd; unfold scrollTo
      split <;> omega
    have hbegin : BeginsOnScreen env s b ↔ y + total s.width R2 < s.scroll + s.height := by
      rw [BeginsOnScreen, hR, List.drop_append_of_le_length hscroll]
      have hmem : ∀ r ∈ R1.drop s.scroll ++ R2, r.item ≠ b := by
        intro r hr' hc
        have hr2 : r ∈ R1 ++ R2 := by
          rcases List.mem_append.mp hr' with g | g
          · exact List.mem_append_left _ (List.mem_of_mem_drop g)
          · exact List.mem_append_right _ g
        obtain ⟨i, hi, rfl⟩ := List.getElem_of_mem hr2
        have hlen : i < lineOf env s b := by rw [hib, ← len1, ← len2, ← List.length_append]; exact hi
        have := List.not_of_lt_findIdx (xs := outlineOf env s) (p := fun r => decide (r.item = b)) hlen
        have hg : (outlineOf env s)[i]'(by rw [hR]; simp at hi ⊢; omega) = (R1 ++ R2)[i] := by
          simp only [hR]
          rw [List.getElem_append, List.getElem_append]
          by_cases hi1 : i < R1.length
          · rw [dif_pos hi1, dif_pos hi1]
          · have h2 : i - R1.length < R2.length := by rw [List.length_append] at hi; omega
            rw [dif_neg hi1, dif_neg hi1, List.getElem_append, dif_pos h2]
        rw [hg] at this
        simp only [decide_eq_false_iff_not] at this
        exact this hc
      constructor
      · rintro ⟨a, ha, hab⟩
        rw [← List.append_assoc] at ha
        have := onScreen_mem (a := a) (fun r hr => by rw [hab]; exact hmem r hr) (by
          intro hnil
          have := congrArg List.length hnil
          rw [List.length_append] at this
          simp only [List.length_nil] at this
          omega) ha
        rw [total_append] at this
        omega
      · intro hlt
        refine ⟨(1 + total s.width (R1.drop s.scroll ++ R2), rb), ?_, hrb⟩
        rw [← List.append_assoc]
        exact onScreen_reach (by rw [total_append]; omega)
    refine ⟨by rw [hiq, ← len1]; exact hscroll, fun hb => ?_, fun hb => ?_⟩
    · have hy2 := yrun_fits t2 (sc := s.scroll) (h := s.height) (y := y) (by omega) (hbegin.mp hb)
      rw [← hheight, g3] at hy2
      have := exec_next env (viewOf s1) q b hn pre p1 (.line b b x t m lz :: p3) (fun p hp => val_evs env s1 p (by rw [h1]; simp [hp]))
        (by rw [h2]; exact h4) hp1 s1.scroll hy hy2
      rw [← h5, ← h1, ← hs] at this
      exact redraw_next (by rw [hs]; exact hn) hr this
    · have hy2 : yrun s1.height (scrollTo s1.scroll y) p1 y = none := by
        cases hc : yrun s1.height (scrollTo s1.scroll y) p1 y with
        | none => rfl
        | some z =>
          rw [hheight, ← g3] at hc
          exact absurd (hbegin.mpr (yrun_fits_conv hh t2 (by omega) hylt hc)) hb
      have := exec_stuck env (viewOf s1) q hn pre p1 (.check b false :: .line b b x t m lz :: p3) (fun p hp => val_evs env s1 p (by rw [h1]; simp [hp]))
        (by rw [h2]; exact h4) hp1 s1.scroll hy hy2
      rw [← h5, ← h1, ← hs] at this
      exact redraw_stuck (by rw [hs]; exact hn) hr this.1 this.2.2

/-- Drawn again two lines further down, the screen begins further down, but not below the selection. -/
theorem scroll_further {env : Env} {s s' : St} {A B : List Path} {q b : Path} (h : Drawing env s A q (b :: B)) (h3 : 3 ≤ s.width) (hw : s.width < 4294967296)
    (hlt : s.scroll < lineOf env s q) {n : Nat} (hset : settle env n { s with scroll := s.scroll + 2 } = some (.done s')) :
    s.scroll < s'.scroll ∧ s'.scroll ≤ lineOf env s q := by
  obtain ⟨s1, hk, hr, hs, hAB⟩ := h.drawn
  obtain ⟨pre, post, h1, h2, h3', h4⟩ := evs_split env s1 hAB
  have hev : evs env s = evs env s1 := hk.evs
  have hiq : lineOf env s q = nbLines pre := line_index (by rw [hev]; exact h1) (by rw [h2]; exact h4)
  have hheight : s1.height = s.height := hk.2.2.2.2.symm
  have hh1 := h.2.2.1
  have ht : Tall s.width (evs env s) (outlineOf env s) := (match_evs env s).tall h3 hw
  rw [hev, h1] at ht
  obtain ⟨R1, R', hR, t1, -, len1⟩ := tall_split ht
  have hp := redraw_present env s1 hs hAB h1 h2 h3' h4
  cases hy : yrun s1.height s1.scroll pre 1 with
  | none => rw [hy] at hp; obtain ⟨s2, g1, -⟩ := hp; rw [hr] at g1; cases g1
  | some y =>
    rw [hy] at hp
    obtain ⟨s2, g1, g2, g3, -⟩ := hp
    rw [hr] at g1
    cases g1
    have hst := yrun_settled s1.height s1.scroll (by rw [hheight]; exact hh1) pre 1 y hy
    rw [← g3, hheight] at hst
    obtain ⟨z1, hz1⟩ := yrun_down hh1 hst (y2 := 1) (by omega)
    obtain ⟨z2, hz2⟩ := yrun_down hh1 hz1 (y2 := 1) (by omega)
    have hp2 := redraw_present env { s with scroll := s.scroll + 2 } h.2.1 (by exact h.1) (show evs env { s with scroll := s.scroll + 2 } = _ from hev.trans h1) h2 h3' h4
    rw [show ({ s with scroll := s.scroll + 2 } : St).height = s.height from rfl, show ({ s with scroll := s.scroll + 2 } : St).scroll = s.scroll + 2 from rfl] at hp2
    rw [show s.scroll + 1 + 1 = s.scroll + 2 from rfl] at hz2
    rw [hz2] at hp2
    obtain ⟨s2, k1, k2, k3, -⟩ := hp2
    cases n with
    | zero => cases hset
    | succ n =>
      rw [settle, k1] at hset
      cases hset
      have hv := yrun_tall t1 hz2
      rw [hiq, ← len1] at hlt ⊢
      rw [k3]
      unfold scrollTo
      rw [show s.scroll + 2 + 1 - 1 = s.scroll + 2 from by omega] at hv
      by_cases hc : s.scroll + 2 < R1.length
      · rw [Nat.min_eq_left (by omega)] at hv
        split <;> omega
      · rw [Nat.min_eq_right (by omega), List.drop_eq_nil_of_le (by omega)] at hv
        simp only [total] at hv
        split <;> omega

/-- **C41.** In every drawn state (whatever is collapsed, selected, scrolled; with lines of any length): Up selects the displayed item before the selection, if there is
one. Down selects the displayed item after the selection if it begins on the screen, and Up then is back at the selection; if it does not, or there is none, the selection
stays (and the screen is scrolled, see C63). -/
theorem C41_up_down (env : Env) (s : St) (A : List Path) (q : Path) (B : List Path) (h : Drawing env s A q B) (n : Nat) (a : Answer) :
    (∀ name pat, name = b!"K" ∨ name = b!"KEY_UP" → step env n (.key name pat) s = some a →
      ∃ s', a = .nextInput s' ∧ s'.sel = some (A.getLast?.getD q) ∧ s'.collapsed = s.collapsed) ∧
    (3 ≤ s.width → s.width < 4294967296 → 2 ≤ s.height → ∀ name pat, name = b!"J" ∨ name = b!"KEY_DOWN" → step env n (.key name pat) s = some a →
      (∀ b, B.head? = some b → BeginsOnScreen env s b → ∃ s', a = .nextInput s' ∧ s'.sel = some b ∧ s'.collapsed = s.collapsed ∧
        ∀ m a' name' pat', name' = b!"K" ∨ name' = b!"KEY_UP" → step env m (.key name' pat') s' = some a' →
          ∃ s'', a' = .nextInput s'' ∧ s''.sel = some q) ∧
      ((∀ b, B.head? = some b → ¬ BeginsOnScreen env s b) → ∃ s', a = .nextInput s' ∧ s'.sel = some q ∧ s'.collapsed = s.collapsed)) := by
  have key : ∀ {s A q B n a}, Drawing env s A q B → ∀ name pat, name = b!"K" ∨ name = b!"KEY_UP" → step env n (.key name pat) s = some a →
      ∃ s', a = .nextInput s' ∧ s'.sel = some (A.getLast?.getD q) ∧ s'.collapsed = s.collapsed := by
    intro s A q B n a h name pat hname ha
    have hk : evalKey env name pat s = .redraw { s with sel := s.up } := by
      rcases hname with rfl | rfl
      · exact (key_up env pat s).1
      · exact (key_up env pat s).2
    have hup := h.parts.1
    have hvis : A.getLast?.getD q ∈ shownItems env s := by
      rw [show shownItems env s = _ from h.1]
      cases hA : A.getLast? with
      | none => simp
      | some z => have := List.mem_of_getLast? hA; simp [this]
    obtain ⟨s', rfl, -, hkept⟩ := step_redraw hk (q := A.getLast?.getD q) hup hvis h.2.2.1 ha
    exact ⟨s', rfl, hkept.1.trans hup, hkept.2.1⟩
  refine ⟨fun name pat => key h name pat, fun h3 hw hh name pat hname ha => ?_⟩
  have hk : evalKey env name pat s = selectDown s := by
    rcases hname with rfl | rfl
    · exact (key_down env pat s).1
    · exact (key_down env pat s).2
  have scrolls : s.isLast = true → ∃ s', a = .nextInput s' ∧ s'.sel = some q ∧ s'.collapsed = s.collapsed := by
    intro hl
    rw [selectDown, if_pos hl] at hk
    obtain ⟨s', rfl, -, hkept⟩ := step_redraw hk (q := q) h.2.1 h.mem h.2.2.1 ha
    exact ⟨s', rfl, hkept.1.trans h.2.1, hkept.2.1⟩
  cases B with
  | nil =>
    refine ⟨fun b hb => (by cases hb), fun _ => ?_⟩
    cases hl : s.isLast with
    | true => exact scrolls hl
    | false =>
      rw [selectDown, if_neg (by simp [hl])] at hk
      rcases h.parts.2 with ⟨-, hd⟩ | ⟨hl', -⟩
      · split at hk
        · next hne => exact absurd (h.2.1.trans hd.symm) hne
        · simp only [step, hk] at ha
          cases ha
          exact ⟨s, rfl, h.2.1, rfl⟩
      · rw [hl] at hl'; cases hl'
  | cons b B =>
    have lay := next_layout h h3 hw hh
    refine ⟨fun b' hb' hon => ?_, fun hoff => scrolls (lay.2.2 (hoff b rfl))⟩
    cases hb'
    obtain ⟨hl, hd⟩ := lay.2.1 hon
    have hbq := h.next_ne
    have hk' : evalKey env name pat s = .redraw { s with sel := s.down } := by
      rw [hk, selectDown, if_neg (by simp [hl]), if_pos (by rw [h.2.1, hd]; simp [hbq.symm])]
    have hvis : shownNow env { s with sel := s.down } = (A ++ [q]) ++ b :: B := by rw [shownNow, show visible _ _ = _ from h.1]; simp
    obtain ⟨s', rfl, hset, hkept⟩ := step_redraw hk' (q := b) hd (by rw [show shownItems env { s with sel := s.down } = _ from hvis]; simp) h.2.2.1 ha
    refine ⟨s', rfl, hkept.1.trans hd, hkept.2.1, fun m a' name' pat' hn' ha' => ?_⟩
    have hsh := shows_of_settle (s0 := { s with sel := s.down }) hd hvis h.2.2.1 hset
    obtain ⟨s'', h1, h2, -⟩ := key hsh name' pat' hn' ha'
    exact ⟨s'', h1, by rw [h2]; simp⟩

end Verif.Props
