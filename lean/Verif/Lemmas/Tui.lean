import Verif.Lemmas.Redraw
import Verif.Props.Navigate
/-! # Invariant of the interactive mode -/
namespace Verif.Lemmas
open Verif.Model Verif.Model.Search Verif.Model.Tui Verif.Spec Verif.Model.Nav Verif.Props

/-- The state while the program waits for a key: the screen has been drawn with this selection. -/
def Ready (env : Env) (s : St) : Prop :=
  ∃ q A B pre post, s.sel = some q ∧ shownItems env s = A ++ q :: B ∧ evs env s = pre ++ .check q false :: post ∧ checks pre = A ∧ checks post = B ∧
    q ∉ A ∧ (∃ y, yrun s.height s.scroll pre 1 = some y) ∧ s.up = some (A.getLast?.getD q) ∧
    (s.isLast = false ∧ s.down = some (B.head?.getD q) ∨ s.isLast = true ∧ s.down = some (fallback env s.collapsed q))

theorem redraw_ready (env : Env) (s s' : St) {q : Path} (hs : s.sel = some q) (hq : q ∈ shownItems env s) (hh : s.height ≠ 1)
    (h : redraw env s = .done s') : Kept s s' ∧ Ready env s' := by
  obtain ⟨A, B, hAB⟩ := List.append_of_mem hq
  obtain ⟨pre, post, h1, h2, h3, h4⟩ := evs_split env s hAB
  have hr := redraw_present env s hs hAB h1 h2 h3 h4
  cases hy : yrun s.height s.scroll pre 1 with
  | none => rw [hy] at hr; obtain ⟨s1, g1, -⟩ := hr; rw [h] at g1; cases g1
  | some y =>
    rw [hy] at hr
    obtain ⟨s1, g1, g2, g3, g4, g5⟩ := hr
    rw [h] at g1
    cases g1
    refine ⟨g2, q, A, B, pre, post, g2.1.trans hs, by rw [g2.shown]; exact hAB, by rw [g2.evs]; exact h1, h2, h3, h4, ⟨y, ?_⟩, g4, ?_⟩
    · rw [g2.2.2.2.2, g3]; exact yrun_settled _ _ hh _ _ _ hy
    · rw [g2.2.1]; exact g5

theorem settle_ready (env : Env) : ∀ (n : Nat) (s : St) (r : Drawn) {q : Path}, s.sel = some q → q ∈ shownItems env s → s.height ≠ 1 →
    settle env n s = some r → ∃ s', r = .done s' ∧ Kept s s' ∧ Ready env s' := by
  intro n
  induction n with
  | zero => intro s r q _ _ _ h; simp [settle] at h
  | succ n ih =>
    intro s r q hs hq hh h
    rw [settle] at h
    cases hr : redraw env s with
    | retry s1 =>
      rw [hr] at h
      obtain ⟨h1, -⟩ := redraw_retry env s s1 (by rw [hs]; exact noVal_item (visible_items _ _ _ hq)) hr
      obtain ⟨s', h2, h3, h4⟩ := ih s1 r (h1.1.trans hs) (by rw [h1.shown]; exact hq) (by rw [h1.2.2.2.2]; exact hh) h
      exact ⟨s', h2, ⟨h3.1.trans h1.1, h3.2.1.trans h1.2.1, h3.2.2.1.trans h1.2.2.1, h3.2.2.2.1.trans h1.2.2.2.1, h3.2.2.2.2.trans h1.2.2.2.2⟩, h4⟩
    | crash =>
      obtain ⟨A, B, hAB⟩ := List.append_of_mem hq
      obtain ⟨pre, post, h1, h2, h3, h4⟩ := evs_split env s hAB
      have := redraw_present env s hs hAB h1 h2 h3 h4
      split at this <;> (obtain ⟨s1, g1, -⟩ := this; rw [hr] at g1; cases g1)
    | done s1 =>
      rw [hr] at h
      simp at h
      exact ⟨s1, h.symm, redraw_ready env s s1 hs hq hh hr⟩

theorem settle_some (env : Env) (s : St) {q : Path} (hs : s.sel = some q) (hq : q ∈ shownItems env s) : ∃ n r, settle env n s = some r := by
  obtain ⟨n, r, h, -⟩ := settle_ends env (nbLines (evs env s) + 1) s (by rw [hs]; exact noVal_item (visible_items _ _ _ hq)) (by omega)
  exact ⟨n, r, h⟩

/-! ## Moves stay on visible items -/

theorem elem_prefix {root : Json} {a s : Path} {e : Elem} (h : elem root (a ++ s) = some e) : ∃ c, elem root a = some c := by
  rw [elem, at_append] at h
  cases ha : (Elem.value root).at a with
  | none => rw [ha] at h; simp at h
  | some c => exact ⟨c, ha⟩

theorem entry_parent {root : Json} {b : Path} {k : Bytes} {v : Json} (h : elem root b = some (.entry k v)) :
    b ≠ [] ∧ ∃ c, elem root b.dropLast = some c ∧ c.isContainer = true := by
  have hb : b ≠ [] := by rintro rfl; simp [elem, Elem.at] at h
  refine ⟨hb, ?_⟩
  rcases List.eq_nil_or_concat b with rfl | ⟨b', i, rfl⟩
  · exact absurd rfl hb
  rw [List.concat_eq_append] at *
  rw [elem, at_concat] at h
  rw [List.dropLast_concat, elem]
  cases hc : (Elem.value root).at b' with
  | none => rw [hc] at h; simp at h
  | some c =>
    refine ⟨c, rfl, ?_⟩
    rw [hc] at h
    simp only [Option.bind_some] at h
    cases c with
    | entry k' v' => cases i <;> simp [Elem.kids] at h
    | value v' => cases v' <;> simp [Elem.kids, Elem.isContainer] at h ⊢

/-- A proper ancestor of a visible item that is itself an item is visible. -/
theorem visible_ancestor {root : Json} {hidden : Path → Bool} {q b : Path} (h : q ∈ visible hidden root) (hb : b <+: q) (hi : b ∈ items root) :
    b ∈ visible hidden root := by
  rw [mem_visible] at h ⊢
  rw [mem_items] at hi
  refine ⟨hi.1, hi.2, fun a c ha hne hae hac => h.2.2 a c (ha.trans hb) ?_ hae hac⟩
  rintro rfl
  exact hne (ha.eq_of_length_le hb.length_le)

theorem inEntry_iff {env : Env} {p : Path} : inEntry env p = true ↔ ∃ b i k v, p = b ++ [i] ∧ elem env.root b = some (.entry k v) := by
  unfold inEntry parent
  by_cases hp : p = []
  · subst hp; simp
  · have hp' : p.isEmpty = false := by cases p <;> simp_all
    rw [hp']
    simp only [Bool.false_eq_true, if_false]
    rcases List.eq_nil_or_concat p with rfl | ⟨b, i, rfl⟩
    · exact absurd rfl hp
    rw [List.concat_eq_append, List.dropLast_concat]
    constructor
    · intro h
      cases hb : (Elem.value env.root).at b with
      | none => rw [hb] at h; simp at h
      | some e =>
        rw [hb] at h
        cases e with
        | value v => simp [Elem.isEntry] at h
        | entry k v => exact ⟨b, i, k, v, rfl, hb⟩
    · rintro ⟨b', i', k, v, h1, h2⟩
      obtain ⟨rfl, -⟩ := List.append_inj' h1 rfl
      rw [elem] at h2
      rw [h2]; rfl

/-- The item around a visible item: the container, or its entry. -/
theorem around_visible {env : Env} {hidden : Path → Bool} {q : Path} (h : q ∈ visible hidden env.root) (hq : q ≠ []) :
    (if inEntry env q.dropLast then q.dropLast.dropLast else q.dropLast) ∈ visible hidden env.root := by
  have hpre : q.dropLast <+: q := List.dropLast_prefix q
  have h' := (mem_visible _ _ _).mp h
  obtain ⟨-, h2, -⟩ := h'
  rcases h2 with h2 | ⟨c, hc, hcc⟩
  · exact absurd h2 hq
  split
  · next he =>
    obtain ⟨b, i, k, v, h3, h4⟩ := inEntry_iff.mp he
    have hb := entry_parent h4
    rw [h3, List.dropLast_concat]
    refine visible_ancestor h ?_ ((mem_items _ _).mpr ⟨⟨_, h4⟩, .inr hb.2⟩)
    exact (by rw [h3]; exact List.prefix_append _ _ : b <+: q.dropLast).trans hpre
  · next he =>
    refine visible_ancestor h hpre ((mem_items _ _).mpr ⟨⟨c, hc⟩, ?_⟩)
    by_cases hd : q.dropLast = []
    · exact .inl hd
    · right
      rcases List.eq_nil_or_concat q.dropLast with h0 | ⟨b, i, hb⟩
      · exact absurd h0 hd
      rw [List.concat_eq_append] at hb
      rw [hb, List.dropLast_concat]
      rw [hb] at hc
      obtain ⟨e, hbe⟩ := elem_prefix hc
      refine ⟨e, hbe, ?_⟩
      rw [elem, at_concat, ← elem, hbe] at hc
      cases e with
      | entry k v => exact absurd (inEntry_iff.mpr ⟨b, i, k, v, hb, hbe⟩) he
      | value v => cases v <;> simp [Elem.kids, Elem.isContainer] at hc ⊢

theorem visible_mono {root : Json} {hidden hidden' : Path → Bool} {q : Path} (h : q ∈ visible hidden root)
    (hm : ∀ a, a <+: q → a ≠ q → hidden a = false → hidden' a = false) : q ∈ visible hidden' root := by
  rw [mem_visible] at h ⊢
  exact ⟨h.1, h.2.1, fun a c h1 h2 h3 h4 => hm a h1 h2 (h.2.2 a c h1 h2 h3 h4)⟩

theorem valuePath_cases (env : Env) (p : Path) : valuePath env p = p ∧ (∀ k v, elem env.root p ≠ some (.entry k v)) ∨
    valuePath env p = p ++ [0] ∧ ∃ k v, elem env.root p = some (.entry k v) := by
  unfold valuePath elem
  split
  · next k v h => exact .inr ⟨rfl, k, v, h⟩
  · next h => exact .inl ⟨rfl, fun k v h' => h k v h'⟩

theorem valuePath_elem {env : Env} {p : Path} (h : ∃ e, elem env.root p = some e) : ∃ v, elem env.root (valuePath env p) = some (.value v) := by
  rcases valuePath_cases env p with ⟨h1, h2⟩ | ⟨h1, k, v, h2⟩
  · obtain ⟨e, he⟩ := h
    rw [h1]
    cases e with
    | value v => exact ⟨v, he⟩
    | entry k v => exact absurd he (h2 k v)
  · rw [h1, elem, at_concat, ← elem, h2]
    exact ⟨v, by simp [Elem.kids]⟩

theorem valuePath_prefix (env : Env) (p : Path) : p <+: valuePath env p := by
  rcases valuePath_cases env p with ⟨h1, -⟩ | ⟨h1, -⟩ <;> rw [h1] <;> simp

/-- The results come from a search. -/
def ResultsOK (env : Env) (results : List Path) : Prop := results = [] ∨ ∃ pat, results = (Nav.search env.rx env.fmt pat env.root).1

theorem revealed_visible {env : Env} {c : List Path} {q : Path} (hq : q ∈ items env.root) (h : ∀ a ∈ c, ¬ (a <+: q ∧ a ≠ q)) :
    q ∈ visible (hiddenBy c) env.root := by
  rw [mem_items] at hq
  rw [mem_visible]
  refine ⟨hq.1, hq.2, fun a e h1 h2 _ _ => ?_⟩
  simp only [hiddenBy, ← Bool.not_eq_true, List.contains_iff_mem]
  intro hm
  exact h a hm ⟨h1, h2⟩

/-- What a key may lead to: the selection is a visible item. -/
def Target (env : Env) (s s' : St) : Prop :=
  (∃ q, s'.sel = some q ∧ q ∈ shownItems env s') ∧ ResultsOK env s'.results ∧ s'.height = s.height ∧ s'.width = s.width

theorem Ready.sel {env : Env} {s : St} (h : Ready env s) : ∃ q, s.sel = some q ∧ q ∈ shownItems env s := by
  obtain ⟨q, A, B, pre, post, h1, h2, -⟩ := h
  exact ⟨q, h1, by rw [h2]; simp⟩

theorem Ready.up {env : Env} {s : St} (h : Ready env s) : ∃ q, s.up = some q ∧ q ∈ shownItems env s := by
  obtain ⟨q, A, B, pre, post, h1, h2, -, -, -, -, -, h3, -⟩ := h
  refine ⟨_, h3, ?_⟩
  rw [h2]
  cases hA : A.getLast? with
  | none => simp
  | some z => have := List.mem_of_getLast? hA; simp [this]

theorem Ready.down {env : Env} {s : St} (h : Ready env s) : ∃ q, s.down = some q ∧ q ∈ shownItems env s := by
  obtain ⟨q, A, B, pre, post, h1, h2, -, -, -, -, -, -, h3⟩ := h
  rcases h3 with ⟨-, h3⟩ | ⟨-, h3⟩
  · refine ⟨_, h3, ?_⟩
    rw [h2]
    cases hB : B.head? with
    | none => simp
    | some z => have := List.mem_of_head? hB; simp [this]
  · exact ⟨_, h3, (fallback_visible (by change _ ∈ shownItems env s; rw [h2]; simp)).1⟩

/-- A message is written on a screen that needs no scrolling: the selection stays or moves up. -/
theorem message_ready {env : Env} {s s1 : St} {q A B : _} (h : Ready env s) (hsel : s.sel = some q) (hAB : shownItems env s = A ++ q :: B)
    {q' : Path} (hq' : q' = q ∨ q' ∈ A) (h1 : s1.sel = some q') (h2 : s1.collapsed = s.collapsed) (h3 : s1.width = s.width) (h4 : s1.height = s.height)
    (h5 : s1.scroll = s.scroll) (hh : s.height ≠ 1) : ∃ s', redrawMessage env s1 = .nextInput s' ∧ Kept s1 s' ∧ Ready env s' := by
  obtain ⟨q0, A0, B0, pre, post, g1, g2, g3, g4, g5, g6, ⟨y, g7⟩, -⟩ := h
  rw [hsel] at g1
  cases g1
  obtain ⟨rfl, rfl⟩ := split_unique (hAB.symm.trans g2) (visible_nodup _ _ hAB) g6
  have hs1 : shownItems env s1 = A ++ q :: B := by rw [← hAB]; unfold shownItems; rw [h2]
  have he1 : evs env s1 = pre ++ .check q false :: post := by rw [← g3]; unfold evs; rw [h2, h3]
  have hvis : q' ∈ shownItems env s1 := by rw [hs1]; rcases hq' with rfl | h <;> simp [*]
  have hdone : ∃ s', redraw env s1 = .done s' := by
    rcases hq' with rfl | hm
    · have := redraw_present env s1 h1 hs1 he1 g4 g5 g6
      rw [h4, h5, g7] at this
      obtain ⟨s', hd, -⟩ := this
      exact ⟨s', hd⟩
    · rw [← g4] at hm
      obtain ⟨p1, p2, e1, e2⟩ := checks_split hm
      rw [e1] at he1 g7 g4
      rw [yrun_append] at g7
      cases hy : yrun s.height s.scroll p1 1 with
      | none => rw [hy] at g7; simp at g7
      | some y1 =>
        have hs2 : shownItems env s1 = checks p1 ++ q' :: (checks p2 ++ q :: B) := by
          rw [hs1, ← g4, checks_append]; simp [checks]
        have he2 : evs env s1 = p1 ++ .check q' false :: (p2 ++ .check q false :: post) := by rw [he1]; simp
        have := redraw_present env s1 h1 hs2 he2 rfl (by rw [checks_append]; simp [checks, g5]) e2
        rw [h4, h5, hy] at this
        obtain ⟨s', hd, -⟩ := this
        exact ⟨s', hd⟩
  obtain ⟨s', hd⟩ := hdone
  refine ⟨s', by simp [redrawMessage, hd], redraw_ready env s1 s' h1 hvis (by rw [h4]; exact hh) hd⟩

/-- A search that goes back to the first result reveals a hidden one. -/
def Reveals (env : Env) (results : List Path) (s : St) : Prop :=
  ∃ p q c, s.sel = some p ∧ jump env.root results p s.collapsed = some (q, c, false) ∧ c ≠ s.collapsed

/-- The answer to a key is as it should be. -/
def Fine (env : Env) (s : St) : Answer → Prop
  | .redraw s' => Target env s s'
  | .nextInput s' => Ready env s' ∧ ResultsOK env s'.results ∧ s'.height = s.height ∧ s'.width = s.width
  | .quit => True
  | .crash => False

theorem nextResult_fine {env : Env} {s : St} (h : Ready env s) (hh : s.height ≠ 1) (results : List Path) (hr : ResultsOK env results)
    (hn : ¬ Reveals env results s) : Fine env s (nextResult env { s with results := results }) := by
  have hR := h
  obtain ⟨q, A, B, pre, post, h1, h2, -⟩ := h
  have hq : q ∈ shownItems env s := by rw [h2]; simp
  unfold nextResult
  cases results with
  | nil =>
    simp only
    obtain ⟨s', g1, g2, g3⟩ := message_ready (s1 := { s with results := [] }) hR h1 h2 (.inl rfl) h1 rfl rfl rfl rfl hh
    rw [g1]
    exact ⟨g3, by rw [g2.2.2.1]; exact .inl rfl, g2.2.2.2.2, g2.2.2.2.1⟩
  | cons r rs =>
    simp only [h1]
    rcases hr with hr | ⟨pat, hr⟩
    · simp at hr
    have hne : (Nav.search env.rx env.fmt pat env.root).1 ≠ [] := by rw [← hr]; simp
    obtain ⟨z, c, after, j1, j2, j3⟩ := C36_next_result env.rx env.fmt pat env.root q s.collapsed ((mem_visible _ _ _).mp hq).1 hne
    rw [← hr] at j1 j2 j3
    have hz := (results_elems env.rx env.fmt pat env.root z (by rw [← hr]; exact j2)).1
    have hrev := (C37_revealed env.root (r :: rs) q s.collapsed z c after j1).1
    have hzv := revealed_visible hz hrev
    rw [j1]
    cases after with
    | true => exact ⟨⟨z, rfl, hzv⟩, .inr ⟨pat, hr⟩, rfl, rfl⟩
    | false =>
      have hc : c = s.collapsed := Classical.byContradiction fun hc => hn ⟨q, z, c, h1, j1, hc⟩
      subst hc
      simp only
      have hle : z = q ∨ z ∈ A := by
        have hnot : ¬ q < z := by
          intro hlt
          rw [if_pos ⟨z, j2, hlt⟩] at j3
          simp at j3
        have hzs : z ∈ A ++ q :: B := by rw [← h2]; exact hzv
        rcases List.mem_append.mp hzs with h3 | h3
        · exact .inr h3
        · rcases List.mem_cons.mp h3 with h3 | h3
          · exact .inl h3
          · have hs := visible_sorted (hiddenBy s.collapsed) env.root
            rw [show visible (hiddenBy s.collapsed) env.root = A ++ q :: B from h2, List.pairwise_append, List.pairwise_cons] at hs
            exact absurd (hs.2.1.1 z h3) hnot
      obtain ⟨s', g1, g2, g3⟩ := message_ready (s1 := { s with results := r :: rs, sel := some z }) hR h1 h2 hle rfl rfl rfl rfl rfl hh
      rw [g1]
      exact ⟨g3, by rw [g2.2.2.1]; exact .inr ⟨pat, hr⟩, g2.2.2.2.2, g2.2.2.2.1⟩

theorem fine_same {env : Env} {s : St} (h : Ready env s) (hr : ResultsOK env s.results) : Fine env s (.nextInput s) := ⟨h, hr, rfl, rfl⟩

theorem selectPUp_fine {env : Env} {s : St} (h : Ready env s) (hr : ResultsOK env s.results) : Fine env s (selectPUp env s) := by
  obtain ⟨q, h1, hq⟩ := h.sel
  unfold selectPUp
  rw [h1]
  simp only
  cases hp : findPrev env.root q with
  | some r =>
    obtain ⟨a, i, c, rfl, rfl, h3, h4⟩ := ((C43_next_partial env.root q ((mem_visible _ _ _).mp hq).1).2.2.1 r).mp hp
    refine ⟨⟨a ++ [i], rfl, ?_⟩, hr, rfl, rfl⟩
    obtain ⟨e, he⟩ := ((mem_visible _ _ _).mp hq).1
    have hlen : i + 1 < c.kids.length := by
      rw [elem, at_concat, ← elem, h3] at he
      by_cases hl : i + 1 < c.kids.length
      · exact hl
      · simp only [Option.bind_some] at he
        rw [List.getElem?_eq_none (by omega)] at he; simp at he
    exact visible_sibling hq (List.prefix_append _ _) (fun h => by simpa using congrArg List.length h) (elem_kid h3 (by omega)) ⟨c, h3, h4⟩
  | none =>
    simp only
    split
    · next hc =>
      refine ⟨⟨_, rfl, around_visible hq ?_⟩, hr, rfl, rfl⟩
      rintro rfl
      simp [inContainer, parent] at hc
    · exact fine_same h hr

theorem selectPDown_fine {env : Env} {s : St} (h : Ready env s) (hr : ResultsOK env s.results) : Fine env s (selectPDown env s) := by
  obtain ⟨q, h1, hq⟩ := h.sel
  unfold selectPDown
  rw [h1]
  simp only
  cases hp : findNext env.root q with
  | some r => exact ⟨⟨r, rfl, (findNext_visible hq hp).1⟩, hr, rfl, rfl⟩
  | none => exact fine_same h hr

theorem hiddenBy_filter {c : List Path} {q a : Path} (h : hiddenBy c a = false) : hiddenBy (c.filter (· ≠ q)) a = false := by
  simp only [hiddenBy, ← Bool.not_eq_true, List.contains_iff_mem, List.mem_filter] at h ⊢
  exact fun hm => h hm.1

theorem expandSelection_fine {env : Env} {s : St} (h : Ready env s) (hr : ResultsOK env s.results) : Fine env s (expandSelection env s) := by
  obtain ⟨q, h1, hq⟩ := h.sel
  unfold expandSelection
  rw [h1]
  simp only
  obtain ⟨v, hv⟩ := valuePath_elem ((mem_visible _ _ _).mp hq).1
  rw [elem] at hv
  rw [hv]
  simp only
  split
  · exact fine_same h hr
  split
  · exact ⟨⟨q, rfl, visible_mono hq fun a _ _ ha => hiddenBy_filter ha⟩, hr, rfl, rfl⟩
  split
  · exact fine_same h hr
  · obtain ⟨r, h2, h3⟩ := h.down
    exact ⟨⟨r, h2, h3⟩, hr, rfl, rfl⟩

theorem collapseSelection_fine {env : Env} {s : St} (h : Ready env s) (hr : ResultsOK env s.results) : Fine env s (collapseSelection env s) := by
  obtain ⟨q, h1, hq⟩ := h.sel
  unfold collapseSelection
  rw [h1]
  simp only
  obtain ⟨v, hv⟩ := valuePath_elem ((mem_visible _ _ _).mp hq).1
  rw [elem] at hv
  rw [hv]
  simp only
  split
  · next hc =>
    refine ⟨⟨_, rfl, around_visible hq ?_⟩, hr, rfl, rfl⟩
    rintro rfl
    simp [valuePath, Elem.at, parent] at hc
  · refine ⟨⟨q, rfl, visible_mono hq fun a ha hne hh => ?_⟩, hr, rfl, rfl⟩
    simp only [hiddenBy, ← Bool.not_eq_true, List.contains_iff_mem] at hh ⊢
    split
    · exact hh
    · rw [List.mem_append, not_or]
      refine ⟨hh, ?_⟩
      simp only [List.mem_singleton]
      rintro rfl
      have := ha.length_le
      have h2 := (valuePath_prefix env q)
      exact hne (ha.eq_of_length_le h2.length_le)

/-- Every key is answered as it should be. -/
theorem evalKey_fine {env : Env} {s : St} (h : Ready env s) (hr : ResultsOK env s.results) (hh : s.height ≠ 1) (name : Bytes) (pat : Option Pattern)
    (hn : ∀ results, (name = b!"N" ∧ results = s.results ∨ name = b!"/" ∧ ∃ p, pat = some p ∧ results = (Nav.search env.rx env.fmt p env.root).1) →
      ¬ Reveals env results s) : Fine env s (evalKey env name pat s) := by
  unfold evalKey
  split
  · trivial
  split
  · obtain ⟨q, h1, h2⟩ := h.up
    exact ⟨⟨q, h1, h2⟩, hr, rfl, rfl⟩
  split
  · unfold selectDown
    split
    · obtain ⟨q, h1, h2⟩ := h.sel
      exact ⟨⟨q, h1, h2⟩, hr, rfl, rfl⟩
    split
    · obtain ⟨q, h1, h2⟩ := h.down
      exact ⟨⟨q, h1, h2⟩, hr, rfl, rfl⟩
    · exact fine_same h hr
  split
  · exact selectPUp_fine h hr
  split
  · exact selectPDown_fine h hr
  split
  · exact expandSelection_fine h hr
  split
  · exact collapseSelection_fine h hr
  split
  · next hname =>
    unfold initSearch
    obtain ⟨q, h1, h2⟩ := h.sel
    cases pat with
    | none => exact ⟨⟨q, h1, h2⟩, hr, rfl, rfl⟩
    | some p =>
      simp only
      split
      · exact ⟨⟨q, h1, h2⟩, .inl rfl, rfl, rfl⟩
      · exact nextResult_fine h hh _ (.inr ⟨p, rfl⟩) (hn _ (.inr ⟨hname, p, rfl, rfl⟩))
  split
  · next hname =>
    have := nextResult_fine h hh s.results hr (hn _ (.inl ⟨hname, rfl⟩))
    exact this
  · exact fine_same h hr

end Verif.Lemmas
