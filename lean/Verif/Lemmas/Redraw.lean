import Verif.Lemmas.DrawPos
/-! # The outcome of `redraw()` -/
namespace Verif.Lemmas
open Verif.Model Verif.Model.Search Verif.Model.Tui Verif.Spec Verif.Model.Nav

/-- What is visible in a state. -/
abbrev shownItems (env : Env) (s : St) : List Path := visible (hiddenBy s.collapsed) env.root

abbrev viewOf (s : St) : View := ⟨s.width, s.height, s.collapsed, s.results⟩

def evs (env : Env) (s : St) : List Ev := evValue env s.width s.collapsed [] [] false 0 env.root

theorem checks_evs (env : Env) (s : St) : checks (evs env s) = shownItems env s := by
  exact checks_value env (viewOf s) env.root [] [] false 0

theorem val_evs (env : Env) (s : St) : ValChecks env (evs env s) :=
  val_value env (viewOf s) env.root [] [] false 0 rfl (by simp)

theorem noVal_item {env : Env} {q : Path} (h : q ∈ items env.root) : NoVal env (some q) := by
  intro a k v ha hq
  rw [mem_items] at h
  simp at hq
  subst hq
  rcases h.2 with h | ⟨c, h1, h2⟩
  · simp at h
  · rw [List.dropLast_concat, ha] at h1
    cases h1
    simp [Elem.isContainer] at h2

theorem draw_root (env : Env) (s : St) (sel : Option Path) (hn : NoVal env sel) (d : Draw) :
    drawValue env (viewOf s) sel [] false 0 d env.root = exec (viewOf s) sel (evs env s) d :=
  draw_value env _ sel hn env.root sel [] [] false 0 d rfl (.inl ⟨rfl, Iff.rfl⟩) (.inl rfl)

theorem split_unique {q : Path} {a b a' b' : List Path} (h : a ++ q :: b = a' ++ q :: b') (h1 : q ∉ a) (h2 : q ∉ a') : a = a' ∧ b = b' := by
  induction a generalizing a' with
  | nil =>
    cases a' with
    | nil => simpa using h
    | cons z a' => simp at h; exact absurd (by simp [h.1]) h2
  | cons z a ih =>
    cases a' with
    | nil => simp at h; exact absurd (by simp [h.1]) h1
    | cons z' a' =>
      simp at h
      obtain ⟨rfl, h⟩ := h
      obtain ⟨rfl, rfl⟩ := ih h (by simp at h1; exact h1.2) (by simp at h2; exact h2.2)
      exact ⟨rfl, rfl⟩

theorem visible_nodup (hidden : Path → Bool) (root : Json) {a b : List Path} {q : Path} (h : visible hidden root = a ++ q :: b) : q ∉ a := by
  have := visible_sorted hidden root
  rw [h, List.pairwise_append] at this
  intro hq
  exact path_lt_irrefl _ (this.2.2 q hq q (by simp))

theorem evs_split (env : Env) (s : St) {q : Path} {A B : List Path} (h : shownItems env s = A ++ q :: B) :
    ∃ pre post, evs env s = pre ++ .check q false :: post ∧ checks pre = A ∧ checks post = B ∧ q ∉ A := by
  have hq : q ∈ checks (evs env s) := by rw [checks_evs, h]; simp
  obtain ⟨pre, post, h1, h2⟩ := checks_split hq
  have hc := checks_evs env s
  rw [h1, checks_append, h] at hc
  have hA := visible_nodup _ _ h
  obtain ⟨h3, h4⟩ := split_unique hc h2 hA
  exact ⟨pre, post, h1, h3, h4, hA⟩

/-! ## What can be reached is visible -/

theorem visible_parts {env : Env} {hidden : Path → Bool} {q : Path} (h : q ∈ visible hidden env.root) : q ∈ items env.root := visible_items _ _ _ h

/-- An element of a container around a visible item is visible. -/
theorem visible_sibling {root : Json} {hidden : Path → Bool} {q a : Path} {j : Nat} (h : q ∈ visible hidden root) (ha : a <+: q) (hne : a ≠ q)
    (he : ∃ e, elem root (a ++ [j]) = some e) (hc : ∃ c, elem root a = some c ∧ c.isContainer = true) : a ++ [j] ∈ visible hidden root := by
  rw [mem_visible] at h ⊢
  refine ⟨he, .inr (by simpa using hc), ?_⟩
  intro b c hb hbne hbe hbc
  have hba : b <+: a := by
    obtain ⟨t, ht⟩ := hb
    rcases List.eq_nil_or_concat t with rfl | ⟨t', z, rfl⟩
    · simp at ht; exact absurd ht hbne
    · rw [List.concat_eq_append, ← List.append_assoc] at ht
      obtain ⟨rfl, -⟩ := List.append_inj' ht rfl
      exact List.prefix_append _ _
  have hbq : b ≠ q := by
    rintro rfl
    exact hne (hba.eq_of_length_le (ha.length_le)).symm
  exact h.2.2 b c (hba.trans ha) hbq hbe hbc

theorem findNextRev_shape (root : Json) : ∀ (rev : List Nat) (q : Path), findNextRev root rev = some q →
    ∃ a i c, q = a ++ [i + 1] ∧ a ++ [i] <+: rev.reverse ∧ elem root a = some c ∧ c.isContainer = true ∧ i + 1 < c.kids.length
  | [], q, h => by simp [findNextRev] at h
  | i :: rev, q, h => by
    rw [findNextRev] at h
    cases hp : (Elem.value root).at rev.reverse with
    | none => rw [hp] at h; simp at h
    | some c =>
      rw [hp] at h
      simp only at h
      split at h
      · simp at h
      · next hc =>
        simp at hc
        split at h
        · next hl =>
          simp at h
          exact ⟨rev.reverse, i, c, h.symm, by simp, hp, hc, hl⟩
        · obtain ⟨a, j, c', h1, h2, h3⟩ := findNextRev_shape root rev q h
          exact ⟨a, j, c', h1, h2.trans (by simp), h3⟩

theorem elem_kid {root : Json} {a : Path} {c : Elem} (h : elem root a = some c) {j : Nat} (hj : j < c.kids.length) : ∃ e, elem root (a ++ [j]) = some e := by
  rw [elem] at h ⊢
  rw [at_concat, h]
  exact ⟨c.kids[j], by simp [hj]⟩

theorem ne_of_concat_prefix {a q : Path} {i : Nat} (h : a ++ [i] <+: q) : a <+: q ∧ a ≠ q := by
  refine ⟨(List.prefix_append a [i]).trans h, ?_⟩
  rintro rfl
  have := h.length_le
  simp at this
  omega

theorem findNext_visible {root : Json} {hidden : Path → Bool} {q r : Path} (h : q ∈ visible hidden root) (hr : findNext root q = some r) :
    r ∈ visible hidden root ∧ q < r := by
  obtain ⟨a, i, c, rfl, h2, h3, h4, h5⟩ := findNextRev_shape root _ _ hr
  rw [List.reverse_reverse] at h2
  have hp := ne_of_concat_prefix h2
  refine ⟨visible_sibling h hp.1 hp.2 (elem_kid h3 h5) ⟨c, h3, h4⟩, ?_⟩
  have hq : ∃ e, elem root q.reverse.reverse = some e := by rw [List.reverse_reverse]; exact ((mem_visible _ _ _).mp h).1
  have := (findNextRev_some root q.reverse _ hq hr).1.2.1
  rwa [List.reverse_reverse] at this

theorem kid_visible {root : Json} {hidden : Path → Bool} {q : Path} (h : q ∈ visible hidden root) {c : Elem} (hc : elem root q = some c)
    (hcc : c.isContainer = true) (hh : hidden q = false) (hk : c.kids ≠ []) : q ++ [0] ∈ visible hidden root ∧ q < q ++ [0] := by
  refine ⟨?_, by simpa using lt_append_cons q 0 []⟩
  rw [mem_visible] at h ⊢
  refine ⟨elem_kid hc (by cases hk' : c.kids <;> simp_all), .inr (by simpa using ⟨c, hc, hcc⟩), ?_⟩
  intro b e hb hbne hbe hbc
  by_cases hbq : b = q
  · rw [hbq]; exact hh
  · obtain ⟨t, ht⟩ := hb
    rcases List.eq_nil_or_concat t with rfl | ⟨t', z, rfl⟩
    · simp at ht; exact absurd ht hbne
    · rw [List.concat_eq_append, ← List.append_assoc] at ht
      obtain ⟨rfl, -⟩ := List.append_inj' ht rfl
      exact h.2.2 b e (List.prefix_append _ _) hbq hbe hbc

/-- The place `select_down` points to when no further item has been drawn. -/
def fallback (env : Env) (collapsed : List Path) (q : Path) : Path := if isOpen env collapsed q then q ++ [0] else (findNext env.root q).getD q

theorem isOpen_iff {env : Env} {collapsed : List Path} {q : Path} : isOpen env collapsed q = true ↔
    ∃ c, elem env.root q = some c ∧ c.isContainer = true ∧ c.kids ≠ [] ∧ hiddenBy collapsed q = false := by
  unfold isOpen elem
  cases (Elem.value env.root).at q with
  | none => simp
  | some c => simp [hiddenBy, and_assoc]

theorem fallback_visible {env : Env} {collapsed : List Path} {q : Path} (h : q ∈ visible (hiddenBy collapsed) env.root) :
    fallback env collapsed q ∈ visible (hiddenBy collapsed) env.root ∧ (fallback env collapsed q = q ∨ q < fallback env collapsed q) := by
  unfold fallback
  split
  · next ho =>
    obtain ⟨c, h1, h2, h3, h4⟩ := isOpen_iff.mp ho
    have := kid_visible h h1 h2 h4 h3
    exact ⟨this.1, .inr this.2⟩
  · cases hn : findNext env.root q with
    | none => exact ⟨h, .inl rfl⟩
    | some r =>
      have := findNext_visible h hn
      exact ⟨this.1, .inr this.2⟩

/-- Behind the last visible item there is nothing. -/
theorem fallback_last {env : Env} {collapsed : List Path} {q : Path} {A : List Path} (h : visible (hiddenBy collapsed) env.root = A ++ [q]) :
    fallback env collapsed q = q := by
  have hq : q ∈ visible (hiddenBy collapsed) env.root := by rw [h]; simp
  obtain ⟨h1, h2⟩ := fallback_visible hq
  rcases h2 with h2 | h2
  · exact h2
  · rw [h] at h1
    rcases List.mem_append.mp h1 with h3 | h3
    · have := visible_sorted (hiddenBy collapsed) env.root
      rw [h, List.pairwise_append] at this
      exact absurd (this.2.2 _ h3 q (by simp)) (fun h4 => path_asymm h2 h4)
    · simpa using h3

/-! ## `redraw` -/

/-- The part of the state that drawing does not change. -/
def Kept (s s' : St) : Prop :=
  s'.sel = s.sel ∧ s'.collapsed = s.collapsed ∧ s'.results = s.results ∧ s'.width = s.width ∧ s'.height = s.height

theorem Kept.shown {env : Env} {s s' : St} (h : Kept s s') : shownItems env s' = shownItems env s := by
  unfold shownItems; rw [h.2.1]

theorem Kept.evs {env : Env} {s s' : St} (h : Kept s s') : evs env s' = evs env s := by
  unfold Lemmas.evs; rw [h.2.1, h.2.2.2.1]

theorem redraw_present (env : Env) (s : St) {q : Path} {A B : List Path} (hs : s.sel = some q) (h : shownItems env s = A ++ q :: B)
    {pre post : List Ev} (he : evs env s = pre ++ .check q false :: post) (hA : checks pre = A) (hB : checks post = B) (hqA : q ∉ A) :
    match yrun s.height s.scroll pre 1 with
    | none => ∃ s', redraw env s = .retry s' ∧ Kept s s' ∧ s'.scroll = s.scroll + 1
    | some y => ∃ s', redraw env s = .done s' ∧ Kept s s' ∧ s'.scroll = scrollTo s.scroll y ∧ s'.up = some (A.getLast?.getD q) ∧
        (s'.isLast = false ∧ s'.down = some (B.head?.getD q) ∨ s'.isLast = true ∧ s'.down = some (fallback env s.collapsed q)) := by
  have hq : q ∈ shownItems env s := by rw [h]; simp
  have hn := noVal_item (visible_items _ _ _ hq)
  have hp := exec_present env (viewOf s) q hn pre post (by rw [← he]; exact val_evs env s) (by rw [hA]; exact hqA) s.scroll
  rw [hA, hB] at hp
  have hd := draw_root env s (some q) hn (blank s.scroll)
  rw [he] at hd
  unfold redraw
  rw [hs]
  change match yrun s.height s.scroll pre 1 with | none => _ | some y => _ 
  have hd' : drawValue env ⟨s.width, s.height, s.collapsed, s.results⟩ (some q) [] false 0 ⟨1, s.scroll, none, none, false, []⟩ env.root = _ := hd
  simp only [hd']
  generalize exec (viewOf s) (some q) (pre ++ Ev.check q false :: post) (blank s.scroll) = r at hp ⊢
  obtain ⟨d, b⟩ := r
  cases hy : yrun s.height s.scroll pre 1 with
  | none =>
    rw [show yrun (viewOf s).height s.scroll pre 1 = none from hy] at hp
    simp only at hp ⊢
    obtain ⟨rfl, h2, h3, h4, -⟩ := hp
    simp only [h2, h3, Bool.not_false, Bool.and_self, if_true]
    exact ⟨_, rfl, ⟨by simp [hs], rfl, rfl, rfl, rfl⟩, rfl⟩
  | some y =>
    rw [show yrun (viewOf s).height s.scroll pre 1 = some y from hy] at hp
    simp only at hp ⊢
    obtain ⟨h1, h2, h3, h4⟩ := hp
    simp only [h1, Bool.not_true, Bool.and_false, Bool.false_eq_true, if_false]
    have hup : (if d.up.isNone = true then some q else d.up) = some (A.getLast?.getD q) := by
      rw [h3]; cases A.getLast? <;> rfl
    cases hdn : d.down with
    | some z =>
      simp only
      refine ⟨_, rfl, ⟨by simp [hs], rfl, rfl, rfl, rfl⟩, h2, hup, .inl ⟨by simp, ?_⟩⟩
      rcases h4 with h4 | ⟨-, h4⟩
      · rw [hdn] at h4; rw [← h4]; rfl
      · rw [hdn] at h4; simp at h4
    | none =>
      simp only
      refine ⟨_, rfl, ⟨by simp [hs], rfl, rfl, rfl, rfl⟩, h2, hup, ?_⟩
      cases b with
      | false => right; exact ⟨by simp, rfl⟩
      | true =>
        left
        refine ⟨by simp, ?_⟩
        rcases h4 with h4 | ⟨h4, -⟩
        · rw [hdn] at h4
          have hBn : B = [] := by cases B <;> simp at h4; rfl
          subst hBn
          have := fallback_last h
          simp only [fallback] at this
          simp only [List.head?_nil, Option.getD_none]
          rw [this]
        · simp at h4

/-- Whatever the selection, a further drawing is asked for only while lines are below the scroll position. -/
theorem redraw_retry (env : Env) (s s' : St) (hn : NoVal env s.sel) (h : redraw env s = .retry s') :
    Kept s s' ∧ s'.scroll = s.scroll + 1 ∧ s.scroll ≤ nbLines (evs env s) := by
  by_cases hv : ∃ q, s.sel = some q ∧ q ∈ shownItems env s
  · obtain ⟨q, hs, hq⟩ := hv
    obtain ⟨A, B, hAB⟩ := List.append_of_mem hq
    obtain ⟨pre, post, h1, h2, h3, h4⟩ := evs_split env s hAB
    have hr := redraw_present env s hs hAB h1 h2 h3 h4
    cases hy : yrun s.height s.scroll pre 1 with
    | none =>
      rw [hy] at hr
      obtain ⟨s1, g1, g2, g3⟩ := hr
      rw [h] at g1
      cases g1
      refine ⟨g2, g3, ?_⟩
      by_cases hlt : 1 + nbLines pre ≤ s.scroll
      · rw [yrun_high _ _ _ _ hlt] at hy; simp at hy
      · have hlen : nbLines pre ≤ nbLines (evs env s) := by
          rw [h1, nbLines_append]; omega
        omega
    | some y =>
      rw [hy] at hr
      obtain ⟨s1, g1, -⟩ := hr
      rw [h] at g1
      cases g1
  · have hs : ∀ p ∈ checks (evs env s), s.sel ≠ some p := by
      intro p hp hh; rw [checks_evs] at hp; exact hv ⟨p, hh, hp⟩
    have ha := exec_absent env (viewOf s) s.sel hn (evs env s) (val_evs env s) hs (blank s.scroll) rfl
    obtain ⟨pre, post, h1, h2, h3⟩ := exec_prefix (viewOf s) s.sel (evs env s) (blank s.scroll)
    have hsc := scan_absent env (viewOf s) s.sel hn pre (fun p hp => val_evs env s p (by rw [h1]; simp [hp]))
      (fun p hp => hs p (by rw [h1, checks_append]; simp [hp])) (blank s.scroll) rfl
    rw [← h2] at hsc
    have hd := draw_root env s s.sel hn (blank s.scroll)
    have hd' : drawValue env ⟨s.width, s.height, s.collapsed, s.results⟩ s.sel [] false 0 ⟨1, s.scroll, none, none, false, []⟩ env.root = _ := hd
    unfold redraw at h
    simp only [hd'] at h
    generalize exec (viewOf s) s.sel (evs env s) (blank s.scroll) = r at h ha hsc
    obtain ⟨d, b⟩ := r
    simp only at h hsc ha
    obtain ⟨k1, k2, k3, k4⟩ := hsc
    cases b with
    | true =>
      simp only [Bool.not_true, Bool.false_and, Bool.false_eq_true, if_false] at h
      split at h <;> simp at h
    | false =>
      simp only [k1, Bool.not_false, Bool.and_self, if_true] at h
      cases h
      refine ⟨⟨rfl, rfl, rfl, rfl, rfl⟩, by simp [k2], ?_⟩
      by_cases hlt : 1 + nbLines (evs env s) ≤ s.scroll
      · rw [yrun_high _ _ _ _ hlt] at ha; simp at ha
      · omega

/-- The drawing comes to an end. -/
theorem settle_ends (env : Env) : ∀ (k : Nat) (s : St), NoVal env s.sel → nbLines (evs env s) + 1 ≤ s.scroll + k → ∃ n r, settle env n s = some r ∧ n ≤ k + 1 := by
  intro k
  induction k with
  | zero =>
    intro s hn hk
    cases hr : redraw env s with
    | retry s' => have := redraw_retry env s s' hn hr; omega
    | crash => exact ⟨1, .crash, by simp [settle, hr], by omega⟩
    | done s' => exact ⟨1, .done s', by simp [settle, hr], by omega⟩
  | succ k ih =>
    intro s hn hk
    cases hr : redraw env s with
    | crash => exact ⟨1, .crash, by simp [settle, hr], by omega⟩
    | done s' => exact ⟨1, .done s', by simp [settle, hr], by omega⟩
    | retry s' =>
      obtain ⟨h1, h2, h3⟩ := redraw_retry env s s' hn hr
      obtain ⟨n, r, h4, h5⟩ := ih s' (by rw [h1.1]; exact hn) (by rw [h1.evs]; omega)
      exact ⟨n + 1, r, by simp [settle, hr, h4], by omega⟩

end Verif.Lemmas
