import Verif.Props.TuiMoves
/-! # C42, C63, C64: collapsing and expanding, going on, going in -/
namespace Verif.Props
open Verif.Model Verif.Model.Search Verif.Model.Nav Verif.Model.Tui Verif.Spec Verif.Lemmas

/-! ## C42 -/

theorem sorted_ext {l l' : List Path} (h : l.Pairwise (· < ·)) (h' : l'.Pairwise (· < ·)) (hm : ∀ q, q ∈ l ↔ q ∈ l') : l = l' := by
  induction l generalizing l' with
  | nil => cases l' with
    | nil => rfl
    | cons b l' => exact absurd ((hm b).mpr (by simp)) (by simp)
  | cons a l ih =>
    cases l' with
    | nil => exact absurd ((hm a).mp (by simp)) (by simp)
    | cons b l' =>
      rw [List.pairwise_cons] at h h'
      have hab : a = b := by
        rcases List.mem_cons.mp ((hm a).mp (by simp)) with h1 | h1
        · exact h1
        rcases List.mem_cons.mp ((hm b).mpr (by simp)) with h2 | h2
        · exact h2.symm
        exact (path_asymm (h'.1 a h1) (h.1 b h2)).elim
      subst hab
      congr 1
      refine ih h.2 h'.2 fun q => ?_
      have := hm q
      simp only [List.mem_cons] at this
      constructor
      · intro hq
        rcases this.mp (.inr hq) with rfl | h3
        · exact absurd (h.1 q hq) (path_lt_irrefl q)
        · exact h3
      · intro hq
        rcases this.mpr (.inr hq) with rfl | h3
        · exact absurd (h'.1 q hq) (path_lt_irrefl q)
        · exact h3

theorem key_left (env : Env) (pat : Option Pattern) (s : St) : evalKey env b!"H" pat s = collapseSelection env s ∧
    evalKey env b!"KEY_LEFT" pat s = collapseSelection env s := ⟨rfl, rfl⟩
theorem key_right (env : Env) (pat : Option Pattern) (s : St) : evalKey env b!"L" pat s = expandSelection env s ∧
    evalKey env b!"KEY_RIGHT" pat s = expandSelection env s := ⟨rfl, rfl⟩

/-- The container a displayed item stands for: itself, or the value of the entry. -/
def Opens (root : Json) (q v : Path) : Prop :=
  (∃ e, elem root q = some e ∧ ((e.isEntry = false ∧ v = q) ∨ (e.isEntry = true ∧ v = q ++ [0]))) ∧
  ∃ c, elem root v = some c ∧ c.isContainer = true ∧ c.kids ≠ []

theorem Opens.value {env : Env} {q v : Path} (h : Opens env.root q v) : valuePath env q = v := by
  obtain ⟨⟨e, h1, h2⟩, -⟩ := h
  unfold valuePath
  rw [elem] at h1
  rw [h1]
  cases e with
  | value w => rcases h2 with ⟨-, rfl⟩ | ⟨h3, -⟩; rfl; simp [Elem.isEntry] at h3
  | entry k w => rcases h2 with ⟨h3, -⟩ | ⟨-, rfl⟩; simp [Elem.isEntry] at h3; rfl

theorem hidden_below {env : Env} {c : List Path} {v : Path} (hv : ∃ e, elem env.root v = some e ∧ e.isContainer = true) :
    visible (hiddenBy (c ++ [v])) env.root = (visible (hiddenBy c) env.root).filter fun p => !(v.isPrefixOf p && decide (v ≠ p)) := by
  refine sorted_ext (visible_sorted _ _) ((visible_sorted _ _).filter _) fun q => ?_
  simp only [mem_visible, List.mem_filter]
  constructor
  · rintro ⟨h1, h2, h3⟩
    refine ⟨⟨h1, h2, fun a e ha hne hae hec => ?_⟩, ?_⟩
    · have := h3 a e ha hne hae hec
      simp only [hiddenBy, List.contains_append, Bool.or_eq_false_iff] at this ⊢
      exact this.1
    · obtain ⟨e, he, hec⟩ := hv
      by_cases hp : v <+: q ∧ v ≠ q
      · have := h3 v e hp.1 hp.2 he hec
        simp [hiddenBy] at this
      · simp only [Bool.not_eq_true', Bool.and_eq_false_iff, decide_eq_false_iff_not]
        by_cases h4 : v <+: q
        · right; exact fun h5 => hp ⟨h4, h5⟩
        · left; rw [← Bool.not_eq_true, List.isPrefixOf_iff_prefix]; exact h4
  · rintro ⟨⟨h1, h2, h3⟩, h4⟩
    refine ⟨h1, h2, fun a e ha hne hae hec => ?_⟩
    have h5 := h3 a e ha hne hae hec
    simp only [hiddenBy, List.contains_append, Bool.or_eq_false_iff] at h5 ⊢
    refine ⟨h5, ?_⟩
    rw [← Bool.not_eq_true, List.contains_iff_mem, List.mem_singleton]
    rintro rfl
    simp only [Bool.not_eq_true', Bool.and_eq_false_iff, decide_eq_false_iff_not] at h4
    rcases h4 with h4 | h4
    · rw [← Bool.not_eq_true, List.isPrefixOf_iff_prefix] at h4; exact h4 ha
    · exact h4 hne

/-- **C42.** In every drawn state whose selection stands for a container that is neither empty nor collapsed: Left collapses this container and nothing
else, of the displayed items exactly those inside the container disappear, the selection stays; and Right then gives back what
was collapsed and displayed before. -/
theorem C42_collapse_expand (env : Env) (s : St) (A : List Path) (q : Path) (B : List Path) (h : Drawing env s A q B) (v : Path) (hv : Opens env.root q v)
    (hopen : v ∉ s.collapsed) (n : Nat) (a : Answer) (name : Bytes) (pat : Option Pattern) (hname : name = b!"H" ∨ name = b!"KEY_LEFT")
    (ha : step env n (.key name pat) s = some a) :
    ∃ s', a = .nextInput s' ∧ s'.sel = some q ∧ (∀ p, p ∈ s'.collapsed ↔ p ∈ s.collapsed ∨ p = v) ∧
      shownNow env s' = (shownNow env s).filter (fun p => !(v.isPrefixOf p && decide (v ≠ p))) ∧
      ∀ m a' name' pat', name' = b!"L" ∨ name' = b!"KEY_RIGHT" → step env m (.key name' pat') s' = some a' →
        ∃ s'', a' = .nextInput s'' ∧ s''.sel = some q ∧ s''.collapsed = s.collapsed ∧ shownNow env s'' = shownNow env s := by
  have hvp := hv.value
  obtain ⟨c, hc1, hc2, hc3⟩ := hv.2
  rw [elem] at hc1
  have hkey : evalKey env name pat s = .redraw { s with collapsed := s.collapsed ++ [v] } := by
    have : evalKey env name pat s = collapseSelection env s := by
      rcases hname with rfl | rfl
      · exact (key_left env pat s).1
      · exact (key_left env pat s).2
    rw [this, collapseSelection, h.2.1]
    simp only [hvp, hc1]
    have hk : c.kids.isEmpty = false := by cases hkk : c.kids <;> simp_all
    simp [hc2, hopen, hk]
  have hshown : shownNow env { s with collapsed := s.collapsed ++ [v] } = (shownNow env s).filter (fun p => !(v.isPrefixOf p && decide (v ≠ p))) :=
    hidden_below (c := s.collapsed) ⟨c, hc1, hc2⟩
  have hqv : ¬ (v <+: q ∧ v ≠ q) := by
    rintro ⟨h1, h2⟩
    obtain ⟨e, -, ⟨-, rfl⟩ | ⟨-, rfl⟩⟩ := hv.1
    · exact h2 rfl
    · have := h1.length_le; simp at this
      omega
  have hqm : q ∈ shownNow env { s with collapsed := s.collapsed ++ [v] } := by
    rw [hshown, List.mem_filter]
    refine ⟨h.mem, ?_⟩
    simp only [Bool.not_eq_true', Bool.and_eq_false_iff, decide_eq_false_iff_not]
    by_cases h4 : v <+: q
    · right; exact fun h5 => hqv ⟨h4, h5⟩
    · left; rw [← Bool.not_eq_true, List.isPrefixOf_iff_prefix]; exact h4
  obtain ⟨s', rfl, hset, hkept⟩ := step_redraw hkey (q := q) h.2.1 hqm h.2.2.1 ha
  have hcol : s'.collapsed = s.collapsed ++ [v] := hkept.2.1
  refine ⟨s', rfl, hkept.1.trans h.2.1, by rw [hcol]; simp, by rw [shownNow, hcol]; exact hshown, fun m a' name' pat' hn' ha' => ?_⟩
  have hkey' : evalKey env name' pat' s' = .redraw { s' with collapsed := s.collapsed } := by
    have : evalKey env name' pat' s' = expandSelection env s' := by
      rcases hn' with rfl | rfl
      · exact (key_right env pat' s').1
      · exact (key_right env pat' s').2
    rw [this, expandSelection, hkept.1.trans h.2.1]
    simp only [hvp, hc1, hcol]
    have hfil : (s.collapsed ++ [v]).filter (fun x => decide (x ≠ v)) = s.collapsed := by
      rw [List.filter_append]
      have h1 : s.collapsed.filter (fun x => decide (x ≠ v)) = s.collapsed := by
        rw [List.filter_eq_self]; intro x hx; simp; rintro rfl; exact hopen hx
      rw [h1]; simp
    rw [hfil]
    simp [hc2]
  obtain ⟨s'', rfl, -, hkept'⟩ := step_redraw hkey' (q := q) (hkept.1.trans h.2.1) h.mem (by rw [show _ = s'.height from rfl, hkept.2.2.2.2]; exact h.2.2.1) ha'
  exact ⟨s'', rfl, hkept'.1.trans (hkept.1.trans h.2.1), hkept'.2.1, by rw [shownNow, hkept'.2.1]; rfl⟩

/-- The example document, on a screen with room for all of it, after Down. -/
def downState : St := ⟨some [0], 0, [], [], some [], some [0, 0, 0], false, 80, 12,
  [⟨1, 0, b!"{", false, false⟩, ⟨2, 4, b!"a: ", true, false⟩, ⟨3, 6, b!"[", true, false⟩, ⟨4, 10, b!"x", false, false⟩, ⟨5, 10, b!"{", false, false⟩,
    ⟨6, 14, b!"b: a", false, false⟩, ⟨7, 10, b!"}", false, false⟩, ⟨8, 6, b!"]", true, false⟩, ⟨9, 4, b!"c: c", false, false⟩, ⟨10, 0, b!"}", false, false⟩]⟩

theorem down_reached : runFrom (plainEnv navExample noRx) 9 80 12 [key b!"J"] = some (.nextInput downState) := by decide +kernel

/-- A case that meets the hypotheses of C41 and C42. -/
example : (∃ A q B, Drawing (plainEnv navExample noRx) downState A q B) ∧ 
    BeginsOnScreen (plainEnv navExample noRx) downState [0, 0, 0] ∧ Opens navExample [0] [0, 0] ∧ [0, 0] ∉ downState.collapsed := by
  refine ⟨⟨[[]], [0], _, shows_of_settle (n := 1) (s0 := { downState with screen := [] }) rfl (by rfl) (by decide) (by decide +kernel)⟩, by unfold BeginsOnScreen; decide +kernel,
    ⟨⟨_, rfl, .inr ⟨rfl, rfl⟩⟩, _, rfl, rfl, by decide⟩, by decide⟩

/-! ## C63 -/

/-- `k` times Down. -/
inductive Downs (env : Env) : Nat → St → St → Prop
  | zero (s) : Downs env 0 s s
  | more {k n s s' s''} : Downs env k s s' → step env n (key b!"J") s' = some (.nextInput s'') → Downs env (k + 1) s s''

/-- `[[[1]],2]` -/
def deepDoc : Json := .arr [.arr [.arr [.int 1]], .int 2]

/-- The state in which Down does nothing. -/
def stuckState : St := ⟨some [0, 0, 0], 3, [], [], some [0, 0], some [1], true, 80, 3, [⟨1, 12, b!"1", true, false⟩, ⟨2, 8, b!"]", false, false⟩]⟩

/-- **C63 does not hold**: with `[[[1]],2]` on a screen of 3 lines, Down, pressed however often, does not lead from `1` to `2`. -/
theorem C63_down_false : ∃ env s, Waits env (Calm env) s ∧ s.sel = some [0, 0, 0] ∧ [1] ∈ shownNow env s ∧
    ∀ k s', Downs env k s s' → s'.sel = some [0, 0, 0] := by
  have calm : ∀ s w h, h ≠ 1 → Calm (plainEnv deepDoc noRx) s (.resize w h) := by
    intro s w h hh
    refine ⟨?_, ?_⟩
    · intro w' h' he; cases he; exact hh
    · intro f hf; simp [looksThrough] at hf
  have calmJ : ∀ s, Calm (plainEnv deepDoc noRx) s (key b!"J") := by
    intro s
    refine ⟨by intro w h he; simp [key] at he, ?_⟩
    intro f hf
    rw [show looksThrough (plainEnv deepDoc noRx) s (key b!"J") = [] from rfl] at hf
    simp at hf
  have hstuck : ∀ k s0 s', Downs (plainEnv deepDoc noRx) k s0 s' → s0 = stuckState → s' = stuckState := by
    intro k s0 s' h hs0
    induction h with
    | zero => exact hs0
    | @more k n s s' s'' _ hs ih =>
      have ih := ih hs0
      clear hs0
      subst ih
      cases n with
      | zero => simp [step, key, show evalKey (plainEnv deepDoc noRx) b!"J" none stuckState = .redraw { stuckState with scroll := 5 } from rfl, settle] at hs
      | succ n =>
        have hr : redraw (plainEnv deepDoc noRx) { stuckState with scroll := 5 } = .done stuckState := by decide +kernel
        simp only [step, key, show evalKey (plainEnv deepDoc noRx) b!"J" none stuckState = .redraw { stuckState with scroll := 5 } from rfl, settle, hr] at hs
        cases hs; rfl
  have hrun : runFrom (plainEnv deepDoc noRx) 9 80 3 (List.replicate 9 (key b!"J")) = some (.nextInput stuckState) := by decide +kernel
  refine ⟨plainEnv deepDoc noRx, stuckState, ?_, rfl, by decide, fun k s' h => by rw [hstuck k _ s' h rfl]; rfl⟩
  rw [runFrom] at hrun
  split at hrun
  · next s hs =>
    have : ∀ (is : List Input) (s s' : St), (∀ i ∈ is, i = key b!"J") → Waits (plainEnv deepDoc noRx) (Calm (plainEnv deepDoc noRx)) s →
        runInputs (plainEnv deepDoc noRx) 9 is s = some (.nextInput s') → Waits (plainEnv deepDoc noRx) (Calm (plainEnv deepDoc noRx)) s' := by
      intro is
      induction is with
      | nil => intro s s' _ h hr; simp [runInputs] at hr; exact hr ▸ h
      | cons i is ih =>
        intro s s' hi h hr
        rw [runInputs] at hr
        split at hr
        · next s1 hs1 =>
          have := hi i (by simp)
          subst this
          exact ih s1 s' (fun i hm => hi i (by simp [hm])) (.step h (calmJ s) hs1) hr
        · next h1 => exact absurd hr (h1 s')
    exact this _ s stuckState (by simp) (.start (calm _ _ _ (by decide)) hs) hrun
  · simp at hrun

theorem Downs.first {env : Env} {k n : Nat} {s s' s'' : St} (h1 : step env n (key b!"J") s = some (.nextInput s')) (h2 : Downs env k s' s'') :
    Downs env (k + 1) s s'' := by
  induction h2 with
  | zero => exact .more (.zero s) h1
  | more _ hs ih => exact .more (ih h1) hs

/-- **C63, the part that holds.** If a screen that begins with the first line of the selection would have the first line of the next displayed item on it, then
pressing Down often enough selects the next item; until then the selection stays. Missing: items that are farther away than that. -/
theorem C63_down_partial (env : Env) (s : St) (A : List Path) (q b : Path) (B : List Path) (h : Drawing env s A q (b :: B)) (h3 : 3 ≤ s.width) (hw : s.width < 4294967296)
    (hh : 2 ≤ s.height) (hfit : ∃ a ∈ onScreen s.width s.height 1 ((outlineOf env s).drop (lineOf env s q)), a.2.item = b) :
    ∃ k s', Downs env k s s' ∧ s'.sel = some b ∧ ∀ j t, j < k → Downs env j s t → t.sel = some q := by
  have det : ∀ {n m : Nat} {t : St}, ∀ {r r' : Drawn}, settle env n t = some r → settle env m t = some r' → r = r' := by
    intro n
    induction n with
    | zero => intro m t r r' h; simp [settle] at h
    | succ n ih =>
      intro m t r r' h h'
      cases m with
      | zero => simp [settle] at h'
      | succ m =>
        rw [settle] at h h'
        cases hr : redraw env t with
        | retry t1 => rw [hr] at h h'; exact ih h h'
        | done t1 => rw [hr] at h h'; simp at h h'; rw [← h, ← h']
        | crash => rw [hr] at h h'; simp at h h'; rw [← h, ← h']
  have hdet : ∀ {n m : Nat} {t t1 t2 : St}, step env n (key b!"J") t = some (.nextInput t1) → step env m (key b!"J") t = some (.nextInput t2) → t1 = t2 := by
    intro n m t t1 t2 h1 h2
    simp only [step, key] at h1 h2
    split at h1
    · next t' hk =>
      rw [hk] at h2
      simp only at h2
      split at h1 <;> simp at h1
      split at h2 <;> simp at h2
      next e1 _ _ e2 =>
      have := det e1 e2
      cases this
      rw [← h1, ← h2]
    · next hk =>
      split at h2
      · next t' hk' => exact absurd hk' (hk t')
      · simp at h1 h2; rw [h1] at h2; cases h2; rfl
  generalize hd : lineOf env s q - s.scroll = d
  induction d using Nat.strongRecOn generalizing s with
  | _ d ih =>
    have lay := next_layout h h3 hw hh
    have l1 := lay.1
    cases hl : s.isLast with
    | false =>
      have hdn : s.down = some b := by
        rcases h.parts.2 with ⟨-, g⟩ | ⟨g, -⟩
        · exact g
        · rw [hl] at g; cases g
      have hbq : b ≠ q := h.next_ne
      have hk : evalKey env b!"J" none s = .redraw { s with sel := s.down } := by
        rw [(key_down env none s).1, selectDown, if_neg (by simp [hl]), if_pos (by rw [h.2.1, hdn]; simp [hbq.symm])]
      have hvis : shownNow env { s with sel := s.down } = (A ++ [q]) ++ b :: B := by rw [shownNow, show visible _ _ = _ from h.1]; simp
      have hmem : b ∈ shownItems env { s with sel := s.down } := by rw [show shownItems env { s with sel := s.down } = _ from hvis]; simp
      obtain ⟨n, r, hn⟩ := settle_some env { s with sel := s.down } (q := b) hdn hmem
      obtain ⟨s', rfl, hkept, -⟩ := settle_ready env n { s with sel := s.down } r (q := b) hdn hmem h.2.2.1 hn
      refine ⟨1, s', .more (.zero s) (n := n) (by simp [step, key, hk, hn]), hkept.1.trans hdn, fun j t hj ht => ?_⟩
      have : j = 0 := by omega
      subst this
      cases ht
      exact h.2.1
    | true =>
      have hk : evalKey env b!"J" none s = .redraw { s with scroll := s.scroll + 2 } := by
        rw [(key_down env none s).1, selectDown, if_pos hl]
      have hmem : q ∈ shownItems env { s with scroll := s.scroll + 2 } := h.mem
      obtain ⟨n, r, hn⟩ := settle_some env { s with scroll := s.scroll + 2 } (q := q) h.2.1 hmem
      obtain ⟨s', rfl, hkept, -⟩ := settle_ready env n { s with scroll := s.scroll + 2 } r (q := q) h.2.1 hmem h.2.2.1 hn
      have hsh : Drawing env s' A q (b :: B) := shows_of_settle (s0 := { s with scroll := s.scroll + 2 }) h.2.1 h.1 h.2.2.1 hn
      have hlines : ∀ z, lineOf env s' z = lineOf env s z := by intro z; unfold lineOf outlineOf; rw [hkept.2.1]
      have hwidth : s'.width = s.width := hkept.2.2.2.1
      have hheight : s'.height = s.height := hkept.2.2.2.2
      have hlt : s.scroll < lineOf env s q := by
        apply Classical.byContradiction
        intro hge
        have : s.scroll = lineOf env s q := by omega
        have := lay.2.1 (by rw [BeginsOnScreen, this]; exact hfit)
        rw [hl] at this
        cases this.1
      have hdec : lineOf env s' q - s'.scroll < d := by
        have := scroll_further h h3 hw hlt hn
        rw [hlines]
        omega
      obtain ⟨k, t, k1, k2, k3⟩ := ih _ hdec s' hsh (by rw [hwidth]; exact h3) (by rw [hwidth]; exact hw) (by rw [hheight]; exact hh)
        (by rw [hlines, hwidth, hheight]; unfold outlineOf; rw [hkept.2.1]; exact hfit) rfl
      have hstep : step env n (key b!"J") s = some (.nextInput s') := by simp [step, key, hk, hn]
      refine ⟨k + 1, t, k1.first hstep, k2, fun j t' hj ht => ?_⟩
      have hsplit : ∀ {j : Nat} {t' : St}, Downs env (j + 1) s t' → Downs env j s' t' := by
        intro j
        induction j with
        | zero =>
          intro t' ht
          cases ht with
          | more h0 hs0 => cases h0; have := hdet hs0 hstep; subst this; exact .zero _
        | succ j ihj =>
          intro t' ht
          cases ht with
          | more h0 hs0 => exact .more (ihj h0) hs0
      cases j with
      | zero => cases ht; exact h.2.1
      | succ j => exact k3 j t' (by omega) (hsplit ht)

/-- `[[1],2]` on a screen of 4 lines, with the `1` selected, is a case where the next item is not on the screen, but comes there. -/
def farDoc : Json := .arr [.arr [.int 1], .int 2]

def farState : St := ⟨some [0, 0], 0, [], [], some [0], some [1], true, 80, 4,
  [⟨1, 0, b!"[", false, false⟩, ⟨2, 4, b!"[", false, false⟩, ⟨3, 8, b!"1", true, false⟩]⟩

theorem far_shows : Drawing (plainEnv farDoc noRx) farState [[], [0]] [0, 0] [[1]] :=
  shows_of_settle (n := 1) (s0 := { farState with screen := [], up := none, down := none, isLast := false }) rfl (by rfl) (by decide) (by decide +kernel)

example : farState.isLast = true ∧ (∃ a ∈ onScreen farState.width farState.height 1
    ((outlineOf (plainEnv farDoc noRx) farState).drop (lineOf (plainEnv farDoc noRx) farState [0, 0])), a.2.item = [1]) :=
  ⟨rfl, by decide +kernel⟩

/-- `["abcdefghijklmn",2]` on a screen 10 columns wide, with the string selected, which takes two of the 6 lines of the screen, -/
def wrapDoc : Json := .arr [.str b!"abcdefghijklmn", .int 2]

def wrapState : St := ⟨some [0], 0, [], [], some [], some [1], false, 10, 6,
  [⟨1, 0, b!"[", false, false⟩, ⟨2, 4, b!"abcdefghijklmn", true, false⟩, ⟨4, 4, b!"2", false, false⟩, ⟨5, 0, b!"]", false, false⟩]⟩

/-- … is a case of C41 and C63 with a line that is wider than the screen. -/
example : runFrom (plainEnv wrapDoc noRx) 9 10 6 [key b!"J"] = some (.nextInput wrapState) ∧ Drawing (plainEnv wrapDoc noRx) wrapState [[]] [0] [[1]] ∧
    BeginsOnScreen (plainEnv wrapDoc noRx) wrapState [1] ∧ (outlineOf (plainEnv wrapDoc noRx) wrapState).map (Row.lines 10) = [1, 2, 1, 1] :=
  ⟨by decide +kernel, ⟨by decide +kernel, rfl, by decide, 1, { wrapState with screen := [] }, rfl, rfl, by decide, by decide +kernel⟩,
    by unfold BeginsOnScreen; decide +kernel, by decide +kernel⟩

/-! ## C64 -/

/-- Between an element and the first element inside it there is nothing. -/
theorem first_kid {q r : Path} (h : q < r) : r = q ++ [0] ∨ q ++ [0] < r := by
  induction q generalizing r with
  | nil =>
    cases r with
    | nil => exact absurd h (path_lt_irrefl _)
    | cons z t =>
      cases t with
      | nil =>
        cases z with
        | zero => exact .inl rfl
        | succ z => right; exact List.Lex.rel (by omega)
      | cons w t =>
        right
        cases z with
        | zero => exact List.Lex.cons List.Lex.nil
        | succ z => exact List.Lex.rel (by omega)
  | cons a q ih =>
    cases h with
    | rel h => right; exact List.Lex.rel h
    | cons h =>
      rcases ih h with rfl | h'
      · exact .inl rfl
      · right; exact List.Lex.cons h'

/-- The first element of an open container is the next displayed item. -/
theorem first_shown {env : Env} {s : St} {A B : List Path} {q : Path} (h : shownNow env s = A ++ q :: B) (v : Path) (hv : Opens env.root q v)
    (hopen : v ∉ s.collapsed) : ∃ B', B = (v ++ [0]) :: B' := by
  obtain ⟨c, hc1, hc2, hc3⟩ := hv.2
  have hqm : q ∈ visible (hiddenBy s.collapsed) env.root := by rw [show visible _ env.root = _ from h]; simp
  have hopen' : hiddenBy s.collapsed v = false := by
    simp only [hiddenBy, ← Bool.not_eq_true, List.contains_iff_mem]; exact hopen
  have hkid : v ++ [0] ∈ visible (hiddenBy s.collapsed) env.root := by
    obtain ⟨⟨e, he, ⟨h1, rfl⟩ | ⟨h1, rfl⟩⟩, -⟩ := hv
    · exact (kid_visible hqm hc1 hc2 hopen' hc3).1
    · rw [mem_visible] at hqm ⊢
      refine ⟨elem_kid hc1 (by cases hk' : c.kids <;> simp_all), .inr (by rw [List.dropLast_concat]; exact ⟨c, hc1, hc2⟩), ?_⟩
      intro a e' ha hne hae hac
      have ha1 : a <+: q ++ [0] := by
        rcases List.prefix_concat_iff.mp ha with h2 | h2
        · exact absurd h2 hne
        · exact h2
      rcases List.prefix_concat_iff.mp ha1 with h2 | h2
      · rw [h2]; exact hopen'
      · by_cases haq : a = q
        · subst haq
          rw [hae] at he; cases he
          cases e <;> simp [Elem.isEntry, Elem.isContainer] at h1 hac
        · exact hqm.2.2 a e' h2 haq hae hac
  have hlt : q < v ++ [0] := by
    obtain ⟨⟨e, he, ⟨h1, rfl⟩ | ⟨h1, rfl⟩⟩, -⟩ := hv
    · exact lt_append_cons _ 0 []
    · rw [List.append_assoc]; exact lt_append_cons _ 0 [0]
  have hsorted := visible_sorted (hiddenBy s.collapsed) env.root
  rw [show visible (hiddenBy s.collapsed) env.root = _ from h] at hkid hsorted
  rw [List.pairwise_append, List.pairwise_cons] at hsorted
  have hB : v ++ [0] ∈ B := by
    rcases List.mem_append.mp hkid with h1 | h1
    · exact (path_asymm hlt (hsorted.2.2 _ h1 q (by simp))).elim
    · rcases List.mem_cons.mp h1 with h1 | h1
      · rw [h1] at hlt; exact absurd hlt (path_lt_irrefl _)
      · exact h1
  cases B with
  | nil => simp at hB
  | cons b B' =>
    refine ⟨B', ?_⟩
    congr 1
    rcases List.mem_cons.mp hB with h1 | h1
    · exact h1.symm
    · have hb1 : q < b := hsorted.2.1.1 b (by simp)
      have hb2 : b < v ++ [0] := (List.pairwise_cons.mp hsorted.2.1.2).1 _ h1
      have hbv : b ∈ visible (hiddenBy s.collapsed) env.root := by rw [show visible _ env.root = _ from h]; simp
      obtain ⟨⟨e, he, ⟨h2, rfl⟩ | ⟨h2, rfl⟩⟩, -⟩ := hv
      · rcases first_kid hb1 with h3 | h3
        · exact h3
        · exact (path_asymm hb2 h3).elim
      · rcases first_kid hb1 with h3 | h3
        · exfalso
          rw [h3, mem_visible] at hbv
          rcases hbv.2.1 with h4 | ⟨c', h4, h5⟩
          · simp at h4
          · rw [List.dropLast_concat, he] at h4
            cases h4
            cases e <;> simp [Elem.isEntry, Elem.isContainer] at h2 h5
        · rcases first_kid h3 with h4 | h4
          · exact h4
          · exact (path_asymm hb2 h4).elim

/-- `{"a":[1],"c":2}` -/
def rightDoc : Json := .obj [(b!"a", .arr [.int 1]), (b!"c", .int 2)]

/-- **C64 does not hold**: with `{"a":[1],"c":2}` on a screen of 3 lines, Right on the entry `a` (open, not empty) selects the entry `c`. -/
theorem C64_right_false : ∃ env s s', Waits env (fun _ _ => True) s ∧ s.sel = some [0] ∧ Opens env.root [0] [0, 0] ∧ [0, 0] ∉ s.collapsed ∧
    [0, 0, 0] ∈ shownNow env s ∧ (∃ n, step env n (key b!"L") s = some (.nextInput s')) ∧ s'.sel = some [1] := by
  refine ⟨plainEnv rightDoc noRx, ⟨some [0], 0, [], [], some [], some [1], true, 80, 3, [⟨1, 0, b!"{", false, false⟩, ⟨2, 4, b!"a: ", true, false⟩]⟩,
    ⟨some [1], 4, [], [], some [0, 0, 0], some [1], true, 80, 3, [⟨1, 6, b!"]", false, false⟩, ⟨2, 4, b!"c: 2", true, false⟩]⟩,
    runFrom_waits (n := 9) (w := 80) (h := 3) (is := [key b!"J"]) (fun _ _ => trivial) (by decide +kernel), rfl, ?_, by decide, by decide, ⟨9, by decide +kernel⟩, rfl⟩
  exact ⟨⟨_, rfl, .inr ⟨rfl, rfl⟩⟩, _, rfl, rfl, by decide⟩

/-- **C64, the part that holds.** In every drawn state whose selection stands for a container that is neither empty nor collapsed, Right selects the first
item inside it, if the selection is no object entry, or if this item begins on the screen.
Missing: an object entry at the bottom of the screen. -/
theorem C64_right_partial (env : Env) (s : St) (A : List Path) (q : Path) (B : List Path) (h : Drawing env s A q B) (v : Path) (hv : Opens env.root q v)
    (hopen : v ∉ s.collapsed) (hcase : v = q ∨ 3 ≤ s.width ∧ s.width < 4294967296 ∧ 2 ≤ s.height ∧ BeginsOnScreen env s (v ++ [0]))
    (n : Nat) (a : Answer) (name : Bytes) (pat : Option Pattern) (hname : name = b!"L" ∨ name = b!"KEY_RIGHT")
    (ha : step env n (.key name pat) s = some a) : ∃ s', a = .nextInput s' ∧ s'.sel = some (v ++ [0]) ∧ s'.collapsed = s.collapsed := by
  have hvp := hv.value
  obtain ⟨c, hc1, hc2, hc3⟩ := hv.2
  have hc1' := hc1
  rw [elem] at hc1
  obtain ⟨B', rfl⟩ := first_shown h.1 v hv hopen
  have hdown : s.down = some (v ++ [0]) := by
    rcases hcase with rfl | ⟨h3, hw, hh, hroom⟩
    · rcases h.parts.2 with ⟨-, h1⟩ | ⟨-, h1⟩
      · exact h1
      · rw [h1, fallback, if_pos]
        rw [isOpen_iff]
        refine ⟨c, hc1', hc2, hc3, ?_⟩
        simp only [hiddenBy, ← Bool.not_eq_true, List.contains_iff_mem]; exact hopen
    · exact ((next_layout h h3 hw hh).2.1 hroom).2
  have hkey : evalKey env name pat s = .redraw { s with sel := s.down } := by
    have : evalKey env name pat s = expandSelection env s := by
      rcases hname with rfl | rfl
      · exact (key_right env pat s).1
      · exact (key_right env pat s).2
    rw [this, expandSelection, h.2.1]
    simp only [hvp, hc1]
    have hk : c.kids.isEmpty = false := by cases hkk : c.kids <;> simp_all
    simp [hc2, hopen, hk]
  obtain ⟨s', rfl, -, hkept⟩ := step_redraw hkey (q := v ++ [0]) hdown
    (by rw [show shownItems env { s with sel := s.down } = _ from h.1]; simp) h.2.2.1 ha
  exact ⟨s', rfl, hkept.1.trans hdown, hkept.2.1⟩

example : Opens (plainEnv farDoc noRx).root [0] [0] ∧ Opens navExample [0] [0, 0] :=
  ⟨⟨⟨_, rfl, .inl ⟨rfl, rfl⟩⟩, _, rfl, rfl, by decide⟩, ⟨_, rfl, .inr ⟨rfl, rfl⟩⟩, _, rfl, rfl, by decide⟩

end Verif.Props
