import Verif.Props.TuiMore
import Verif.Spec.Moves
/-! # C108: Page Up, Page Down, Left and Right in the view of one document -/
namespace Verif.Props
open Verif.Model Verif.Model.Search Verif.Model.Nav Verif.Model.Tui Verif.Spec Verif.Spec.Moves Verif.Lemmas

theorem prefix_drop {r p : Path} (hp : p ≠ []) (hr : r <+: p) (hne : r ≠ p) : r <+: p.dropLast := by
  obtain ⟨a, i, rfl⟩ : ∃ a i, p = a ++ [i] := ⟨p.dropLast, p.getLast hp, (List.dropLast_concat_getLast hp).symm⟩
  rw [List.dropLast_concat]
  rcases List.prefix_concat_iff.mp hr with h | h
  · exact absurd h hne
  · exact h

theorem drop_ne {p : Path} (hp : p ≠ []) : p.dropLast ≠ p := by
  intro h
  have := congrArg List.length h
  rw [List.length_dropLast] at this
  have := List.length_pos_iff.mpr hp
  omega

/-- What an element is inside of: a container, or an entry, and then it is its value. -/
theorem elem_inside {root : Json} {p : Path} (hp : p ≠ []) {x : Elem} (h : elem root p = some x) :
    ∃ c, elem root p.dropLast = some c ∧ ((c.isContainer = true ∧ c.isEntry = false) ∨ (c.isContainer = false ∧ c.isEntry = true ∧ x.isEntry = false)) := by
  obtain ⟨a, i, rfl⟩ : ∃ a i, p = a ++ [i] := ⟨p.dropLast, p.getLast hp, (List.dropLast_concat_getLast hp).symm⟩
  rw [List.dropLast_concat]
  unfold elem at h ⊢
  rw [Lemmas.at_append] at h
  obtain ⟨c, hc, hx⟩ := Option.bind_eq_some_iff.mp h
  refine ⟨c, hc, ?_⟩
  cases c with
  | entry k v =>
    refine .inr ⟨rfl, rfl, ?_⟩
    cases i with
    | zero => cases hx; rfl
    | succ i => simp [Elem.at, Elem.kids] at hx
  | value v => cases v <;> first | exact .inl ⟨rfl, rfl⟩ | simp [Elem.at, Elem.kids] at hx

/-- The element around, or its entry if it is the value of one: the item around. -/
theorem around_path {root : Json} {p : Path} (hp : p ≠ []) {x : Elem} (he : elem root p = some x) :
    (p.dropLast ≠ [] ∧ ∃ d, elem root p.dropLast.dropLast = some d ∧ d.isEntry = true ∧ Around root p p.dropLast.dropLast) ∨
    ((p.dropLast = [] ∨ ∃ d, elem root p.dropLast.dropLast = some d ∧ d.isEntry = false) ∧ Around root p p.dropLast) := by
  obtain ⟨c, hc, hk⟩ := elem_inside hp he
  by_cases hn : p.dropLast = []
  · refine .inr ⟨.inl hn, ⟨?_, List.dropLast_prefix p, drop_ne hp⟩, fun r _ hr hne => prefix_drop hp hr hne⟩
    rw [hn]
    exact List.mem_cons_self
  obtain ⟨d, hd, hk'⟩ := elem_inside hn hc
  rcases hk' with ⟨h1, h2⟩ | ⟨h1, h2, h3⟩
  · refine .inr ⟨.inr ⟨d, hd, h2⟩, ⟨?_, List.dropLast_prefix p, drop_ne hp⟩, fun r _ hr hne => prefix_drop hp hr hne⟩
    exact (mem_visible _ _ _).mpr ⟨⟨c, hc⟩, .inr ⟨d, hd, h1⟩, fun _ _ _ _ _ _ => rfl⟩
  · have hpp : p.dropLast.dropLast <+: p := (List.dropLast_prefix _).trans (List.dropLast_prefix p)
    refine .inl ⟨hn, d, hd, h2, ⟨?_, hpp, ?_⟩, fun r hm hr hne => ?_⟩
    · refine (mem_visible _ _ _).mpr ⟨⟨d, hd⟩, ?_, fun _ _ _ _ _ _ => rfl⟩
      by_cases hn2 : p.dropLast.dropLast = []
      · exact .inl hn2
      · obtain ⟨f, hf, hk2⟩ := elem_inside hn2 hd
        rcases hk2 with ⟨g1, _⟩ | ⟨_, _, g3⟩
        · exact .inr ⟨f, hf, g1⟩
        · rw [h2] at g3; cases g3
    · intro h
      have := congrArg List.length h
      simp only [List.length_dropLast] at this
      have := List.length_pos_iff.mpr hp
      omega
    · refine prefix_drop hn (prefix_drop hp hr hne) ?_
      rintro rfl
      rcases ((mem_visible _ _ _).mp hm).2.1 with g | ⟨f, hf, hfc⟩
      · exact hn g
      · rw [hd] at hf; cases hf; rw [h1] at hfc; cases hfc

/-- `findNext` does not leave the value of an entry. -/
theorem next_stays (root : Json) : ∀ (rev : List Nat) (q : Path), findNextRev root rev = some q →
    ∀ a k v, elem root a = some (.entry k v) → a ++ [0] <+: rev.reverse → a ++ [0] <+: q := by
  intro rev
  induction rev with
  | nil => intro q h; cases h
  | cons i rev ih =>
    intro q h a k v ha hp
    rw [findNextRev] at h
    rw [List.reverse_cons] at hp
    cases hc : (Elem.value root).at rev.reverse with
    | none => rw [hc] at h; cases h
    | some c =>
      rw [hc] at h
      dsimp only at h
      have hcont : c.isContainer = true := by
        cases hcc : c.isContainer
        · rw [hcc] at h; cases h
        · rfl
      rw [if_neg (by simp [hcont])] at h
      have hp' : a ++ [0] <+: rev.reverse := by
        rcases List.prefix_concat_iff.mp hp with g | g
        · obtain ⟨rfl, -⟩ := List.append_inj' g rfl
          rw [elem, hc] at ha
          cases ha
          cases hcont
        · exact g
      split at h
      · cases h
        exact hp'.trans (List.prefix_append _ _)
      · exact ih q h a k v ha hp'

theorem page_down (root : Json) (p : Path) (hp : ∃ e, elem root p = some e) :
    PageDown root p ((findNext root p).getD p) := by
  obtain ⟨h1, h2, -, -⟩ := C43_next_partial root p hp
  cases hn : findNext root p with
  | some q =>
    obtain ⟨⟨g1, g2, g3⟩, g4⟩ := h1 q hn
    refine .inl ⟨⟨g1, g2, g3, fun a k v ha hpre => ?_⟩, fun r hr => g4 r hr.1 hr.2.1 hr.2.2.1⟩
    exact next_stays root p.reverse q hn a k v ha (by rwa [List.reverse_reverse])
  | none =>
    refine .inr ⟨fun r hr => ?_, rfl⟩
    obtain ⟨a, k, v, g1, g2, g3⟩ := h2 hn r hr.1 hr.2.1 hr.2.2.1
    exact g3 (hr.2.2.2 a k v g2 g1)

/-- `findPrev`, and what Page Up does if there is none. -/
theorem page_up {root : Json} {p : Path} {x : Elem} (hx : elem root p = some x) :
    (∀ q, findPrev root p = some q → PageUp root p q) ∧
    (findPrev root p = none → (p ≠ [] ∧ (∃ c, elem root p.dropLast = some c ∧ c.isContainer = true) ∧ ∀ q, Around root p q → PageUp root p q) ∨
      ((p = [] ∨ ∃ c, elem root p.dropLast = some c ∧ c.isContainer = false) ∧ PageUp root p p)) := by
  obtain ⟨-, -, h3, -⟩ := C43_next_partial root p ⟨x, hx⟩
  refine ⟨fun q hq => ?_, fun hn => ?_⟩
  · obtain ⟨a, i, c, g1, g2, -⟩ := (h3 q).mp hq
    exact .inl ⟨a, i, g1, g2⟩
  · by_cases hp : p = []
    · exact .inr ⟨.inl hp, .inr (.inr ⟨.inl hp, rfl⟩)⟩
    obtain ⟨c, hc, ⟨k1, k2⟩ | ⟨k1, k2, k3⟩⟩ := elem_inside hp hx
    · refine .inl ⟨hp, ⟨c, hc, k1⟩, fun q hq => .inr (.inl ⟨?_, ?_, hq⟩)⟩
      · refine ⟨p.dropLast, ?_⟩
        have hl := (List.dropLast_concat_getLast hp).symm
        generalize p.getLast hp = i at hl
        cases i with
        | zero => exact hl
        | succ i =>
          have := (h3 _).mpr ⟨_, i, c, hl, rfl, hc, k1⟩
          rw [hn] at this
          cases this
      · exact (mem_visible _ _ _).mpr ⟨⟨x, hx⟩, .inr ⟨c, hc, k1⟩, fun _ _ _ _ _ _ => rfl⟩
    · refine .inr ⟨.inr ⟨c, hc, k1⟩, .inr (.inr ⟨.inr fun hm => ?_, rfl⟩)⟩
      rcases ((mem_visible _ _ _).mp hm).2.1 with g | ⟨f, hf, hfc⟩
      · exact hp g
      · rw [hc] at hf; cases hf; rw [k1] at hfc; cases hfc

theorem one_redraw {env : Env} {n : Nat} {name : Bytes} {pat : Option Pattern} {s s' t : St} (hp : Ptrs env s') (hk : evalKey env name pat s = .redraw s')
    (h : step env n (.key name pat) s = some (.nextInput t)) : t.sel = s'.sel ∧ t.collapsed = s'.collapsed := by
  simp only [step, hk] at h
  split at h <;> cases h
  next hs =>
  have := (settle_ptrs n hp _ hs).1
  exact ⟨this.1, this.2.1⟩

theorem one_stay {env : Env} {n : Nat} {name : Bytes} {pat : Option Pattern} {s t : St} (hk : evalKey env name pat s = .nextInput s)
    (h : step env n (.key name pat) s = some (.nextInput t)) : t = s := by
  simp only [step, hk] at h
  cases h; rfl

theorem around_if {env : Env} {p : Path} (hp : p ≠ []) {x : Elem} (hx : elem env.root p = some x) :
    Around env.root p (if inEntry env p.dropLast then p.dropLast.dropLast else p.dropLast) := by
  unfold inEntry Tui.parent
  rcases around_path hp hx with ⟨hn, d, hd, h2, ha⟩ | ⟨hn | ⟨d, hd, h2⟩, ha⟩
  · rw [elem] at hd
    simp only [List.isEmpty_iff, hn, if_false, hd, h2, if_true]
    exact ha
  · simp only [hn, List.isEmpty_nil, if_true]
    rw [hn] at ha
    exact ha
  · rw [elem] at hd
    by_cases hn : p.dropLast = []
    · simp only [hn, List.isEmpty_nil, if_true]
      rw [hn] at ha
      exact ha
    · simp only [List.isEmpty_iff, hn, if_false, hd, h2]
      exact ha

/-- **C108.** In every state the view of one document reaches, with the item at `p` selected, `v` the value it stands for: Page Up and Page Down select as specified
(`PageUp`, `PageDown`); Left on what is no filled open container selects the item around; Right on what is no container, or is empty and open, does nothing;
none of them folds or unfolds anything. -/
theorem C108_moves (env : Env) (s t : St) (hw : Waits env (fun _ _ => True) s) (n : Nat) (p v : Path) (hsel : s.sel = some p) (hv : ValueOf env.root p v)
    (name : Bytes) (pat : Option Pattern) (h : step env n (.key name pat) s = some (.nextInput t)) :
    (name = b!"KEY_PPAGE" → t.collapsed = s.collapsed ∧ ∃ q, t.sel = some q ∧ PageUp env.root p q) ∧
    (name = b!"KEY_NPAGE" → t.collapsed = s.collapsed ∧ ∃ q, t.sel = some q ∧ PageDown env.root p q) ∧
    (name = b!"H" ∨ name = b!"KEY_LEFT" → ¬ (Filled env.root v ∧ v ∉ s.collapsed) → v ≠ [] →
      t.collapsed = s.collapsed ∧ ∃ q, t.sel = some q ∧ Around env.root p q) ∧
    (name = b!"L" ∨ name = b!"KEY_RIGHT" → (¬ Filled env.root v ∧ v ∉ s.collapsed) ∨ (∀ c, elem env.root v = some c → c.isContainer = false) → t = s) := by
  obtain ⟨hptr, hres⟩ := waits_ptrs hw
  have hpi := hptr.1 p hsel
  obtain ⟨x, hx, hvx⟩ := hv
  have hvp : valuePath env p = v := by
    unfold valuePath
    rw [elem] at hx
    rw [hx, hvx]
    cases x <;> rfl
  have hev : ∃ c, elem env.root v = some c := by
    rw [hvx]
    split
    · next he =>
      cases x with
      | value w => cases he
      | entry k w => exact elem_kid hx (by simp [Elem.kids])
    · exact ⟨x, hx⟩
  obtain ⟨c, hc⟩ := hev
  have hc' := hc
  rw [elem] at hc'
  have kept : ∀ s', evalKey env name pat s = .redraw s' → t.sel = s'.sel ∧ t.collapsed = s'.collapsed := by
    intro s' hk
    have := evalKey_ptrs hptr hres name pat
    rw [hk] at this
    exact one_redraw this hk h
  refine ⟨?_, ?_, ?_, ?_⟩
  · rintro rfl
    have hk : evalKey env b!"KEY_PPAGE" pat s = selectPUp env s := rfl
    unfold selectPUp at hk
    rw [hsel] at hk
    dsimp only at hk
    obtain ⟨g1, g2⟩ := page_up hx
    cases hq : findPrev env.root p with
    | some q =>
      rw [hq] at hk
      obtain ⟨k1, k2⟩ := kept _ hk
      exact ⟨k2, q, k1, g1 q hq⟩
    | none =>
      rw [hq] at hk
      dsimp only at hk
      unfold inContainer Tui.parent at hk
      rcases g2 hq with ⟨hp, ⟨d, hd, hdc⟩, g3⟩ | ⟨hp, g3⟩
      · rw [elem] at hd
        simp only [List.isEmpty_iff, hp, if_false, hd, hdc, if_true] at hk
        obtain ⟨k1, k2⟩ := kept _ hk
        exact ⟨k2, _, k1, g3 _ (around_if hp hx)⟩
      · have : evalKey env b!"KEY_PPAGE" pat s = .nextInput s := by
          rcases hp with hp | ⟨d, hd, hdc⟩
          · subst hp; exact hk
          · by_cases hp : p = []
            · subst hp; exact hk
            rw [elem] at hd
            simp only [List.isEmpty_iff, hp, if_false, hd, hdc] at hk
            exact hk
        have := one_stay this h
        subst this
        exact ⟨rfl, p, hsel, g3⟩
  · rintro rfl
    have hk : evalKey env b!"KEY_NPAGE" pat s = selectPDown env s := rfl
    unfold selectPDown at hk
    rw [hsel] at hk
    dsimp only at hk
    have g := page_down env.root p ⟨x, hx⟩
    cases hq : findNext env.root p with
    | some q =>
      rw [hq] at hk g
      obtain ⟨k1, k2⟩ := kept _ hk
      exact ⟨k2, q, k1, g⟩
    | none =>
      rw [hq] at hk g
      have := one_stay hk h
      subst this
      exact ⟨rfl, p, hsel, g⟩
  · intro hn hno hne
    have hk : evalKey env name pat s = collapseSelection env s := by
      rcases hn with rfl | rfl
      · exact (key_left env pat s).1
      · exact (key_left env pat s).2
    unfold collapseSelection at hk
    rw [hsel] at hk
    simp only [hvp, hc'] at hk
    have hp : p ≠ [] := by
      rintro rfl
      have : x = .value env.root := by cases hx; rfl
      subst this
      exact hne hvx
    rw [if_pos] at hk
    · obtain ⟨k1, k2⟩ := kept _ hk
      exact ⟨k2, _, k1, around_if hp hx⟩
    · unfold Tui.parent
      simp only [List.isEmpty_iff, hne, if_false, Option.isSome_some, Bool.true_and, Bool.or_eq_true, Bool.not_eq_true', List.contains_iff_mem]
      by_cases k1 : c.isContainer = true
      · by_cases k2 : v ∈ s.collapsed
        · exact .inl (.inr k2)
        · right
          cases hk : c.kids with
          | nil => rfl
          | cons a l => exact absurd ⟨⟨c, hc, k1, by rw [hk]; simp⟩, k2⟩ hno
      · exact .inl (.inl (by simpa using k1))
  · intro hn hcase
    have hk : evalKey env name pat s = expandSelection env s := by
      rcases hn with rfl | rfl
      · exact (key_right env pat s).1
      · exact (key_right env pat s).2
    unfold expandSelection at hk
    rw [hsel] at hk
    simp only [hvp, hc'] at hk
    refine one_stay ?_ h
    rw [hk]
    by_cases k1 : c.isContainer = true
    · rw [if_neg (by simp [k1])]
      rcases hcase with ⟨g1, g2⟩ | g
      · rw [if_neg (by simpa using g2), if_pos]
        cases hk : c.kids with
        | nil => rfl
        | cons a l => exact absurd ⟨c, hc, k1, by rw [hk]; simp⟩ g1
      · rw [g c hc] at k1; cases k1
    · rw [if_pos (by simpa using k1)]

/-- Page Up on the first element of the value of an entry, and Page Down on the entry. -/
example : (∃ s t, Waits (plainEnv navExample noRx) (fun _ _ => True) s ∧ s.sel = some [0, 0, 0] ∧
      step (plainEnv navExample noRx) 9 (key b!"KEY_PPAGE") s = some (.nextInput t) ∧ t.sel = some [0]) ∧
    (∃ s t, Waits (plainEnv navExample noRx) (fun _ _ => True) s ∧ s.sel = some [0] ∧ ValueOf navExample [0] [0, 0] ∧
      step (plainEnv navExample noRx) 9 (key b!"KEY_NPAGE") s = some (.nextInput t) ∧ t.sel = some [1]) := by
  constructor
  · have h : ((runFrom (plainEnv navExample noRx) 9 80 12 [key b!"J", key b!"J"]).any fun a => match a with
        | .nextInput s => decide (s.sel = some [0, 0, 0]) && (match step (plainEnv navExample noRx) 9 (key b!"KEY_PPAGE") s with
          | some (.nextInput t) => decide (t.sel = some [0])
          | _ => false)
        | _ => false) = true := by decide +kernel
    cases hr : runFrom (plainEnv navExample noRx) 9 80 12 [key b!"J", key b!"J"] with
    | none => rw [hr] at h; cases h
    | some a =>
      rw [hr] at h
      cases a with
      | nextInput s =>
        simp only [Option.any_some, Bool.and_eq_true, decide_eq_true_eq] at h
        obtain ⟨h1, h2⟩ := h
        split at h2
        · next t ht => exact ⟨s, t, runFrom_waits (fun _ _ => trivial) hr, h1, ht, of_decide_eq_true h2⟩
        · cases h2
      | redraw s => cases h
      | quit => cases h
      | crash => cases h
  · have h : (match step (plainEnv navExample noRx) 9 (key b!"KEY_NPAGE") downState with
          | some (.nextInput t) => decide (t.sel = some [1])
          | _ => false) = true := by decide +kernel
    split at h
    · next t ht => exact ⟨downState, t, runFrom_waits (fun _ _ => trivial) down_reached, rfl, ⟨_, rfl, rfl⟩, ht, of_decide_eq_true h⟩
    · cases h

end Verif.Props
