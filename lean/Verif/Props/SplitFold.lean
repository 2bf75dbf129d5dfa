import Verif.Props.Split
import Verif.Props.TuiMore
import Verif.Spec.SplitFold
import Verif.Props.Moves
/-! # C107: folding and unfolding in the diff view -/
namespace Verif.Props
open Verif.Model Verif.Model.Search Verif.Model.Diff Verif.Model.Split Verif.Spec Verif.Spec.SplitView Verif.Spec.SplitFold Verif.Spec.Moves Verif.Lemmas Verif.Lemmas.Split

theorem env_elem (env : Env) (side : Bool) (p : Path) : env.elem (ptr side p) = elem (env.root side) p := by
  cases side <;> rfl

theorem env_value {env : Env} {side : Bool} {p v : Path} (h : ValueOf (env.root side) p v) : env.value (ptr side p) = ptr side v := by
  obtain ⟨e, he, rfl⟩ := h
  unfold Env.value Env.isEntry
  rw [env_elem, he]
  dsimp only
  split
  · cases side <;> rfl
  · rfl

theorem env_filled {env : Env} {side : Bool} {v : Path} :
    Filled (env.root side) v ↔ (env.isContainer (ptr side v) = true ∧ env.size (ptr side v) ≠ 0) := by
  unfold Filled Env.isContainer Env.size
  rw [env_elem]
  cases elem (env.root side) v with
  | none => simp
  | some c => simp

/-- Collapsing more hides exactly what is inside the new ones. -/
theorem shown_more {env : Env} {s t : St} {X : Ptr → Prop} (h : ∀ e, e ∈ t.collapsed ↔ e ∈ s.collapsed ∨ X e) (side : Bool) (q : Path) :
    q ∈ shownIn env side t ↔ q ∈ shownIn env side s ∧ ∀ e, X e → ¬ InContainer env e side q := by
  unfold shownIn InContainer
  rw [mem_visible, mem_visible]
  constructor
  · rintro ⟨h1, h2, h3⟩
    refine ⟨⟨h1, h2, fun a c ha hne hc hcc => ?_⟩, ?_⟩
    · have := of_decide_eq_false (h3 a c ha hne hc hcc)
      exact decide_eq_false fun hm => this ((h _).mpr (.inl hm))
    · rintro e hx ⟨v, c, rfl, hc, hcc, hv, hne⟩
      exact of_decide_eq_false (h3 v c hv hne hc hcc) ((h _).mpr (.inr hx))
  · rintro ⟨⟨h1, h2, h3⟩, h4⟩
    refine ⟨h1, h2, fun a c ha hne hc hcc => decide_eq_false fun hm => ?_⟩
    rcases (h _).mp hm with hm | hm
    · exact of_decide_eq_false (h3 a c ha hne hc hcc) hm
    · exact h4 _ hm ⟨a, c, rfl, hc, hcc, ha, hne⟩

theorem mem_insert' (e q : Ptr) (l : List Ptr) : q ∈ Split.insert e l ↔ q ∈ l ∨ q = e := by
  unfold Split.insert
  split
  · next h =>
    rw [List.contains_iff_mem] at h
    constructor
    · exact .inl
    · rintro (h1 | rfl)
      · exact h1
      · exact h
  · simp

theorem mem_collapse (env : Env) (v e : Ptr) (c : List Ptr) :
    (e ∈ match env.equiv v with | some q => Split.insert q (Split.insert v c) | none => Split.insert v c) ↔ e ∈ c ∨ (e = v ∨ env.equiv v = some e) := by
  cases h : env.equiv v with
  | none => simp [mem_insert']
  | some q =>
    simp only [mem_insert', Option.some.injEq]
    constructor
    · rintro ((h | h) | h)
      · exact .inl h
      · exact .inr (.inl h)
      · exact .inr (.inr h.symm)
    · rintro (h | h | h)
      · exact .inl (.inl h)
      · exact .inl (.inr h)
      · exact .inr h.symm

theorem mem_expand (env : Env) (v e : Ptr) (c : List Ptr) :
    e ∈ (c.filter (· ≠ v)).filter (fun q => decide (some q ≠ env.equiv v)) ↔ e ∈ c ∧ ¬ (e = v ∨ env.equiv v = some e) := by
  simp only [List.mem_filter, decide_eq_true_eq, not_or, and_assoc, ne_eq, decide_not, Bool.not_eq_true', decide_eq_false_iff_not]
  constructor
  · rintro ⟨h1, h2, h3⟩; exact ⟨h1, h2, fun h => h3 h.symm⟩
  · rintro ⟨h1, h2, h3⟩; exact ⟨h1, h2, fun h => h3 h.symm⟩

theorem split_left (env : Env) (n : Nat) (name : Bytes) (pat : Option Pattern) (s : St) (h : name = b!"H" ∨ name = b!"KEY_LEFT") :
    evalKey env n name pat s = some (collapseSelection env s) := by rcases h with rfl | rfl <;> rfl
theorem split_right (env : Env) (n : Nat) (name : Bytes) (pat : Option Pattern) (s : St) (h : name = b!"L" ∨ name = b!"KEY_RIGHT") :
    evalKey env n name pat s = some (expandSelection env s) := by rcases h with rfl | rfl <;> rfl

/-- What an answer that draws the screen again leaves. -/
theorem redraw_step {env : Env} {n k : Nat} {name : Bytes} {pat : Option Pattern} {s s' t : St} (he : evalKey env n name pat s = some (.redraw s'))
    (h : step env n k (.key name pat) s = some (.nextInput t)) :
    t.first.sel = s'.first.sel ∧ t.second.sel = s'.second.sel ∧ t.selected = s'.selected ∧ t.collapsed = s'.collapsed ∧ settle env n k s' = some (some t) := by
  rcases step_cases h with ⟨c, r, hi, _⟩ | ⟨name', pat', hi, ⟨s1, he', hst⟩ | he'⟩
  · cases hi
  · cases hi
    rw [he] at he'
    cases he'
    obtain ⟨k0, k1, h1, h2, _⟩ := settle_keeps hst
    exact ⟨k0.1, k1.1, h1, h2, hst⟩
  · cases hi
    rw [he] at he'
    cases he'

theorem parent_ptr (side : Bool) (p : Path) : parent (ptr side p) = if p = [] then none else some (ptr side p.dropLast) := by
  cases side <;> cases p <;> rfl

/-- `getParent`, and its entry if it is the value of one: the item around. -/
theorem around_entryOr {env : Env} {side : Bool} {p : Path} (hp : p ≠ []) {x : Elem} (he : elem (env.root side) p = some x) :
    ∃ q, entryOr env (ptr side p.dropLast) = ptr side q ∧ Around (env.root side) p q := by
  unfold entryOr Env.isEntry
  rw [parent_ptr]
  rcases around_path hp he with ⟨hn, d, hd, h2, ha⟩ | ⟨hn | ⟨d, hd, h2⟩, ha⟩
  · rw [if_neg hn]
    dsimp only
    rw [env_elem, hd]
    dsimp only
    rw [if_pos h2]
    exact ⟨_, rfl, ha⟩
  · rw [if_pos hn]
    exact ⟨_, rfl, ha⟩
  · by_cases hn : p.dropLast = []
    · rw [if_pos hn]
      exact ⟨_, rfl, ha⟩
    rw [if_neg hn]
    dsimp only
    rw [env_elem, hd]
    dsimp only
    rw [if_neg (by rw [h2]; exact Bool.false_ne_true)]
    exact ⟨_, rfl, ha⟩

/-- **C107.** In the diff view, in any state, with the item at `p` of a document selected in the active window, `v` the value it stands for:
Left, if this is a filled container that is not collapsed, or the root, collapses it and its counterpart and nothing else, so that on both sides exactly what is inside
them is no longer shown; otherwise it selects the item around. Right, if it is collapsed, opens it and its counterpart and nothing else; if it is a filled open
container, it does what Down does; otherwise it does nothing. The selection changes only where this is said, the active window never. -/
theorem C107_folding (env : Env) (n k : Nat) (s t : St) (side : Bool) (p v : Path) (hsel : s.active.sel = some (ptr side p)) (hv : ValueOf (env.root side) p v)
    (name : Bytes) (pat : Option Pattern) (h : step env n k (.key name pat) s = some (.nextInput t)) :
    -- Left
    (name = b!"H" ∨ name = b!"KEY_LEFT" →
      (((Filled (env.root side) v ∧ ptr side v ∉ s.collapsed) ∨ v = []) →
        t.selected = s.selected ∧ t.first.sel = s.first.sel ∧ t.second.sel = s.second.sel ∧
        (∀ e, e ∈ t.collapsed ↔ e ∈ s.collapsed ∨ e = ptr side v ∨ env.equiv (ptr side v) = some e) ∧
        ∀ side' q, q ∈ shownIn env side' t ↔ q ∈ shownIn env side' s ∧ ¬ InContainer env (ptr side v) side' q ∧
          ∀ e, env.equiv (ptr side v) = some e → ¬ InContainer env e side' q) ∧
      (¬ (Filled (env.root side) v ∧ ptr side v ∉ s.collapsed) → v ≠ [] →
        t.selected = s.selected ∧ t.collapsed = s.collapsed ∧
        ∃ q, t.active.sel = some (ptr side q) ∧ Around (env.root side) p q ∧ (other t).sel = env.equiv (ptr side q))) ∧
    -- Right
    (name = b!"L" ∨ name = b!"KEY_RIGHT" →
      ((∃ c, elem (env.root side) v = some c ∧ c.isContainer = true) → ptr side v ∈ s.collapsed →
        t.selected = s.selected ∧ t.first.sel = s.first.sel ∧ t.second.sel = s.second.sel ∧
        (∀ e, e ∈ t.collapsed ↔ e ∈ s.collapsed ∧ e ≠ ptr side v ∧ env.equiv (ptr side v) ≠ some e) ∧
        ∀ side' q, q ∈ shownIn env side' s ↔ q ∈ shownIn env side' t ∧ ¬ InContainer env (ptr side v) side' q ∧
          ∀ e ∈ s.collapsed, env.equiv (ptr side v) = some e → ¬ InContainer env e side' q) ∧
      (Filled (env.root side) v → ptr side v ∉ s.collapsed → step env n k (.key name pat) s = step env n k (.key b!"J" none) s) ∧
      (¬ Filled (env.root side) v → ptr side v ∉ s.collapsed → t = s) ∧
      ((∀ c, elem (env.root side) v = some c → c.isContainer = false) → t = s)) := by
  have hval := env_value hv
  obtain ⟨x, hx, hvx⟩ := hv
  have hvp : (parent (ptr side v)).isSome = decide (v ≠ []) := by
    rw [parent_ptr]; split <;> simp_all
  have hcont : env.isContainer (ptr side v) = true ↔ ∃ c, elem (env.root side) v = some c ∧ c.isContainer = true := by
    unfold Env.isContainer
    rw [env_elem]
    cases elem (env.root side) v <;> simp
  refine ⟨fun hn => ?_, fun hn => ?_⟩
  · have hk := split_left env n name pat s hn
    unfold collapseSelection at hk
    rw [hsel] at hk
    simp only [hval, hvp] at hk
    refine ⟨fun hc => ?_, fun hc hne => ?_⟩
    · rw [if_neg] at hk
      · obtain ⟨h0, h1, h2, h3, _⟩ := redraw_step hk h
        have hm : ∀ e, e ∈ t.collapsed ↔ e ∈ s.collapsed ∨ (e = ptr side v ∨ env.equiv (ptr side v) = some e) := by
          intro e; rw [h3]; exact mem_collapse env _ e _
        refine ⟨h2, h0, h1, hm, fun side' q => ?_⟩
        rw [shown_more hm]
        constructor
        · rintro ⟨g1, g2⟩; exact ⟨g1, g2 _ (.inl rfl), fun e he => g2 e (.inr he)⟩
        · rintro ⟨g1, g2, g3⟩
          refine ⟨g1, ?_⟩
          rintro e (rfl | he)
          · exact g2
          · exact g3 e he
      · rcases hc with ⟨hf, ho⟩ | rfl
        · obtain ⟨g1, g2⟩ := env_filled.mp hf
          simp [g1, g2, ho]
        · simp
    · rw [if_pos] at hk
      · have hp : p ≠ [] := by
          rintro rfl
          have : x = .value (env.root side) := by cases hx; rfl
          subst this
          exact hne hvx
        rw [parent_ptr, if_neg hp] at hk
        dsimp only at hk
        obtain ⟨q, hq, ha⟩ := around_entryOr hp hx
        rw [hq] at hk
        obtain ⟨h0, h1, h2, h3, _⟩ := redraw_step hk h
        refine ⟨by rw [h2, set_selected], by rw [h3, set_collapsed], q, ?_, ha, ?_⟩
        · have := congrArg Win.sel (set_active env (some (ptr side q)) s).1
          unfold St.active St.at at this ⊢
          rw [h2]
          split
          · next g => rw [if_pos g] at this; rw [h0]; exact this
          · next g => rw [if_neg g] at this; rw [h1]; exact this
        · have := congrArg Win.sel (set_active env (some (ptr side q)) s).2
          rw [follow_sel] at this
          unfold other at this ⊢
          rw [h2]
          split
          · next g => rw [if_pos g] at this; rw [h1]; exact this
          · next g => rw [if_neg g] at this; rw [h0]; exact this
      · rw [env_filled] at hc
        by_cases g1 : env.isContainer (ptr side v) = true
        · by_cases g2 : ptr side v ∈ s.collapsed
          · simp [hne, g1, g2]
          · have : env.size (ptr side v) = 0 := Classical.byContradiction fun g3 => hc ⟨⟨g1, g3⟩, g2⟩
            simp [hne, g1, this]
        · simp [hne, g1]
  · have hk := split_right env n name pat s hn
    unfold expandSelection at hk
    rw [hsel] at hk
    simp only [hval] at hk
    have stay : evalKey env n name pat s = some (.nextInput s) → t = s := by
      intro hs
      unfold step at h
      simp only [hs] at h
      cases h; rfl
    refine ⟨fun hc hcol => ?_, fun hf ho => ?_, fun hf ho => ?_, fun hc => ?_⟩
    · rw [if_neg (by simp [hcont.mpr hc]), if_pos (by simpa using hcol)] at hk
      obtain ⟨h0, h1, h2, h3, _⟩ := redraw_step hk h
      have hm : ∀ e, e ∈ t.collapsed ↔ e ∈ s.collapsed ∧ ¬ (e = ptr side v ∨ env.equiv (ptr side v) = some e) := by
        intro e; rw [h3]; exact mem_expand env _ e _
      refine ⟨h2, h0, h1, fun e => (hm e).trans (by rw [not_or]), fun side' q => ?_⟩
      rw [shown_more (s := t) (t := s) (X := fun e => e ∈ s.collapsed ∧ (e = ptr side v ∨ env.equiv (ptr side v) = some e))]
      · constructor
        · rintro ⟨g1, g2⟩; exact ⟨g1, g2 _ ⟨hcol, .inl rfl⟩, fun e hm he => g2 e ⟨hm, .inr he⟩⟩
        · rintro ⟨g1, g2, g3⟩
          refine ⟨g1, ?_⟩
          rintro e ⟨hm, rfl | he⟩
          · exact g2
          · exact g3 e hm he
      · intro e
        rw [hm e]
        by_cases hX : e = ptr side v ∨ env.equiv (ptr side v) = some e <;> simp [hX]
    · obtain ⟨g1, g2⟩ := env_filled.mp hf
      rw [if_neg (by simp [g1]), if_neg (by simpa using ho), if_neg g2] at hk
      unfold step
      simp only [hk]
      rfl
    · refine stay ?_
      by_cases g1 : env.isContainer (ptr side v) = true
      · have : env.size (ptr side v) = 0 := Classical.byContradiction fun g3 => hf (env_filled.mpr ⟨g1, g3⟩)
        rw [if_neg (by simp [g1]), if_neg (by simpa using ho), if_pos this] at hk
        exact hk
      · rw [if_pos (by simp [g1])] at hk
        exact hk
    · have g1 : env.isContainer (ptr side v) = false := by
        rw [← Bool.not_eq_true, hcont]
        rintro ⟨c, h1, h2⟩
        rw [hc c h1] at h2; cases h2
      rw [if_pos (by simp [g1])] at hk
      exact stay hk

/-- `{"a":[1,2],"b":3}` and `{"a":[1,4],"b":3}`. -/
def foldDocs : Env := splitEnv (.obj [(b!"a", .arr [.int 1, .int 2]), (b!"b", .int 3)]) (.obj [(b!"a", .arr [.int 1, .int 4]), (b!"b", .int 3)])

/-- The entry `a` is selected, open: Left folds its value and the counterpart of it, on the other side; Right then unfolds both; Left again, twice, selects the root. -/
example : ValueOf (foldDocs.root false) [0] [0, 0] ∧ Filled (foldDocs.root false) [0, 0] ∧ foldDocs.equiv (.left [0, 0]) = some (.right [0, 0]) ∧
    ∃ s t u w, Reached foldDocs 50 50 80 24 anyInput s ∧ s.active.sel = some (ptr false [0]) ∧ .left [0, 0] ∉ s.collapsed ∧ [0, 0, 1] ∈ shownIn foldDocs true s ∧
      step foldDocs 50 50 (skey b!"H") s = some (.nextInput t) ∧ t.collapsed = [.left [0, 0], .right [0, 0]] ∧
      step foldDocs 50 50 (skey b!"L") t = some (.nextInput u) ∧ u.collapsed = [] ∧
      step foldDocs 50 50 (skey b!"H") t = some (.nextInput w) ∧ w.active.sel = some (.left []) := by
  refine ⟨⟨_, rfl, rfl⟩, ⟨_, rfl, rfl, by decide⟩, by decide +kernel, ?_⟩
  obtain ⟨s, hs, hp⟩ := session_some (env := foldDocs) (n := 50) (k := 50) (cols := 80) (rows := 24) (l := [skey b!"J"])
    (p := fun s => decide (s.active.sel = some (ptr false [0])) && decide (Ptr.left [0, 0] ∉ s.collapsed) && decide ([0, 0, 1] ∈ shownIn foldDocs true s) &&
      match step foldDocs 50 50 (skey b!"H") s with
      | some (.nextInput t) => decide (t.collapsed = [.left [0, 0], .right [0, 0]]) &&
        (match step foldDocs 50 50 (skey b!"L") t with
        | some (.nextInput u) => decide (u.collapsed = [])
        | _ => false) &&
        (match step foldDocs 50 50 (skey b!"H") t with
        | some (.nextInput w) => decide (w.active.sel = some (.left []))
        | _ => false)
      | _ => false) (by decide +kernel)
  simp only [Bool.and_eq_true, decide_eq_true_eq] at hp
  obtain ⟨⟨⟨h1, h2⟩, h3⟩, hp⟩ := hp
  split at hp
  · next t ht =>
    simp only [Bool.and_eq_true, decide_eq_true_eq] at hp
    obtain ⟨⟨h4, hp1⟩, hp2⟩ := hp
    split at hp1
    · next u hu =>
      split at hp2
      · next w hw =>
        exact ⟨s, t, u, w, reached_from _ (fun _ _ _ => trivial) hs, h1, h2, h3, ht, h4, hu, of_decide_eq_true hp1, hw, of_decide_eq_true hp2⟩
      · cases hp2
    · cases hp1
  · cases hp

/-! ## C108 in the diff view -/

theorem set_step {env : Env} {n k : Nat} {name : Bytes} {pat : Option Pattern} {s t : St} {e : Ptr} (hk : evalKey env n name pat s = some (.redraw (setSelection env (some e) s)))
    (h : step env n k (.key name pat) s = some (.nextInput t)) :
    t.selected = s.selected ∧ t.collapsed = s.collapsed ∧ t.active.sel = some e ∧ (other t).sel = env.equiv e := by
  obtain ⟨h0, h1, h2, h3, _⟩ := redraw_step hk h
  refine ⟨by rw [h2, set_selected], by rw [h3, set_collapsed], ?_, ?_⟩
  · have := congrArg Win.sel (set_active env (some e) s).1
    unfold St.active St.at at this ⊢
    rw [h2]
    split
    · next g => rw [if_pos g] at this; rw [h0]; exact this
    · next g => rw [if_neg g] at this; rw [h1]; exact this
  · have := congrArg Win.sel (set_active env (some e) s).2
    rw [follow_sel] at this
    unfold other at this ⊢
    rw [h2]
    split
    · next g => rw [if_pos g] at this; rw [h1]; exact this
    · next g => rw [if_neg g] at this; rw [h0]; exact this

theorem split_stay {env : Env} {n k : Nat} {name : Bytes} {pat : Option Pattern} {s t : St} (hk : evalKey env n name pat s = some (.nextInput s))
    (h : step env n k (.key name pat) s = some (.nextInput t)) : t = s := by
  simp only [step, hk] at h
  cases h; rfl

theorem env_prev (env : Env) (side : Bool) (p : Path) : env.findPrev (ptr side p) = (Nav.findPrev (env.root side) p).map (ptr side) := by
  cases side <;> rfl

theorem env_next (env : Env) (side : Bool) (p : Path) : env.findNext (ptr side p) = (Nav.findNext (env.root side) p).map (ptr side) := by
  cases side <;> rfl

/-- **C108, in the diff view.** In every state between two inputs, with the element at `p` of a document selected in the active window, Page Up and Page Down
select as specified, and the other window follows; nothing is folded or unfolded. -/
theorem C108_diff (env : Env) (hc : Compared env) (n k cols rows : Nat) (s t : St) (hr : Reached env n k cols rows anyInput s) (side : Bool) (p : Path)
    (hsel : s.active.sel = some (ptr side p)) (hp : ∃ x, elem (env.root side) p = some x) (name : Bytes) (pat : Option Pattern)
    (h : step env n k (.key name pat) s = some (.nextInput t)) (hn : name = b!"KEY_PPAGE" ∨ name = b!"KEY_NPAGE") :
    t.selected = s.selected ∧ t.collapsed = s.collapsed ∧ ∃ q, t.active.sel = some (ptr side q) ∧ (other t).sel = env.equiv (ptr side q) ∧
      (name = b!"KEY_PPAGE" → PageUp (env.root side) p q) ∧ (name = b!"KEY_NPAGE" → PageDown (env.root side) p q) := by
  obtain ⟨x, hx⟩ := hp
  have hlink : (other s).sel = env.equiv (ptr side p) := by
    obtain ⟨e, he, ho⟩ := C45_selections env hc n k cols rows s hr
    rw [hsel] at he
    cases he
    exact ho
  rcases hn with rfl | rfl
  · have hk : evalKey env n b!"KEY_PPAGE" pat s = some (selectPUp env s) := rfl
    unfold selectPUp at hk
    rw [hsel] at hk
    dsimp only at hk
    rw [env_prev] at hk
    obtain ⟨g1, g2⟩ := page_up hx
    cases hq : Nav.findPrev (env.root side) p with
    | some q =>
      rw [hq] at hk
      obtain ⟨k1, k2, k3, k4⟩ := set_step hk h
      exact ⟨k1, k2, q, k3, k4, fun _ => g1 q hq, fun hh => by cases hh⟩
    | none =>
      rw [hq] at hk
      dsimp only [Option.map_none] at hk
      rw [parent_ptr] at hk
      rcases g2 hq with ⟨hp, ⟨d, hd, hdc⟩, g3⟩ | ⟨hp, g3⟩
      · have hcont : env.isContainer (ptr side p.dropLast) = true := by
          unfold Env.isContainer
          rw [env_elem, hd]
          exact hdc
        rw [if_neg hp] at hk
        dsimp only at hk
        rw [if_pos hcont] at hk
        obtain ⟨q, he, ha⟩ := around_entryOr hp hx
        rw [he] at hk
        obtain ⟨k1, k2, k3, k4⟩ := set_step hk h
        exact ⟨k1, k2, q, k3, k4, fun _ => g3 q ha, fun hh => by cases hh⟩
      · have : t = s := by
          refine split_stay ?_ h
          by_cases hp' : p = []
          · rw [if_pos hp'] at hk; exact hk
          · rw [if_neg hp'] at hk
            dsimp only at hk
            rw [if_neg] at hk
            · exact hk
            · rcases hp with hp | ⟨d, hd, hdc⟩
              · exact absurd hp hp'
              · unfold Env.isContainer
                rw [env_elem, hd]
                dsimp only
                rw [hdc]
                exact Bool.false_ne_true
        subst this
        exact ⟨rfl, rfl, p, hsel, hlink, fun _ => g3, fun hh => by cases hh⟩
  · have hk : evalKey env n b!"KEY_NPAGE" pat s = some (selectPDown env s) := rfl
    unfold selectPDown at hk
    rw [hsel] at hk
    dsimp only at hk
    rw [env_next] at hk
    have g := page_down (env.root side) p ⟨x, hx⟩
    cases hq : Nav.findNext (env.root side) p with
    | some q =>
      rw [hq] at hk g
      obtain ⟨k1, k2, k3, k4⟩ := set_step hk h
      exact ⟨k1, k2, q, k3, k4, fun hh => (by cases hh), fun _ => g⟩
    | none =>
      rw [hq] at hk g
      have := split_stay hk h
      subst this
      exact ⟨rfl, rfl, p, hsel, hlink, fun hh => (by cases hh), fun _ => g⟩

/-- Page Down on the entry `a`. -/
example : ∃ s t, Reached foldDocs 50 50 80 24 anyInput s ∧ s.active.sel = some (ptr false [0]) ∧
    step foldDocs 50 50 (skey b!"KEY_NPAGE") s = some (.nextInput t) ∧ t.active.sel = some (ptr false [1]) := by
  obtain ⟨s, hs, hp⟩ := session_some (env := foldDocs) (n := 50) (k := 50) (cols := 80) (rows := 24) (l := [skey b!"J"])
    (p := fun s => decide (s.active.sel = some (ptr false [0])) && match step foldDocs 50 50 (skey b!"KEY_NPAGE") s with
      | some (.nextInput t) => decide (t.active.sel = some (ptr false [1]))
      | _ => false) (by decide +kernel)
  simp only [Bool.and_eq_true, decide_eq_true_eq] at hp
  obtain ⟨h1, hp⟩ := hp
  split at hp
  · next t ht => exact ⟨s, t, reached_from _ (fun _ _ _ => trivial) hs, h1, ht, of_decide_eq_true hp⟩
  · cases hp

end Verif.Props
