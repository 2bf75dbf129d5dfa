import Verif.Props.SplitFold
import Verif.Lemmas.SplitUpDown
import Verif.Spec.SplitMoves
/-! # Up and Down in the diff view -/
namespace Verif.Props
open Verif.Model Verif.Model.Search Verif.Model.Diff Verif.Model.Split Verif.Spec Verif.Spec.SplitView Verif.Spec.SplitFold Verif.Spec.SplitMoves Verif.Spec.Moves
open Verif.Lemmas Verif.Lemmas.Split
open Verif.Model.Nav (findNextRev)

/-- What is aimed at in a state that is reached, after a completed drawing. -/
theorem settled_pointers {env : Env} {n k cols rows : Nat} {ok : St → Split.Input → Prop} {s : St} (hr : Reached env n k cols rows ok s) (hd : Settled env n k s)
    {A B : List Path} {p : Path} (hsel : s.active.sel = some (ptr (activeSide s) p)) (hvis : shownIn env (activeSide s) s = A ++ p :: B) :
    s.active.up = some (ptr (activeSide s) (A.getLast?.getD p)) ∧
    ((∃ q B', B = q :: B' ∧ s.active.down = some (ptr (activeSide s) q)) ∨
      (∀ q ∈ B, ¬ OnScreen s.active (ptr (activeSide s) q)) ∧
        s.active.down = some ((firstChild env s.view s.active).getD ((env.findNext (ptr (activeSide s) p)).getD (ptr (activeSide s) p)))) := by
  obtain ⟨s0, hs⟩ := hd
  obtain ⟨v0, v1, l0, l1, h0, h1, hlog, hs0, hs1⟩ := settle_shows hs
  obtain ⟨a0, a1⟩ := logged_aims hlog
  have hcol : s.collapsed = s0.view.collapsed := (settle_keeps hs).2.2.2.1
  have hc : ∀ side, visible (cOf s0.view side) (env.root side) = shownIn env side s := by
    intro side
    unfold shownIn
    congr 1
    funext q
    unfold cOf
    rw [hcol, List.contains_eq_mem]
  have hf : ∀ w, firstChild env s0.view w = firstChild env s.view w := by
    intro w
    unfold firstChild
    rw [← hcol]
    rfl
  have hl := selLast_reached hr
  by_cases h : s.selected = 0
  · have hside : activeSide s = false := by unfold activeSide; simp [h]
    have hact : s.active = s.first := by unfold St.active St.at; simp [h]
    rw [hside] at hsel hvis ⊢
    rw [hact] at hsel ⊢
    have hla := hl.1 _ hsel
    rw [← hf]
    exact aims_pointers hs0 a0 hla (by rw [hsel, hla]) (by rw [hc]; exact hvis)
  · have hside : activeSide s = true := by unfold activeSide; simp [h]
    have hact : s.active = s.second := by unfold St.active St.at; simp [h]
    rw [hside] at hsel hvis ⊢
    rw [hact] at hsel ⊢
    have hla := hl.2 _ hsel
    rw [← hf]
    exact aims_pointers hs1 a1 hla (by rw [hsel, hla]) (by rw [hc]; exact hvis)

/-- **C110.** In the diff view, in every state that is reached and completely drawn, with a displayed item selected in the active window: Up selects the displayed item
before it, if there is one; the other window follows, nothing is folded or unfolded, and the view is completely drawn again. -/
theorem C110_up (env : Env) (n k cols rows : Nat) (ok : St → Split.Input → Prop) (s t : St) (hr : Reached env n k cols rows ok s) (hd : Settled env n k s)
    (A B : List Path) (p : Path) (hsel : s.active.sel = some (ptr (activeSide s) p)) (hvis : shownIn env (activeSide s) s = A ++ p :: B)
    (name : Bytes) (pat : Option Pattern) (hn : name = b!"K" ∨ name = b!"KEY_UP") (h : step env n k (.key name pat) s = some (.nextInput t)) :
    t.active.sel = some (ptr (activeSide s) (A.getLast?.getD p)) ∧ (other t).sel = env.equiv (ptr (activeSide s) (A.getLast?.getD p)) ∧
      t.selected = s.selected ∧ t.collapsed = s.collapsed ∧ Settled env n k t := by
  have hup := (settled_pointers hr hd hsel hvis).1
  have hk : evalKey env n name pat s = some (selectUp env s) := by rcases hn with rfl | rfl <;> rfl
  unfold selectUp at hk
  rw [hup] at hk
  obtain ⟨h1, h2, h3, h4⟩ := set_step hk h
  refine ⟨h3, h4, h1, h2, ?_⟩
  rcases step_cases h with ⟨c, r, hi, _⟩ | ⟨name', pat', hi, ⟨s', he, hst⟩ | he⟩
  · cases hi
  · exact ⟨_, hst⟩
  · cases hi
    rw [hk] at he
    cases he

/-- **C110, to the top.** As often as there are displayed items before the selection, Up leads from one to the one before, and at the end to the root. -/
theorem C110_to_the_root (env : Env) (n k cols rows : Nat) (s t : St) (hr : Reached env n k cols rows anyInput s) (hd : Settled env n k s)
    (A B : List Path) (p : Path) (hsel : s.active.sel = some (ptr (activeSide s) p)) (hvis : shownIn env (activeSide s) s = A ++ p :: B)
    (keys : List Bytes) (hkeys : ∀ name ∈ keys, name = b!"K" ∨ name = b!"KEY_UP")
    (h : session env n k (keys.map fun name => .key name none) s = some t) :
    t.active.sel = some (ptr (activeSide s) ((A ++ [p]).reverse[keys.length]?.getD [])) ∧ t.collapsed = s.collapsed ∧ t.selected = s.selected := by
  induction keys generalizing s A p B with
  | nil =>
    cases h
    exact ⟨by simpa using hsel, rfl, rfl⟩
  | cons name keys ih =>
    rw [List.map_cons, session] at h
    cases hs : step env n k (.key name none) s with
    | none => rw [hs] at h; cases h
    | some a =>
      rw [hs] at h
      cases a with
      | redraw _ => cases h
      | quit => cases h
      | crash => cases h
      | nextInput u =>
        dsimp only at h
        obtain ⟨h1, -, h3, h4, h5⟩ := C110_up env n k cols rows anyInput s u hr hd A B p hsel hvis name none (hkeys name List.mem_cons_self) hs
        have hru : Reached env n k cols rows anyInput u := .input _ hr trivial hs
        have hside : activeSide u = activeSide s := by unfold activeSide; rw [h3]
        have hvu : shownIn env (activeSide u) u = shownIn env (activeSide s) s := by unfold shownIn; rw [hside, h4]
        rcases List.eq_nil_or_concat A with rfl | ⟨A', a, rfl⟩
        · have hp : p = [] := by
            unfold shownIn visible at hvis
            exact (List.cons.inj hvis).1.symm
          subst hp
          have := ih u hru h5 [] B [] (by rw [hside]; exact h1) (by rw [hvu]; exact hvis) (fun x hx => hkeys x (List.mem_cons_of_mem _ hx)) h
          rw [hside, h3, h4] at this
          refine ⟨?_, this.2⟩
          rw [this.1]
          simp only [List.nil_append, List.reverse_cons, List.reverse_nil, List.length_cons]
          cases keys <;> simp
        · have := ih u hru h5 A' (p :: B) a (by rw [hside, h1]; simp) (by rw [hvu, hvis]; simp) (fun x hx => hkeys x (List.mem_cons_of_mem _ hx)) h
          rw [hside, h3, h4] at this
          refine ⟨?_, this.2⟩
          rw [this.1]
          simp

/-- `{"a":[1,2],"b":3}` and `{"a":[1,4],"b":3}`, from the second item of the array: Up leads to the first one, to the entry `a` and to the root. -/
example : ∃ s t, Reached foldDocs 50 50 80 24 noSearch s ∧ Settled foldDocs 50 50 s ∧ s.active.sel = some (ptr (activeSide s) [0, 0, 1]) ∧
    shownIn foldDocs (activeSide s) s = [[], [0], [0, 0, 0]] ++ [0, 0, 1] :: [[1]] ∧
    session foldDocs 50 50 ([b!"K", b!"KEY_UP", b!"K"].map fun name => .key name none) s = some t ∧ t.active.sel = some (.left []) := by
  obtain ⟨s, hs, hp⟩ := session_some (env := foldDocs) (n := 50) (k := 50) (cols := 80) (rows := 24) (l := [skey b!"J", skey b!"J", skey b!"J"])
    (p := fun s => decide (s.active.sel = some (ptr (activeSide s) [0, 0, 1])) &&
      decide (shownIn foldDocs (activeSide s) s = [[], [0], [0, 0, 0]] ++ [0, 0, 1] :: [[1]]) &&
      match session foldDocs 50 50 ([b!"K", b!"KEY_UP", b!"K"].map fun name => .key name none) s with
      | some t => decide (t.active.sel = some (.left []))
      | _ => false) (by decide +kernel)
  simp only [Bool.and_eq_true, decide_eq_true_eq] at hp
  obtain ⟨⟨h1, h2⟩, hp⟩ := hp
  have hr : Reached foldDocs 50 50 80 24 noSearch s := reached_from _ (fun i hi _ name pat he => by
    simp only [List.mem_cons, List.not_mem_nil, or_false, or_self] at hi
    rw [hi] at he
    cases he
    decide) hs
  split at hp
  · next t ht => exact ⟨s, t, hr, settled_reached hr, h1, h2, ht, of_decide_eq_true hp⟩
  · cases hp

/-! ## Down -/

theorem kid_first {p r : Path} (h : p < r) : p ++ [0] = r ∨ p ++ [0] < r := by
  by_cases hp : p <+: r
  · obtain ⟨u, rfl⟩ := hp
    cases u with
    | nil => rw [List.append_nil] at h; exact absurd h (path_lt_irrefl _)
    | cons i u =>
      by_cases hi : i = 0
      · subst hi
        cases u with
        | nil => exact .inl rfl
        | cons j u => exact .inr (by have := lt_append_cons (p ++ [0]) j u; rwa [List.append_assoc] at this)
      · exact .inr (by simpa using lt_branch p (i := 0) (j := i) (by omega) [] u)
  · exact .inr (append_lt_of_lt h hp [0])

/-- The first of the displayed items after one of them. -/
theorem next_shown {hidden : Path → Bool} {root : Json} {A B : List Path} {p x : Path} (hvis : visible hidden root = A ++ p :: B) (hx : x ∈ visible hidden root) (hlt : p < x)
    (hmin : ∀ r ∈ B, x = r ∨ x < r) : ∃ B', B = x :: B' := by
  have hs := visible_sorted hidden root
  rw [hvis, List.pairwise_append] at hs
  rw [hvis] at hx
  have hxB : x ∈ B := by
    rcases List.mem_append.mp hx with h | h
    · exact (path_asymm hlt (hs.2.2 x h p List.mem_cons_self)).elim
    · rcases List.mem_cons.mp h with h | h
      · rw [h] at hlt; exact absurd hlt (path_lt_irrefl _)
      · exact h
  cases B with
  | nil => cases hxB
  | cons b B =>
    rcases hmin b List.mem_cons_self with rfl | hb
    · exact ⟨B, rfl⟩
    · rcases List.mem_cons.mp hxB with rfl | h
      · exact ⟨B, rfl⟩
      · have := (List.pairwise_cons.mp (List.pairwise_cons.mp hs.2.1).2).1 x h
        exact (path_asymm hb this).elim

/-- What `findNext` finds is the next element of a container that is open around the position. -/
theorem next_form (root : Json) : ∀ (rev : List Nat) (q : Path), findNextRev root rev = some q →
    ∃ a i c, q = a ++ [i + 1] ∧ a ++ [i] <+: rev.reverse ∧ elem root a = some c ∧ c.isContainer = true := by
  intro rev
  induction rev with
  | nil => intro q h; cases h
  | cons i rev ih =>
    intro q h
    rw [findNextRev] at h
    rw [List.reverse_cons]
    cases hc : (Elem.value root).at rev.reverse with
    | none => rw [hc] at h; cases h
    | some c =>
      rw [hc] at h
      dsimp only at h
      have hcont : c.isContainer = true := by
        cases hcc : c.isContainer
        · rw [hcc] at h; cases h
        · rfl
      rw [if_neg (by simp [hcont])] at h
      split at h
      · cases h
        exact ⟨rev.reverse, i, c, rfl, List.prefix_refl _, hc, hcont⟩
      · obtain ⟨a, j, d, h1, h2, h3⟩ := ih q h
        exact ⟨a, j, d, h1, h2.trans (List.prefix_append _ _), h3⟩

/-- What `findNext` finds from a displayed item is displayed. -/
theorem next_visible {hidden : Path → Bool} {root : Json} {p q : Path} (hp : p ∈ visible hidden root) (h : Nav.findNext root p = some q) : q ∈ visible hidden root := by
  obtain ⟨a, i, c, rfl, h2, h3, h4⟩ := next_form root p.reverse q h
  rw [List.reverse_reverse] at h2
  rw [mem_visible] at hp ⊢
  have hq : (∃ e, elem root (a ++ [i + 1]) = some e) := ((C43_next_partial root p hp.1).1 _ h).1.1
  refine ⟨hq, .inr ⟨c, by simpa using h3, h4⟩, fun b d hb hbne hbe hbc => ?_⟩
  have hba : b <+: a := by
    rcases List.prefix_concat_iff.mp hb with g | g
    · exact absurd g hbne
    · exact g
  refine hp.2.2 b d (hba.trans ((List.prefix_append _ _).trans h2)) ?_ hbe hbc
  rintro rfl
  have := (h2.trans hba).length_le
  rw [List.length_append, List.length_singleton] at this
  exact absurd this (Nat.not_succ_le_self _)

/-- **C111, the part that holds.** In the diff view, in every state that is reached and completely drawn, with a displayed item at `p` selected in the active window: Down
selects the next displayed item, if it is on the screen; or if the selection is no entry with a filled, open container, and the next item is not outside the value of an
entry that the selection is in. On the last item Down does nothing. Never does it go up. The other window follows, nothing is folded or unfolded.
Missing: at the bottom of the window, the first item in the container of an entry, and the item after the last one in the value of an entry. -/
theorem C111_down_partial (env : Env) (n k cols rows : Nat) (ok : St → Split.Input → Prop) (s t : St) (hr : Reached env n k cols rows ok s) (hd : Settled env n k s)
    (A B : List Path) (p : Path) (hsel : s.active.sel = some (ptr (activeSide s) p)) (hvis : shownIn env (activeSide s) s = A ++ p :: B)
    (name : Bytes) (pat : Option Pattern) (hn : name = b!"J" ∨ name = b!"KEY_DOWN") (h : step env n k (.key name pat) s = some (.nextInput t)) :
    ∃ q, t.active.sel = some (ptr (activeSide s) q) ∧ (other t).sel = env.equiv (ptr (activeSide s) q) ∧
      t.selected = s.selected ∧ t.collapsed = s.collapsed ∧ Settled env n k t ∧
      (∀ r B', B = r :: B' → OnScreen s.active (ptr (activeSide s) r) ∨
        ((∀ key v, elem (env.root (activeSide s)) p = some (.entry key v) → Filled (env.root (activeSide s)) (p ++ [0]) → ptr (activeSide s) (p ++ [0]) ∈ s.collapsed) ∧
          ∀ a key v, elem (env.root (activeSide s)) a = some (.entry key v) → a ++ [0] <+: p → a ++ [0] <+: r) → q = r) ∧
      (B = [] → q = p) ∧ (q = p ∨ p < q) := by
  have hpm : p ∈ shownIn env (activeSide s) s := by rw [hvis]; simp
  have hpe := ((mem_visible _ _ _).mp hpm).1
  have hBlt : ∀ r ∈ B, p < r := by
    have hs := visible_sorted (fun q => decide (ptr (activeSide s) q ∈ s.collapsed)) (env.root (activeSide s))
    unfold shownIn at hvis
    rw [hvis, List.pairwise_append] at hs
    exact (List.pairwise_cons.mp hs.2.1).1
  have hk : evalKey env n name pat s = some (selectDown env s) := by rcases hn with rfl | rfl <;> rfl
  unfold selectDown at hk
  have hset : Settled env n k t := by
    rcases step_cases h with ⟨c, r, hi, _⟩ | ⟨name', pat', hi, ⟨s', he, hst⟩ | he⟩
    · cases hi
    · exact ⟨_, hst⟩
    · cases hi
      rw [hk] at he
      cases he
  obtain ⟨-, ⟨q, B', hB, hdn⟩ | ⟨hno, hdn⟩⟩ := settled_pointers hr hd hsel hvis
  · rw [hdn] at hk
    obtain ⟨h1, h2, h3, h4⟩ := set_step hk h
    refine ⟨q, h3, h4, h1, h2, hset, ?_, ?_, .inr (hBlt q (by rw [hB]; simp))⟩
    · intro r B'' hB' _
      rw [hB] at hB'
      exact (List.cons.inj hB').1
    · intro hB'
      rw [hB] at hB'
      cases hB'
  · cases hf : firstChild env s.view s.active with
    | some c =>
      unfold firstChild at hf
      rw [hsel] at hf
      dsimp only at hf
      split at hf
      · next hcond =>
        simp only [Bool.and_eq_true, decide_eq_true_eq, Bool.not_eq_true'] at hcond
        have hfill := env_filled.mpr hcond.1
        obtain ⟨x, hx1, hx2, hx3⟩ := hfill
        have hcol : decide (ptr (activeSide s) p ∈ s.collapsed) = false := by
          rw [← List.contains_eq_mem]
          exact hcond.2
        have hkid := kid_visible hpm hx1 hx2 hcol hx3
        obtain ⟨B', hB⟩ := next_shown hvis hkid.1 hkid.2 (fun r hr => kid_first (hBlt r hr))
        have hc : c = ptr (activeSide s) (p ++ [0]) := by
          rw [← Option.some.inj hf]
          cases activeSide s <;> rfl
        rw [hdn] at hk
        unfold firstChild at hk
        rw [hsel] at hk
        dsimp only at hk
        rw [if_pos (by simp only [Bool.and_eq_true, decide_eq_true_eq, Bool.not_eq_true']; exact hcond), show child (ptr (activeSide s) p) 0 = ptr (activeSide s) (p ++ [0]) by
          cases activeSide s <;> rfl] at hk
        obtain ⟨h1, h2, h3, h4⟩ := set_step hk h
        refine ⟨p ++ [0], h3, h4, h1, h2, hset, ?_, ?_, .inr hkid.2⟩
        · intro r B'' hB' _
          rw [hB] at hB'
          exact (List.cons.inj hB').1
        · intro hB'
          rw [hB] at hB'
          cases hB'
      · cases hf
    | none =>
      rw [hdn, hf, env_next] at hk
      have hk' : evalKey env n name pat s = some (.redraw (setSelection env (some (ptr (activeSide s) ((Nav.findNext (env.root (activeSide s)) p).getD p))) s)) := by
        rw [hk]
        cases Nav.findNext (env.root (activeSide s)) p <;> rfl
      obtain ⟨h1, h2, h3, h4⟩ := set_step hk' h
      have hpd := page_down (env.root (activeSide s)) p hpe
      refine ⟨_, h3, h4, h1, h2, hset, ?_, ?_, ?_⟩
      · rintro r B' rfl (hon | ⟨hent, hin⟩)
        · exact absurd hon (hno r List.mem_cons_self)
        · -- the next item is behind
          have hrm : r ∈ shownIn env (activeSide s) s := by rw [hvis]; simp
          have hrlt := hBlt r List.mem_cons_self
          have hnp : ¬ p <+: r := by
            intro hpre
            obtain ⟨u, rfl⟩ := hpre
            obtain ⟨⟨y, hy⟩, hpar, hopen⟩ := (mem_visible _ _ _).mp hrm
            obtain ⟨x, hx⟩ := hpe
            cases u with
            | nil => rw [List.append_nil] at hrlt; exact path_lt_irrefl _ hrlt
            | cons i u =>
              have hkid : x.kids ≠ [] := by
                intro hk
                rw [elem, Verif.Lemmas.Split.at_append (Elem.value (env.root (activeSide s))) p, show (Elem.value (env.root (activeSide s))).at p = some x from hx] at hy
                simp [Elem.at, hk] at hy
              have hne : p ≠ p ++ i :: u := fun h => absurd (congrArg List.length h) (by simp)
              cases x with
              | value v =>
                have hcont : (Elem.value v).isContainer = true := by
                  cases v <;> first | rfl | exact absurd rfl hkid
                have hcol := hopen p (.value v) (List.prefix_append _ _) hne hx hcont
                have hfill := env_filled.mp (⟨.value v, hx, hcont, hkid⟩ : Filled (env.root (activeSide s)) p)
                unfold firstChild at hf
                rw [hsel] at hf
                dsimp only at hf
                rw [if_pos] at hf
                · cases hf
                · simp only [Bool.and_eq_true, decide_eq_true_eq, Bool.not_eq_true']
                  refine ⟨hfill, ?_⟩
                  rw [List.contains_eq_mem]
                  exact hcol
              | entry key v =>
                have hy' := hy
                rw [elem, Verif.Lemmas.Split.at_append (Elem.value (env.root (activeSide s))) p, show (Elem.value (env.root (activeSide s))).at p = some (.entry key v) from hx] at hy'
                have hi : i = 0 := by
                  cases i with
                  | zero => rfl
                  | succ i => simp [Elem.at, Elem.kids] at hy'
                subst hi
                have hv : elem (env.root (activeSide s)) (p ++ [0]) = some (.value v) := by
                  rw [elem, Verif.Lemmas.Split.at_append (Elem.value (env.root (activeSide s))) p, show (Elem.value (env.root (activeSide s))).at p = some (.entry key v) from hx]
                  rfl
                cases u with
                | nil =>
                  rcases hpar with hpar | ⟨c, hc, hcc⟩
                  · simp at hpar
                  · rw [List.dropLast_concat, hx] at hc
                    cases hc
                    cases hcc
                | cons j u =>
                  have hkv : (Elem.value v).kids ≠ [] := by
                    intro hk
                    have hy2 : (Elem.value v).at (j :: u) = some y := hy'
                    simp [Elem.at, hk] at hy2
                  have hcont : (Elem.value v).isContainer = true := by
                    cases v <;> first | rfl | exact absurd rfl hkv
                  have hcol := hopen (p ++ [0]) (.value v) (by rw [show p ++ 0 :: j :: u = p ++ [0] ++ j :: u by simp]; exact List.prefix_append _ _)
                    (fun h => absurd (congrArg List.length h) (by simp)) hv hcont
                  have := hent key v hx ⟨.value v, hv, hcont, hkv⟩
                  simp only [decide_eq_false_iff_not] at hcol
                  exact hcol this
          have hbeh : Moves.Behind (env.root (activeSide s)) p r := ⟨((mem_visible _ _ _).mp hrm).1, hrlt, hnp, hin⟩
          rcases hpd with ⟨⟨_, g, _⟩, hmin⟩ | ⟨g, _⟩
          · cases hq : Nav.findNext (env.root (activeSide s)) p with
            | none =>
              rw [hq] at g
              exact absurd g (path_lt_irrefl _)
            | some q =>
              rw [hq] at hmin g
              have hqv := next_visible hpm hq
              obtain ⟨B2, hB2⟩ : ∃ B2, r :: B' = q :: B2 := by
                refine next_shown hvis hqv g (fun r' hr' => ?_)
                rcases hmin r hbeh with h | h
                · rcases List.mem_cons.mp hr' with rfl | hr'
                  · exact .inl h
                  · refine .inr ?_
                    have hs := visible_sorted (fun q => decide (ptr (activeSide s) q ∈ s.collapsed)) (env.root (activeSide s))
                    unfold shownIn at hvis
                    rw [hvis, List.pairwise_append] at hs
                    have hl := (List.pairwise_cons.mp (List.pairwise_cons.mp hs.2.1).2).1 r' hr'
                    have h : q = r := h
                    rw [h]
                    exact hl
                · rcases List.mem_cons.mp hr' with rfl | hr'
                  · exact .inr h
                  · refine .inr (path_trans h ?_)
                    have hs := visible_sorted (fun q => decide (ptr (activeSide s) q ∈ s.collapsed)) (env.root (activeSide s))
                    unfold shownIn at hvis
                    rw [hvis, List.pairwise_append] at hs
                    exact (List.pairwise_cons.mp (List.pairwise_cons.mp hs.2.1).2).1 r' hr'
              exact (List.cons.inj hB2).1.symm
          · exact absurd hbeh (g r)
      · intro hB
        subst hB
        cases hq : Nav.findNext (env.root (activeSide s)) p with
        | none => rfl
        | some q =>
          have hqv := next_visible hpm hq
          have hlt := ((C43_next_partial _ p hpe).1 q hq).1.2.1
          obtain ⟨B', hB⟩ := next_shown hvis hqv hlt (fun r hr => by cases hr)
          cases hB
      · rcases hpd with ⟨⟨_, g, _⟩, _⟩ | ⟨_, g⟩
        · exact .inr g
        · exact .inl g

/-- `{"a":[1,2],"b":3}`, twice. -/
def downDocs : Env := splitEnv (.obj [(b!"a", .arr [.int 1, .int 2]), (b!"b", .int 3)]) (.obj [(b!"a", .arr [.int 1, .int 2]), (b!"b", .int 3)])

/-- **C111 does not hold.** On a terminal of 6 lines, with `{"a":[1,2],"b":3}` on both sides, Down leads from the root to the entry `a` and from there to the entry `b`: the
items of the array, which is open, are left out. On a terminal of 8 lines Down leads to the second item of the array, and stays there, however often it is pressed: the
entry `b` is not reached. -/
theorem C111_down_false :
    (∃ s t, Reached downDocs 60 60 80 6 noSearch s ∧ Settled downDocs 60 60 s ∧ s.active.sel = some (ptr (activeSide s) [0]) ∧
      shownIn downDocs (activeSide s) s = [[]] ++ [0] :: [[0, 0, 0], [0, 0, 1], [1]] ∧
      step downDocs 60 60 (skey b!"J") s = some (.nextInput t) ∧ t.active.sel = some (ptr (activeSide s) [1])) ∧
    ∃ s, Reached downDocs 60 60 80 8 noSearch s ∧ Settled downDocs 60 60 s ∧ s.active.sel = some (ptr (activeSide s) [0, 0, 1]) ∧
      shownIn downDocs (activeSide s) s = [[], [0], [0, 0, 0]] ++ [0, 0, 1] :: [[1]] ∧
      ∀ j, session downDocs 60 60 (List.replicate j (skey b!"J")) s = some s := by
  have hrch : ∀ (rows : Nat) (l : List Split.Input), (∀ i ∈ l, i = skey b!"J") → ∀ s, sessionFrom downDocs 60 60 80 rows l = some s → Reached downDocs 60 60 80 rows noSearch s := by
    intro rows l hl s hs
    exact reached_from _ (fun i hi _ name pat he => by
      rw [hl i hi] at he
      cases he
      decide) hs
  constructor
  · obtain ⟨s, hs, hp⟩ := session_some (env := downDocs) (n := 60) (k := 60) (cols := 80) (rows := 6) (l := [skey b!"J"])
      (p := fun s => decide (s.active.sel = some (ptr (activeSide s) [0])) &&
        decide (shownIn downDocs (activeSide s) s = [[]] ++ [0] :: [[0, 0, 0], [0, 0, 1], [1]]) &&
        match step downDocs 60 60 (skey b!"J") s with
        | some (.nextInput t) => decide (t.active.sel = some (ptr (activeSide s) [1]))
        | _ => false) (by decide +kernel)
    simp only [Bool.and_eq_true, decide_eq_true_eq] at hp
    obtain ⟨⟨h1, h2⟩, hp⟩ := hp
    have hr := hrch 6 _ (by simp) s hs
    split at hp
    · next t ht => exact ⟨s, t, hr, settled_reached hr, h1, h2, ht, of_decide_eq_true hp⟩
    · cases hp
  · obtain ⟨s, hs, hp⟩ := session_some (env := downDocs) (n := 60) (k := 60) (cols := 80) (rows := 8) (l := [skey b!"J", skey b!"J", skey b!"J", skey b!"J"])
      (p := fun s => decide (s.active.sel = some (ptr (activeSide s) [0, 0, 1])) &&
        decide (shownIn downDocs (activeSide s) s = [[], [0], [0, 0, 0]] ++ [0, 0, 1] :: [[1]]) &&
        decide (step downDocs 60 60 (skey b!"J") s = some (.nextInput s))) (by decide +kernel)
    simp only [Bool.and_eq_true, decide_eq_true_eq] at hp
    obtain ⟨⟨h1, h2⟩, hp⟩ := hp
    have hr := hrch 8 _ (by simp) s hs
    refine ⟨s, hr, settled_reached hr, h1, h2, fun j => ?_⟩
    induction j with
    | zero => rfl
    | succ j ih =>
      rw [List.replicate_succ, session, hp]
      exact ih

/-- From the root of the same documents Down leads to the entry `a`, which is on the screen, and from the first item of the array to the second. -/
example : ∃ s, Reached downDocs 60 60 80 8 noSearch s ∧ Settled downDocs 60 60 s ∧ s.active.sel = some (ptr (activeSide s) [0, 0, 0]) ∧
    shownIn downDocs (activeSide s) s = [[], [0]] ++ [0, 0, 0] :: [[0, 0, 1], [1]] ∧
    (∀ key v, elem (downDocs.root (activeSide s)) [0, 0, 0] = some (.entry key v) → Filled (downDocs.root (activeSide s)) ([0, 0, 0] ++ [0]) →
      ptr (activeSide s) ([0, 0, 0] ++ [0]) ∈ s.collapsed) ∧
    OnScreen s.active (ptr (activeSide s) [0, 0, 1]) := by
  obtain ⟨s, hs, hp⟩ := session_some (env := downDocs) (n := 60) (k := 60) (cols := 80) (rows := 8) (l := [skey b!"J", skey b!"J"])
    (p := fun s => decide (s.selected = 0) && decide (s.active.sel = some (ptr (activeSide s) [0, 0, 0])) &&
      decide (shownIn downDocs (activeSide s) s = [[], [0]] ++ [0, 0, 0] :: [[0, 0, 1], [1]]) &&
      s.active.screen.any fun c => decide (c.who = ptr (activeSide s) [0, 0, 1]) && !c.closing) (by decide +kernel)
  simp only [Bool.and_eq_true, decide_eq_true_eq] at hp
  obtain ⟨⟨⟨h0, h1⟩, h2⟩, hp⟩ := hp
  have hr : Reached downDocs 60 60 80 8 noSearch s := reached_from _ (fun i hi _ name pat he => by
    simp only [List.mem_cons, List.not_mem_nil, or_false, or_self] at hi
    rw [hi] at he
    cases he
    decide) hs
  obtain ⟨c, hc, hp⟩ := List.any_eq_true.mp hp
  simp only [Bool.and_eq_true, decide_eq_true_eq, Bool.not_eq_true'] at hp
  refine ⟨s, hr, settled_reached hr, h1, h2, ?_, c, hc, hp⟩
  intro key v h
  have : activeSide s = false := by unfold activeSide; simp [h0]
  rw [this] at h
  cases h

end Verif.Props
