import Verif.Lemmas.SplitReal
import Verif.Props.SplitPicture
import Verif.Props.SplitSearch
/-! # C79, C97: the searches of the diff view in every session -/
namespace Verif.Lemmas.Split
open Verif.Model Verif.Model.Diff Verif.Model.Split Verif.Spec Verif.Spec.SplitView

theorem foreign_ptr (side : Bool) (sp p : Path) : decide (some (ptr (!side) sp) = some (ptr side p)) = false := by
  cases side <;> simp [ptr]

section
variable (results : List Ptr) (sp : Path) (sel : Option Ptr) (side : Bool)
mutual
/-- If the selection is in the other document nothing is found in this one. -/
theorem jumpValue_foreign : ∀ (v : Json) (p : Path), Split.jumpValue results (some (ptr (!side) sp)) sel side p false v = (false, none)
  | .arr xs, p => by
    rw [Split.jumpValue, foreign_ptr]
    exact jumpItems_foreign xs p 0
  | .obj es, p => by
    rw [Split.jumpValue, foreign_ptr]
    exact jumpEntries_foreign es p 0
  | .str _, p => by simp only [Split.jumpValue, foreign_ptr]; simp
  | .bool _, p => by simp only [Split.jumpValue, foreign_ptr]; simp
  | .null, p => by simp only [Split.jumpValue, foreign_ptr]; simp
  | .int _, p => by simp only [Split.jumpValue, foreign_ptr]; simp
  | .long _, p => by simp only [Split.jumpValue, foreign_ptr]; simp
  | .dbl _, p => by simp only [Split.jumpValue, foreign_ptr]; simp
theorem jumpItems_foreign : ∀ (xs : List Json) (p : Path) (i : Nat), Split.jumpItems results (some (ptr (!side) sp)) sel side p i false xs = (false, none)
  | [], p, i => by rw [Split.jumpItems]
  | x :: xs, p, i => by
    rw [Split.jumpItems, jumpValue_foreign x]
    exact jumpItems_foreign xs p (i + 1)
theorem jumpEntries_foreign : ∀ (es : List (Bytes × Json)) (p : Path) (i : Nat), Split.jumpEntries results (some (ptr (!side) sp)) sel side p i false es = (false, none)
  | [], p, i => by rw [Split.jumpEntries]
  | (k, v) :: es, p, i => by
    rw [Split.jumpEntries]
    rw [foreign_ptr, if_neg (by simp), Bool.or_self, jumpValue_foreign v]
    exact jumpEntries_foreign es p (i + 1)
end
end

/-- Where the search goes on. -/
theorem jump_any (env : Env) (pat : Search.Pattern) (side : Bool) {e : Ptr} (he : Real env e) :
    (∃ p q, e = ptr side p ∧ (Split.jumpValue (search env pat) (some e) (some e) side [] false (env.root side)).2 = some (ptr side q) ∧
      q ∈ (search env pat).filterMap (positionIn side) ∧ p < q ∧ ∀ r ∈ (search env pat).filterMap (positionIn side), p < r → q = r ∨ q < r) ∨
    ((Split.jumpValue (search env pat) (some e) (some e) side [] false (env.root side)).2 = none ∧
      ∀ p, e = ptr side p → ∀ r ∈ (search env pat).filterMap (positionIn side), ¬ p < r) := by
  obtain ⟨side', p, x, rfl, hx⟩ := he
  by_cases hs : side' = side
  · subst hs
    rw [jumpValue_side]
    have hj := Lemmas.jump_next (env.root side') _ (fun q hq => (Props.results_elems env.rx env.fmt pat _ q hq).2) p ⟨x, hx⟩
    rw [← hits_search] at hj
    rcases hj with ⟨q, h1, h2, h3, h4⟩ | ⟨h1, h2⟩
    · exact .inl ⟨p, q, rfl, by rw [onSide, h1]; rfl, h2, h3, h4⟩
    · refine .inr ⟨by rw [onSide, h1]; rfl, fun p' hp => ?_⟩
      rw [ptr_eq] at hp
      subst hp
      exact h2
  · have : side' = !side := by cases side <;> cases side' <;> simp_all
    subst this
    refine .inr ⟨by rw [jumpValue_foreign], fun p' hp => ?_⟩
    cases side <;> simp [ptr] at hp

/-- Going to the next result, in every session. -/
theorem next_any {env : Env} {n : Nat} {s t : St} {a : Answer} (h : nextResult env n s = some a) (ha : a = .redraw t ∨ a = .nextInput t)
    {e : Ptr} (hsel : s.active.sel = some e) (hlast : s.active.last = some e) (he : Real env e) {pat : Search.Pattern} (hres : s.active.results = search env pat)
    (hne : s.active.results ≠ []) :
    ∃ f, t.active.sel = some f ∧ t.collapsed = unfold f s.collapsed ∧ t.active.results = s.active.results ∧ t.selected = s.selected ∧
      ((∃ p q, e = ptr (activeSide s) p ∧ f = ptr (activeSide s) q ∧ q ∈ s.active.results.filterMap (positionIn (activeSide s)) ∧ p < q ∧
        ∀ r ∈ s.active.results.filterMap (positionIn (activeSide s)), p < r → q = r ∨ q < r) ∨
      ((∀ p, e = ptr (activeSide s) p → ∀ r ∈ s.active.results.filterMap (positionIn (activeSide s)), ¬ p < r) ∧ s.active.results.head? = some f)) := by
  have hj := jump_any env pat (activeSide s) he
  rw [← hres] at hj
  unfold nextResult at h
  cases hr : s.active.results with
  | nil => exact absurd hr hne
  | cons q0 l =>
    have hsd : decide (s.selected ≠ 0) = activeSide s := rfl
    rw [hr] at h
    dsimp only at h
    rw [← hr, hsd, hsel, hlast] at h
    rw [← hr]
    rcases hj with ⟨p, q, h0, h1, h2, h3, h4⟩ | ⟨h1, h2⟩
    · rw [h1] at h
      simp only [Option.some.injEq] at h
      subst h
      rcases ha with ha | ha <;> cases ha
      refine ⟨ptr (activeSide s) q, ?_, ?_, ?_, ?_, .inl ⟨p, q, h0, rfl, h2, h3, h4⟩⟩
      · exact congrArg Win.sel (set_active env (some (ptr (activeSide s) q)) s).1
      · exact congrArg (unfold _) (set_collapsed env _ s)
      · have := congrArg Win.results (set_active env (some (ptr (activeSide s) q)) s).1
        exact this
      · exact set_selected env _ s
    · rw [h1] at h
      rcases ha with rfl | rfl
      · exact absurd h message_not_redraw
      obtain ⟨k0, k1, hs, hc⟩ := message_spec h
      have hact : Keeps (setSelection env (some q0) s).active t.active := by
        unfold St.active St.at
        dsimp only at hs
        rw [hs]
        split
        · exact k0
        · exact k1
      obtain ⟨e1, e2, e3⟩ := hact
      rw [(set_active env _ s).1] at e1 e3
      refine ⟨q0, e1, ?_, e3, hs.trans (set_selected env _ s), .inr ⟨h2, by rw [hr]; rfl⟩⟩
      rw [hc]; exact congrArg (unfold _) (set_collapsed env _ s)

theorem sel_is_last {s : St} (h : SelLast s) {e : Ptr} (he : s.active.sel = some e) : s.active.last = some e := by
  unfold St.active St.at at he ⊢
  split
  · next h0 => rw [if_pos h0] at he; exact h.1 _ he
  · next h0 => rw [if_neg h0] at he; exact h.2 _ he

end Verif.Lemmas.Split

namespace Verif.Props
open Verif.Model Verif.Model.Search Verif.Model.Diff Verif.Model.Split Verif.Model.SplitPaint Verif.Model.Term Verif.Spec Verif.Spec.SplitView Verif.Lemmas Verif.Lemmas.Split

/-- **C79, exactly.** In every session: if there are results after `N` or after `/` and a pattern, then the selection is the next hit after the one before, in the document of
the active window, if it was in that document and there is such a hit; in all other cases it is the first one of the results (`C79_results`), which may be in the other document.
Every container around the new selection is open; the others are as they were. -/
theorem C79_exactly_partial (env : Env) (hc : Compared env) (n k cols rows : Nat) (ok : St → Split.Input → Prop) (s t : St) (h : Reached env n k cols rows ok s)
    (name : Bytes) (pat : Option Pattern) (hkey : name = b!"N" ∨ name = b!"/" ∧ ∃ p, pat = some p ∧ p.pattern ≠ [])
    (ht : step env n k (.key name pat) s = some (.nextInput t)) (hne : t.active.results ≠ []) :
    ∃ e, t.active.sel = some e ∧ (∀ a, a ∈ t.collapsed ↔ a ∈ s.collapsed ∧ ¬ Around a e) ∧
      ((∃ p q, s.active.sel = some (ptr (activeSide s) p) ∧ e = ptr (activeSide s) q ∧ q ∈ t.active.results.filterMap (positionIn (activeSide s)) ∧ p < q ∧
        ∀ r ∈ t.active.results.filterMap (positionIn (activeSide s)), p < r → q = r ∨ q < r) ∨
      ((∀ p, s.active.sel = some (ptr (activeSide s) p) → ∀ r ∈ t.active.results.filterMap (positionIn (activeSide s)), ¬ p < r) ∧ t.active.results.head? = some e)) := by
  obtain ⟨e, he⟩ := Option.ne_none_iff_exists'.mp (has_reached h).sel
  have hreal := (real_reached hc h).active.sel e he
  have hlast := sel_is_last (selLast_reached h) he
  obtain ⟨a, u, hev, ha, k0, k1, hsel, hcol⟩ := step_key ht
  have hact := keeps_active k0 k1 hsel
  have fin : ∀ s0 : St, s0.active.sel = s.active.sel → s0.active.last = s.active.last → s0.selected = s.selected → s0.collapsed = s.collapsed →
      nextResult env n s0 = some a → (s0.active.results = [] ∨ ∃ pat, s0.active.results = search env pat) →
      ∃ e, t.active.sel = some e ∧ (∀ a, a ∈ t.collapsed ↔ a ∈ s.collapsed ∧ ¬ Around a e) ∧
      ((∃ p q, s.active.sel = some (ptr (activeSide s) p) ∧ e = ptr (activeSide s) q ∧ q ∈ t.active.results.filterMap (positionIn (activeSide s)) ∧ p < q ∧
        ∀ r ∈ t.active.results.filterMap (positionIn (activeSide s)), p < r → q = r ∨ q < r) ∨
      ((∀ p, s.active.sel = some (ptr (activeSide s) p) → ∀ r ∈ t.active.results.filterMap (positionIn (activeSide s)), ¬ p < r) ∧ t.active.results.head? = some e)) := by
    intro s0 e1 e2 e3 e4 hn hres
    have e5 : activeSide s0 = activeSide s := by unfold activeSide; rw [e3]
    by_cases hr : s0.active.results = []
    · exfalso
      apply hne
      rw [hact.2.2]
      unfold nextResult at hn
      rw [hr] at hn
      dsimp only at hn
      rcases ha with rfl | rfl
      · exact absurd hn message_not_redraw
      · obtain ⟨j0, j1, hs', _⟩ := message_spec hn
        rw [(keeps_active j0 j1 hs').2.2, hr]
    · obtain ⟨pat', hres⟩ := hres.resolve_left hr
      obtain ⟨f, h1, h2, h3, -, h5⟩ := next_any hn ha (e := e) (pat := pat') (by rw [e1]; exact he) (by rw [e2]; exact hlast) hreal hres hr
      rw [e5] at h5
      refine ⟨f, by rw [hact.1]; exact h1, ?_, ?_⟩
      · intro a
        rw [hcol, h2, mem_unfold, e4]
      · rw [hact.2.2, h3]
        rcases h5 with ⟨p, q, g1, g2⟩ | ⟨g1, g2⟩
        · exact .inl ⟨p, q, by rw [he, g1], g2⟩
        · exact .inr ⟨fun p hp => g1 p (by rw [he] at hp; exact Option.some.inj hp), g2⟩
  rcases hkey with rfl | ⟨rfl, pt, rfl, hpt⟩
  · rw [key_n] at hev
    exact fin s rfl rfl rfl rfl hev (from_active (from_reached h))
  · rw [key_slash] at hev
    unfold initSearch at hev
    dsimp only at hev
    rw [if_neg (by simpa using hpt)] at hev
    have hset : ∀ (v : St) (w : Win), (v.set v.selected w).active = w ∧ (v.set v.selected w).selected = v.selected ∧ (v.set v.selected w).collapsed = v.collapsed := by
      intro v w
      unfold St.set St.active St.at
      by_cases hz : v.selected = 0 <;> simp [hz]
    obtain ⟨c1, c2, c3⟩ := hset { s with first := { s.first with results := [] }, second := { s.second with results := [] } }
      { ({ s with first := { s.first with results := [] }, second := { s.second with results := [] } } : St).active with results := search env pt }
    refine fin _ ?_ ?_ c2 c3 hev ?_
    · rw [c1]; unfold St.active St.at; split <;> rfl
    · rw [c1]; unfold St.active St.at; split <;> rfl
    · exact .inr ⟨pt, by rw [c1]⟩

/-- Both cases: in the second window a search goes to a hit of its own document; `N` then goes to the first hit of the other one, and once more `N`, from there, to the same. -/
example : ∃ s t u, Reached sample 50 50 80 24 anyInput s ∧ s.selected = 1 ∧ s.active.sel = some (.right [1, 0]) ∧ step sample 50 50 (skey b!"N") s = some (.nextInput t) ∧
    t.active.sel = some (.left [1, 0]) ∧ t.active.results.head? = some (.left [1, 0]) ∧ Reached sample 50 50 80 24 anyInput t ∧
    step sample 50 50 (skey b!"N") t = some (.nextInput u) ∧ u.active.sel = some (.left [1, 0]) := by
  obtain ⟨s, hs, hp⟩ := session_some (env := sample) (n := 50) (k := 50) (cols := 80) (rows := 24) (l := [skey b!"^W-W", sfind b!"4"])
    (p := fun s => decide (s.selected = 1 ∧ s.active.sel = some (.right [1, 0])) && (match step sample 50 50 (skey b!"N") s with
      | some (.nextInput t) => decide (t.active.sel = some (.left [1, 0]) ∧ t.active.results.head? = some (.left [1, 0])) && (match step sample 50 50 (skey b!"N") t with
        | some (.nextInput u) => decide (u.active.sel = some (.left [1, 0]))
        | _ => false)
      | _ => false)) (by decide +kernel)
  rw [Bool.and_eq_true, decide_eq_true_iff] at hp
  obtain ⟨h1, hp⟩ := hp
  have hr : Reached sample 50 50 80 24 anyInput s := reached_from _ (fun _ _ _ => trivial) hs
  split at hp
  · next t ht =>
    rw [Bool.and_eq_true, decide_eq_true_iff] at hp
    obtain ⟨h2, hp⟩ := hp
    split at hp
    · next u hu =>
      rw [decide_eq_true_iff] at hp
      exact ⟨s, t, u, hr, h1.1, h1.2, ht, h2.1, h2.2, .input _ hr trivial ht, hu, hp⟩
    · cases hp
  · cases hp

/-- What is said by N, in every session. -/
theorem splitNextResultOn_any {look : Looks} {env : Env} {n : Nat} {s : St} {d : Display} {e : Ptr} (hsel : s.active.sel = some e)
    (hlast : s.active.last = some e) (he : Real env e) (hres : s.active.results = [] ∨ ∃ pat, s.active.results = search env pat)
    {a : Answer} {d' : Display} {m : Option Bytes} (h : nextResultOn look env n s d = some (a, d', m)) :
    (∀ t, a = .nextInput t → (s.active.results = [] ∧ m = some Paint.notFound) ∨
      (s.active.results ≠ [] ∧ (∀ p, e = ptr (activeSide s) p → ∀ q ∈ s.active.results.filterMap (positionIn (activeSide s)), ¬ p < q) ∧ m = some Paint.wrapped)) ∧
    (∀ t, a = .redraw t → ∃ p, e = ptr (activeSide s) p ∧ ∃ q ∈ s.active.results.filterMap (positionIn (activeSide s)), p < q) := by
  unfold nextResultOn at h
  cases hr : s.active.results with
  | nil =>
    simp only [hr] at h
    refine ⟨fun t ha => .inl ⟨rfl, ?_⟩, fun t ha => ?_⟩
    · subst ha; exact splitMessageOn_msg h
    · subst ha; exact absurd h splitMessageOn_not_redraw
  | cons q0 l =>
    obtain ⟨pat, hpat⟩ := hres.resolve_left (by rw [hr]; simp)
    have hj := jump_any env pat (activeSide s) he
    rw [← hpat] at hj
    have hsd : decide (s.selected ≠ 0) = activeSide s := rfl
    rw [hr] at h
    dsimp only at h
    rw [← hr, hsd, hsel, hlast] at h
    rw [← hr]
    rcases hj with ⟨p, q, h0, h1, h2, h3, h4⟩ | ⟨h1, h2⟩
    · rw [h1] at h
      simp only [Option.some.injEq, Prod.mk.injEq] at h
      refine ⟨fun t ha => ?_, fun t ha => ⟨p, h0, q, h2, h3⟩⟩
      subst ha; cases h.1
    · rw [h1] at h
      refine ⟨fun t ha => .inr ⟨by rw [hr]; simp, h2, ?_⟩, fun t ha => ?_⟩
      · subst ha; exact splitMessageOn_msg h
      · subst ha; exact absurd h splitMessageOn_not_redraw

/-- The results that a search goes through, of both documents. -/
def splitFound (env : Env) (s : St) : Split.Input → List Ptr
  | .key name pat => if name = b!"N" then s.active.results else match pat with
      | some p => search env p
      | none => []
  | .resize _ _ => []

/-- **C97, exactly.** In every session: after a search, or N, there is the message "Pattern not found" if neither document has a match; no message if the selection was in the
document of the active window and that one has a match after it; and "Search hit BOTTOM, continuing at TOP" in all other cases. -/
theorem C97_exactly_partial (look : Looks) (env : Env) (hcmp : Compared env) (n k cols rows : Nat) (ok : St → Split.Input → Prop) (s t : St) (d d' : Display) (m m' : Option Bytes)
    (h : Watched look env n k cols rows ok s d m) (i : Split.Input) (hs : stepOn look env n k i s d m = some (.nextInput t, d', m')) (hi : splitSearches i) :
    (splitFound env s i = [] → m' = some b!"Pattern not found") ∧
    ((∃ p, s.active.sel = some (ptr (activeSide s) p) ∧ ∃ q ∈ (splitFound env s i).filterMap (positionIn (activeSide s)), p < q) → m' = none) ∧
    (splitFound env s i ≠ [] → (¬ ∃ p, s.active.sel = some (ptr (activeSide s) p) ∧ ∃ q ∈ (splitFound env s i).filterMap (positionIn (activeSide s)), p < q) →
      m' = some b!"Search hit BOTTOM, continuing at TOP") := by
  have hre := watched_reached h
  obtain ⟨e, he⟩ := Option.ne_none_iff_exists'.mp (has_reached hre).sel
  have hreal := (real_reached hcmp hre).active.sel e he
  have hlast := sel_is_last (selLast_reached hre) he
  have after : ∀ (s1 : St) (d1 : Display), ((settleOn look env n k s1 d1).map fun r => match r with
      | none => (Answer.crash, d1, (none : Option Bytes))
      | some (s, d) => (.nextInput s, d, none)) = some (.nextInput t, d', m') → m' = none := by
    intro s1 d1 h1
    obtain ⟨r, hr, h2⟩ := Option.map_eq_some_iff.mp h1
    cases r with
    | none => cases h2
    | some r => obtain ⟨u, e⟩ := r; cases h2; rfl
  have fin : ∀ (s0 : St), s0.active.sel = s.active.sel → s0.active.last = s.active.last → s0.selected = s.selected →
      (s0.active.results = [] ∨ ∃ pat, s0.active.results = search env pat) →
      (match nextResultOn look env n s0 d with
        | none => none
        | some (.redraw s, d, _) => ((settleOn look env n k s d).map fun r => match r with
          | none => (Answer.crash, d, (none : Option Bytes))
          | some (s, d) => (.nextInput s, d, none))
        | some a => some a) = some (.nextInput t, d', m') →
      (s0.active.results = [] → m' = some b!"Pattern not found") ∧
      ((∃ p, s.active.sel = some (ptr (activeSide s) p) ∧ ∃ q ∈ s0.active.results.filterMap (positionIn (activeSide s)), p < q) → m' = none) ∧
      (s0.active.results ≠ [] → (¬ ∃ p, s.active.sel = some (ptr (activeSide s) p) ∧ ∃ q ∈ s0.active.results.filterMap (positionIn (activeSide s)), p < q) →
        m' = some b!"Search hit BOTTOM, continuing at TOP") := by
    intro s0 e1 e2 e3 hres h1
    have e5 : activeSide s0 = activeSide s := by unfold activeSide; rw [e3]
    cases hn : nextResultOn look env n s0 d with
    | none => rw [hn] at h1; cases h1
    | some r =>
      obtain ⟨a, d1, m1⟩ := r
      have hm := splitNextResultOn_any (e := e) (by rw [e1]; exact he) (by rw [e2]; exact hlast) hreal hres hn
      rw [e5] at hm
      rw [hn] at h1
      cases a with
      | crash => cases h1
      | quit => cases h1
      | redraw s1 =>
        obtain ⟨p, hp, q, hq1, hq2⟩ := hm.2 s1 rfl
        exact ⟨fun h0 => (by rw [h0] at hq1; cases hq1), fun _ => after _ _ h1, fun _ hno => absurd ⟨p, by rw [he, hp], q, hq1, hq2⟩ hno⟩
      | nextInput s1 =>
        cases h1
        rcases hm.1 _ rfl with ⟨h2, h3⟩ | ⟨h2, h3, h4⟩
        · exact ⟨fun _ => h3, fun ⟨p, _, q, hq, _⟩ => (by rw [h2] at hq; cases hq), fun h0 => absurd h2 h0⟩
        · refine ⟨fun h0 => absurd h0 h2, fun ⟨p, hp, q, hq1, hq2⟩ => ?_, fun _ _ => h4⟩
          rw [he] at hp
          exact absurd hq2 (h3 p (Option.some.inj hp) q hq1)
  cases i with
  | resize c r => exact hi.elim
  | key name pat =>
    simp only [stepOn] at hs
    unfold evalKeyOn at hs
    rcases hi with rfl | ⟨rfl, pt, rfl, hpt⟩
    · rw [if_neg (by decide), if_pos rfl] at hs
      have hh : ∀ pat, splitFound env s (.key b!"N" pat) = s.active.results := by
        intro pat
        simp only [splitFound, if_true]
      rw [hh]
      exact fin s rfl rfl rfl (from_active (from_reached hre)) hs
    · rw [if_pos rfl] at hs
      unfold initSearchOn at hs
      simp only at hs
      rw [if_neg (by rw [List.isEmpty_iff]; exact hpt)] at hs
      have hset : ∀ (v : St) (w : Win), (v.set v.selected w).active = w ∧ (v.set v.selected w).selected = v.selected := by
        intro v w
        unfold St.set St.active St.at
        by_cases hz : v.selected = 0 <;> simp [hz]
      obtain ⟨c1, c2⟩ := hset { s with first := { s.first with results := [] }, second := { s.second with results := [] } }
        { ({ s with first := { s.first with results := [] }, second := { s.second with results := [] } } : St).active with results := search env pt }
      have := fin _ (by rw [c1]; unfold St.active St.at; split <;> rfl) (by rw [c1]; unfold St.active St.at; split <;> rfl) c2 (.inr ⟨pt, by rw [c1]⟩) hs
      rw [c1] at this
      have hh : splitFound env s (.key b!"/" (some pt)) = search env pt := by
        simp only [splitFound]
        rw [if_neg (by decide)]
      rw [hh]
      exact this

/-- The third case: the only match is in the other document (see `C97_message_false` for the session). The first: there is none at all. -/
example : ∃ look env s d s' d' s'' d'', Compared env ∧ Watched look env 50 50 24 7 anyInput s d none ∧ splitSearches (sfind b!"y") ∧ splitFound env s (sfind b!"y") ≠ [] ∧
    splitFound env s (sfind b!"zz") = [] ∧
    stepOn look env 50 50 (sfind b!"y") s d none = some (.nextInput s', d', some b!"Search hit BOTTOM, continuing at TOP") ∧
    stepOn look env 50 50 (sfind b!"zz") s d none = some (.nextInput s'', d'', some b!"Pattern not found") := by
  obtain ⟨s, d, m, h, hp⟩ := watchSplitFrom_some (look := aAndB) (env := changed) (n := 50) (k := 50) (cols := 24) (rows := 7) (l := []) anyInput (fun _ _ _ => trivial)
    (p := fun s d m => decide (m = none ∧ splitFound changed s (sfind b!"y") ≠ [] ∧ splitFound changed s (sfind b!"zz") = []) &&
      (match stepOn aAndB changed 50 50 (sfind b!"y") s d none with
      | some (.nextInput _, _, m') => decide (m' = some b!"Search hit BOTTOM, continuing at TOP")
      | _ => false) && (match stepOn aAndB changed 50 50 (sfind b!"zz") s d none with
      | some (.nextInput _, _, m') => decide (m' = some b!"Pattern not found")
      | _ => false)) (by decide +kernel)
  rw [Bool.and_eq_true, Bool.and_eq_true] at hp
  obtain ⟨⟨hp1, hp2⟩, hp3⟩ := hp
  obtain ⟨rfl, h0, h1⟩ := of_decide_eq_true hp1
  split at hp2
  · next s' d' m' hs =>
    have := of_decide_eq_true hp2
    subst this
    split at hp3
    · next s'' d'' m'' hs' =>
      have := of_decide_eq_true hp3
      subst this
      exact ⟨aAndB, changed, s, d, s', d', s'', d'', asciiEnv_compared (by decide +kernel), h, .inr ⟨rfl, _, rfl, by decide⟩, h0, h1, hs, hs'⟩
    · cases hp3
  · cases hp2

end Verif.Props
