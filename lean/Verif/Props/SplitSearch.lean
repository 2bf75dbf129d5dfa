import Verif.Lemmas.SplitNext
import Verif.Props.Split
/-! # C79: going through the results of a search in the diff view -/
namespace Verif.Props
open Verif.Model Verif.Model.Search Verif.Model.Diff Verif.Model.Split Verif.Spec Verif.Spec.SplitView Verif.Lemmas.Split

/-- **C79 does not hold**: after the last result of the second document `N` goes to the first one of the first document. -/
theorem C79_next_false : ¬ ∀ (env : Env), Compared env → ∀ (n k cols rows : Nat) (s t : St), Reached env n k cols rows anyInput s →
    step env n k (skey b!"N") s = some (.nextInput t) → t.active.results ≠ [] →
    ∃ p q, s.active.sel = some (ptr (activeSide s) p) ∧ t.active.sel = some (ptr (activeSide s) q) ∧
      NextHit (t.active.results.filterMap (positionIn (activeSide s))) p q := by
  intro h
  obtain ⟨s, hs, hp⟩ := session_some (env := sample) (n := 50) (k := 50) (cols := 80) (rows := 24) (l := [skey b!"^W-W", sfind b!"4"])
    (p := fun s => decide (s.selected = 1) && (match step sample 50 50 (skey b!"N") s with
      | some (.nextInput t) => decide (t.active.results ≠ [] ∧ t.active.sel = some (.left [1, 0]))
      | _ => false)) (by decide +kernel)
  rw [Bool.and_eq_true, decide_eq_true_iff] at hp
  obtain ⟨h1, hp⟩ := hp
  split at hp
  · next t ht =>
    rw [decide_eq_true_iff] at hp
    obtain ⟨p, q, _, hq, _⟩ := h sample sample_compared 50 50 80 24 s t (reached_from _ (fun _ _ _ => trivial) hs) ht hp.1
    rw [hp.2, activeSide, h1] at hq
    cases hq
  · cases hp

/-- **C79, in part.** In a session whose searches have their first hit in the document of the active window: if there are results after
`N` or after `/` and a pattern, the selection has moved to the next hit in the document of the active window (the first one if there is
none after the selection), and every container around it is open; the others are as they were. -/
theorem C79_next_partial (env : Env) (hc : Compared env) (n k cols rows : Nat) (s t : St) (h : Reached env n k cols rows (ownSearch env) s)
    (name : Bytes) (pat : Option Pattern) (hkey : name = b!"N" ∨ name = b!"/" ∧ ∃ p, pat = some p ∧ p.pattern ≠ [])
    (hok : ownSearch env s (.key name pat)) (ht : step env n k (.key name pat) s = some (.nextInput t)) (hne : t.active.results ≠ []) :
    ∃ p q, s.active.sel = some (ptr (activeSide s) p) ∧ t.active.sel = some (ptr (activeSide s) q) ∧
      NextHit (t.active.results.filterMap (positionIn (activeSide s))) p q ∧
      ∀ a, a ∈ t.collapsed ↔ a ∈ s.collapsed ∧ ¬ Around a (ptr (activeSide s) q) := by
  obtain ⟨e, he⟩ := Option.ne_none_iff_exists'.mp (has_reached h).sel
  obtain ⟨p, x, rfl, hx⟩ := (own_reached hc h).active.sel e he
  have hlast : s.active.last = some (ptr (activeSide s) p) := by
    have := selLast_reached h
    unfold St.active St.at at he ⊢
    split
    · next h0 => rw [if_pos h0] at he; exact this.1 _ he
    · next h0 => rw [if_neg h0] at he; exact this.2 _ he
  refine ⟨p, ?_⟩
  obtain ⟨a, u, hev, ha, k0, k1, hsel, hcol⟩ := step_key ht
  have hact := keeps_active k0 k1 hsel
  have fin : ∀ s0 : St, s0.active.sel = s.active.sel → s0.active.last = s.active.last → s0.selected = s.selected → s0.collapsed = s.collapsed →
      nextResult env n s0 = some a → (s0.active.results = [] ∨ ∃ pat, s0.active.results = search env pat) →
      (∀ q, s0.active.results.head? = some q → Owns env (activeSide s) q) →
      ∃ q, s.active.sel = some (ptr (activeSide s) p) ∧ t.active.sel = some (ptr (activeSide s) q) ∧
      NextHit (t.active.results.filterMap (positionIn (activeSide s))) p q ∧
      ∀ a, a ∈ t.collapsed ↔ a ∈ s.collapsed ∧ ¬ Around a (ptr (activeSide s) q) := by
    intro s0 e1 e2 e3 e4 hn hres hhead
    have e5 : activeSide s0 = activeSide s := by unfold activeSide; rw [e3]
    by_cases hr : s0.active.results = []
    · exfalso
      apply hne
      rw [hact.2.2]
      unfold nextResult at hn
      rw [hr] at hn
      dsimp only at hn
      rcases ha with rfl | rfl
      · exact absurd hn message_not_redraw
      · obtain ⟨j0, j1, hs', _⟩ := message_spec hn
        rw [(keeps_active j0 j1 hs').2.2, hr]
    · obtain ⟨pat', hres⟩ := hres.resolve_left hr
      obtain ⟨q, h1, h2, h3, h4, h5⟩ := next_result hn ha (p := p) (x := x) (pat := pat') (by rw [e1, e5]; exact he) (by rw [e2, e5]; exact hlast)
        (by rw [e5]; exact hx) hres (by rw [e5]; exact hhead) hr
      rw [e5] at h1 h2 h3
      refine ⟨q, he, by rw [hact.1]; exact h1, by rw [hact.2.2, h4]; exact h2, ?_⟩
      intro a
      rw [hcol, h3, mem_unfold, e4]
  rcases hkey with rfl | ⟨rfl, pt, rfl, hpt⟩
  · rw [key_n] at hev
    exact fin s rfl rfl rfl rfl hev (from_active (from_reached h)) (own_reached hc h).active.results
  · rw [key_slash] at hev
    unfold initSearch at hev
    dsimp only at hev
    rw [if_neg (by simpa using hpt)] at hev
    have hown : ∀ q, (search env pt).head? = some q → Owns env (activeSide s) q := fun q hq => owns_iff.mpr (hok pt q rfl hq)
    have hset : ∀ (v : St) (w : Win), (v.set v.selected w).active = w ∧ (v.set v.selected w).selected = v.selected ∧ (v.set v.selected w).collapsed = v.collapsed := by
      intro v w
      unfold St.set St.active St.at
      by_cases hz : v.selected = 0 <;> simp [hz]
    obtain ⟨c1, c2, c3⟩ := hset { s with first := { s.first with results := [] }, second := { s.second with results := [] } }
      { ({ s with first := { s.first with results := [] }, second := { s.second with results := [] } } : St).active with results := search env pt }
    refine fin _ ?_ ?_ c2 c3 hev ?_ ?_
    · rw [c1]; unfold St.active St.at; split <;> rfl
    · rw [c1]; unfold St.active St.at; split <;> rfl
    · exact .inr ⟨pt, by rw [c1]⟩
    · rw [c1]; exact hown

/-- A collapsed container is opened by `N`, in the second window. -/
example : ∃ s t, Reached sample 50 50 80 24 anyInput s ∧ step sample 50 50 (sfind b!"aaab") s = some (.nextInput t) ∧
    ownSearch sample s (sfind b!"aaab") ∧ s.collapsed = [.right [1], .left [1]] ∧ t.active.sel = some (.right [1, 1]) ∧ t.collapsed = [.left [1]] := by
  obtain ⟨s, hs, hp⟩ := session_some (env := sample) (n := 50) (k := 50) (cols := 80) (rows := 24) (l := [skey b!"^W-W", skey b!"J", skey b!"J", skey b!"H"])
    (p := fun s => decide (s.selected = 1) && (match step sample 50 50 (sfind b!"aaab") s with
      | some (.nextInput t) => decide (s.collapsed = [.right [1], .left [1]] ∧ t.active.sel = some (.right [1, 1]) ∧ t.collapsed = [.left [1]])
      | _ => false)) (by decide +kernel)
  rw [Bool.and_eq_true, decide_eq_true_iff] at hp
  obtain ⟨h1, hp⟩ := hp
  split at hp
  · next t ht =>
    rw [decide_eq_true_iff] at hp
    refine ⟨s, t, reached_from _ (fun _ _ _ => trivial) hs, ht, ?_, hp⟩
    intro pat e hi he
    cases hi
    have : (search sample (plainPattern b!"aaab")).head? = some (.right [1, 1]) := by decide +kernel
    rw [this] at he
    cases he
    unfold activeSide
    rw [h1]
    show ((Elem.value sample.right).at [1, 1]).isSome = true
    decide +kernel
  · cases hp

/-- **C79, what is found.** After `/` and a pattern the results of the active window are the matching items of the first document and then those of
the second one, each in document order and as often as it matches (`hits`), and the other window has none. -/
theorem C79_results (env : Env) (n k : Nat) (s t : St) (pat : Pattern) (hp : pat.pattern ≠ [])
    (ht : step env n k (.key b!"/" (some pat)) s = some (.nextInput t)) :
    let found := fun root : Json => (items root).flatMap (fun q =>
      List.replicate (((elem root q).map (hits (fun text e => «match» env.rx pat text e) env.fmt)).getD 0) q)
    t.active.results = (found env.left).map .left ++ (found env.right).map .right ∧ (other t).results = [] := by
  intro found
  have hfound : search env pat = (found env.left).map .left ++ (found env.right).map .right := by
    have h1 := (C35_results_partial env.rx env.fmt pat env.left).1
    have h2 := (C35_results_partial env.rx env.fmt pat env.right).1
    unfold Split.search
    dsimp only [found]
    rw [← h1, ← h2]
    rfl
  rw [← hfound]
  obtain ⟨a, u, hev, ha, k0, k1, hsel, hcol⟩ := step_key ht
  rw [key_slash] at hev
  unfold initSearch at hev
  dsimp only at hev
  rw [if_neg (by simpa using hp)] at hev
  obtain ⟨h1, h2, h3⟩ := jump_results (jump_spec hev) ha
  rw [← k0.2.2] at h1
  rw [← k1.2.2] at h2
  rw [← hsel] at h3
  unfold St.set St.active St.at at h1 h2 h3
  by_cases hz : s.selected = 0
  · simp only [hz, if_true] at h1 h2 h3
    unfold St.active St.at other
    rw [h3, if_pos rfl, if_pos rfl]
    exact ⟨h1, h2⟩
  · simp only [hz, if_false] at h1 h2 h3
    unfold St.active St.at other
    rw [h3, if_neg hz, if_neg hz]
    exact ⟨h2, h1⟩

end Verif.Props
