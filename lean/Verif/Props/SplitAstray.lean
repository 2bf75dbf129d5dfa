import Verif.Props.SplitAny
/-! # C74, C76 exactly: what searches do to the two windows -/
namespace Verif.Lemmas.Split
open Verif.Model Verif.Model.Diff Verif.Model.Split Verif.Spec Verif.Spec.SplitView

/-- What expanding or collapsing does to two that correspond: both stay as they are, or both are now alike. -/
theorem fold_pair {env : Env} (hb : Both env) {s : St} {c : List Ptr} (hf : Fold env s c) {e q : Ptr} (heq : env.equiv e = some q) :
    (e ∈ c ↔ q ∈ c) ∨ ((e ∈ c ↔ e ∈ s.collapsed) ∧ (q ∈ c ↔ q ∈ s.collapsed)) := by
  have hqe := hb _ _ heq
  have key : ∀ v, ((e = v ∨ some e = env.equiv v) ↔ (q = v ∨ some q = env.equiv v)) := by
    intro v
    constructor
    · rintro (rfl | h')
      · exact .inr heq.symm
      · have := hb _ _ h'.symm
        rw [heq] at this
        cases this
        exact .inl rfl
    · rintro (rfl | h')
      · exact .inr hqe.symm
      · have := hb _ _ h'.symm
        rw [hqe] at this
        cases this
        exact .inl rfl
  cases hf with
  | expand v =>
    by_cases hv : e = v ∨ some e = env.equiv v
    · have hv' := (key v).mp hv
      left
      rw [mem_expanded, mem_expanded]
      constructor
      · rintro ⟨-, h1, h2⟩; exact absurd hv (by simp [h1, h2])
      · rintro ⟨-, h1, h2⟩; exact absurd hv' (by simp [h1, h2])
    · have hv' : ¬ (q = v ∨ some q = env.equiv v) := fun h => hv ((key v).mpr h)
      rw [not_or] at hv hv'
      right
      rw [mem_expanded, mem_expanded]
      exact ⟨⟨fun h => h.1, fun h => ⟨h, hv.1, hv.2⟩⟩, ⟨fun h => h.1, fun h => ⟨h, hv'.1, hv'.2⟩⟩⟩
  | collapse v =>
    by_cases hv : e = v ∨ some e = env.equiv v
    · have hv' := (key v).mp hv
      left
      rw [mem_collapsedWith, mem_collapsedWith, ← or_assoc, ← or_assoc]
      exact ⟨fun _ => .inl hv', fun _ => .inl hv⟩
    · have hv' : ¬ (q = v ∨ some q = env.equiv v) := fun h => hv ((key v).mpr h)
      right
      rw [mem_collapsedWith, mem_collapsedWith, ← or_assoc, ← or_assoc]
      exact ⟨⟨fun h => h.resolve_left hv, .inr⟩, ⟨fun h => h.resolve_left hv', .inr⟩⟩

theorem out_pair {env : Env} (hb : Both env) {s t : St} {a : Answer} (hl : s.selected < 2) (ho : Out env s a)
    (ha : a = .redraw t ∨ a = .nextInput t) {e q : Ptr} (heq : env.equiv e = some q) :
    (e ∈ t.collapsed ↔ q ∈ t.collapsed) ∨ ((e ∈ t.collapsed ↔ e ∈ s.collapsed) ∧ (q ∈ t.collapsed ↔ q ∈ s.collapsed)) := by
  have same : ∀ {u : St}, u.collapsed = s.collapsed → (e ∈ u.collapsed ↔ q ∈ u.collapsed) ∨ ((e ∈ u.collapsed ↔ e ∈ s.collapsed) ∧ (q ∈ u.collapsed ↔ q ∈ s.collapsed)) :=
    fun h => .inr (by rw [h]; exact ⟨Iff.rfl, Iff.rfl⟩)
  cases ho with
  | quit => rcases ha with ha | ha <;> cases ha
  | crash => rcases ha with ha | ha <;> cases ha
  | stay => rcases ha with ha | ha <;> cases ha; exact same rfl
  | select _ => rcases ha with ha | ha <;> cases ha; exact same (set_collapsed _ _ _)
  | fold hf => rcases ha with ha | ha <;> cases ha; exact fold_pair hb hf heq
  | window d c hd =>
    rcases window_spec env d c s hl hd with hw | ⟨u, rfl, ⟨_, hw⟩ | hw⟩
    · rw [hw] at ha; rcases ha with ha | ha <;> cases ha; exact same rfl
    · rw [hw] at ha; rcases ha with ha | ha <;> cases ha; exact same rfl
    · rw [hw] at ha; rcases ha with ha | ha <;> cases ha; exact same (set_collapsed _ _ _)

/-- All that the windows know, but not the results, is of their documents. -/
structure OwnV (env : Env) (s : St) : Prop where
  lt : s.selected < 2
  first : OwnW env false s.first
  second : OwnW env true s.second

/-- The windows without results. -/
def forget (s : St) : St := { s with first := { s.first with results := [] }, second := { s.second with results := [] } }

theorem own_forget {env : Env} {s : St} : OwnV env s ↔ OwnS env (forget s) :=
  ⟨fun h => ⟨h.lt, ⟨⟨h.first.sel, h.first.last, h.first.up, h.first.down⟩, fun q hq => (by cases hq)⟩,
      ⟨⟨h.second.sel, h.second.last, h.second.up, h.second.down⟩, fun q hq => (by cases hq)⟩⟩,
    fun h => ⟨h.lt, ⟨h.first.sel, h.first.last, h.first.up, h.first.down⟩, ⟨h.second.sel, h.second.last, h.second.up, h.second.down⟩⟩⟩

theorem forget_set (env : Env) (e : Option Ptr) (s : St) : forget (setSelection env e s) = setSelection env e (forget s) := by
  unfold setSelection forget
  dsimp only
  split <;> simp only [follow] <;> cases e.bind env.equiv <;> rfl

theorem forget_active (s : St) : (forget s).active = { s.active with results := [] } := by
  unfold forget St.active St.at
  by_cases hz : s.selected = 0 <;> simp [hz]

theorem ownV_set {env : Env} (hx : Across env) {s : St} (h : OwnV env s) {e : Option Ptr} (he : ∀ f, e = some f → Owns env (activeSide s) f) :
    OwnV env (setSelection env e s) := by
  rw [own_forget, forget_set]
  exact own_set hx (own_forget.mp h) he

theorem ownV_active {env : Env} {s : St} (h : OwnV env s) : OwnW env (activeSide s) s.active := by
  have := (own_forget.mp h).active
  rw [forget_active] at this
  exact ⟨this.sel, this.last, this.up, this.down⟩

theorem ownV_sel {env : Env} {s : St} (h : OwnV env s) {e : Option Ptr} (he : Sel env s e) : ∀ f, e = some f → Owns env (activeSide s) f := by
  intro f hf
  have ha := ownV_active h
  cases he with
  | up => exact ha.up f hf
  | down => exact ha.down f hf
  | prev h1 h2 => cases hf; exact owns_findPrev (ha.sel _ h1) h2
  | next h1 h2 => cases hf; exact owns_findNext (ha.sel _ h1) h2
  | par h1 h2 => cases hf; exact owns_parent (ha.sel _ h1) h2
  | par2 h1 h2 h3 => cases hf; exact owns_parent (owns_parent (ha.sel _ h1) h2) h3

theorem ownV_swap {env : Env} {s : St} (h : OwnV env s) : OwnV env { s with selected := 1 - s.selected } :=
  ⟨by dsimp only; omega, h.first, h.second⟩

theorem ownV_out {env : Env} (hx : Across env) {s t : St} {a : Answer} (h : OwnV env s) (ho : Out env s a) (ha : a = .redraw t ∨ a = .nextInput t) :
    OwnV env t := by
  cases ho with
  | quit => rcases ha with ha | ha <;> cases ha
  | crash => rcases ha with ha | ha <;> cases ha
  | stay => rcases ha with ha | ha <;> cases ha; exact h
  | select hs => rcases ha with ha | ha <;> cases ha; exact ownV_set hx h (ownV_sel h hs)
  | fold _ => rcases ha with ha | ha <;> cases ha; exact ⟨h.lt, h.first, h.second⟩
  | window d c hd =>
    rcases window_spec env d c s h.lt hd with hw | ⟨u, rfl, ⟨_, hw⟩ | hw⟩
    · rw [hw] at ha; rcases ha with ha | ha <;> cases ha; exact h
    · rw [hw] at ha; rcases ha with ha | ha <;> cases ha; exact ownV_swap h
    · rw [hw] at ha; rcases ha with ha | ha <;> cases ha
      exact ownV_set hx (ownV_swap h) (ownV_active (ownV_swap h)).last

theorem ownV_message {env : Env} {n : Nat} {s t : St} (h : OwnV env s) (hm : redrawMessage env n s = some (.nextInput t)) : OwnV env t := by
  unfold redrawMessage at hm
  obtain ⟨hr, hd⟩ := own_redraw (n := n) h.first h.second
  cases hx : redraw env n s with
  | none => rw [hx] at hm; cases hm
  | some d =>
    rw [hx] at hm
    cases d with
    | crash => cases hm
    | retry a b => cases hm; obtain ⟨o0, o1⟩ := hr a b hx; exact ⟨h.lt, o0, o1⟩
    | done a b => cases hm; obtain ⟨o0, o1, _⟩ := hd a b hx; exact ⟨h.lt, o0, o1⟩

theorem ownV_settled {env : Env} {n k : Nat} {s t : St} (h : OwnV env s) (hs : settle env n k s = some (some t)) : OwnV env t := by
  obtain ⟨_, _, hsel, _⟩ := settle_keeps hs
  obtain ⟨o0, o1, _⟩ := own_settle h.first h.second hs
  exact ⟨by rw [hsel]; exact h.lt, o0, o1⟩

/-- Going to the next result, if it is not the first one of the other document. -/
theorem ownV_next {env : Env} (hx : Across env) {n : Nat} {s t : St} {a : Answer} (h : OwnV env s) (hn : nextResult env n s = some a) (ha : a = .redraw t ∨ a = .nextInput t)
    {e : Ptr} (hsel : s.active.sel = some e) (hlast : s.active.last = some e) (hres : s.active.results = [] ∨ ∃ pat, s.active.results = search env pat)
    (hok : ∀ f, s.active.results.head? = some f → ¬ Owns env (activeSide s) f →
      ∃ p, e = ptr (activeSide s) p ∧ ∃ q ∈ s.active.results.filterMap (positionIn (activeSide s)), p < q) : OwnV env t := by
  have he := (ownV_active h).sel e hsel
  unfold nextResult at hn
  cases hr : s.active.results with
  | nil =>
    simp only [hr] at hn
    rcases ha with rfl | rfl
    · exact absurd hn message_not_redraw
    · exact ownV_message h hn
  | cons q0 l =>
    obtain ⟨pat, hpat⟩ := hres.resolve_left (by rw [hr]; simp)
    have hj := jump_any env pat (activeSide s) (e := e) ⟨_, he⟩
    rw [← hpat] at hj
    have hsd : decide (s.selected ≠ 0) = activeSide s := rfl
    rw [hr] at hn
    dsimp only at hn
    rw [← hr, hsd, hsel, hlast] at hn
    rcases hj with ⟨p, q, h0, h1, h2, h3, h4⟩ | ⟨h1, h2⟩
    · have hq : Owns env (activeSide s) (ptr (activeSide s) q) := by
        cases hv : Split.jumpValue s.active.results (some e) (some e) (activeSide s) [] false (env.root (activeSide s)) with
        | mk f o =>
          rw [hv] at h1
          dsimp only at h1
          subst h1
          obtain ⟨r, x, hr', hx'⟩ := jumpValue_spec _ _ _ _ _ _ _ _ _ hv
          exact ⟨r, x, hr', hx'⟩
      rw [h1] at hn
      simp only [Option.some.injEq] at hn
      subst hn
      rcases ha with ha | ha <;> cases ha
      have := ownV_set hx h (e := some (ptr (activeSide s) q)) (fun f hf => by cases hf; exact hq)
      exact ⟨this.lt, this.first, this.second⟩
    · rw [h1] at hn
      rcases ha with rfl | rfl
      · exact absurd hn message_not_redraw
      have hq0 : Owns env (activeSide s) q0 := by
        refine Classical.byContradiction fun hno => ?_
        obtain ⟨p, hp, q, hq, hlt⟩ := hok q0 (by rw [hr]; rfl) hno
        exact h2 p hp q hq hlt
      have := ownV_set hx h (e := some q0) (fun f hf => by cases hf; exact hq0)
      exact ownV_message (s := { setSelection env (some q0) s with collapsed := unfold q0 (setSelection env (some q0) s).collapsed }) ⟨this.lt, this.first, this.second⟩ hn

end Verif.Lemmas.Split

namespace Verif.Props
open Verif.Model Verif.Model.Search Verif.Model.Diff Verif.Model.Split Verif.Spec Verif.Spec.SplitView Verif.Lemmas Verif.Lemmas.Split

theorem reached_weaken {env : Env} {n k cols rows : Nat} {ok : St → Split.Input → Prop} {s : St} (h : Reached env n k cols rows ok s) :
    Reached env n k cols rows anyInput s := by
  induction h with
  | start hs => exact .start hs
  | input i _ _ hs ih => exact .input i ih trivial hs

/-- What a search goes on from. -/
theorem search_step {env : Env} {n k : Nat} {i : Split.Input} {s t : St} (hi : splitSearches i) (ht : step env n k i s = some (.nextInput t)) :
    ∃ s0 a u, nextResult env n s0 = some a ∧ (a = .redraw u ∨ a = .nextInput u) ∧
      s0.active.sel = s.active.sel ∧ s0.active.last = s.active.last ∧ s0.selected = s.selected ∧ s0.collapsed = s.collapsed ∧ s0.active.results = splitFound env s i ∧
      (OwnV env s → OwnV env s0) ∧ ((s0 = s) ∨ ∃ pat, s0.active.results = search env pat) ∧
      ((a = .redraw u ∧ settle env n k u = some (some t)) ∨ (a = .nextInput u ∧ u = t)) := by
  rcases step_cases ht with ⟨c, r, rfl, _⟩ | ⟨name, pat, rfl, hcase⟩
  · cases hi
  have hcase : ∃ a u, evalKey env n name pat s = some a ∧ (a = .redraw u ∨ a = .nextInput u) ∧
      ((a = .redraw u ∧ settle env n k u = some (some t)) ∨ (a = .nextInput u ∧ u = t)) := by
    rcases hcase with ⟨s', he, hst⟩ | he
    · exact ⟨_, s', he, .inl rfl, .inl ⟨rfl, hst⟩⟩
    · exact ⟨_, t, he, .inr rfl, .inr ⟨rfl, rfl⟩⟩
  obtain ⟨a, u, hev, ha, hend⟩ := hcase
  rcases hi with rfl | ⟨rfl, pt, rfl, hpt⟩
  · rw [key_n] at hev
    exact ⟨s, a, u, hev, ha, rfl, rfl, rfl, rfl, by simp [splitFound], id, .inl rfl, hend⟩
  · rw [key_slash] at hev
    unfold initSearch at hev
    dsimp only at hev
    rw [if_neg (by simpa using hpt)] at hev
    have hset : ∀ (v : St) (w : Win), (v.set v.selected w).active = w ∧ (v.set v.selected w).selected = v.selected ∧ (v.set v.selected w).collapsed = v.collapsed := by
      intro v w
      unfold St.set St.active St.at
      by_cases hz : v.selected = 0 <;> simp [hz]
    obtain ⟨c1, c2, c3⟩ := hset { s with first := { s.first with results := [] }, second := { s.second with results := [] } }
      { ({ s with first := { s.first with results := [] }, second := { s.second with results := [] } } : St).active with results := search env pt }
    refine ⟨_, a, u, hev, ha, ?_, ?_, c2, c3, ?_, ?_, .inr ⟨pt, by rw [c1]⟩, hend⟩
    · rw [c1]; unfold St.active St.at; split <;> rfl
    · rw [c1]; unfold St.active St.at; split <;> rfl
    · rw [c1]; rfl
    · intro h
      unfold St.set St.active St.at
      by_cases hz : s.selected = 0
      · simp only [hz, if_true]
        exact ⟨Nat.zero_lt_two, ⟨h.first.sel, h.first.last, h.first.up, h.first.down⟩, ⟨h.second.sel, h.second.last, h.second.up, h.second.down⟩⟩
      · simp only [hz, if_false]
        exact ⟨h.lt, ⟨h.first.sel, h.first.last, h.first.up, h.first.down⟩, ⟨h.second.sel, h.second.last, h.second.up, h.second.down⟩⟩

/-- `/` that is cancelled, or with nothing. -/
theorem no_search {env : Env} {n : Nat} {pat : Option Pattern} {s : St} {a : Answer} (hi : ¬ splitSearches (.key b!"/" pat)) (he : evalKey env n b!"/" pat s = some a) :
    a = .redraw s ∨ a = .redraw (forget s) := by
  rw [key_slash] at he
  unfold initSearch at he
  cases pat with
  | none => cases he; exact .inl rfl
  | some p =>
    dsimp only at he
    by_cases hp : p.pattern = []
    · rw [if_pos (by simpa using hp)] at he
      cases he
      exact .inr rfl
    · exact absurd (.inr ⟨rfl, p, rfl, hp⟩) hi

theorem results_after {env : Env} {n k : Nat} {i : Split.Input} {s t : St} (hi : splitSearches i) (ht : step env n k i s = some (.nextInput t)) :
    t.active.results = splitFound env s i := by
  obtain ⟨s0, a, u, hn, ha, -, -, -, -, h5, -, -, hend⟩ := search_step hi ht
  rw [← h5]
  have hu : u.active.results = s0.active.results := by
    cases jump_spec hn with
    | nothing h1 hm =>
      rcases ha with rfl | rfl
      · exact absurd hm message_not_redraw
      · obtain ⟨j0, j1, hs', _⟩ := message_spec hm
        exact (keeps_active j0 j1 hs').2.2
    | @next e' _ =>
      rcases ha with ha | ha <;> cases ha
      have := congrArg Win.results (set_active env (some e') s0).1
      exact this
    | @wrap q _ hq hm =>
      rcases ha with rfl | rfl
      · exact absurd hm message_not_redraw
      · obtain ⟨j0, j1, hs', _⟩ := message_spec hm
        rw [(keeps_active j0 j1 hs').2.2]
        have := congrArg Win.results (set_active env (some q) s0).1
        exact this
  rcases hend with ⟨-, hst⟩ | ⟨-, rfl⟩
  · obtain ⟨k0, k1, hs', _⟩ := settle_keeps hst
    rw [(keeps_active k0 k1 hs').2.2, hu]
  · exact hu

theorem around_side {a b e : Ptr} {env : Env} (hc : Compared env) (heq : env.equiv a = some b) (ha : Around a e) : ¬ Around b e := by
  obtain ⟨side, p, q, h1, h2, -⟩ := ha
  rintro ⟨side', p', q', h1', h2', -⟩
  have hsd : side' = side := by
    cases e <;> cases side <;> cases side' <;> simp_all [positionIn]
  subst hsd
  have h := (Props.C30_tree_matching env.fmt env.left env.right env.table hc.1 env.order hc.2)
  have g := Lemmas.Diff.build_good env.fmt (.value env.left) (.value env.right) [] [] env.table hc.1
  rcases Lemmas.Diff.scan_side g hc.2 heq with ⟨x, y, rfl, rfl⟩ | ⟨x, y, rfl, rfl⟩ <;> cases side' <;> simp [positionIn] at h1 h1'

/-- **C74, exactly.** In every session: every input but a search leaves two containers that correspond as they are or makes them alike; a search that finds
nothing leaves both as they are; and if a search selects `f`, then two that were alike are no longer so exactly if they were collapsed and one of them is around `f`: that
one is open then, and its counterpart still collapsed. -/
theorem C74_exactly_partial (env : Env) (hc : Compared env) (n k cols rows : Nat) (ok : St → Split.Input → Prop) (s t : St) (h : Reached env n k cols rows ok s)
    (i : Split.Input) (ht : step env n k i s = some (.nextInput t)) (e q : Ptr) (heq : env.equiv e = some q) :
    (¬ splitSearches i → (e ∈ t.collapsed ↔ q ∈ t.collapsed) ∨ ((e ∈ t.collapsed ↔ e ∈ s.collapsed) ∧ (q ∈ t.collapsed ↔ q ∈ s.collapsed))) ∧
    (splitSearches i → splitFound env s i = [] → (e ∈ t.collapsed ↔ e ∈ s.collapsed) ∧ (q ∈ t.collapsed ↔ q ∈ s.collapsed)) ∧
    (splitSearches i → splitFound env s i ≠ [] → ∃ f, t.active.sel = some f ∧
      (e ∈ t.collapsed ↔ e ∈ s.collapsed ∧ ¬ Around e f) ∧ (q ∈ t.collapsed ↔ q ∈ s.collapsed ∧ ¬ Around q f) ∧
      ((e ∈ s.collapsed ↔ q ∈ s.collapsed) → (¬ (e ∈ t.collapsed ↔ q ∈ t.collapsed) ↔ e ∈ s.collapsed ∧ (Around e f ∨ Around q f)))) := by
  have hb := both_of_compared hc
  refine ⟨fun hi => ?_, fun hi h0 => ?_, fun hi h0 => ?_⟩
  · have hl := (real_reached hc h).lt
    rcases step_cases ht with ⟨c, r, _, hst⟩ | ⟨name, pat, rfl, hcase⟩
    · obtain ⟨_, _, _, hcol, _⟩ := settle_keeps hst
      rw [hcol]
      exact .inr ⟨Iff.rfl, Iff.rfl⟩
    · obtain ⟨a, u, hev, ha, -, -, -, hcol⟩ := step_key ht
      rw [hcol]
      rcases key_cases hev with ⟨_, _, ho⟩ | ⟨rfl, _⟩ | ⟨rfl, _⟩
      · exact out_pair hb hl ho ha heq
      · rcases no_search hi hev with rfl | rfl
        · rcases ha with ha | ha <;> cases ha; exact .inr ⟨Iff.rfl, Iff.rfl⟩
        · rcases ha with ha | ha <;> cases ha; exact .inr ⟨Iff.rfl, Iff.rfl⟩
      · exact absurd (.inl rfl) hi
  · obtain ⟨s0, a, u, hn, ha, -, -, -, h4, h5, -, -, hend⟩ := search_step hi ht
    have hcol : t.collapsed = s.collapsed := by
      unfold nextResult at hn
      rw [h5, h0] at hn
      dsimp only at hn
      rcases ha with rfl | rfl
      · exact absurd hn message_not_redraw
      · obtain ⟨-, -, -, hc'⟩ := message_spec hn
        rcases hend with ⟨h', -⟩ | ⟨-, rfl⟩
        · cases h'
        · rw [hc', h4]
    rw [hcol]
    exact ⟨Iff.rfl, Iff.rfl⟩
  · cases i with
    | resize _ _ => cases hi
    | key name pat =>
      obtain ⟨f, h1, h2, -⟩ := C79_exactly_partial env hc n k cols rows ok s t h name pat hi ht (by rw [results_after hi ht]; exact h0)
      refine ⟨f, h1, h2 e, h2 q, fun hiff => ?_⟩
      rw [h2 e, h2 q, ← hiff]
      have hno : Around e f → ¬ Around q f := around_side hc heq
      by_cases h3 : e ∈ s.collapsed <;> by_cases h4 : Around e f <;> by_cases h5 : Around q f <;> simp_all

/-- The two that correspond are folded, and a search opens one of them. -/
example : ∃ s t, Reached folded 50 50 80 24 anyInput s ∧ folded.equiv (.left [0]) = some (.right [0]) ∧ splitSearches (sfind b!"x") ∧ splitFound folded s (sfind b!"x") ≠ [] ∧
    .left [0] ∈ s.collapsed ∧ .right [0] ∈ s.collapsed ∧ step folded 50 50 (sfind b!"x") s = some (.nextInput t) ∧ .left [0] ∉ t.collapsed ∧ .right [0] ∈ t.collapsed := by
  obtain ⟨s, hs, hp⟩ := session_some (env := folded) (n := 50) (k := 50) (cols := 80) (rows := 24) (l := [skey b!"J", skey b!"H"])
    (p := fun s => decide (folded.equiv (.left [0]) = some (.right [0]) ∧ splitFound folded s (sfind b!"x") ≠ [] ∧ .left [0] ∈ s.collapsed ∧ .right [0] ∈ s.collapsed) &&
      (match step folded 50 50 (sfind b!"x") s with
      | some (.nextInput t) => decide (.left [0] ∉ t.collapsed ∧ .right [0] ∈ t.collapsed)
      | _ => false)) (by decide +kernel)
  rw [Bool.and_eq_true, decide_eq_true_iff] at hp
  obtain ⟨h1, hp⟩ := hp
  split at hp
  · next t ht =>
    have hp := of_decide_eq_true hp
    exact ⟨s, t, reached_from _ (fun _ _ _ => trivial) hs, h1.1, .inr ⟨rfl, _, rfl, by decide⟩, h1.2.1, h1.2.2.1, h1.2.2.2, ht, hp.1, hp.2⟩
  · cases hp

/-- The input is a search (or `N`), there is no result after the selection in the document of the active window, and the first result, of those of both documents, is in the
other one. -/
def Astray (env : Env) (s : St) (i : Split.Input) : Prop :=
  splitSearches i ∧ (∃ f, (splitFound env s i).head? = some f ∧ ¬ IsElement env (activeSide s) f) ∧
    ¬ ∃ p, s.active.sel = some (ptr (activeSide s) p) ∧ ∃ q ∈ (splitFound env s i).filterMap (positionIn (activeSide s)), p < q

/-- **C76, exactly.** Until the first search that goes astray in this sense, the selection of each window is an element of its document, whatever else is done; and such a
search always selects an element of the other document. -/
theorem C76_exactly_partial (env : Env) (hc : Compared env) (n k cols rows : Nat) :
    (∀ s, Reached env n k cols rows (fun s i => ¬ Astray env s i) s →
      (∀ e, s.first.sel = some e → IsElement env false e) ∧ (∀ e, s.second.sel = some e → IsElement env true e)) ∧
    (∀ (ok : St → Split.Input → Prop) s t i, Reached env n k cols rows ok s → Astray env s i → step env n k i s = some (.nextInput t) →
      activeSide t = activeSide s ∧ ∃ f, t.active.sel = some f ∧ IsElement env (!activeSide t) f ∧ ¬ IsElement env (activeSide t) f) := by
  have hx := across_of_compared hc
  constructor
  · intro s h
    have hv : OwnV env s := by
      induction h with
      | start hs =>
        have := own_start env hx cols rows
        exact ownV_settled ⟨this.lt, this.first.toOwnW, this.second.toOwnW⟩ hs
      | @input s t i hr hok hs ih =>
        by_cases hi : splitSearches i
        · obtain ⟨e, he⟩ := Option.ne_none_iff_exists'.mp (has_reached hr).sel
          have hlast := sel_is_last (selLast_reached hr) he
          obtain ⟨s0, a, u, hn, ha, h1, h2, h3, h4, h5, h6, h7, hend⟩ := search_step hi hs
          have hside : activeSide s0 = activeSide s := by unfold activeSide; rw [h3]
          have hu : OwnV env u := by
            refine ownV_next hx (h6 ih) hn ha (e := e) (by rw [h1]; exact he) (by rw [h2]; exact hlast) ?_ ?_
            · rcases h7 with rfl | h7
              · exact from_active (from_reached hr)
              · exact .inr h7
            · rw [h5, hside]
              intro f hf hno
              refine Classical.byContradiction fun hcon => hok ⟨hi, ⟨f, hf, fun hel => hno (owns_iff.mpr hel)⟩, ?_⟩
              rintro ⟨p, hp, hq⟩
              rw [he] at hp
              exact hcon ⟨p, Option.some.inj hp, hq⟩
          rcases hend with ⟨-, hst⟩ | ⟨-, rfl⟩
          · exact ownV_settled hu hst
          · exact hu
        · have hkey : ∀ {name pat a u}, i = .key name pat → evalKey env n name pat s = some a → (a = .redraw u ∨ a = .nextInput u) → OwnV env u := by
            rintro name pat a u rfl hev ha
            rcases key_cases hev with ⟨_, _, ho⟩ | ⟨rfl, _⟩ | ⟨rfl, _⟩
            · exact ownV_out hx ih ho ha
            · rcases no_search hi hev with rfl | rfl
              · rcases ha with ha | ha <;> cases ha; exact ih
              · rcases ha with ha | ha <;> cases ha
                have := own_forget.mp ih
                exact ⟨this.lt, this.first.toOwnW, this.second.toOwnW⟩
            · exact absurd (.inl rfl) hi
          rcases step_cases hs with ⟨c, r, _, hst⟩ | ⟨name, pat, h0, ⟨s', he, hst⟩ | he⟩
          · exact ownV_settled (s := { s with width := c / 2, height := less r 2 }) ⟨ih.lt, ih.first, ih.second⟩ hst
          · exact ownV_settled (hkey h0 he (.inl rfl)) hst
          · exact hkey h0 he (.inr rfl)
    exact ⟨fun e he => owns_iff.mp (hv.first.sel e he), fun e he => owns_iff.mp (hv.second.sel e he)⟩
  · rintro ok s t i h ⟨hi, ⟨f, hf, hno⟩, hlater⟩ ht
    have hres := results_after hi ht
    have hne : t.active.results ≠ [] := by rw [hres]; intro h0; rw [h0] at hf; cases hf
    cases i with
    | resize _ _ => cases hi
    | key name pat =>
      have hsd : activeSide t = activeSide s := by
        obtain ⟨s0, a, u, hn, ha, -, -, h3, -, -, -, -, hend⟩ := search_step hi ht
        have hu : u.selected = s0.selected := by
          cases jump_spec hn with
          | nothing h1 hm =>
            rcases ha with rfl | rfl
            · exact absurd hm message_not_redraw
            · exact (message_spec hm).2.2.1
          | @next e' _ =>
            rcases ha with ha | ha <;> cases ha
            exact set_selected env _ s0
          | @wrap q _ hq hm =>
            rcases ha with rfl | rfl
            · exact absurd hm message_not_redraw
            · exact (message_spec hm).2.2.1.trans (set_selected env _ s0)
        have : t.selected = s.selected := by
          rcases hend with ⟨-, hst⟩ | ⟨-, rfl⟩
          · rw [(settle_keeps hst).2.2.1, hu, h3]
          · rw [hu, h3]
        unfold activeSide
        rw [this]
      refine ⟨hsd, ?_⟩
      obtain ⟨g, h1, -, h2⟩ := C79_exactly_partial env hc n k cols rows ok s t h name pat hi ht hne
      rw [hres] at h2
      rcases h2 with ⟨p, q, g1, g2, g3, g4, -⟩ | ⟨-, g2⟩
      · exact absurd ⟨p, g1, q, g3, g4⟩ hlater
      · rw [hf] at g2
        cases g2
        refine ⟨f, h1, ?_, by rw [hsd]; exact hno⟩
        obtain ⟨sd, hr⟩ := (real_reached hc (.input (ok := anyInput) _ (reached_weaken h) trivial ht)).active.sel f h1
        have hr := owns_iff.mp hr
        rw [hsd]
        by_cases hq : sd = activeSide s
        · rw [hq] at hr; exact absurd hr hno
        · have : sd = !activeSide s := by cases sd <;> cases hh : activeSide s <;> simp_all
          rw [← this]; exact hr

/-- A search that does not go astray although its first result is in the other document, and then `N`, which does. -/
example : ∃ s t u, Reached sample 50 50 80 24 (fun s i => ¬ Astray sample s i) s ∧ s.selected = 1 ∧ ¬ Astray sample s (sfind b!"4") ∧
    (search sample (plainPattern b!"4")).head? = some (.left [1, 0]) ∧ step sample 50 50 (sfind b!"4") s = some (.nextInput t) ∧ t.active.sel = some (.right [1, 0]) ∧
    Astray sample t (skey b!"N") ∧ step sample 50 50 (skey b!"N") t = some (.nextInput u) := by
  obtain ⟨s, hs, hp⟩ := session_some (env := sample) (n := 50) (k := 50) (cols := 80) (rows := 24) (l := [skey b!"^W-W"])
    (p := fun s => decide (s.selected = 1 ∧ s.active.sel = some (.right []) ∧ (search sample (plainPattern b!"4")) = [.left [1, 0], .right [1, 0]]) &&
      (match step sample 50 50 (sfind b!"4") s with
      | some (.nextInput t) => decide (t.selected = 1 ∧ t.active.sel = some (.right [1, 0]) ∧ t.active.results = [.left [1, 0], .right [1, 0]]) &&
        (match step sample 50 50 (skey b!"N") t with
        | some (.nextInput _) => true
        | _ => false)
      | _ => false)) (by decide +kernel)
  rw [Bool.and_eq_true, decide_eq_true_iff] at hp
  obtain ⟨⟨h1, h2, h3⟩, hp⟩ := hp
  have hr : Reached sample 50 50 80 24 (fun s i => ¬ Astray sample s i) s := by
    refine reached_from _ (fun i hi s => ?_) hs
    simp only [List.mem_cons, List.not_mem_nil, or_false] at hi
    subst hi
    rintro ⟨h | ⟨h, _⟩, _⟩ <;> cases h
  split at hp
  · next t ht =>
    rw [Bool.and_eq_true, decide_eq_true_iff] at hp
    obtain ⟨⟨g1, g2, g3⟩, hp⟩ := hp
    split at hp
    · next u hu =>
      refine ⟨s, t, u, hr, h1, ?_, by rw [h3]; rfl, ht, g2, ⟨.inl rfl, ⟨.left [1, 0], ?_, ?_⟩, ?_⟩, hu⟩
      · rintro ⟨_, _, hno⟩
        refine hno ⟨[], by rw [h2]; simp [activeSide, h1, ptr], [1, 0], ?_, by decide⟩
        show [1, 0] ∈ (search sample (plainPattern b!"4")).filterMap _
        rw [h3]
        simp [activeSide, h1, positionIn]
      · show t.active.results.head? = _
        rw [g3]; rfl
      · simp [activeSide, g1, IsElement]
      · rintro ⟨p, hp, q, hq, hlt⟩
        have hq : q ∈ t.active.results.filterMap (positionIn (activeSide t)) := hq
        rw [g3] at hq
        rw [g2] at hp
        simp only [activeSide, g1, ptr] at hp hq
        simp at hp hq
        subst hp
        simp [positionIn] at hq
        subst hq
        exact List.lt_irrefl _ hlt
    · cases hp
  · cases hp

end Verif.Props
