import Verif.Lemmas.SplitSel
import Verif.Lemmas.SplitOwnHist
import Verif.Spec.SplitSearch
import Verif.Props.Navigate
/-!
# The keys of the search in the diff view
-/
namespace Verif.Lemmas.Split
open Verif.Model Verif.Model.Diff Verif.Model.Split Verif.Spec Verif.Spec.SplitView

theorem position_ptr (side : Bool) (p : Path) : positionIn side (ptr side p) = some p := by cases side <;> rfl

theorem position_some {side : Bool} {e : Ptr} {p : Path} : positionIn side e = some p ↔ e = ptr side p := by
  cases side <;> cases e <;> simp [positionIn, ptr]

theorem ptr_eq {side : Bool} {p q : Path} : ptr side p = ptr side q ↔ p = q := by
  cases side <;> simp [ptr]

theorem mem_hits {side : Bool} {results : List Ptr} {p : Path} : p ∈ results.filterMap (positionIn side) ↔ ptr side p ∈ results := by
  rw [List.mem_filterMap]
  constructor
  · rintro ⟨e, he, h⟩
    rw [position_some.mp h] at he
    exact he
  · exact fun h => ⟨_, h, position_ptr side p⟩

section
variable (results : List Ptr) (sp : Path) (side : Bool)

theorem contains_hits (p : Path) : results.contains (ptr side p) = (results.filterMap (positionIn side)).contains p := by
  rw [Bool.eq_iff_iff, List.contains_iff_mem, List.contains_iff_mem]
  exact mem_hits.symm

theorem at_eq (p : Path) : decide (some (ptr side sp) = some (ptr side p)) = decide (sp = p) := by
  simp [ptr_eq]

theorem at_ne (p : Path) : decide (some (ptr side sp) ≠ some (ptr side p)) = decide (p ≠ sp) := by
  rw [decide_eq_decide]
  simp only [ne_eq, Option.some.injEq, ptr_eq]
  exact ⟨fun h hc => h hc.symm, fun h hc => h hc.symm⟩

/-- A jump for the position of a jump. -/
def onSide (r : Bool × Option Path) : Bool × Option Ptr := (r.1, r.2.map (ptr side))

theorem jump_leaf (p : Path) (f : Bool) : (let found := f || decide (some (ptr side sp) = some (ptr side p))
    (found, if results.contains (ptr side p) && decide (some (ptr side sp) ≠ some (ptr side p)) && found then some (ptr side p) else none)) =
    onSide side (let found := f || decide (sp = p)
      (found, if (results.filterMap (positionIn side)).contains p && decide (p ≠ sp) && found then some p else none)) := by
  dsimp only [onSide]
  rw [at_eq, at_ne, contains_hits]
  split <;> rfl

mutual
theorem jumpValue_side : ∀ (v : Json) (p : Path) (f : Bool),
    Split.jumpValue results (some (ptr side sp)) (some (ptr side sp)) side p f v = onSide side (Nav.jumpValue (results.filterMap (positionIn side)) sp p f v)
  | .arr xs, p, f => by
    rw [Split.jumpValue, Nav.jumpValue, at_eq]
    exact jumpItems_side xs p 0 _
  | .obj es, p, f => by
    rw [Split.jumpValue, Nav.jumpValue, at_eq]
    exact jumpEntries_side es p 0 _
  | .str _, p, f => by simp only [Split.jumpValue, Nav.jumpValue]; exact jump_leaf results sp side p f
  | .bool _, p, f => by simp only [Split.jumpValue, Nav.jumpValue]; exact jump_leaf results sp side p f
  | .null, p, f => by simp only [Split.jumpValue, Nav.jumpValue]; exact jump_leaf results sp side p f
  | .int _, p, f => by simp only [Split.jumpValue, Nav.jumpValue]; exact jump_leaf results sp side p f
  | .long _, p, f => by simp only [Split.jumpValue, Nav.jumpValue]; exact jump_leaf results sp side p f
  | .dbl _, p, f => by simp only [Split.jumpValue, Nav.jumpValue]; exact jump_leaf results sp side p f
theorem jumpItems_side : ∀ (xs : List Json) (p : Path) (i : Nat) (f : Bool),
    Split.jumpItems results (some (ptr side sp)) (some (ptr side sp)) side p i f xs = onSide side (Nav.jumpItems (results.filterMap (positionIn side)) sp p i f xs)
  | [], p, i, f => by rw [Split.jumpItems, Nav.jumpItems]; rfl
  | x :: xs, p, i, f => by
    rw [Split.jumpItems, Nav.jumpItems, jumpValue_side x]
    generalize Nav.jumpValue _ sp (p ++ [i]) f x = r
    obtain ⟨g, o⟩ := r
    cases o with
    | some q => rfl
    | none => exact jumpItems_side xs p (i + 1) g
theorem jumpEntries_side : ∀ (es : List (Bytes × Json)) (p : Path) (i : Nat) (f : Bool),
    Split.jumpEntries results (some (ptr side sp)) (some (ptr side sp)) side p i f es = onSide side (Nav.jumpEntries (results.filterMap (positionIn side)) sp p i f es)
  | [], p, i, f => by rw [Split.jumpEntries, Nav.jumpEntries]; rfl
  | (k, v) :: es, p, i, f => by
    rw [Split.jumpEntries, Nav.jumpEntries]
    rw [at_eq, at_ne, contains_hits, jumpValue_side v]
    split
    · rfl
    · generalize Nav.jumpValue _ sp (p ++ [i] ++ [0]) _ v = r
      obtain ⟨g, o⟩ := r
      cases o with
      | some q => rfl
      | none => exact jumpEntries_side es p (i + 1) g
end
end

/-- The hits of a search in one of the documents. -/
theorem hits_search (env : Env) (pat : Search.Pattern) (side : Bool) :
    (search env pat).filterMap (positionIn side) = (Nav.search env.rx env.fmt pat (env.root side)).1 := by
  have h1 : ∀ l : List Path, (l.map Ptr.left).filterMap (positionIn false) = l := by
    intro l; induction l with
    | nil => rfl
    | cons a l ih => simpa [positionIn] using ih
  have h2 : ∀ l : List Path, (l.map Ptr.right).filterMap (positionIn true) = l := by
    intro l; induction l with
    | nil => rfl
    | cons a l ih => simpa [positionIn] using ih
  have h3 : ∀ l : List Path, (l.map Ptr.left).filterMap (positionIn true) = [] := by
    intro l; induction l with
    | nil => rfl
    | cons a l ih => simp [positionIn]
  have h4 : ∀ l : List Path, (l.map Ptr.right).filterMap (positionIn false) = [] := by
    intro l; induction l with
    | nil => rfl
    | cons a l ih => simp [positionIn]
  unfold search
  rw [List.filterMap_append]
  cases side with
  | false => rw [h1, h4, List.append_nil]; rfl
  | true => rw [h3, h2, List.nil_append]; rfl

/-- If the first hit is in a document, it is the first hit in that one. -/
theorem hits_head {env : Env} {pat : Search.Pattern} {side : Bool} {q : Path} (h : (search env pat).head? = some (ptr side q)) :
    (Nav.search env.rx env.fmt pat (env.root side)).1.head? = some q := by
  unfold search at h
  cases side with
  | false =>
    show (Nav.searchValue env.rx env.fmt pat [] false env.left).head? = some q
    cases hl : Nav.searchValue env.rx env.fmt pat [] false env.left with
    | nil =>
      rw [hl, List.map_nil, List.nil_append, List.head?_map, Option.map_eq_some_iff] at h
      obtain ⟨_, _, h⟩ := h
      cases h
    | cons a l => rw [hl] at h; simpa [ptr] using h
  | true =>
    show (Nav.searchValue env.rx env.fmt pat [] false env.right).head? = some q
    cases hl : Nav.searchValue env.rx env.fmt pat [] false env.left with
    | nil =>
      rw [hl, List.map_nil, List.nil_append, List.head?_map, Option.map_eq_some_iff] at h
      obtain ⟨_, h, he⟩ := h
      cases he; exact h
    | cons a l => rw [hl] at h; simp [ptr] at h

/-- The key `N`. -/
theorem next_result {env : Env} {n : Nat} {s t : St} {a : Answer} (h : nextResult env n s = some a) (ha : a = .redraw t ∨ a = .nextInput t)
    {p : Path} {x : Elem} (hsel : s.active.sel = some (ptr (activeSide s) p)) (hlast : s.active.last = some (ptr (activeSide s) p))
    (hx : (Elem.value (env.root (activeSide s))).at p = some x) {pat : Search.Pattern} (hres : s.active.results = search env pat)
    (hhead : ∀ q, s.active.results.head? = some q → Owns env (activeSide s) q) (hne : s.active.results ≠ []) :
    ∃ q, t.active.sel = some (ptr (activeSide s) q) ∧ NextHit (s.active.results.filterMap (positionIn (activeSide s))) p q ∧
      t.collapsed = unfold (ptr (activeSide s) q) s.collapsed ∧ t.active.results = s.active.results ∧ t.selected = s.selected := by
  have hhits : s.active.results.filterMap (positionIn (activeSide s)) = (Nav.search env.rx env.fmt pat (env.root (activeSide s))).1 := by
    rw [hres]; exact hits_search env pat _
  have hj := Lemmas.jump_next (env.root (activeSide s)) _ (fun q hq => (Props.results_elems env.rx env.fmt pat _ q hq).2) p ⟨x, hx⟩
  rw [← hhits] at hj
  have hnav := jumpValue_side s.active.results p (activeSide s) (env.root (activeSide s)) [] false
  unfold nextResult at h
  cases hr : s.active.results with
  | nil => exact absurd hr hne
  | cons q0 l =>
    have hsd : decide (s.selected ≠ 0) = activeSide s := rfl
    rw [hr] at h
    dsimp only at h
    rw [← hr, hsd, hsel, hlast, hnav] at h
    rw [← hr]
    rcases hj with ⟨q, h1, h2, h3, h4⟩ | ⟨h1, h2⟩
    · dsimp only [onSide] at h
      rw [h1] at h
      simp only [Option.map_some, Option.some.injEq] at h
      subst h
      rcases ha with ha | ha <;> cases ha
      refine ⟨q, ?_, ⟨h2, ?_⟩, ?_, ?_, ?_⟩
      · exact congrArg Win.sel (set_active env (some (ptr (activeSide s) q)) s).1
      · rw [if_pos ⟨q, h2, h3⟩]; exact ⟨h3, h4⟩
      · exact congrArg (unfold _) (set_collapsed env _ s)
      · have := congrArg Win.results (set_active env (some (ptr (activeSide s) q)) s).1
        exact this
      · exact set_selected env _ s
    · dsimp only [onSide] at h
      rw [h1] at h
      simp only [Option.map_none] at h
      rcases ha with rfl | rfl
      · exact absurd h message_not_redraw
      obtain ⟨k0, k1, hs, hc⟩ := message_spec h
      obtain ⟨q, y, rfl, hy⟩ := hhead q0 (by rw [hr]; rfl)
      have hact : Keeps (setSelection env (some (ptr (activeSide s) q)) s).active t.active := by
        unfold St.active St.at
        dsimp only at hs
        rw [hs]
        split
        · exact k0
        · exact k1
      obtain ⟨e1, e2, e3⟩ := hact
      rw [(set_active env _ s).1] at e1 e3
      have hq : q ∈ s.active.results.filterMap (positionIn (activeSide s)) := mem_hits.mpr (by rw [hr]; exact List.mem_cons_self)
      refine ⟨q, e1, ⟨hq, ?_⟩, ?_, e3, ?_⟩
      · rw [if_neg (by rintro ⟨r, hr1, hr2⟩; exact h2 r hr1 hr2), hhits]
        have hh := hits_head (env := env) (pat := pat) (side := activeSide s) (q := q) (by rw [← hres, hr]; rfl)
        have hso := Props.results_sorted env.rx env.fmt pat (env.root (activeSide s))
        generalize (Nav.search env.rx env.fmt pat (env.root (activeSide s))).1 = hits at hh hso
        cases hits with
        | nil => cases hh
        | cons a hits =>
          cases hh
          intro r hr
          rcases List.mem_cons.mp hr with rfl | hr
          · exact .inl rfl
          · exact (List.pairwise_cons.mp hso).1 r hr
      · rw [hc]; exact congrArg (unfold _) (set_collapsed env _ s)
      · exact hs.trans (set_selected env _ s)

/-- The results of a window are none, or those of a search. -/
def FromSearch (env : Env) (s : St) : Prop :=
  (s.first.results = [] ∨ ∃ pat, s.first.results = search env pat) ∧ (s.second.results = [] ∨ ∃ pat, s.second.results = search env pat)

theorem from_keeps {env : Env} {s t : St} (h : FromSearch env s) (h0 : Keeps s.first t.first) (h1 : Keeps s.second t.second) : FromSearch env t := by
  unfold FromSearch
  rw [h0.2.2, h1.2.2]
  exact h

theorem follow_results (env : Env) (e : Option Ptr) (w : Win) : (follow env e w).results = w.results := by
  unfold follow; split <;> rfl

theorem from_set {env : Env} {s : St} (h : FromSearch env s) (e : Option Ptr) : FromSearch env (setSelection env e s) := by
  unfold FromSearch setSelection
  split
  · dsimp only; rw [follow_results]; exact h
  · dsimp only; rw [follow_results]; exact h

theorem from_jump {env : Env} {n : Nat} {s t : St} {a : Answer} (h : FromSearch env s) (hj : Jump env n s a) (ha : a = .redraw t ∨ a = .nextInput t) :
    FromSearch env t := by
  have hm' : ∀ s0, FromSearch env s0 → redrawMessage env n s0 = some a → FromSearch env t := by
    intro s0 h0 hm
    rcases ha with rfl | rfl
    · exact absurd hm message_not_redraw
    · obtain ⟨k0, k1, _⟩ := message_spec hm
      exact from_keeps h0 k0 k1
  cases hj with
  | nothing _ hm => exact hm' _ h hm
  | next _ => rcases ha with ha | ha <;> cases ha; exact from_set h _
  | @wrap q _ _ hm => exact hm' { setSelection env (some q) s with collapsed := unfold q s.collapsed } (from_set h _) hm

/-- The keys of the search leave the results and the active window. -/
theorem jump_results {env : Env} {n : Nat} {s t : St} {a : Answer} (hj : Jump env n s a) (ha : a = .redraw t ∨ a = .nextInput t) :
    t.first.results = s.first.results ∧ t.second.results = s.second.results ∧ t.selected = s.selected := by
  have hset : ∀ e, (setSelection env e s).first.results = s.first.results ∧ (setSelection env e s).second.results = s.second.results ∧
      (setSelection env e s).selected = s.selected := by
    intro e
    refine ⟨?_, ?_, set_selected env e s⟩ <;> unfold setSelection <;> split <;> first | rfl | exact follow_results env e _
  have hm' : ∀ s0, s0.first.results = s.first.results ∧ s0.second.results = s.second.results ∧ s0.selected = s.selected → redrawMessage env n s0 = some a →
      t.first.results = s.first.results ∧ t.second.results = s.second.results ∧ t.selected = s.selected := by
    intro s0 h0 hm
    rcases ha with rfl | rfl
    · exact absurd hm message_not_redraw
    · obtain ⟨k0, k1, hs, _⟩ := message_spec hm
      rw [k0.2.2, k1.2.2, hs]
      exact h0
  cases hj with
  | nothing _ hm => exact hm' _ ⟨rfl, rfl, rfl⟩ hm
  | next _ => rcases ha with ha | ha <;> cases ha; exact hset _
  | @wrap q _ _ hm => exact hm' { setSelection env (some q) s with collapsed := unfold q s.collapsed } (hset _) hm

theorem from_key {env : Env} {n : Nat} {name : Bytes} {pat : Option Search.Pattern} {s t : St} {a : Answer} (h : FromSearch env s) (hs2 : s.selected < 2)
    (he : evalKey env n name pat s = some a) (ha : a = .redraw t ∨ a = .nextInput t) : FromSearch env t := by
  rcases key_cases he with ⟨_, _, ho⟩ | ⟨_, hs⟩ | ⟨_, hj'⟩
  · cases ho with
    | quit => rcases ha with ha | ha <;> cases ha
    | crash => rcases ha with ha | ha <;> cases ha
    | stay => rcases ha with ha | ha <;> cases ha; exact h
    | select _ => rcases ha with ha | ha <;> cases ha; exact from_set h _
    | fold _ => rcases ha with ha | ha <;> cases ha; exact h
    | window d c hd =>
      rcases window_spec env d c s hs2 hd with hw | ⟨v, rfl, ⟨hsel, hw⟩ | hw⟩
      · rw [hw] at ha; rcases ha with ha | ha <;> cases ha; exact h
      · rw [hw] at ha; rcases ha with ha | ha <;> cases ha; exact h
      · rw [hw] at ha; rcases ha with ha | ha <;> cases ha; exact from_set (s := { s with selected := 1 - s.selected }) h _
  · rcases search_spec hs with ⟨_, rfl⟩ | ⟨p, _, rfl | hj'⟩
    · rcases ha with ha | ha <;> cases ha; exact h
    · rcases ha with ha | ha <;> cases ha; exact ⟨.inl rfl, .inl rfl⟩
    · refine from_jump ?_ hj' ha
      unfold FromSearch St.set St.active St.at
      dsimp only
      split
      · exact ⟨.inr ⟨p, rfl⟩, .inl rfl⟩
      · exact ⟨.inl rfl, .inr ⟨p, rfl⟩⟩
  · exact from_jump h hj' ha

theorem from_reached {env : Env} {n k cols rows : Nat} {ok : St → Input → Prop} {s : St} (h : Reached env n k cols rows ok s) : FromSearch env s := by
  induction h with
  | start hs =>
    obtain ⟨k0, k1, _⟩ := settle_keeps hs
    refine from_keeps ?_ k0 k1
    unfold start
    exact from_set ⟨.inl rfl, .inl rfl⟩ _
  | @input s t i hr _ hs ih =>
    have hlt := (has_reached hr).lt
    rcases step_cases hs with ⟨c, r, _, hst⟩ | ⟨name, pat, _, ⟨s', he, hst⟩ | he⟩
    · obtain ⟨k0, k1, _⟩ := settle_keeps hst
      exact from_keeps (s := { s with width := c / 2, height := less r 2 }) ih k0 k1
    · obtain ⟨k0, k1, _⟩ := settle_keeps hst
      exact from_keeps (from_key ih hlt he (.inl rfl)) k0 k1
    · exact from_key ih hlt he (.inr rfl)

theorem from_active {env : Env} {s : St} (h : FromSearch env s) : s.active.results = [] ∨ ∃ pat, s.active.results = search env pat := by
  unfold St.active St.at
  split
  · exact h.1
  · exact h.2

theorem key_n (env : Env) (n : Nat) (pat : Option Search.Pattern) (s : St) : evalKey env n b!"N" pat s = nextResult env n s := by
  unfold evalKey
  rw [if_neg (by decide), if_neg (by decide), if_neg (by decide), if_neg (by decide), if_neg (by decide), if_neg (by decide), if_neg (by decide), if_neg (by decide), if_pos rfl]

theorem key_slash (env : Env) (n : Nat) (pat : Option Search.Pattern) (s : St) : evalKey env n b!"/" pat s = initSearch env n pat s := by
  unfold evalKey
  rw [if_neg (by decide), if_neg (by decide), if_neg (by decide), if_neg (by decide), if_neg (by decide), if_neg (by decide), if_neg (by decide), if_pos rfl]

/-- A key that is no change of the size: what it answers, and the drawing that follows. -/
theorem step_key {env : Env} {n k : Nat} {name : Bytes} {pat : Option Search.Pattern} {s t : St} (h : step env n k (.key name pat) s = some (.nextInput t)) :
    ∃ a u, evalKey env n name pat s = some a ∧ (a = .redraw u ∨ a = .nextInput u) ∧ Keeps u.first t.first ∧ Keeps u.second t.second ∧
      t.selected = u.selected ∧ t.collapsed = u.collapsed := by
  rcases step_cases h with ⟨_, _, hi, _⟩ | ⟨name', pat', hi, ⟨s', he, hst⟩ | he⟩
  · cases hi
  · cases hi
    obtain ⟨k0, k1, hs, hc, _⟩ := settle_keeps hst
    exact ⟨_, s', he, .inl rfl, k0, k1, hs, hc⟩
  · cases hi
    exact ⟨_, t, he, .inr rfl, ⟨rfl, rfl, rfl⟩, ⟨rfl, rfl, rfl⟩, rfl, rfl⟩

theorem keeps_active {s t : St} (h0 : Keeps s.first t.first) (h1 : Keeps s.second t.second) (h : t.selected = s.selected) : Keeps s.active t.active := by
  unfold St.active St.at
  rw [h]
  split
  · exact h0
  · exact h1

theorem mem_unfold {e a : Ptr} {c : List Ptr} : a ∈ unfold e c ↔ a ∈ c ∧ ¬ Around a e := by
  unfold unfold
  rw [List.mem_filter]
  refine and_congr_right fun _ => ?_
  have key : ∀ q p : Path, (!(q.isPrefixOf p && decide (q ≠ p))) = true ↔ ¬ (q <+: p ∧ q ≠ p) := by
    intro q p
    rw [Bool.not_eq_true', ← Bool.not_eq_true, Bool.and_eq_true, List.isPrefixOf_iff_prefix, decide_eq_true_iff]
  cases a with
  | left q =>
    cases e with
    | left p =>
      dsimp only
      rw [key]
      refine not_congr ⟨fun h => ⟨false, q, p, rfl, rfl, h⟩, ?_⟩
      rintro ⟨side, a, b, h1, h2, h⟩
      cases side with
      | false => cases h1; cases h2; exact h
      | true => cases h1
    | right p =>
      simp only [true_iff]
      rintro ⟨side, a, b, h1, h2, h⟩
      cases side with
      | false => cases h2
      | true => cases h1
  | right q =>
    cases e with
    | right p =>
      dsimp only
      rw [key]
      refine not_congr ⟨fun h => ⟨true, q, p, rfl, rfl, h⟩, ?_⟩
      rintro ⟨side, a, b, h1, h2, h⟩
      cases side with
      | true => cases h1; cases h2; exact h
      | false => cases h1
    | left p =>
      simp only [true_iff]
      rintro ⟨side, a, b, h1, h2, h⟩
      cases side with
      | false => cases h1
      | true => cases h2

end Verif.Lemmas.Split
