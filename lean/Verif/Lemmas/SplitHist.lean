import Verif.Lemmas.SplitOwn
import Verif.Spec.SplitView
import Verif.Props.Navigate
import Verif.Props.Diff
/-!
# What the keys do in the diff view
-/
namespace Verif.Lemmas.Split
open Verif.Model Verif.Model.Diff Verif.Model.Split Verif.Spec.SplitView

/-- What the keys other than those of the search may select. -/
inductive Sel (env : Env) (s : St) : Option Ptr → Prop where
  | up : Sel env s s.active.up
  | down : Sel env s s.active.down
  | prev {f e : Ptr} : s.active.sel = some f → env.findPrev f = some e → Sel env s (some e)
  | next {f e : Ptr} : s.active.sel = some f → env.findNext f = some e → Sel env s (some e)
  | par {f e : Ptr} : s.active.sel = some f → parent f = some e → Sel env s (some e)
  | par2 {f e g : Ptr} : s.active.sel = some f → parent f = some e → parent e = some g → Sel env s (some g)

theorem sel_entryOr {env : Env} {s : St} {f q : Ptr} (h : s.active.sel = some f) (hq : parent f = some q) : Sel env s (some (entryOr env q)) := by
  unfold entryOr
  cases hp : parent q with
  | none => exact .par h hq
  | some g =>
    dsimp only
    split
    · exact .par2 h hq hp
    · exact .par h hq

/-- What expanding and collapsing do to the set of collapsed containers. -/
def expanded (env : Env) (v : Ptr) (c : List Ptr) : List Ptr := (c.filter (· ≠ v)).filter (fun q => decide (some q ≠ env.equiv v))
def collapsedWith (env : Env) (v : Ptr) (c : List Ptr) : List Ptr :=
  match env.equiv v with
  | some q => insert q (insert v c)
  | none => insert v c

inductive Fold (env : Env) (s : St) : List Ptr → Prop where
  | expand (v : Ptr) : Fold env s (expanded env v s.collapsed)
  | collapse (v : Ptr) : Fold env s (collapsedWith env v s.collapsed)

/-- What a key other than those of the search comes to. -/
inductive Out (env : Env) (s : St) : Answer → Prop where
  | quit : Out env s .quit
  | crash : s.active.sel = none → Out env s .crash
  | stay : Out env s (.nextInput s)
  | select {e : Option Ptr} : Sel env s e → Out env s (.redraw (setSelection env e s))
  | fold {c : List Ptr} : Fold env s c → Out env s (.redraw { s with collapsed := c })
  | window (d : Int) (c : Bool) : d = 1 ∨ (d = -1 ∧ c = false) → Out env s (changeWindow env d c s)

theorem out_pup (env : Env) (s : St) : Out env s (selectPUp env s) := by
  unfold selectPUp
  cases hs : s.active.sel with
  | none => exact .crash hs
  | some e =>
    dsimp only
    cases hp : env.findPrev e with
    | some q => exact .select (.prev hs hp)
    | none =>
      dsimp only
      cases hq : parent e with
      | none => exact .stay
      | some q =>
        dsimp only
        split
        · exact .select (sel_entryOr hs hq)
        · exact .stay

theorem out_pdown (env : Env) (s : St) : Out env s (selectPDown env s) := by
  unfold selectPDown
  cases hs : s.active.sel with
  | none => exact .crash hs
  | some e =>
    dsimp only
    cases hp : env.findNext e with
    | some q => exact .select (.next hs hp)
    | none => exact .stay

theorem out_expand (env : Env) (s : St) : Out env s (expandSelection env s) := by
  unfold expandSelection
  cases hs : s.active.sel with
  | none => exact .stay
  | some e =>
    dsimp only
    split
    · exact .stay
    split
    · exact .fold (.expand (env.value e))
    split
    · exact .stay
    · exact .select .down

theorem parent_child (e : Ptr) (i : Nat) : parent (child e i) = some e := by
  cases e <;> simp [parent, child]

theorem out_collapse (env : Env) (s : St) : Out env s (collapseSelection env s) := by
  unfold collapseSelection
  cases hs : s.active.sel with
  | none => exact .crash hs
  | some e =>
    dsimp only
    split
    · next hc =>
      cases hp : parent e with
      | some q => exact .select (sel_entryOr hs hp)
      | none =>
        -- the value of the selection has a parent, the selection has none: it is an entry
        exfalso
        have he : env.isEntry e = false := by
          cases e with
          | left p =>
            simp only [parent] at hp
            split at hp
            · next h0 =>
              have : p = [] := by simpa using h0
              subst this
              simp [Env.isEntry, Env.elem, Elem.at, Elem.isEntry]
            · cases hp
          | right p =>
            simp only [parent] at hp
            split at hp
            · next h0 =>
              have : p = [] := by simpa using h0
              subst this
              simp [Env.isEntry, Env.elem, Elem.at, Elem.isEntry]
            · cases hp
        simp only [Env.value, he, Bool.false_eq_true, if_false, hp, Option.isSome_none, Bool.false_and] at hc
    · exact .fold (.collapse (env.value e))

theorem out_key {env : Env} {n : Nat} {name : Bytes} {pat : Option Search.Pattern} {s : St} {a : Answer}
    (hn : name ≠ b!"/" ∧ name ≠ b!"N") (h : evalKey env n name pat s = some a) : Out env s a := by
  unfold evalKey at h
  by_cases hc : name = b!"Q"
  · rw [if_pos hc] at h; cases h; exact .quit
  rw [if_neg hc] at h; clear hc
  by_cases hc : name = b!"K" ∨ name = b!"KEY_UP"
  · rw [if_pos hc] at h; cases h; exact .select .up
  rw [if_neg hc] at h; clear hc
  by_cases hc : name = b!"J" ∨ name = b!"KEY_DOWN"
  · rw [if_pos hc] at h; cases h; exact .select .down
  rw [if_neg hc] at h; clear hc
  by_cases hc : name = b!"KEY_PPAGE"
  · rw [if_pos hc] at h; cases h; exact out_pup env s
  rw [if_neg hc] at h; clear hc
  by_cases hc : name = b!"KEY_NPAGE"
  · rw [if_pos hc] at h; cases h; exact out_pdown env s
  rw [if_neg hc] at h; clear hc
  by_cases hc : name = b!"L" ∨ name = b!"KEY_RIGHT"
  · rw [if_pos hc] at h; cases h; exact out_expand env s
  rw [if_neg hc] at h; clear hc
  by_cases hc : name = b!"H" ∨ name = b!"KEY_LEFT"
  · rw [if_pos hc] at h; cases h; exact out_collapse env s
  rw [if_neg hc] at h; clear hc
  by_cases hc : name = b!"/"
  · rw [if_pos hc] at h; exact absurd hc hn.1
  rw [if_neg hc] at h; clear hc
  by_cases hc : name = b!"N"
  · rw [if_pos hc] at h; exact absurd hc hn.2
  rw [if_neg hc] at h; clear hc
  by_cases hc : name = b!"^W-W"
  · rw [if_pos hc] at h; cases h; exact .window 1 true (.inl rfl)
  rw [if_neg hc] at h; clear hc
  by_cases hc : name = b!"^W-KEY_RIGHT" ∨ name = b!"^W-L"
  · rw [if_pos hc] at h; cases h; exact .window 1 false (.inl rfl)
  rw [if_neg hc] at h; clear hc
  by_cases hc : name = b!"^W-KEY_LEFT" ∨ name = b!"^W-H"
  · rw [if_pos hc] at h; cases h; exact .window (-1) false (.inr ⟨rfl, rfl⟩)
  rw [if_neg hc] at h; clear hc
  cases h; exact .stay

mutual
theorem jumpValue_spec (results : List Ptr) (last sel : Option Ptr) (side : Bool) : ∀ (v : Json) (p : Path) (found f : Bool) (q : Ptr),
    Split.jumpValue results last sel side p found v = (f, some q) → ∃ r x, q = ptr side (p ++ r) ∧ (Elem.value v).at r = some x
  | .arr xs, p, found, f, q, h => by
    rw [Split.jumpValue] at h
    obtain ⟨i, r, v, x, rfl, hv, hx⟩ := jumpItems_spec results last sel side xs p 0 _ f q h
    refine ⟨i :: r, x, by simp, ?_⟩
    simp only [Elem.at, Elem.kids, List.getElem?_map, hv, Option.map_some, Option.bind_some]
    exact hx
  | .obj es, p, found, f, q, h => by
    rw [Split.jumpValue] at h
    obtain ⟨i, r, k, v, x, rfl, hv, hx⟩ := jumpEntries_spec results last sel side es p 0 _ f q h
    refine ⟨i :: r, x, by simp, ?_⟩
    simp only [Elem.at, Elem.kids, List.getElem?_map, hv, Option.map_some, Option.bind_some]
    exact hx
  | .str s, p, found, f, q, h => by
    simp only [Split.jumpValue, Prod.mk.injEq] at h
    obtain ⟨_, h⟩ := h
    split at h
    · cases h; exact ⟨[], _, by simp, rfl⟩
    · cases h
  | .bool s, p, found, f, q, h => by
    simp only [Split.jumpValue, Prod.mk.injEq] at h
    obtain ⟨_, h⟩ := h
    split at h
    · cases h; exact ⟨[], _, by simp, rfl⟩
    · cases h
  | .null, p, found, f, q, h => by
    simp only [Split.jumpValue, Prod.mk.injEq] at h
    obtain ⟨_, h⟩ := h
    split at h
    · cases h; exact ⟨[], _, by simp, rfl⟩
    · cases h
  | .int s, p, found, f, q, h => by
    simp only [Split.jumpValue, Prod.mk.injEq] at h
    obtain ⟨_, h⟩ := h
    split at h
    · cases h; exact ⟨[], _, by simp, rfl⟩
    · cases h
  | .long s, p, found, f, q, h => by
    simp only [Split.jumpValue, Prod.mk.injEq] at h
    obtain ⟨_, h⟩ := h
    split at h
    · cases h; exact ⟨[], _, by simp, rfl⟩
    · cases h
  | .dbl s, p, found, f, q, h => by
    simp only [Split.jumpValue, Prod.mk.injEq] at h
    obtain ⟨_, h⟩ := h
    split at h
    · cases h; exact ⟨[], _, by simp, rfl⟩
    · cases h
theorem jumpItems_spec (results : List Ptr) (last sel : Option Ptr) (side : Bool) : ∀ (xs : List Json) (p : Path) (i : Nat) (found f : Bool) (q : Ptr),
    Split.jumpItems results last sel side p i found xs = (f, some q) →
    ∃ j r v x, q = ptr side (p ++ [i + j] ++ r) ∧ xs[j]? = some v ∧ (Elem.value v).at r = some x
  | [], p, i, found, f, q, h => by simp [Split.jumpItems] at h
  | v :: xs, p, i, found, f, q, h => by
    rw [Split.jumpItems] at h
    cases hj : Split.jumpValue results last sel side (p ++ [i]) found v with
    | mk f' o =>
      rw [hj] at h
      cases o with
      | some q' =>
        simp only [Prod.mk.injEq, Option.some.injEq] at h
        obtain ⟨rfl, rfl⟩ := h
        obtain ⟨r, x, rfl, hx⟩ := jumpValue_spec results last sel side v _ _ _ _ hj
        exact ⟨0, r, v, x, by simp, rfl, hx⟩
      | none =>
        simp only at h
        obtain ⟨j, r, v', x, rfl, hv, hx⟩ := jumpItems_spec results last sel side xs p (i + 1) _ f q h
        exact ⟨j + 1, r, v', x, by rw [Nat.add_right_comm, Nat.add_assoc], by simpa using hv, hx⟩
theorem jumpEntries_spec (results : List Ptr) (last sel : Option Ptr) (side : Bool) : ∀ (es : List (Bytes × Json)) (p : Path) (i : Nat) (found f : Bool) (q : Ptr),
    Split.jumpEntries results last sel side p i found es = (f, some q) →
    ∃ j r k v x, q = ptr side (p ++ [i + j] ++ r) ∧ es[j]? = some (k, v) ∧ (Elem.entry k v).at r = some x
  | [], p, i, found, f, q, h => by simp [Split.jumpEntries] at h
  | (k, v) :: es, p, i, found, f, q, h => by
    rw [Split.jumpEntries] at h
    split at h
    · cases h
      exact ⟨0, [], k, v, _, by simp, rfl, rfl⟩
    cases hj : Split.jumpValue results last sel side (p ++ [i] ++ [0]) (found || decide (last = some (ptr side (p ++ [i])))) v with
    | mk f' o =>
      rw [hj] at h
      cases o with
      | some q' =>
        simp only [Prod.mk.injEq, Option.some.injEq] at h
        obtain ⟨rfl, rfl⟩ := h
        obtain ⟨r, x, rfl, hx⟩ := jumpValue_spec results last sel side v _ _ _ _ hj
        refine ⟨0, 0 :: r, k, v, x, by simp, rfl, ?_⟩
        simpa [Elem.at, Elem.kids] using hx
      | none =>
        simp only at h
        obtain ⟨j, r, k', v', x, rfl, hv, hx⟩ := jumpEntries_spec results last sel side es p (i + 1) _ f q h
        exact ⟨j + 1, r, k', v', x, by rw [Nat.add_right_comm, Nat.add_assoc], by simpa using hv, hx⟩
end

/-- What `N` does. -/
inductive Jump (env : Env) (n : Nat) (s : St) : Answer → Prop where
  | nothing {a : Answer} : s.active.results = [] → redrawMessage env n s = some a → Jump env n s a
  | next {e : Ptr} : Owns env (activeSide s) e → Jump env n s (.redraw { setSelection env (some e) s with collapsed := unfold e s.collapsed })
  | wrap {q : Ptr} {a : Answer} : s.active.results.head? = some q →
      redrawMessage env n { setSelection env (some q) s with collapsed := unfold q s.collapsed } = some a → Jump env n s a

theorem set_collapsed (env : Env) (e : Option Ptr) (s : St) : (setSelection env e s).collapsed = s.collapsed := by
  unfold setSelection; split <;> rfl

theorem jump_spec {env : Env} {n : Nat} {s : St} {a : Answer} (h : nextResult env n s = some a) : Jump env n s a := by
  unfold nextResult at h
  cases hr : s.active.results with
  | nil =>
    simp only [hr] at h
    exact .nothing hr h
  | cons q l =>
    simp only [hr] at h
    cases hj : Split.jumpValue (q :: l) s.active.last s.active.sel (decide (s.selected ≠ 0)) [] false (env.root (decide (s.selected ≠ 0))) with
    | mk f o =>
      rw [hj] at h
      cases o with
      | some e =>
        simp only [Option.some.injEq] at h
        subst h
        rw [set_collapsed]
        obtain ⟨r, x, rfl, hx⟩ := jumpValue_spec _ _ _ _ _ _ _ _ _ hj
        exact .next ⟨r, x, rfl, hx⟩
      | none =>
        simp only [set_collapsed] at h
        exact .wrap (by rw [hr]; rfl) h

/-- What `/` does. -/
theorem search_spec {env : Env} {n : Nat} {pat : Option Search.Pattern} {s : St} {a : Answer} (h : initSearch env n pat s = some a) :
    let s0 : St := { s with first := { s.first with results := [] }, second := { s.second with results := [] } }
    (pat = none ∧ a = .redraw s) ∨ (∃ p, pat = some p ∧ (a = .redraw s0 ∨
      Jump env n (s0.set s0.selected { s0.active with results := search env p }) a)) := by
  intro s0
  unfold initSearch at h
  cases pat with
  | none => cases h; exact .inl ⟨rfl, rfl⟩
  | some p =>
    refine .inr ⟨p, rfl, ?_⟩
    dsimp only at h
    split at h
    · cases h; exact .inl rfl
    · exact .inr (jump_spec h)

end Verif.Lemmas.Split
