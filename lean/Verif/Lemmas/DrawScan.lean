import Verif.Lemmas.Draw
/-! # Events: which items are looked at, and what the selection pointers become -/
namespace Verif.Lemmas
open Verif.Model Verif.Model.Search Verif.Model.Tui Verif.Spec

/-- The items looked at. -/
def checks : List Ev → List Path
  | [] => []
  | .check p false :: es => p :: checks es
  | _ :: es => checks es

theorem checks_append (a b : List Ev) : checks (a ++ b) = checks a ++ checks b := by
  induction a with
  | nil => rfl
  | cons e a ih =>
    cases e with
    | check p ie => cases ie <;> simp [checks, ih]
    | line => simp [checks, ih]

/-- The hidden elements of a view. -/
abbrev hiddenBy (collapsed : List Path) : Path → Bool := fun p => collapsed.contains p

mutual
theorem checks_value (env : Env) (view : View) : ∀ (v : Json) (p item : Path) (ie : Bool) (x : Nat),
    checks (evValue env view.width view.collapsed p item ie x v) = (if ie then [] else [p]) ++ inside (hiddenBy view.collapsed) p v
  | .arr xs, p, item, ie, x => by
    have := checks_items env view xs p 0 (x + 4)
    by_cases h : view.collapsed.contains p = true
    · cases ie <;> simp only [evValue, inside, hiddenBy, h, if_true] <;> rfl
    · simp only [Bool.not_eq_true] at h
      cases ie <;> simp only [evValue, inside, h, checks, Bool.false_eq_true, if_false] <;>
        simp [checks_append, this, checks]
  | .obj es, p, item, ie, x => by
    have := checks_entries env view es p 0 (x + 4)
    by_cases h : view.collapsed.contains p = true
    · cases ie <;> simp only [evValue, inside, hiddenBy, h, if_true] <;> rfl
    · simp only [Bool.not_eq_true] at h
      cases ie <;> simp only [evValue, inside, h, checks, Bool.false_eq_true, if_false] <;>
        simp [checks_append, this, checks]
  | .str s, p, item, ie, x => by cases ie <;> simp [evValue, checks, inside]
  | .bool s, p, item, ie, x => by cases ie <;> simp [evValue, checks, inside]
  | .null, p, item, ie, x => by cases ie <;> simp [evValue, checks, inside]
  | .int s, p, item, ie, x => by cases ie <;> simp [evValue, checks, inside]
  | .long s, p, item, ie, x => by cases ie <;> simp [evValue, checks, inside]
  | .dbl s, p, item, ie, x => by cases ie <;> simp [evValue, checks, inside]
theorem checks_items (env : Env) (view : View) : ∀ (vs : List Json) (p : Path) (i x : Nat),
    checks (evItems env view.width view.collapsed p i x vs) = insideItems (hiddenBy view.collapsed) p i vs
  | [], p, i, x => rfl
  | v :: vs, p, i, x => by
    simp [evItems, insideItems, checks_append, checks_value env view v, checks_items env view vs]
theorem checks_entries (env : Env) (view : View) : ∀ (es : List (Bytes × Json)) (p : Path) (i x : Nat),
    checks (evEntries env view.width view.collapsed p i x es) = insideEntries (hiddenBy view.collapsed) p i es
  | [], p, i, x => rfl
  | (k, v) :: es, p, i, x => by
    have hv := checks_value env view v (p ++ [i] ++ [0]) (p ++ [i]) true (x + 2)
    have hr := checks_entries env view es p (i + 1) x
    simp only [evEntries, insideEntries, checks, checks_append, hr, List.cons_append]
    congr 2
    by_cases hc : v.isContainer = true
    · by_cases hcol : view.collapsed.contains (p ++ [i] ++ [0]) = true
      · rw [hc, hcol]
        cases v <;> simp [Json.isContainer] at hc <;> simp [inside, checks] <;> simp at hcol <;> simp [hcol]
      · simp only [Bool.not_eq_true] at hcol
        rw [hc, hcol]
        by_cases hem : isEmptyJ v = true
        · rw [hem]
          cases v <;> simp [Json.isContainer] at hc <;> simp [inside, checks] <;> simp [isEmptyJ] at hem <;> simp [hem, insideItems, insideEntries]
        · simp only [Bool.not_eq_true] at hem
          rw [hem]
          simp [checks]
          simpa using hv
    · simp only [Bool.not_eq_true] at hc
      rw [hc]
      cases v <;> simp [Json.isContainer] at hc <;> simp [checks, inside]
end

/-- Elements that are looked at without being items are values of entries. -/
def ValChecks (env : Env) (es : List Ev) : Prop := ∀ p, Ev.check p true ∈ es → ∃ a k v, p = a ++ [0] ∧ elem env.root a = some (.entry k v)

theorem ValChecks.append {env : Env} {a b : List Ev} (ha : ValChecks env a) (hb : ValChecks env b) : ValChecks env (a ++ b) :=
  fun p hp => (List.mem_append.mp hp).elim (ha p) (hb p)

theorem ValChecks.lines {env : Env} {a : List Ev} (h : ∀ e ∈ a, ∀ p, e ≠ .check p true) : ValChecks env a :=
  fun p hp => absurd rfl (h _ hp p)

mutual
theorem val_value (env : Env) (view : View) : ∀ (v : Json) (p item : Path) (ie : Bool) (x : Nat), elem env.root p = some (.value v) →
    (ie = true → ∃ a k v, p = a ++ [0] ∧ elem env.root a = some (.entry k v)) → ValChecks env (evValue env view.width view.collapsed p item ie x v)
  | .arr xs, p, item, ie, x, h, he => by
    have hi := val_items env view xs [] p (x + 4) h
    intro q hq
    simp only [evValue, List.mem_cons, Ev.check.injEq] at hq
    rcases hq with ⟨rfl, h2⟩ | hq
    · exact he h2.symm
    · split at hq <;> simp at hq
      exact hi q hq
  | .obj es, p, item, ie, x, h, he => by
    have hi := val_entries env view es [] p (x + 4) h
    intro q hq
    simp only [evValue, List.mem_cons, Ev.check.injEq] at hq
    rcases hq with ⟨rfl, h2⟩ | hq
    · exact he h2.symm
    · split at hq <;> simp at hq
      exact hi q hq
  | .str s, p, item, ie, x, h, he => by intro q hq; simp [evValue] at hq; obtain ⟨rfl, h2⟩ := hq; exact he h2
  | .bool s, p, item, ie, x, h, he => by intro q hq; simp [evValue] at hq; obtain ⟨rfl, h2⟩ := hq; exact he h2
  | .null, p, item, ie, x, h, he => by intro q hq; simp [evValue] at hq; obtain ⟨rfl, h2⟩ := hq; exact he h2
  | .int s, p, item, ie, x, h, he => by intro q hq; simp [evValue] at hq; obtain ⟨rfl, h2⟩ := hq; exact he h2
  | .long s, p, item, ie, x, h, he => by intro q hq; simp [evValue] at hq; obtain ⟨rfl, h2⟩ := hq; exact he h2
  | .dbl s, p, item, ie, x, h, he => by intro q hq; simp [evValue] at hq; obtain ⟨rfl, h2⟩ := hq; exact he h2
theorem val_items (env : Env) (view : View) : ∀ (vs done : List Json) (p : Path) (x : Nat), elem env.root p = some (.value (.arr (done ++ vs))) →
    ValChecks env (evItems env view.width view.collapsed p done.length x vs)
  | [], done, p, x, h => by intro q hq; simp [evItems] at hq
  | v :: vs, done, p, x, h => by
    have hr := val_items env view vs (done ++ [v]) p x (by simpa using h)
    rw [evItems]
    exact (val_value env view v _ _ false x (kid_item h) (by simp)).append (by simpa using hr)
theorem val_entries (env : Env) (view : View) : ∀ (es done : List (Bytes × Json)) (p : Path) (x : Nat), elem env.root p = some (.value (.obj (done ++ es))) →
    ValChecks env (evEntries env view.width view.collapsed p done.length x es)
  | [], done, p, x, h => by intro q hq; simp [evEntries] at hq
  | (k, v) :: es, done, p, x, h => by
    have hr := val_entries env view es (done ++ [(k, v)]) p x (by simpa using h)
    have hk := kid_entry h
    have hv := val_value env view v (p ++ [done.length] ++ [0]) (p ++ [done.length]) true (x + 2) hk.2 (fun _ => ⟨_, _, _, rfl, hk.1⟩)
    intro q hq
    simp only [evEntries, List.mem_cons, List.mem_append, Ev.check.injEq, Bool.true_eq_false, and_false, false_or] at hq
    rcases hq with hq | hq
    · split at hq
      · simp at hq
      split at hq
      · simp at hq
      split at hq
      · simp at hq
      · simp only [List.mem_cons, reduceCtorEq, false_or] at hq; exact hv q hq
    · simp only [List.length_append, List.length_singleton] at hr; exact hr q hq
end

/-! ## Running without stopping -/

def runAll (view : View) (sel : Option Path) (es : List Ev) (d : Draw) : Draw := es.foldl (fun d e => (e.run view sel d).1) d

theorem exec_prefix (view : View) (sel : Option Path) (es : List Ev) (d : Draw) :
    ∃ pre post, es = pre ++ post ∧ (exec view sel es d).1 = runAll view sel pre d ∧ ((exec view sel es d).2 = true → post = []) := by
  induction es generalizing d with
  | nil => exact ⟨[], [], rfl, rfl, fun _ => rfl⟩
  | cons e es ih =>
    simp only [exec]
    rcases hr : e.run view sel d with ⟨d', b⟩
    cases b with
    | true =>
      obtain ⟨pre, post, h1, h2, h3⟩ := ih d'
      refine ⟨e :: pre, post, by rw [h1]; rfl, ?_, h3⟩
      simp only [runAll, List.foldl_cons, hr]
      exact h2
    | false =>
      refine ⟨[e], es, rfl, ?_, by simp⟩
      simp [runAll, hr]

/-- The pointers depend on the items looked at. -/
theorem scan_found (view : View) (sel : Option Path) (es : List Ev) (d : Draw) (hf : d.found = true) :
    (runAll view sel es d).found = true ∧ (runAll view sel es d).up = d.up ∧ (runAll view sel es d).scroll = d.scroll ∧
    (runAll view sel es d).down = if d.down.isSome then d.down else (checks es).head? := by
  induction es generalizing d with
  | nil => simp only [runAll, List.foldl_nil, checks, List.head?_nil, hf, true_and]; cases d.down <;> rfl
  | cons e es ih =>
    simp only [runAll, List.foldl_cons]
    cases e with
    | check p ie =>
      obtain ⟨h1, h2, h3, h4⟩ := ih (checkSelection sel p ie d) (check_found sel p ie d hf)
      simp only [runAll] at h1 h2 h3 h4
      simp only [Ev.run]
      have hu : (checkSelection sel p ie d).up = d.up ∧ (checkSelection sel p ie d).scroll = d.scroll := by
        simp only [checkSelection, hf, Bool.not_true, Bool.false_eq_true, if_false]; split <;> (try split) <;> simp
      refine ⟨h1, h2.trans hu.1, h3.trans hu.2, h4.trans ?_⟩
      simp only [checkSelection, hf, Bool.not_true, Bool.false_eq_true, if_false]
      cases hd : d.down with
      | some q => simp [hd]
      | none => cases ie <;> simp [checks, hd]
    | line p item x text n lz =>
      have hrun : ((Ev.line p item x text n lz).run view sel d).1.found = d.found ∧ ((Ev.line p item x text n lz).run view sel d).1.up = d.up ∧
          ((Ev.line p item x text n lz).run view sel d).1.scroll = d.scroll ∧ ((Ev.line p item x text n lz).run view sel d).1.down = d.down := by
        simp only [Ev.run]; split <;> simp
      obtain ⟨h1, h2, h3, h4⟩ := ih _ (hrun.1.trans hf)
      simp only [runAll] at h1 h2 h3 h4
      refine ⟨h1, h2.trans hrun.2.1, h3.trans hrun.2.2.1, ?_⟩
      rw [h4, hrun.2.2.2]; rfl

/-- The selection is not among the items looked at. -/
theorem scan_absent (env : Env) (view : View) (sel : Option Path) (hn : NoVal env sel) (es : List Ev) (hv : ValChecks env es)
    (hs : ∀ p ∈ checks es, sel ≠ some p) (d : Draw) (hf : d.found = false) :
    (runAll view sel es d).found = false ∧ (runAll view sel es d).scroll = d.scroll ∧ (runAll view sel es d).down = d.down ∧
    (runAll view sel es d).up = ((checks es).getLast?.or d.up) := by
  induction es generalizing d with
  | nil => simp [runAll, checks, hf]
  | cons e es ih =>
    have hv' : ValChecks env es := fun p hp => hv p (List.mem_cons_of_mem _ hp)
    simp only [runAll, List.foldl_cons]
    cases e with
    | check p ie =>
      have hp : sel ≠ some p := by
        cases ie with
        | false => exact hs p (by simp [checks])
        | true => obtain ⟨a, k, v, rfl, he⟩ := hv p (by simp); exact hn a k v he
      have hs' : ∀ q ∈ checks es, sel ≠ some q := by
        intro q hq; refine hs q ?_; cases ie <;> simp [checks, hq]
      have hc : checkSelection sel p ie d = if ie then d else { d with up := some p } := by
        cases ie <;> simp [checkSelection, hf, hp]
      obtain ⟨h1, h2, h3, h4⟩ := ih hv' hs' (checkSelection sel p ie d) (by rw [hc]; cases ie <;> simp [hf])
      simp only [runAll] at h1 h2 h3 h4
      simp only [Ev.run]
      refine ⟨h1, h2.trans (by rw [hc]; cases ie <;> rfl), h3.trans (by rw [hc]; cases ie <;> rfl), h4.trans ?_⟩
      rw [hc]
      cases ie with
      | true => simp [checks]
      | false => simp [checks, List.getLast?_cons]
    | line p item x text n lz =>
      have hrun : ((Ev.line p item x text n lz).run view sel d).1.found = d.found ∧ ((Ev.line p item x text n lz).run view sel d).1.up = d.up ∧
          ((Ev.line p item x text n lz).run view sel d).1.scroll = d.scroll ∧ ((Ev.line p item x text n lz).run view sel d).1.down = d.down := by
        simp only [Ev.run]; split <;> simp
      obtain ⟨h1, h2, h3, h4⟩ := ih hv' hs _ (hrun.1.trans hf)
      simp only [runAll] at h1 h2 h3 h4
      refine ⟨h1, h2.trans hrun.2.2.1, h3.trans hrun.2.2.2, ?_⟩
      rw [h4, hrun.2.1]; rfl

end Verif.Lemmas
