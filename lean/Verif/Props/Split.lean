import Verif.Lemmas.SplitWindow
import Verif.Lemmas.SplitMono
import Verif.Props.Tui
/-! # C44, C45, C70, C74–C76: the diff view -/
namespace Verif.Props
open Verif.Model Verif.Model.Search Verif.Model.Diff Verif.Model.Split Verif.Spec.SplitView Verif.Lemmas.Split

/-- The comparison of two documents, on a terminal where every byte is a column; no regular expressions are used. -/
def splitEnv (a b : Json) : Env :=
  let t := (diff id a b).getD ⟨false, 0, [], []⟩
  ⟨a, b, t, t.equivalences, noRx, id, List.length⟩

/-- A key other than `/`. -/
def skey (name : Bytes) : Split.Input := .key name none

/-- `/`, the text and the return key. -/
def sfind (text : Bytes) : Split.Input := .key b!"/" (some (plainPattern text))

theorem splitEnv_compared {a b : Json} (h : (diff id a b).isSome = true) : Compared (splitEnv a b) := by
  obtain ⟨t, ht⟩ := Option.isSome_iff_exists.mp h
  unfold Compared splitEnv
  simp only [ht, Option.getD_some]
  exact ⟨trivial, .refl _⟩

theorem session_some {env : Env} {n k cols rows : Nat} {l : List Split.Input} {p : St → Bool} (h : (sessionFrom env n k cols rows l).any p = true) :
    ∃ s, sessionFrom env n k cols rows l = some s ∧ p s = true := by
  cases hs : sessionFrom env n k cols rows l with
  | none => rw [hs] at h; cases h
  | some s => rw [hs] at h; exact ⟨s, rfl, h⟩

/-- Two documents that differ in their second item, with a third one. -/
def sample : Env := splitEnv (.arr [.int 1, .arr [.int 4, .str b!"aaaa"], .int 3]) (.arr [.int 1, .arr [.int 4, .str b!"aaab"], .int 7, .int 3])

theorem sample_compared : Compared sample := splitEnv_compared (by decide +kernel)

/-! ## C44 -/

/-- **C44.** In every session, the active window is one of the two; a key makes active the window it names (`windowAfter`), any other key and a
new size of the terminal leave it; so `^W W` twice is back where it was. -/
theorem C44_active_window (env : Env) (n k cols rows : Nat) (s : St) (h : Reached env n k cols rows anyInput s) :
    s.selected < 2 ∧
    (∀ c r t, step env n k (.resize c r) s = some (.nextInput t) → t.selected = s.selected) ∧
    (∀ name pat t, step env n k (.key name pat) s = some (.nextInput t) → t.selected = windowAfter name s.selected) ∧
    (∀ t u, step env n k (skey b!"^W-W") s = some (.nextInput t) → step env n k (skey b!"^W-W") t = some (.nextInput u) →
      t.selected ≠ s.selected ∧ u.selected = s.selected) := by
  have hs := (has_reached h).lt
  refine ⟨hs, fun c r t => (selected_step hs).1 c r, fun name pat t => (selected_step hs).2 name pat, ?_⟩
  intro t u ht hu
  have h1 := (selected_step hs).2 _ _ ht
  have h2 : t.selected = 1 - s.selected := h1
  have h3 : u.selected = 1 - t.selected := (selected_step (by omega)).2 _ _ hu
  omega

/-- The session that goes to the second window and back. -/
example : ∃ s, Reached sample 50 50 80 24 anyInput s ∧ s.selected = 1 := by
  obtain ⟨s, hs, hp⟩ := session_some (env := sample) (n := 50) (k := 50) (cols := 80) (rows := 24) (l := [skey b!"J", skey b!"^W-W"]) (p := fun s => decide (s.selected = 1))
    (by decide +kernel)
  exact ⟨s, reached_from _ (fun _ _ _ => trivial) hs, by simpa using hp⟩

/-! ## C45 -/

/-- **C45.** In every session, between two inputs, the active window has a selection, and the selection of the other window is its counterpart, or
nothing if it has none. -/
theorem C45_selections (env : Env) (hc : Compared env) (n k cols rows : Nat) (s : St) (h : Reached env n k cols rows anyInput s) :
    ∃ e, s.active.sel = some e ∧ (other s).sel = env.equiv e := by
  obtain ⟨e, he⟩ := Option.ne_none_iff_exists'.mp (has_reached h).sel
  refine ⟨e, he, ?_⟩
  rw [(linked_reached (both_of_compared hc) h).2, he]
  rfl

/-- Both cases occur: a selection with a counterpart, and one without. -/
example : (∃ s, Reached sample 50 50 80 24 anyInput s ∧ s.active.sel = some (.left [1]) ∧ (other s).sel = some (.right [1])) ∧
    (∃ s, Reached sample 50 50 80 24 anyInput s ∧ s.active.sel = some (.right [2]) ∧ (other s).sel = none) := by
  constructor
  · obtain ⟨s, hs, hp⟩ := session_some (env := sample) (n := 50) (k := 50) (cols := 80) (rows := 24) (l := [skey b!"J", skey b!"J"])
      (p := fun s => decide (s.active.sel = some (.left [1]) ∧ (other s).sel = some (.right [1]))) (by decide +kernel)
    exact ⟨s, reached_from _ (fun _ _ _ => trivial) hs, by simpa using hp⟩
  · obtain ⟨s, hs, hp⟩ := session_some (env := sample) (n := 50) (k := 50) (cols := 80) (rows := 24)
      (l := [skey b!"^W-W", skey b!"J", skey b!"KEY_NPAGE", skey b!"KEY_NPAGE"])
      (p := fun s => decide (s.active.sel = some (.right [2]) ∧ (other s).sel = none)) (by decide +kernel)
    exact ⟨s, reached_from _ (fun _ _ _ => trivial) hs, by simpa using hp⟩

/-! ## C70 -/

/-- **C70.** In the diff view, the first drawing and the answer to every input come to an end, whatever the documents, the size of the terminal and
the state. -/
theorem C70_answers (env : Env) (cols rows : Nat) (s : St) (i : Split.Input) :
    (∃ N K r, ∀ n ≥ N, ∀ k ≥ K, settle env n k (start env cols rows) = some r) ∧ ∃ N K r, ∀ n ≥ N, ∀ k ≥ K, step env n k i s = some r :=
  ⟨settle_all env _, step_all env i s⟩

/-! ## C74 -/

/-- `1 "x"` and `1 "y"`, in a container, before a `3`. -/
def folded : Env := splitEnv (.arr [.arr [.int 1, .str b!"x"], .int 3]) (.arr [.arr [.int 1, .str b!"y"], .int 3])

/-- **C74 does not hold**: a search opens the containers around what it finds, not their counterparts. -/
theorem C74_folded_false : ¬ ∀ (env : Env), Compared env → ∀ (n k cols rows : Nat) (s : St), Reached env n k cols rows anyInput s →
    ∀ e q, env.equiv e = some q → (e ∈ s.collapsed ↔ q ∈ s.collapsed) := by
  intro h
  obtain ⟨s, hs, hp⟩ := session_some (env := folded) (n := 50) (k := 50) (cols := 80) (rows := 24) (l := [skey b!"J", skey b!"H", sfind b!"x"])
    (p := fun s => decide (folded.equiv (.left [0]) = some (.right [0]) ∧ .left [0] ∉ s.collapsed ∧ .right [0] ∈ s.collapsed)) (by decide +kernel)
  have hp := of_decide_eq_true hp
  have := h folded (splitEnv_compared (by decide +kernel)) 50 50 80 24 s (reached_from _ (fun _ _ _ => trivial) hs) _ _ hp.1
  exact hp.2.1 (this.mpr hp.2.2)

/-- **C74, in part.** In a session without searches, two containers that correspond are both collapsed or both open. -/
theorem C74_folded_partial (env : Env) (hc : Compared env) (n k cols rows : Nat) (s : St) (h : Reached env n k cols rows noSearch s)
    (e q : Ptr) (heq : env.equiv e = some q) : e ∈ s.collapsed ↔ q ∈ s.collapsed :=
  alike_reached hc h e q heq

theorem noSearch_key {name : Bytes} {pat : Option Pattern} (h1 : name ≠ b!"/") (h2 : name ≠ b!"N") (s : St) : noSearch s (.key name pat) := by
  intro n p h
  cases h
  exact ⟨h1, h2⟩

example : ∃ s, Reached folded 50 50 80 24 noSearch s ∧ Ptr.left [0] ∈ s.collapsed ∧ folded.equiv (.left [0]) = some (.right [0]) := by
  obtain ⟨s, hs, hp⟩ := session_some (env := folded) (n := 50) (k := 50) (cols := 80) (rows := 24) (l := [skey b!"J", skey b!"H"])
    (p := fun s => decide (Ptr.left [0] ∈ s.collapsed ∧ folded.equiv (.left [0]) = some (.right [0]))) (by decide +kernel)
  refine ⟨s, reached_from _ ?_ hs, of_decide_eq_true hp⟩
  intro i hi s
  simp only [List.mem_cons, List.not_mem_nil, or_false] at hi
  rcases hi with rfl | rfl <;> exact noSearch_key (by decide) (by decide) s

/-! ## C75 -/

/-- `[1, 2]` and `[1, "x"]`. -/
def differing : Env := splitEnv (.arr [.int 1, .int 2]) (.arr [.int 1, .str b!"x"])

/-- **C75 does not hold**: on a terminal of five lines, a search of a text of the second document from the first window, and then `J`. -/
theorem C75_no_crash_false : ¬ ∀ (env : Env), Compared env → ∀ (n k cols rows : Nat) (s : St), Reached env n k cols rows anyInput s →
    ∀ i, step env n k i s ≠ some .crash := by
  intro h
  obtain ⟨s, hs, hp⟩ := session_some (env := differing) (n := 50) (k := 50) (cols := 80) (rows := 5) (l := [sfind b!"x"])
    (p := fun s => decide (step differing 50 50 (skey b!"J") s = some .crash)) (by decide +kernel)
  exact h differing (splitEnv_compared (by decide +kernel)) 50 50 80 5 s (reached_from _ (fun _ _ _ => trivial) hs) _ (of_decide_eq_true hp)

/-- **C75, in part.** In a session without searches no input crashes the diff view, nor does its first drawing. -/
theorem C75_no_crash_partial (env : Env) (hc : Compared env) (n k cols rows : Nat) :
    settle env n k (start env cols rows) ≠ some none ∧
    ∀ (s : St), Reached env n k cols rows noSearch s → ∀ i, noSearch s i → step env n k i s ≠ some .crash := by
  refine ⟨?_, fun s h i hi => live_step hc (live_reached hc h) hi⟩
  intro h
  have hx : Has (start env cols rows) := has_set Nat.zero_lt_two (by simp) (by simp) (by simp)
  rcases settle_crash h with hn | hn
  · exact hx.last0 hn
  · exact hx.last1 hn

/-! ## C76 -/

/-- **C76 does not hold**: a search of a text of the second document, from the first window, selects that text in the first window. -/
theorem C76_own_document_false : ¬ ∀ (env : Env), Compared env → ∀ (n k cols rows : Nat) (s : St), Reached env n k cols rows anyInput s →
    ∀ e, s.active.sel = some e → IsElement env (activeSide s) e := by
  intro h
  obtain ⟨s, hs, hp⟩ := session_some (env := differing) (n := 50) (k := 50) (cols := 80) (rows := 24) (l := [sfind b!"x"])
    (p := fun s => decide (s.active.sel = some (.right [1]) ∧ s.selected = 0)) (by decide +kernel)
  have hp := of_decide_eq_true hp
  have := h differing (splitEnv_compared (by decide +kernel)) 50 50 80 24 s (reached_from _ (fun _ _ _ => trivial) hs) _ hp.1
  rw [activeSide, hp.2] at this
  exact this

/-- **C76, in part.** If every search is one whose first hit (those of the first document come first) is in the document of the active window, then
in every window the selection is an element of its document. -/
theorem C76_own_document_partial (env : Env) (hc : Compared env) (n k cols rows : Nat) (s : St) (h : Reached env n k cols rows (ownSearch env) s) :
    (∀ e, s.first.sel = some e → IsElement env false e) ∧ (∀ e, s.second.sel = some e → IsElement env true e) := by
  have := own_reached hc h
  exact ⟨fun e he => owns_iff.mp (this.first.sel e he), fun e he => owns_iff.mp (this.second.sel e he)⟩

/-- Such a session, with a search that finds something. -/
example : ∃ s, Reached differing 50 50 80 24 (ownSearch differing) s ∧ s.active.sel = some (.left [1]) ∧ s.active.results ≠ [] := by
  obtain ⟨s, hs, hp⟩ := session_some (env := differing) (n := 50) (k := 50) (cols := 80) (rows := 24) (l := [])
    (p := fun s => decide (s.selected = 0) && (session differing 50 50 [sfind b!"2"] s).any (fun t : St => decide (t.active.sel = some (.left [1]) ∧ t.active.results ≠ []))) (by decide +kernel)
  rw [Bool.and_eq_true] at hp
  cases ht : session differing 50 50 [sfind b!"2"] s with
  | none => rw [ht] at hp; cases hp.2
  | some t =>
    rw [ht] at hp
    have h0 : Reached differing 50 50 80 24 (ownSearch differing) s := reached_from _ (fun i hi => by cases hi) hs
    refine ⟨t, ?_, of_decide_eq_true hp.2⟩
    rw [session] at ht
    cases hst : step differing 50 50 (sfind b!"2") s with
    | none => rw [hst] at ht; cases ht
    | some a =>
      rw [hst] at ht
      cases a with
      | nextInput u =>
        cases ht
        refine .input _ h0 ?_ hst
        intro pat e hi he
        simp only [sfind, Split.Input.key.injEq, Option.some.injEq, true_and] at hi
        subst hi
        have h1 : (search differing (plainPattern b!"2")).head? = some (.left [1]) := by decide +kernel
        rw [h1] at he
        cases he
        rw [activeSide, of_decide_eq_true hp.1]
        show ((Elem.value differing.left).at [1]).isSome = true
        decide +kernel
      | redraw u => cases ht
      | quit => cases ht
      | crash => cases ht

end Verif.Props
