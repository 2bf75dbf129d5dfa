import Verif.Lemmas.TuiAll
import Verif.Lemmas.SelLine
/-! # C38, C39: the interactive mode goes on -/
namespace Verif.Props
open Verif.Model Verif.Model.Search Verif.Model.Nav Verif.Model.Tui Verif.Spec Verif.Lemmas

/-- The program waits for an input in the state `s`, after a history of inputs each of which was `ok` in its state. -/
inductive Waits (env : Env) (ok : St → Input → Prop) : St → Prop
  | start {w h n s} : ok (start w h) (.resize w h) → settle env n (start w h) = some (.done s) → Waits env ok s
  | step {n i s s'} : Waits env ok s → ok s i → step env n i s = some (.nextInput s') → Waits env ok s'

/-- The results an input looks through: those of N, or those of a new search. -/
def looksThrough (env : Env) (s : St) : Input → List Path
  | .key name pat =>
    if name = b!"N" then s.results
    else if name = b!"/" then
      match pat with
      | some p => (Nav.search env.rx env.fmt p env.root).1
      | none => []
    else []
  | .resize _ _ => []

/-- The input is no search that goes back to a first result inside a collapsed container, and no change to a screen of one line. -/
def Calm (env : Env) (s : St) (i : Input) : Prop :=
  (∀ w h, i = .resize w h → h ≠ 1) ∧
  ∀ first, (looksThrough env s i).head? = some first → (∀ q ∈ looksThrough env s i, ∀ sel, s.sel = some sel → ¬ sel < q) →
    ∀ a ∈ s.collapsed, ¬ (a <+: first ∧ a ≠ first)

/-- The displayed items of a state. -/
def shownNow (env : Env) (s : St) : List Path := visible (fun p => s.collapsed.contains p) env.root

theorem calm_reveals {env : Env} {s : St} {i : Input} (h : Calm env s i) (hr : ResultsOK env (looksThrough env s i))
    {sel : Path} (hsel : s.sel = some sel) (he : ∃ e, elem env.root sel = some e) : ¬ Reveals env (looksThrough env s i) s := by
  rintro ⟨p, q, c, h1, h2, h3⟩
  rw [hsel] at h1
  cases h1
  generalize hres : looksThrough env s i = results at *
  rcases hr with rfl | ⟨pat, rfl⟩
  · simp [jump] at h2; split at h2 <;> simp at h2
  · have hne : (Nav.search env.rx env.fmt pat env.root).1 ≠ [] := by
      intro h0; rw [h0] at h2; simp [jump] at h2; split at h2 <;> simp at h2
    obtain ⟨q', c', after, j1, j2, j3⟩ := C36_next_result env.rx env.fmt pat env.root sel s.collapsed he hne
    rw [h2] at j1
    cases j1
    split at j3
    · simp at j3
    · next hno =>
      have hq : (Nav.search env.rx env.fmt pat env.root).1.head? = some q := by
        unfold jump at h2
        split at h2
        · simp at h2
        · split at h2
          · simp at h2
          · next heq => simp at h2; rw [heq, h2.1]; rfl
      have hc := h.2 q (hres.symm ▸ hq) (by
        rw [hres]
        intro r hr' z hz hlt
        rw [hsel] at hz
        cases hz
        exact hno ⟨r, hr', hlt⟩)
      apply h3
      have := (C37_revealed _ _ _ _ _ _ _ h2).2
      have hcu : c = unfold s.collapsed q := by
        unfold jump at h2
        split at h2
        · simp at h2
        · split at h2
          · simp at h2
          · simp at h2; rw [← h2.1]; exact h2.2.symm
      rw [hcu, unfold, List.filter_eq_self]
      intro a ha
      have := hc a ha
      simp only [Bool.not_eq_true', Bool.and_eq_false_iff, decide_eq_false_iff_not]
      by_cases hp : a <+: q
      · right; intro hn; exact this ⟨hp, hn⟩
      · left; rw [← Bool.not_eq_true, List.isPrefixOf_iff_prefix]; exact hp

theorem looksThrough_ok {env : Env} {s : St} (hr : ResultsOK env s.results) (i : Input) : ResultsOK env (looksThrough env s i) := by
  unfold looksThrough
  split
  · split
    · exact hr
    split
    · split
      · exact .inr ⟨_, rfl⟩
      · exact .inl rfl
    · exact .inl rfl
  · exact .inl rfl

/-- One input in a state as it should be. -/
theorem step_fine {env : Env} {s : St} (h : Ready env s) (hr : ResultsOK env s.results) (hh : s.height ≠ 1) {i : Input} (hc : Calm env s i) :
    (∃ n a, step env n i s = some a) ∧
    ∀ n a, step env n i s = some a → a = .quit ∨ ∃ s', a = .nextInput s' ∧ Ready env s' ∧ ResultsOK env s'.results ∧ s'.height ≠ 1 := by
  cases i with
  | resize w h' =>
    obtain ⟨q, h1, h2⟩ := h.sel
    have hh' : h' ≠ 1 := hc.1 w h' rfl
    constructor
    · obtain ⟨n, r, hn⟩ := settle_some env { s with width := w, height := h' } (q := q) h1 h2
      obtain ⟨s', rfl, -⟩ := settle_ready env n { s with width := w, height := h' } r (q := q) h1 h2 hh' hn
      exact ⟨n, .nextInput s', by simp [step, hn]⟩
    · intro n a ha
      simp only [step] at ha
      cases hn : settle env n { s with width := w, height := h' } with
      | none => rw [hn] at ha; simp at ha
      | some r =>
        obtain ⟨s', rfl, hk, hr'⟩ := settle_ready env n { s with width := w, height := h' } r (q := q) h1 h2 hh' hn
        rw [hn] at ha
        simp at ha
        subst ha
        exact .inr ⟨s', rfl, hr', by rw [hk.2.2.1]; exact hr, by rw [hk.2.2.2.2]; exact hh'⟩
  | key name pat =>
    obtain ⟨q, h1, h2⟩ := h.sel
    have hrev := calm_reveals hc (looksThrough_ok hr _) h1 ((mem_visible _ _ _).mp h2).1
    have hf := evalKey_fine h hr hh name pat (by
      rintro results (⟨rfl, rfl⟩ | ⟨rfl, p, rfl, rfl⟩)
      · exact hrev
      · exact hrev)
    simp only [step]
    cases ha : evalKey env name pat s with
    | crash => rw [ha] at hf; exact hf.elim
    | quit => exact ⟨⟨0, _, rfl⟩, fun n a h => .inl (by simpa using h.symm)⟩
    | nextInput s' =>
      rw [ha] at hf
      exact ⟨⟨0, _, rfl⟩, fun n a h => .inr ⟨s', by simpa using h.symm, hf.1, hf.2.1, by rw [hf.2.2.1]; exact hh⟩⟩
    | redraw s1 =>
      rw [ha] at hf
      obtain ⟨⟨z, g1, g2⟩, g3, g4, -⟩ := hf
      have hh1 : s1.height ≠ 1 := by rw [g4]; exact hh
      constructor
      · obtain ⟨n, r, hn⟩ := settle_some env s1 g1 g2
        obtain ⟨s', rfl, -⟩ := settle_ready env n s1 r g1 g2 hh1 hn
        exact ⟨n, .nextInput s', by simp [hn]⟩
      · intro n a ha
        simp only at ha
        cases hn : settle env n s1 with
        | none => rw [hn] at ha; simp at ha
        | some r =>
          obtain ⟨s', rfl, hk, hr'⟩ := settle_ready env n s1 r g1 g2 hh1 hn
          rw [hn] at ha
          simp at ha
          subst ha
          exact .inr ⟨s', rfl, hr', by rw [hk.2.2.1]; exact g3, by rw [hk.2.2.2.2]; exact hh1⟩

/-- The results are those of a search. -/
def KeepsResults (env : Env) : Answer → Prop
  | .redraw s' => ResultsOK env s'.results
  | .nextInput s' => ResultsOK env s'.results
  | _ => True

theorem redraw_results (env : Env) (t : St) : (∀ s', redraw env t = .done s' → s'.results = t.results) ∧
    ∀ s', redraw env t = .retry s' → s'.results = t.results := by
  unfold redraw
  simp only
  generalize drawValue env _ t.sel [] false 0 _ env.root = r
  obtain ⟨d, b⟩ := r
  simp only
  split
  · exact ⟨(by intro s' h; cases h), (by intro s' h; cases h; rfl)⟩
  · split
    · exact ⟨(by intro s' h; cases h; rfl), (by intro s' h; cases h)⟩
    · exact ⟨(by intro s' h; cases h), (by intro s' h; cases h)⟩
    · exact ⟨(by intro s' h; cases h; rfl), (by intro s' h; cases h)⟩

theorem evalKey_results {env : Env} {s : St} (hr : ResultsOK env s.results) (name : Bytes) (pat : Option Pattern) :
    KeepsResults env (evalKey env name pat s) := by
  have hm : ∀ t, ResultsOK env t.results → KeepsResults env (redrawMessage env t) := by
    intro t ht
    have := redraw_results env t
    unfold redrawMessage
    cases hd : redraw env t with
    | crash => trivial
    | done s' => change ResultsOK env s'.results; rw [this.1 _ hd]; exact ht
    | retry s' => change ResultsOK env s'.results; rw [this.2 _ hd]; exact ht
  have hnr : ∀ t, ResultsOK env t.results → KeepsResults env (nextResult env t) := by
    intro t ht
    unfold nextResult
    cases hq : t.results with
    | nil => exact hm _ ht
    | cons z zs =>
      rw [hq] at ht
      simp only
      cases t.sel with
      | none => exact hm _ ht
      | some p =>
        simp only
        cases jump env.root (z :: zs) p t.collapsed with
        | none => trivial
        | some r =>
          obtain ⟨a, c, b⟩ := r
          cases b with
          | true => exact ht
          | false => exact hm _ ht
  unfold evalKey
  split
  · trivial
  split
  · exact hr
  split
  · unfold selectDown; split; exact hr; split <;> exact hr
  split
  · unfold selectPUp; split; trivial; split; exact hr; split <;> exact hr
  split
  · unfold selectPDown; split; trivial; split <;> exact hr
  split
  · unfold expandSelection; split; exact hr; simp only; split; trivial; split; exact hr; split; exact hr; split <;> exact hr
  split
  · unfold collapseSelection; split; trivial; simp only; split; trivial; split <;> exact hr
  split
  · unfold initSearch; split; exact hr; split; exact .inl rfl; exact hnr _ (.inr ⟨_, rfl⟩)
  split
  · exact hnr _ hr
  · exact hr

theorem start_shown (env : Env) (w h : Nat) : ([] : Path) ∈ shownItems env (start w h) := by simp [shownItems, visible]

theorem waits_fine {env : Env} {s : St} (h : Waits env (Calm env) s) : Ready env s ∧ ResultsOK env s.results ∧ s.height ≠ 1 := by
  induction h with
  | @start w h n s hok hs =>
    obtain ⟨s', h1, hk, hr⟩ := settle_ready env n (start w h) _ (q := []) rfl (start_shown env w h) (hok.1 w h rfl) hs
    cases h1
    exact ⟨hr, by rw [hk.2.2.1]; exact .inl rfl, by rw [hk.2.2.2.2]; exact hok.1 w h rfl⟩
  | step _ hok hs ih =>
    rcases (step_fine ih.1 ih.2.1 ih.2.2 hok).2 _ _ hs with h | ⟨s', h, h1, h2, h3⟩
    · simp at h
    · cases h; exact ⟨h1, h2, h3⟩

/-! ## C38 -/

/-- Terminal functions for the examples: every character takes one column; a regular expression matches nothing. -/
def plainEnv (root : Json) (rx : Rx) : Env := ⟨root, rx, id, List.length⟩

/-- Regular expressions that match nothing. -/
def noRx : Rx := ⟨fun _ _ => true, fun _ _ _ => false⟩

/-- A key other than `/`. -/
def key (name : Bytes) : Input := .key name none

/-- Inputs one after the other, with at most `n` drawings each. -/
def runInputs (env : Env) (n : Nat) : List Input → St → Option Answer
  | [], s => some (.nextInput s)
  | i :: is, s =>
    match step env n i s with
    | some (.nextInput s') => runInputs env n is s'
    | a => a

def runFrom (env : Env) (n w h : Nat) (is : List Input) : Option Answer :=
  match settle env n (start w h) with
  | some (.done s) => runInputs env n is s
  | _ => none

/-- `[[1,1,"x"],5]` -/
def crashDoc : Json := .arr [.arr [.int 1, .int 1, .str b!"x"], .int 5]

theorem runInputs_waits {env : Env} {ok : St → Input → Prop} (hok : ∀ s i, ok s i) {n : Nat} {is : List Input} {s s' : St} (h : Waits env ok s)
    (hr : runInputs env n is s = some (.nextInput s')) : Waits env ok s' := by
  induction is generalizing s with
  | nil => simp [runInputs] at hr; exact hr ▸ h
  | cons i is ih =>
    rw [runInputs] at hr
    split at hr
    · next s1 hs => exact ih (h.step (hok s i) hs) hr
    · next h1 =>
      exact absurd hr (h1 s')

theorem runFrom_waits {env : Env} {ok : St → Input → Prop} (hok : ∀ s i, ok s i) {n w h : Nat} {is : List Input} {s' : St}
    (hr : runFrom env n w h is = some (.nextInput s')) : Waits env ok s' := by
  rw [runFrom] at hr
  split at hr
  · next s hs => exact runInputs_waits hok (.start (hok _ _) hs) hr
  · simp at hr

/-- Down, collapse, Down, Down, search for `x`. -/
def crashKeys : List Input := [key b!"J", key b!"H", key b!"J", key b!"J", .key b!"/" (some (plainPattern b!"x"))]

/-- The state after these keys. -/
def crashState : St := ⟨some [0, 2], 2, [], [[0, 2]], some [0, 0], none, false, 80, 3, [⟨1, 4, b!"[", false, false⟩, ⟨2, 8, b!"1", false, false⟩]⟩

theorem crash_reached : runFrom (plainEnv crashDoc noRx) 9 80 3 crashKeys = some (.nextInput crashState) := by decide +kernel

/-- **C38 does not hold**: on a screen of 3 lines, with `[[1,1,"x"],5]`, collapsing the inner array, going down to `5` and searching for `x` leads to
a state in which Down makes the selection null, which ends the program with an access through the null pointer. -/
theorem C38_selection_false : ∃ env s s', Waits env (fun _ _ => True) s ∧ evalKey env b!"J" none s = .redraw s' ∧ s'.sel = none ∧
    ∃ n, step env n (key b!"J") s = some .crash :=
  ⟨plainEnv crashDoc noRx, crashState, { crashState with sel := none }, runFrom_waits (fun _ _ => trivial) crash_reached, by decide +kernel, rfl, 9,
    by decide +kernel⟩

/-- **C38, the part that holds.** As long as no search goes back to a first result that is inside a collapsed container, and the screen does not have
exactly one line: in every state in which the program waits for an input, the selection is a displayed item of the document that is not inside a
collapsed container; and every further such input is answered, by going on or by the end asked for with Q, never with a crash. Missing: the
searches excluded here. -/
theorem C38_selection_partial (env : Env) :
    (∀ w h, h ≠ 1 → ∃ n s, settle env n (start w h) = some (.done s) ∧ Waits env (Calm env) s) ∧
    ∀ s, Waits env (Calm env) s →
      (∃ q, s.sel = some q ∧ q ∈ shownNow env s) ∧
      ∀ i, Calm env s i → (∃ n a, step env n i s = some a) ∧
        ∀ n a, step env n i s = some a → (a = .quit ∧ ∃ pat, i = .key b!"Q" pat) ∨ ∃ s', a = .nextInput s' ∧ Waits env (Calm env) s' := by
  constructor
  · intro w h hh
    obtain ⟨n, r, hn⟩ := settle_some env (start w h) (q := []) rfl (start_shown env w h)
    obtain ⟨s, rfl, -⟩ := settle_ready env n (start w h) r (q := []) rfl (start_shown env w h) hh hn
    refine ⟨n, s, hn, .start ⟨?_, ?_⟩ hn⟩
    · intro w' h' he; cases he; exact hh
    · intro first hf; simp [looksThrough] at hf
  · intro s hs
    obtain ⟨h1, h2, h3⟩ := waits_fine hs
    refine ⟨h1.sel, fun i hi => ⟨(step_fine h1 h2 h3 hi).1, fun n a ha => ?_⟩⟩
    rcases (step_fine h1 h2 h3 hi).2 n a ha with rfl | ⟨s', rfl, -⟩
    · left
      refine ⟨rfl, ?_⟩
      cases i with
      | resize w h =>
        simp only [step] at ha
        split at ha <;> simp at ha
      | key name pat =>
        by_cases hq : name = b!"Q"
        · exact ⟨pat, by rw [hq]⟩
        · exfalso
          simp only [step] at ha
          have : evalKey env name pat s ≠ .quit := by
            have hm : ∀ t, redrawMessage env t ≠ .quit := by intro t; unfold redrawMessage; split <;> simp
            have hnr : ∀ t, nextResult env t ≠ .quit := by
              intro t; unfold nextResult; split
              · exact hm _
              · split
                · exact hm _
                · split
                  · simp
                  · simp
                  · exact hm _
            unfold evalKey
            rw [if_neg hq]
            split
            · simp [selectUp]
            split
            · unfold selectDown; split; simp; split <;> simp
            split
            · unfold selectPUp; split; simp; split; simp; split <;> simp
            split
            · unfold selectPDown; split; simp; split <;> simp
            split
            · unfold expandSelection; split; simp; simp only; split; simp; split; simp; split; simp; split <;> simp
            split
            · unfold collapseSelection; split; simp; simp only; split; simp; split <;> simp
            split
            · unfold initSearch; split; simp; split; simp; exact hnr _
            split
            · exact hnr _
            · simp
          split at ha
          · split at ha <;> simp at ha
          · simp at ha; exact this ha
    · exact .inr ⟨s', rfl, .step hs hi ha⟩

/-- A history that meets the hypotheses: a search that goes on to a later result (`[0]` is before the selection). -/
theorem nav_reached : runFrom (plainEnv navExample noRx) 9 80 5 [key b!"J", key b!"L", .key b!"/" (some (plainPattern b!"a"))] =
    some (.nextInput ⟨some [0, 0, 1, 0], 2, [], [[0], [0, 0, 1, 0]], some [0, 0, 1], some [0, 0, 1, 0], true, 80, 5,
      [⟨1, 6, b!"[", false, false⟩, ⟨2, 10, b!"x", false, false⟩, ⟨3, 10, b!"{", false, false⟩, ⟨4, 14, b!"b: a", true, true⟩]⟩) := by decide +kernel

/-! ## C39 -/

/-- **C39.** The loop that draws until it is done comes to an end: from every state, whatever is collapsed, found, scrolled, and whatever the size of the
screen, whose selection is a displayed item of the document or null. -/
theorem C39_drawing_ends (env : Env) (s : St) (hs : s.sel = none ∨ ∃ q ∈ items env.root, s.sel = some q) :
    ∃ n, settle env n s = some .crash ∨ ∃ s', settle env n s = some (.done s') := by
  have hn : NoVal env s.sel := by
    rcases hs with h | ⟨q, hq, h⟩ <;> rw [h]
    · intro a k v _ h; simp at h
    · exact noVal_item hq
  obtain ⟨n, r, h, -⟩ := settle_ends env (nbLines (evs env s) + 1) s hn (by omega)
  refine ⟨n, ?_⟩
  have hnr : ∀ n (t : St) s', settle env n t ≠ some (.retry s') := by
    intro n
    induction n with
    | zero => intro t s' h; simp [settle] at h
    | succ n ih =>
      intro t s' h
      rw [settle] at h
      split at h
      · exact ih _ _ h
      · next h2 => simp at h; exact h2 _ h
  cases r with
  | crash => exact .inl h
  | done s' => exact .inr ⟨s', h⟩
  | retry s' => exact absurd h (hnr _ _ _)

theorem waits_ptrs {env : Env} {ok : St → Input → Prop} {s : St} (h : Waits env ok s) : Ptrs env s ∧ ResultsOK env s.results := by
  induction h with
  | @start w h n s _ hs =>
    have h0 : Ptrs env (start w h) := ⟨ofItems_some (by simp [items, visible]), (by intro p hp; cases hp), (by intro p hp; cases hp), (by intro q hq; cases hq)⟩
    obtain ⟨h1, h2⟩ := settle_ptrs n h0 s hs
    exact ⟨h2, by rw [h1.2.2.1]; exact .inl rfl⟩
  | @step n i s s' _ _ hs ih =>
    cases i with
    | resize w h =>
      simp only [step] at hs
      split at hs <;> simp at hs
      next heq =>
      subst hs
      obtain ⟨h1, h2⟩ := settle_ptrs n (s := { s with width := w, height := h }) ih.1 _ heq
      exact ⟨h2, by rw [h1.2.2.1]; exact ih.2⟩
    | key name pat =>
      have h1 := evalKey_ptrs ih.1 ih.2 name pat
      have h2 := evalKey_results ih.2 name pat
      simp only [step] at hs
      split at hs
      · next s1 hk =>
        rw [hk] at h1 h2
        split at hs <;> simp at hs
        next heq =>
        subst hs
        obtain ⟨h3, h4⟩ := settle_ptrs n h1 _ heq
        exact ⟨h4, by rw [h3.2.2.1]; exact h2⟩
      · simp at hs
        rw [hs] at h1 h2
        exact ⟨h1, h2⟩

/-- **C39, for the program.** Whatever has happened before, the program comes to an end of drawing after every input. -/
theorem C39_every_input_ends (env : Env) (ok : St → Input → Prop) (s : St) (h : Waits env ok s) (i : Input) : ∃ n a, step env n i s = some a := by
  obtain ⟨hp, hr⟩ := waits_ptrs h
  have key : ∀ t : St, OfItems env t.sel → ∃ n, settle env n t = some .crash ∨ ∃ s', settle env n t = some (.done s') := by
    intro t ht
    refine C39_drawing_ends env t ?_
    cases hsel : t.sel with
    | none => exact .inl rfl
    | some q => exact .inr ⟨q, ht q hsel, rfl⟩
  cases i with
  | resize w h' =>
    obtain ⟨n, hn | ⟨s', hn⟩⟩ := key { s with width := w, height := h' } hp.1
    · exact ⟨n, .crash, by simp [step, hn]⟩
    · exact ⟨n, .nextInput s', by simp [step, hn]⟩
  | key name pat =>
    have h1 := evalKey_ptrs hp hr name pat
    cases ha : evalKey env name pat s with
    | redraw s1 =>
      rw [ha] at h1
      obtain ⟨n, hn | ⟨s', hn⟩⟩ := key s1 h1.1
      · exact ⟨n, .crash, by simp [step, ha, hn]⟩
      · exact ⟨n, .nextInput s', by simp [step, ha, hn]⟩
    | nextInput s' => exact ⟨0, .nextInput s', by simp only [step, ha]⟩
    | quit => exact ⟨0, .quit, by simp only [step, ha]⟩
    | crash => exact ⟨0, .crash, by simp only [step, ha]⟩

example : Waits (plainEnv crashDoc noRx) (fun _ _ => True)
    crashState := runFrom_waits (fun _ _ => trivial) crash_reached

end Verif.Props
