import Verif.Lemmas.DiffSigns
import Verif.Props.SplitScreen
/-! # C120: the signs of the diff view agree with the counterparts -/
namespace Verif.Props
open Verif.Model Verif.Model.Search Verif.Model.Diff Verif.Model.Split Verif.Spec.SplitView Verif.Lemmas.Split Verif.Lemmas.Diff

theorem op_get {env : Env} {e : Ptr} {o : Op} (h : env.op e = o) (hn : o ≠ .add) : look env.table.operations e = some o := by
  unfold Env.op Table.get at h
  cases hl : look env.table.operations e with
  | none => rw [hl] at h; exact absurd h.symm hn
  | some x => rw [hl] at h; rw [← h]; rfl

/-- **C120.** What the diff view shows beside an element agrees with its counterpart: an element without sign, or with the sign of a modified one, has a counterpart, which has the same sign; so an
element without counterpart has the sign of an added one, or, only if it is a container, that of a removed one. In a completed drawing, a window that is not scrolled
has these signs beside the lines of every element without counterpart, and a line that has no sign beside it is the line of an element with a counterpart, which has no sign of its own either. -/
theorem C120_signs (env : Env) (hc : Compared env) :
    (∀ e, (env.op e = .equ ∨ env.op e = .mod) → ∃ f, env.equiv e = some f ∧ env.op f = env.op e) ∧
    (∀ e, env.op e = .rem → env.isContainer e = true) ∧
    (∀ e, env.equiv e = none → env.op e = .add ∨ (env.op e = .rem ∧ env.isContainer e = true)) ∧
    (∀ (n k : Nat) (s t : St) (side : Bool), settle env n k s = some (some t) → (windowOf t side).scroll = 0 → ∀ c ∈ (windowOf t side).screen,
      (env.equiv c.who = none → ⟨c.row, .add⟩ ∈ (windowOf t side).marks ∨ (⟨c.row, .rem⟩ ∈ (windowOf t side).marks ∧ env.isContainer c.who = true)) ∧
      ((∀ m ∈ (windowOf t side).marks, m.row ≠ c.row) → ∃ f, env.equiv c.who = some f ∧ env.op f = .equ)) := by
  obtain ⟨hd, hp⟩ := hc
  have g := build_good env.fmt (.value env.left) (.value env.right) [] [] env.table hd
  have sg := build_signs env.fmt (.value env.left) (.value env.right) [] [] env.table hd
  have paired : ∀ e, (env.op e = .equ ∨ env.op e = .mod) → ∃ f, env.equiv e = some f ∧ env.op f = env.op e := by
    intro e he
    have hl : look env.table.operations e = some (env.op e) := op_get rfl (by rcases he with he | he <;> rw [he] <;> simp)
    cases e with
    | left p =>
      obtain ⟨q, h1, h2⟩ := sg.left (r := p) hl he
      refine ⟨.right q, (scan_rel g hp p q).1.mpr h1, ?_⟩
      unfold Env.op Table.get at h2 ⊢
      simp only [List.nil_append] at h2
      rw [h2]; rfl
    | right q =>
      obtain ⟨p, h1, h2⟩ := sg.right (s := q) hl he
      refine ⟨.left p, (scan_rel g hp p q).2.mpr h1, ?_⟩
      unfold Env.op Table.get at h2 ⊢
      simp only [List.nil_append] at h2
      rw [h2]; rfl
  have removed : ∀ e, env.op e = .rem → env.isContainer e = true := by
    intro e he
    have hl := op_get he (by simp)
    cases e with
    | left p =>
      obtain ⟨x, h1, h2⟩ := sg.remL (r := p) hl
      unfold Env.isContainer Env.elem
      dsimp only
      rw [h1]; exact h2
    | right q =>
      obtain ⟨x, h1, h2⟩ := sg.remR (s := q) hl
      unfold Env.isContainer Env.elem
      dsimp only
      rw [h1]; exact h2
  have alone : ∀ e, env.equiv e = none → env.op e = .add ∨ (env.op e = .rem ∧ env.isContainer e = true) := by
    intro e he
    have hn : ¬ (env.op e = .equ ∨ env.op e = .mod) := fun h => by
      obtain ⟨f, hf, _⟩ := paired e h
      rw [he] at hf; cases hf
    cases ho : env.op e with
    | add => exact .inl rfl
    | rem => exact .inr ⟨rfl, removed e ho⟩
    | equ => exact absurd (.inl ho) hn
    | mod => exact absurd (.inr ho) hn
  refine ⟨paired, removed, alone, fun n k s t side hs hz c hcs => ?_⟩
  have hm := C71_marks_partial env n k s t hs side hz
  constructor
  · intro he
    rcases alone _ he with h | ⟨h, h'⟩
    · have := hm.all c hcs (by rw [h]; simp)
      rw [h] at this
      exact .inl this
    · have := hm.all c hcs (by rw [h]; simp)
      rw [h] at this
      exact .inr ⟨this, h'⟩
  · intro hno
    have heq : env.op c.who = .equ := by
      refine Classical.not_not.mp fun hne => ?_
      exact hno _ (hm.all c hcs hne) rfl
    obtain ⟨f, h1, h2⟩ := paired _ (.inl heq)
    exact ⟨f, h1, h2.trans heq⟩

/-- `k` has become a number, `l` is the same, `m` has changed, `n` is gone. -/
def fourSigns : Env := splitEnv (.obj [(b!"k", .arr []), (b!"l", .int 1), (b!"m", .str b!"x"), (b!"n", .null)]) (.obj [(b!"k", .int 5), (b!"l", .int 1), (b!"m", .str b!"y")])

/-- All the cases occur; the value of `n` is not in the table. -/
example : Compared fourSigns ∧ (fourSigns.op (.left [1]) = .equ ∧ fourSigns.op (.left [2]) = .mod ∧ fourSigns.equiv (.left [3]) = none) ∧
    (fourSigns.op (.left [3]) = .add ∧ fourSigns.equiv (.left [0, 0]) = none ∧ fourSigns.op (.left [0, 0]) = .rem) ∧
    fourSigns.table.get (.left [3, 0]) = none ∧ fourSigns.equiv (.left [3, 0]) = none ∧ fourSigns.op (.left [3, 0]) = .add :=
  ⟨splitEnv_compared (by decide +kernel), by decide +kernel, by decide +kernel, by decide +kernel⟩

/-- A drawing with such lines. -/
example : ∃ t, settle fourSigns 50 50 (start fourSigns 80 24) = some (some t) ∧ t.first.scroll = 0 ∧ (∃ c ∈ t.first.screen, fourSigns.equiv c.who = none ∧ ⟨c.row, .add⟩ ∈ t.first.marks) ∧
    ∃ c ∈ t.first.screen, ∀ m ∈ t.first.marks, m.row ≠ c.row := by
  have h : (settle fourSigns 50 50 (start fourSigns 80 24)).any (fun r => r.any fun t => decide (t.first.scroll = 0) &&
      (decide (∃ c ∈ t.first.screen, fourSigns.equiv c.who = none ∧ ⟨c.row, .add⟩ ∈ t.first.marks) && decide (∃ c ∈ t.first.screen, ∀ m ∈ t.first.marks, m.row ≠ c.row))) = true := by
    decide +kernel
  cases hs : settle fourSigns 50 50 (start fourSigns 80 24) with
  | none => rw [hs] at h; cases h
  | some r =>
    rw [hs] at h
    cases r with
    | none => cases h
    | some t =>
      rw [Option.any_some, Option.any_some, Bool.and_eq_true, Bool.and_eq_true] at h
      exact ⟨t, rfl, of_decide_eq_true h.1, of_decide_eq_true h.2.1, of_decide_eq_true h.2.2⟩

end Verif.Props
