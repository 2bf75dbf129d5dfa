import Verif.Lemmas.SplitMarks
/-!
# The calls to `ncurses` in the diff view
-/
namespace Verif.Lemmas.Split
open Verif.Model Verif.Model.Diff Verif.Model.Split Verif.Spec.SplitView
open Verif.Model.Tui (getNbLines hasReachedBottom)

/-- What is put in a window: a text, in a column and a line, or a line of a gap. -/
inductive Ev where
  | text (col : Nat) (b : Print × Nat)
  | gap (y : Nat)

def Ev.calls (env : Env) (view : View) (sel : Option Ptr) (sc : Nat) : Ev → List Call
  | .text col b => callAt env view sel sc col b
  | .gap y => [.mark y .rem]

def Ev.marks (env : Env) (sc : Nat) : Ev → List Mark
  | .text _ b => markAt env sc b
  | .gap y => [⟨y, .rem⟩]

def Ev.cells (env : Env) (view : View) (sel : Option Ptr) (sc : Nat) : Ev → List Cell
  | .text col b => [cellAt env view sel sc col b]
  | .gap _ => []

def Ev.first : Ev → Nat
  | .text _ b => b.2
  | .gap y => y

def Ev.next : Ev → Nat
  | .text _ b => b.2 + b.1.lines
  | .gap y => y + 1

/-- The text is one of the document. -/
def Ev.Real (env : Env) (view : View) (side : Bool) (sc : Nat) : Ev → Prop
  | .text col b => sc < b.2 ∧ ∃ it : Item, it.col = col ∧ 2 ≤ col ∧ b.1 ∈ prints env view side it ∧
      (it.closing = true → ∃ v, (Elem.value (env.root side)).at it.path = some (.value v))
  | .gap _ => True

/-- What was done to a window. -/
structure Called (env : Env) (view : View) (side : Bool) (w : Win) (evs : List Ev) : Prop where
  pos : 1 ≤ w.y
  calls : w.calls = evs.flatMap (Ev.calls env view w.sel w.scroll)
  marks : w.marks = evs.flatMap (Ev.marks env w.scroll)
  screen : w.screen = evs.flatMap (Ev.cells env view w.sel w.scroll)
  order : evs.Pairwise (fun a b => a.next ≤ b.first)
  bounds : ∀ e ∈ evs, 1 ≤ e.first ∧ e.first < e.next ∧ e.next ≤ w.y
  real : ∀ e ∈ evs, e.Real env view side w.scroll

theorem called_reset (env : Env) (view : View) (side : Bool) (v : Win) : Called env view side v.reset [] :=
  ⟨Nat.le_refl _, rfl, rfl, rfl, .nil, fun e he => (by cases he), fun e he => (by cases he)⟩

theorem called_same {env : Env} {view : View} {side : Bool} {w : Win} {evs : List Ev} {y : Nat} (hy : w.y ≤ y) (h : Called env view side w evs) :
    Called env view side { w with y := y } evs := by
  refine ⟨Nat.le_trans h.pos hy, h.calls, h.marks, h.screen, h.order, fun e he => ?_, h.real⟩
  have := h.bounds e he
  dsimp only
  omega

theorem called_gap {env : Env} {view : View} {side : Bool} (n : Nat) {w : Win} {evs : List Ev} (h : Called env view side w evs) :
    ∃ evs', Called env view side (gap n w) evs' := by
  induction n generalizing w evs with
  | zero => exact ⟨evs, h⟩
  | succ n ih =>
    refine ih (evs := evs ++ [.gap w.y]) (w := { w with y := w.y + 1, marks := displayDiffOp w.y .rem w.marks, calls := w.calls ++ callMark w.y .rem }) ?_
    have hpos := h.pos
    refine ⟨by dsimp only; omega, ?_, ?_, ?_, ?_, ?_, ?_⟩
    · simp only [h.calls, List.flatMap_append, List.flatMap_cons, List.flatMap_nil, List.append_nil]
      rfl
    · simp only [h.marks, List.flatMap_append, List.flatMap_cons, List.flatMap_nil, List.append_nil]
      rfl
    · simp only [h.screen, List.flatMap_append, List.flatMap_cons, List.flatMap_nil, List.append_nil, Ev.cells]
    · rw [List.pairwise_append]
      refine ⟨h.order, by simp, fun a ha b hb => ?_⟩
      simp only [List.mem_singleton] at hb
      subst hb
      exact (h.bounds a ha).2.2
    · intro e he
      rcases List.mem_append.mp he with he | he
      · have := h.bounds e he
        dsimp only
        omega
      · simp only [List.mem_singleton] at he
        subst he
        simp only [Ev.first, Ev.next]
        omega
    · intro e he
      rcases List.mem_append.mp he with he | he
      · exact h.real e he
      · simp only [List.mem_singleton] at he
        subst he
        trivial

theorem called_one {env : Env} {view : View} {side : Bool} {w w' : Win} {c : Bool} {evs : List Ev} {it : Item} {rest : List Item}
    {ls : List (Print × Nat)} (hw : Wrote env view side w it rest w' c ls) (h : Called env view side w evs) :
    Called env view side w' (evs ++ ls.map (.text it.col)) := by
  have hcase : w'.scroll = w.scroll ∨ ∀ e ∈ evs, ∃ y, e = .gap y := by
    have hsc := hw.scroll
    split at hsc
    · next hc =>
      simp only [Bool.and_eq_true, Bool.not_eq_true', decide_eq_true_eq] at hc
      refine .inr fun e he => ?_
      cases e with
      | gap y => exact ⟨y, rfl⟩
      | text col b =>
        have h1 := (h.real _ he).1
        have h2 := h.bounds _ he
        simp only [Ev.first, Ev.next] at h2
        omega
    · exact .inl hsc
  have hold : ∀ {α : Type} (f : Nat → Ev → List α), (∀ y, f w'.scroll (.gap y) = f w.scroll (.gap y)) → evs.flatMap (f w.scroll) = evs.flatMap (f w'.scroll) := by
    intro α f hf
    rcases hcase with h | h
    · rw [h]
    · have : ∀ l : List Ev, (∀ e ∈ l, ∃ y, e = .gap y) → l.flatMap (f w.scroll) = l.flatMap (f w'.scroll) := by
        intro l
        induction l with
        | nil => intro _; rfl
        | cons e l ih =>
          intro hl
          obtain ⟨y, rfl⟩ := hl e List.mem_cons_self
          rw [List.flatMap_cons, List.flatMap_cons, hf, ih (fun e he => hl e (List.mem_cons_of_mem _ he))]
      exact this evs h
  have hls : ∀ {α : Type} (f : Ev → List α), (ls.map (.text it.col)).flatMap f = ls.flatMap (fun b => f (.text it.col b)) := by
    intro α f
    rw [List.flatMap_map]
  have hy := hw.y
  have hpos := h.pos
  refine ⟨by omega, ?_, ?_, ?_, ?_, ?_, ?_⟩
  · rw [hw.calls, h.calls, List.flatMap_append, hls, hw.sel, hold (fun sc => Ev.calls env view w.sel sc) (fun _ => rfl)]
    rfl
  · rw [hw.marks, h.marks, List.flatMap_append, hls, hold (fun sc => Ev.marks env sc) (fun _ => rfl)]
    rfl
  · rw [hw.screen, h.screen, List.flatMap_append, hls, hw.sel, hold (fun sc => Ev.cells env view w.sel sc) (fun _ => rfl)]
    simp only [Ev.cells]
    congr 1
    exact List.map_eq_flatMap ..
  · rw [List.pairwise_append]
    refine ⟨h.order, ?_, fun a ha b hb => ?_⟩
    · rw [List.pairwise_map]
      exact hw.order
    · obtain ⟨b, hb', rfl⟩ := List.mem_map.mp hb
      have h1 := h.bounds a ha
      have h2 := hw.lines b hb'
      show a.next ≤ b.2
      omega
  · intro e he
    rcases List.mem_append.mp he with he | he
    · have := h.bounds e he
      omega
    · obtain ⟨b, hb, rfl⟩ := List.mem_map.mp he
      have h2 := hw.lines b hb
      simp only [Ev.first, Ev.next]
      omega
  · intro e he
    rcases List.mem_append.mp he with he | he
    · rcases hcase with hc | hc
      · rw [hc]; exact h.real e he
      · obtain ⟨y, rfl⟩ := hc e he
        trivial
    · obtain ⟨b, hb, rfl⟩ := List.mem_map.mp he
      have h2 := hw.lines b hb
      refine ⟨h2.2.1, it, rfl, hw.col, ?_, hw.real⟩
      obtain ⟨sk, lf, h3, _⟩ := hw.prints
      rw [h3]
      exact List.mem_append_left _ (List.mem_append_right _ (List.mem_map_of_mem hb))

/-- What was done to the windows when they are drawn. -/
theorem done_called {env : Env} {n : Nat} {s : St} {a b : Win} (h : redraw env n s = some (.done a b)) :
    (∃ evs, Called env s.view false a evs) ∧ ∃ evs, Called env s.view true b evs := by
  obtain ⟨l0, l1, hl, _, _⟩ := done_shows h
  exact hl.winMarks (fun side _ w _ => ∃ evs, Called env s.view side w evs) ⟨_, called_reset ..⟩ ⟨_, called_reset ..⟩
    (fun _ _ _ _ _ hy hp => by obtain ⟨evs, hp⟩ := hp; exact ⟨evs, called_same hy hp⟩) (fun _ _ n _ _ hp => by obtain ⟨evs, hp⟩ := hp; exact called_gap n hp)
    (fun _ _ _ _ _ _ _ _ hw hp => by obtain ⟨evs, hp⟩ := hp; exact ⟨_, called_one hw hp⟩)

end Verif.Lemmas.Split
