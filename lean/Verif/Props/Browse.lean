import Verif.Model.Browse
import Verif.Props.Program
import Verif.Props.LoopSize
/-!
# C116: each input is browsed as if it were the only one
-/
namespace Verif.Props
open Verif.Model Verif.Model.Main Verif.Model.Program Verif.Model.Browse Verif.Model.Loop

/-- What becomes of the view of a document on a terminal of this size, for these events, when nothing was shown before. -/
def alone (k : Keyboard) (w h : Nat) (events : List Loop.Event) (v : Json) : ViewEnd :=
  match Tui.settle (k.env v) k.bound (Tui.start w h) with
  | some (.done s) => Browse.viewEnd (Loop.run k.lenv (Loop.single (k.env v) k.bound) events (Loop.begin s))
  | some .crash => .crash
  | _ => .waits

/-- An event that neither folds nor searches (a key whose name is not `h`, Left or `/`), and is no change of the size of the terminal. -/
def Harmless (env : Loop.Env) : Loop.Event → Prop
  | .timeout => True
  | .stop => True
  | .resize _ _ => False
  | .code c => keyname env.other (toupper c) ∉ [some b!"H", some b!"KEY_LEFT", some b!"/"]

/-! ### Views with more in their states -/

/-- Forgetting part of the state. -/
def mapAns {σ τ : Type} (f : τ → σ) : Loop.Ans τ → Loop.Ans σ
  | .next t => .next (f t)
  | .quit => .quit
  | .crash => .crash

def mapWait {σ τ : Type} (f : τ → σ) (m : Loop.Wait τ) : Loop.Wait σ := ⟨f m.view, m.seq, m.stopped, m.prompt⟩

def mapResult {σ τ : Type} (f : τ → σ) : Loop.Result τ → Loop.Result σ
  | .waits m => .waits (mapWait f m)
  | .ended => .ended
  | .crash => .crash
  | .unknown => .unknown

theorem answer_forget {σ τ : Type} (f : τ → σ) (a : Option (Loop.Ans τ)) (b : Bool) : mapResult f (answer a b) = answer (a.map (mapAns f)) b := by
  cases a with
  | none => rfl
  | some a =>
    cases a with
    | next t => cases b <;> rfl
    | quit => rfl
    | crash => rfl

theorem step_forget {σ τ : Type} (env : Loop.Env) (f : τ → σ) (V' : Loop.View τ) (V : Loop.View σ) (hk : ∀ name pat t, (V'.key name pat t).map (mapAns f) = V.key name pat (f t))
    (hr : ∀ c r t, (V'.resize c r t).map (mapAns f) = V.resize c r (f t)) (e : Loop.Event) (m : Loop.Wait τ) :
    mapResult f (Loop.step env V' e m) = Loop.step env V e (mapWait f m) := by
  have hans : ∀ name pat b, mapResult f (answer (V'.key name pat m.view) b) = answer (V.key name pat (f m.view)) b := by
    intro name pat b
    rw [answer_forget, hk]
  have hpress : ∀ name, mapResult f (press V' name m) = press V name (mapWait f m) := by
    intro name
    unfold press
    split
    · rfl
    · exact hans _ _ _
  have hleave : ∀ line b, mapResult f (leave env V' line b m) = leave env V line b (mapWait f m) := by
    intro line b
    unfold leave
    split <;> first | exact hans _ _ _ | rfl
  cases e with
  | timeout => rfl
  | stop => rfl
  | resize c r =>
    unfold Loop.step
    dsimp only
    rw [show (mapWait f m).view = f m.view from rfl, ← hr]
    cases V'.resize c r m.view with
    | none => rfl
    | some a => cases a <;> rfl
  | code c =>
    unfold Loop.step
    dsimp only
    rw [show (mapWait f m).prompt = m.prompt from rfl]
    cases m.prompt with
    | none =>
      dsimp only
      unfold readCode
      split
      · rfl
      · dsimp only
        rw [show (mapWait f m).seq = m.seq from rfl]
        split
        · rfl
        · exact hpress _
    | some line =>
      dsimp only
      unfold promptCode
      split
      · exact hleave _ _
      · split
        · rfl
        · split
          · exact hleave _ _
          · rfl

theorem run_forget {σ τ : Type} (env : Loop.Env) (f : τ → σ) (V' : Loop.View τ) (V : Loop.View σ) (hk : ∀ name pat t, (V'.key name pat t).map (mapAns f) = V.key name pat (f t))
    (hr : ∀ c r t, (V'.resize c r t).map (mapAns f) = V.resize c r (f t)) : ∀ (es : List Loop.Event) (m : Loop.Wait τ),
    mapResult f (Loop.run env V' es m) = Loop.run env V es (mapWait f m)
  | [], m => rfl
  | e :: es, m => by
    have h := step_forget env f V' V hk hr e m
    rw [Loop.run, Loop.run, ← h]
    cases Loop.step env V' e m with
    | waits m' => exact run_forget env f V' V hk hr es m'
    | ended => rfl
    | crash => rfl
    | unknown => rfl

theorem viewEnd_map {σ τ : Type} (f : τ → σ) (r : Loop.Result τ) : Browse.viewEnd (mapResult f r) = Browse.viewEnd r := by
  cases r <;> rfl

/-! ### What is left behind -/

theorem redraw_fields (env : Tui.Env) (t : Tui.St) : ∀ s', Tui.redraw env t = .done s' ∨ Tui.redraw env t = .retry s' →
    s'.collapsed = t.collapsed ∧ s'.results = t.results ∧ s'.width = t.width ∧ s'.height = t.height := by
  intro s' h
  unfold Tui.redraw at h
  dsimp only at h
  split at h
  · rcases h with h | h <;> cases h
    exact ⟨rfl, rfl, rfl, rfl⟩
  · split at h
    · rcases h with h | h <;> cases h
      exact ⟨rfl, rfl, rfl, rfl⟩
    · rcases h with h | h <;> cases h
    · rcases h with h | h <;> cases h
      exact ⟨rfl, rfl, rfl, rfl⟩

theorem settle_fields (env : Tui.Env) : ∀ (n : Nat) (t s' : Tui.St), Tui.settle env n t = some (.done s') →
    s'.collapsed = t.collapsed ∧ s'.results = t.results ∧ s'.width = t.width ∧ s'.height = t.height
  | 0, t, s', h => by cases h
  | n + 1, t, s', h => by
    rw [Tui.settle] at h
    cases hr : Tui.redraw env t with
    | crash => rw [hr] at h; cases h
    | retry u =>
      rw [hr] at h
      obtain ⟨a1, a2, a3, a4⟩ := redraw_fields env t u (.inr hr)
      obtain ⟨b1, b2, b3, b4⟩ := settle_fields env n u s' h
      exact ⟨b1.trans a1, b2.trans a2, b3.trans a3, b4.trans a4⟩
    | done u =>
      rw [hr] at h
      cases h
      exact redraw_fields env t _ (.inl hr)

/-- Nothing is folded, nothing was found, and the terminal has this size. -/
def Untaken (w h : Nat) (s : Tui.St) : Prop := s.collapsed = [] ∧ s.results = [] ∧ s.width = w ∧ s.height = h

/-- The answer leaves it so. -/
def UntakenA (w h : Nat) : Tui.Answer → Prop
  | .redraw u => Untaken w h u
  | .nextInput u => Untaken w h u
  | _ => True

theorem key_untaken (env : Tui.Env) (n w h : Nat) (name : Bytes) (pat : Option Search.Pattern) (s t : Tui.St) (hs : Untaken w h s)
    (hn : name ∉ [b!"H", b!"KEY_LEFT", b!"/"]) (hk : (Loop.single env n).key name pat s = some (.next t)) : Untaken w h t := by
  have hset : ∀ (u t : Tui.St), Untaken w h u → Tui.settle env n u = some (.done t) → Untaken w h t := by
    rintro u t ⟨u1, u2, u3, u4⟩ hu
    obtain ⟨a1, a2, a3, a4⟩ := settle_fields env n u t hu
    exact ⟨a1.trans u1, a2.trans u2, a3.trans u3, a4.trans u4⟩
  have hmsg : UntakenA w h (Tui.redrawMessage env s) := by
    obtain ⟨u1, u2, u3, u4⟩ := hs
    unfold Tui.redrawMessage
    split
    · trivial
    next u hu =>
      obtain ⟨a1, a2, a3, a4⟩ := redraw_fields env s _ (.inr hu)
      exact ⟨a1.trans u1, a2.trans u2, a3.trans u3, a4.trans u4⟩
    next u hu =>
      obtain ⟨a1, a2, a3, a4⟩ := redraw_fields env s _ (.inl hu)
      exact ⟨a1.trans u1, a2.trans u2, a3.trans u3, a4.trans u4⟩
  have hans : UntakenA w h (Tui.evalKey env name pat s) := by
    unfold Tui.evalKey
    split
    · trivial
    split
    · exact hs
    split
    · unfold Tui.selectDown
      split
      · exact hs
      · split <;> exact hs
    split
    · unfold Tui.selectPUp
      split
      · trivial
      · split
        · exact hs
        · split <;> exact hs
    split
    · unfold Tui.selectPDown
      split
      · trivial
      · split <;> exact hs
    split
    · unfold Tui.expandSelection
      split
      · exact hs
      · dsimp only
        split
        · trivial
        · split
          · exact hs
          · rw [if_neg (by rw [hs.1]; simp)]
            split <;> exact hs
    split
    next hh => exact (hn (by rcases hh with rfl | rfl <;> simp)).elim
    split
    next hh => exact (hn (by rw [hh]; simp)).elim
    split
    · unfold Tui.nextResult
      rw [hs.2.1]
      exact hmsg
    · exact hs
  simp only [Loop.single, Tui.step] at hk
  cases ha : Tui.evalKey env name pat s with
  | redraw u =>
    rw [ha] at hk
    simp only at hk
    cases hu : Tui.settle env n u with
    | none => rw [hu] at hk; cases hk
    | some d =>
      rw [hu] at hk
      cases d with
      | crash => cases hk
      | retry u' => cases hk
      | done u' =>
        cases hk
        rw [ha] at hans
        exact hset u t hans hu
  | nextInput u =>
    rw [ha] at hk
    cases hk
    rw [ha] at hans
    exact hans
  | quit => rw [ha] at hk; cases hk
  | crash => rw [ha] at hk; cases hk

/-- While only such events happen: no prompt is open, the keys read so far begin with a key with Control. -/
def Reading (w h : Nat) (m : Loop.Wait (Tui.St × Bool)) : Prop :=
  m.prompt = none ∧ (m.seq = [] ∨ m.seq.head? = some c%'^') ∧ Untaken w h m.view.1

theorem step_reading (k : Keyboard) (j : Nat) (l : Leftover) (v : Json) (w h : Nat) (e : Loop.Event) (he : Harmless k.lenv e) (m m' : Loop.Wait (Tui.St × Bool))
    (hm : Reading w h m) (hs : Loop.step k.lenv (view k j l v) e m = .waits m') : Reading w h m' := by
  obtain ⟨h1, h2, h3⟩ := hm
  cases e with
  | timeout => cases hs; exact ⟨h1, h2, h3⟩
  | stop => cases hs; exact ⟨h1, h2, h3⟩
  | resize c r => exact he.elim
  | code c =>
    rw [Loop.step] at hs
    simp only [h1] at hs
    unfold readCode at hs
    cases hn : keyname k.lenv.other (toupper c) with
    | none => rw [hn] at hs; cases hs
    | some name =>
      rw [hn] at hs
      dsimp only at hs
      have hne : (if m.seq.isEmpty then [] else m.seq ++ b!"-") ++ name ∉ [b!"H", b!"KEY_LEFT", b!"/"] := by
        rcases h2 with h2 | h2
        · rw [h2]
          simp only [Harmless, hn] at he
          simpa using he
        · obtain ⟨t, ht⟩ : ∃ t, m.seq = c%'^' :: t := by
            cases hq : m.seq with
            | nil => rw [hq] at h2; cases h2
            | cons a t => rw [hq] at h2; exact ⟨t, by rw [Option.some.inj h2]⟩
          rw [ht]
          simp
      by_cases hc : name.head? = some c%'^'
      · rw [if_pos hc] at hs
        cases hs
        refine ⟨h1, .inr ?_, h3⟩
        show ((if m.seq.isEmpty then [] else m.seq ++ b!"-") ++ name).head? = _
        rcases h2 with h2 | h2
        · rw [h2]; exact hc
        · cases hq : m.seq with
          | nil => rw [hq] at h2; cases h2
          | cons a t => rw [hq] at h2; exact h2
      · rw [if_neg hc] at hs
        unfold press at hs
        rw [if_neg (fun hh => hne (by rw [hh]; simp))] at hs
        generalize (if m.seq.isEmpty then [] else m.seq ++ b!"-") ++ name = cmd at hs hne
        simp only [view] at hs
        split at hs
        · cases hs
        · cases hk : (Loop.single (k.env v) k.bound).key cmd none m.view.1 with
          | none => rw [hk] at hs; cases hs
          | some a =>
            rw [hk] at hs
            cases a with
            | quit => cases hs
            | crash => cases hs
            | next t =>
              simp only [Option.map_some, mark, answer] at hs
              split at hs
              · cases hs
              · cases hs
                exact ⟨rfl, .inl rfl, key_untaken (k.env v) k.bound w h cmd none m.view.1 t h3 hne hk⟩

theorem last_reading (k : Keyboard) (j : Nat) (l : Leftover) (v : Json) (w h : Nat) : ∀ (es : List Loop.Event), (∀ e ∈ es, Harmless k.lenv e) → ∀ (m : Loop.Wait (Tui.St × Bool)),
    Reading w h m → Untaken w h (lastState k.lenv (view k j l v) es m).1
  | [], _, m, hm => hm.2.2
  | e :: es, he, m, hm => by
    have h0 := he e (List.mem_cons_self ..)
    have hm' : Reading w h { m with stopped := false } := hm
    unfold lastState
    cases hs : Loop.step k.lenv (view k j l v) e m with
    | waits m' => exact last_reading k j l v w h es (fun x hx => he x (List.mem_cons_of_mem _ hx)) m' (step_reading k j l v w h e h0 m m' hm hs)
    | _ =>
      dsimp only
      cases hs' : Loop.step k.lenv (view k j l v) e { m with stopped := false } with
      | waits m' => exact (step_reading k j l v w h e h0 _ m' hm' hs').2.2
      | _ => exact hm.2.2

/-- Nothing is left behind. -/
def nothing (w h : Nat) : Leftover := ⟨[], [], w, h⟩

theorem oneView_nothing (k : Keyboard) (j w h : Nat) (v : Json) (he : ∀ e ∈ k.events j, Harmless k.lenv e) : (oneView k j (nothing w h) v).2 = nothing w h := by
  unfold oneView
  cases hs : Tui.settle (k.env v) k.bound (enter k j (nothing w h)) with
  | none => rfl
  | some d =>
    cases d with
    | crash => rfl
    | retry s => rfl
    | done s =>
      obtain ⟨a1, a2, a3, a4⟩ := settle_fields (k.env v) k.bound _ s hs
      have hb : Reading w h (Loop.begin (s, true)) := ⟨rfl, .inl rfl, a1, a2, a3, a4⟩
      obtain ⟨b1, b2, b3, b4⟩ := last_reading k j (nothing w h) v w h (k.events j) he _ hb
      dsimp only
      unfold leaves
      rw [b1, b2, b3, b4]
      simp [nothing]

theorem leftover_nothing (k : Keyboard) (w h : Nat) : ∀ (vs : List Json) (j : Nat), (∀ i, i < vs.length → ∀ e ∈ k.events (j + i), Harmless k.lenv e) →
    leftover k j vs (nothing w h) = nothing w h
  | [], j, _ => rfl
  | v :: vs, j, he => by
    rw [leftover, oneView_nothing k j w h v (he 0 (by simp))]
    exact leftover_nothing k w h vs (j + 1) fun i hi => by
      rw [show j + 1 + i = j + (i + 1) by omega]
      exact he (i + 1) (by simpa using hi)

/-- When nothing was left behind, the view is that of the document alone. -/
theorem oneView_alone (k : Keyboard) (j w h : Nat) (v : Json) : (oneView k j (nothing w h) v).1 = alone k w h (k.events j) v := by
  have hent : enter k j (nothing w h) = Tui.start w h := rfl
  unfold oneView alone
  rw [hent]
  cases Tui.settle (k.env v) k.bound (Tui.start w h) with
  | none => rfl
  | some d =>
    cases d with
    | crash => rfl
    | retry s => rfl
    | done s =>
      dsimp only
      have hmark : ∀ (o : Option (Loop.Ans Tui.St)) (b : Bool), (o.map (mark b)).map (mapAns Prod.fst) = o := by
        intro o b
        cases o with
        | none => rfl
        | some a => cases a <;> rfl
      have := run_forget k.lenv Prod.fst (view k j (nothing w h) v) (Loop.single (k.env v) k.bound) (by
        intro name pat t
        show (if t.2 && lost k j (nothing w h) && decide (name = b!"N") && toFirst v t.1 then some .crash
          else ((Loop.single (k.env v) k.bound).key name pat t.1).map (mark _)).map _ = _
        rw [if_neg (by simp [lost, nothing]), hmark]) (by
        intro c r t
        exact hmark _ _) (k.events j) (Loop.begin (s, true))
      rw [show mapWait Prod.fst (Loop.begin (s, true)) = Loop.begin s from rfl] at this
      rw [← this, viewEnd_map]

/-- **C116, the part that holds.** If in the views before nothing was folded and nothing searched for (no key is `h`, Left or `/`; the size of the terminal does not change), an input is
browsed as if it were the only one, whatever it is and whatever keys are then pressed. Missing: what was folded or found in the inputs before. -/
theorem C116_afresh_partial (k : Keyboard) (before : List (Bytes × Json)) (name : Bytes) (v : Json)
    (he : ∀ i, i < before.length → ∀ e ∈ k.events i, Harmless k.lenv e) :
    Browse.session k (before.map ([·])) false [(name, v)] = alone k k.width k.height (k.events before.length) v := by
  unfold Browse.session
  dsimp only
  have hf : (before.map fun x => [x]).flatMap (fun x => x.map (·.2)) = before.map (·.2) := by
    rw [List.flatMap_map]
    clear he
    induction before with
    | nil => rfl
    | cons a l ih =>
      rw [List.flatMap_cons, ih]
      rfl
  rw [hf, List.length_map]
  have := leftover_nothing k k.width k.height (before.map (·.2)) 0 (fun i hi => by
    rw [Nat.zero_add]
    exact he i (by simpa using hi))
  rw [show (⟨[], [], k.width, k.height⟩ : Leftover) = nothing k.width k.height from rfl, this]
  exact oneView_alone k before.length k.width k.height v

/-! ### When no address is used again -/

/-- The event is the key `n`, typed where no other key is pending, or part of a longer command or a text. -/
def Next (env : Loop.Env) (e : Loop.Event) : Prop := ∃ c, e = .code c ∧ keyname env.other (toupper c) = some b!"N"

theorem step_gone {σ τ : Type} (env : Loop.Env) (f : τ → σ) (V' : Loop.View τ) (V : Loop.View σ)
    (hk : ∀ name pat t, (V'.key name pat t).map (mapAns f) = V.key name pat (f t) ∨ (name = b!"N" ∧ V'.key name pat t = some .crash))
    (hr : ∀ c r t, (V'.resize c r t).map (mapAns f) = V.resize c r (f t)) (e : Loop.Event) (m : Loop.Wait τ) :
    mapResult f (Loop.step env V' e m) = Loop.step env V e (mapWait f m) ∨ (Next env e ∧ Loop.step env V' e m = .crash) := by
  have hans : ∀ name pat b, name ≠ b!"N" → mapResult f (answer (V'.key name pat m.view) b) = answer (V.key name pat (f m.view)) b := by
    intro name pat b hn
    rw [answer_forget]
    rcases hk name pat m.view with h | ⟨h, _⟩
    · rw [h]
    · exact (hn h).elim
  have hleave : ∀ line b, mapResult f (leave env V' line b m) = leave env V line b (mapWait f m) := by
    intro line b
    unfold leave
    split <;> first | exact hans _ _ _ (by decide) | rfl
  cases e with
  | timeout => exact .inl rfl
  | stop => exact .inl rfl
  | resize c r =>
    left
    unfold Loop.step
    dsimp only
    rw [show (mapWait f m).view = f m.view from rfl, ← hr]
    cases V'.resize c r m.view with
    | none => rfl
    | some a => cases a <;> rfl
  | code c =>
    unfold Loop.step
    dsimp only
    rw [show (mapWait f m).prompt = m.prompt from rfl]
    cases m.prompt with
    | none =>
      dsimp only
      unfold readCode
      cases hn : keyname env.other (toupper c) with
      | none => exact .inl rfl
      | some name =>
        dsimp only
        rw [show (mapWait f m).seq = m.seq from rfl]
        split
        · exact .inl rfl
        · have hseq : (if m.seq.isEmpty then [] else m.seq ++ b!"-") ++ name = b!"N" → name = b!"N" := by
            intro hN
            cases hs : m.seq with
            | nil => rw [hs] at hN; exact hN
            | cons a l =>
              rw [hs] at hN
              have := congrArg List.length hN
              simp at this
          generalize (if m.seq.isEmpty then [] else m.seq ++ b!"-") ++ name = cmd at hseq
          unfold press
          by_cases h0 : cmd = b!"/"
          · rw [if_pos h0, if_pos h0]; exact .inl rfl
          · rw [if_neg h0, if_neg h0]
            by_cases hN : cmd = b!"N"
            · rw [hN]
              rcases hk b!"N" none m.view with h | ⟨_, h⟩
              · left
                rw [answer_forget]
                exact congrArg (answer · m.stopped) h
              · right
                refine ⟨⟨c, rfl, ?_⟩, by rw [h]; rfl⟩
                rw [hn, hseq hN]
            · left; exact hans _ _ _ hN
    | some line =>
      left
      dsimp only
      unfold promptCode
      split
      · exact hleave _ _
      · split
        · rfl
        · split
          · exact hleave _ _
          · rfl

theorem run_gone {σ τ : Type} (env : Loop.Env) (f : τ → σ) (V' : Loop.View τ) (V : Loop.View σ)
    (hk : ∀ name pat t, (V'.key name pat t).map (mapAns f) = V.key name pat (f t) ∨ (name = b!"N" ∧ V'.key name pat t = some .crash))
    (hr : ∀ c r t, (V'.resize c r t).map (mapAns f) = V.resize c r (f t)) : ∀ (es : List Loop.Event) (m : Loop.Wait τ),
    mapResult f (Loop.run env V' es m) = Loop.run env V es (mapWait f m) ∨ ((∃ e ∈ es, Next env e) ∧ Loop.run env V' es m = .crash)
  | [], m => .inl rfl
  | e :: es, m => by
    rcases step_gone env f V' V hk hr e m with h | ⟨h, h'⟩
    · rw [Loop.run, Loop.run, ← h]
      cases Loop.step env V' e m with
      | waits m' =>
        rcases run_gone env f V' V hk hr es m' with h2 | ⟨⟨x, hx, h2⟩, h3⟩
        · exact .inl h2
        · exact .inr ⟨⟨x, List.mem_cons_of_mem _ hx, h2⟩, h3⟩
      | ended => exact .inl rfl
      | crash => exact .inl rfl
      | unknown => exact .inl rfl
    · exact .inr ⟨⟨e, List.mem_cons_self .., h⟩, by rw [Loop.run, h']⟩

theorem view_size (k : Keyboard) (j : Nat) (l : Leftover) (v : Json) (name : Bytes) (pat : Option Search.Pattern) (s t : Tui.St × Bool)
    (h : (view k j l v).key name pat s = some (.next t)) : t.1.width = s.1.width ∧ t.1.height = s.1.height := by
  have h' : ((Loop.single (k.env v) k.bound).key name pat s.1).map (mark (s.2 && !(decide (name = b!"/") && pat.isSome))) = some (.next t) := by
    simp only [view] at h
    split at h
    · cases h
    · exact h
  cases ha : (Loop.single (k.env v) k.bound).key name pat s.1 with
  | none => rw [ha] at h'; cases h'
  | some a =>
    rw [ha] at h'
    cases a with
    | quit => cases h'
    | crash => cases h'
    | next u =>
      cases h'
      have hz := tui_key_size (k.env v) name pat s.1
      simp only [Loop.single, Tui.step] at ha
      cases hb : Tui.evalKey (k.env v) name pat s.1 with
      | redraw u' =>
        rw [hb] at ha hz
        dsimp only at ha
        cases hu : Tui.settle (k.env v) k.bound u' with
        | none => rw [hu] at ha; cases ha
        | some d =>
          rw [hu] at ha
          cases d with
          | crash => cases ha
          | retry u' => cases ha
          | done u' =>
            cases ha
            obtain ⟨a, b⟩ := tui_settle_size _ hu
            exact ⟨a.trans hz.1, b.trans hz.2⟩
      | nextInput u' => rw [hb] at ha hz; cases ha; exact hz
      | quit => rw [hb] at ha; cases ha
      | crash => rw [hb] at ha; cases ha

theorem last_size (k : Keyboard) (j : Nat) (l : Leftover) (v : Json) : ∀ (es : List Loop.Event) (m : Loop.Wait (Tui.St × Bool)), (∀ c r, .resize c r ∉ es) →
    (lastState k.lenv (view k j l v) es m).1.width = m.view.1.width ∧ (lastState k.lenv (view k j l v) es m).1.height = m.view.1.height
  | [], m, _ => ⟨rfl, rfl⟩
  | e :: es, m, hn => by
    have hone : ∀ m0 m1 : Loop.Wait (Tui.St × Bool), m0.view = m.view → Loop.step k.lenv (view k j l v) e m0 = .waits m1 → m1.view.1.width = m.view.1.width ∧ m1.view.1.height = m.view.1.height := by
      intro m0 m1 h0 h1
      have hv := step_view k.lenv (view k j l v) h1
      rw [← h0]
      cases e with
      | resize c r => exact (hn c r (List.mem_cons_self ..)).elim
      | code c =>
        rcases hv with hv | ⟨_, _, hv⟩
        · rw [hv]; exact ⟨rfl, rfl⟩
        · exact view_size k j l v _ _ _ _ hv
      | stop => cases h1; exact ⟨rfl, rfl⟩
      | timeout => cases h1; exact ⟨rfl, rfl⟩
    unfold lastState
    cases hs : Loop.step k.lenv (view k j l v) e m with
    | waits m' =>
      obtain ⟨a, b⟩ := last_size k j l v es m' (fun c r h => hn c r (List.mem_cons_of_mem _ h))
      obtain ⟨a', b'⟩ := hone m m' rfl hs
      exact ⟨a.trans a', b.trans b'⟩
    | _ =>
      dsimp only
      cases hs' : Loop.step k.lenv (view k j l v) e { m with stopped := false } with
      | waits m' => exact hone { m with stopped := false } m' rfl hs'
      | _ => exact ⟨rfl, rfl⟩

theorem leftover_size (k : Keyboard) : ∀ (vs : List Json) (j : Nat) (l : Leftover), (∀ i, i < vs.length → ∀ c r, .resize c r ∉ k.events (j + i)) →
    (leftover k j vs l).width = l.width ∧ (leftover k j vs l).height = l.height
  | [], j, l, _ => ⟨rfl, rfl⟩
  | v :: vs, j, l, hn => by
    have h1 : (oneView k j l v).2.width = l.width ∧ (oneView k j l v).2.height = l.height := by
      unfold oneView
      cases hs : Tui.settle (k.env v) k.bound (enter k j l) with
      | none => exact ⟨rfl, rfl⟩
      | some d =>
        cases d with
        | crash => exact ⟨rfl, rfl⟩
        | retry s => exact ⟨rfl, rfl⟩
        | done s =>
          obtain ⟨a, b⟩ := tui_settle_size _ hs
          obtain ⟨a', b'⟩ := last_size k j l v (k.events j) (Loop.begin (s, true)) (hn 0 (by simp))
          exact ⟨a'.trans a, b'.trans b⟩
    obtain ⟨a, b⟩ := leftover_size k vs (j + 1) (oneView k j l v).2 fun i hi => by
      rw [show j + 1 + i = j + (i + 1) by omega]
      exact hn (i + 1) (by simpa using hi)
    exact ⟨a.trans h1.1, b.trans h1.2⟩

/-- **C116, whatever was folded and found before.** If no element of an input has the address of an element that is gone, then an input is browsed as if it were the only one, whatever was done
in the views before, with one exception: `n` may crash (as it does in `C116_afresh_false`). (The size of the terminal does not change in the views before.) -/
theorem C116_unused_partial (k : Keyboard) (before : List (Bytes × Json)) (name : Bytes) (v : Json) (ha : ∀ j a, k.addr j a = none)
    (hz : ∀ i, i < before.length → ∀ c r, .resize c r ∉ k.events i) :
    Browse.session k (before.map ([·])) false [(name, v)] = alone k k.width k.height (k.events before.length) v ∨
    (Browse.session k (before.map ([·])) false [(name, v)] = .crash ∧ ∃ e ∈ k.events before.length, Next k.lenv e) := by
  unfold Browse.session
  dsimp only
  have hf : (before.map fun x => [x]).flatMap (fun x => x.map (·.2)) = before.map (·.2) := by
    rw [List.flatMap_map]
    clear hz
    induction before with
    | nil => rfl
    | cons a l ih =>
      rw [List.flatMap_cons, ih]
      rfl
  rw [hf, List.length_map]
  obtain ⟨h1, h2⟩ := leftover_size k (before.map (·.2)) 0 ⟨[], [], k.width, k.height⟩ (fun i hi => by
    rw [Nat.zero_add]
    exact hz i (by simpa using hi))
  generalize leftover k 0 (before.map (·.2)) ⟨[], [], k.width, k.height⟩ = l at h1 h2
  generalize before.length = j
  have hnone : ∀ (as : List Address), as.filterMap (k.addr j) = [] := fun as => by
    rw [List.filterMap_eq_nil_iff]
    exact fun a _ => ha j a
  have hent : enter k j l = Tui.start k.width k.height := by
    unfold enter
    rw [hnone, hnone, h1, h2]
    rfl
  unfold oneView alone
  simp only [Bool.false_eq_true, if_false]
  rw [hent]
  cases Tui.settle (k.env v) k.bound (Tui.start k.width k.height) with
  | none => exact .inl rfl
  | some d =>
    cases d with
    | crash => exact .inl rfl
    | retry s => exact .inl rfl
    | done s =>
      dsimp only
      have hmark : ∀ (o : Option (Loop.Ans Tui.St)) (b : Bool), (o.map (mark b)).map (mapAns Prod.fst) = o := by
        intro o b
        cases o with
        | none => rfl
        | some a => cases a <;> rfl
      rcases run_gone k.lenv Prod.fst (view k j l v) (Loop.single (k.env v) k.bound) (by
        intro name pat t
        show (if t.2 && lost k j l && decide (name = b!"N") && toFirst v t.1 then some .crash
          else ((Loop.single (k.env v) k.bound).key name pat t.1).map (mark _)).map _ = _ ∨ _
        by_cases hc : (t.2 && lost k j l && decide (name = b!"N") && toFirst v t.1) = true
        · right
          refine ⟨?_, by simp only [view]; rw [if_pos hc]⟩
          simp only [Bool.and_eq_true, decide_eq_true_eq] at hc
          exact hc.1.2
        · left
          rw [if_neg hc, hmark]) (by
        intro c r t
        exact hmark _ _) (k.events j) (Loop.begin (s, true)) with h | ⟨h, h'⟩
      · left
        rw [show mapWait Prod.fst (Loop.begin (s, true)) = Loop.begin s from rfl] at h
        rw [← h, viewEnd_map]
      · right
        rw [h']
        exact ⟨rfl, h⟩

/-- A keyboard for the examples: these are typed in the first and in the second view; an old address belongs to the root of the new document (`again`) or to nothing. -/
def typing (again : Bool) (first second : List Loop.Event) : Keyboard where
  lenv := ⟨fun _ => none, noRx, 0, fun _ => none, fun c => some [c], true⟩
  rx := noRx
  fmt := id
  len := List.length
  bound := 9
  width := 80
  height := 24
  events := fun j => if j = 0 then first else second
  addr := fun _ _ => if again then some [] else none

/-- **C116 is false as stated**: a result found in one input is still to be gone to in the next one, where it is gone: `N` crashes, whereas in an input alone it says that nothing was
found. And if an element of the next input happens to get the address of one that was folded, it is folded from the start. -/
theorem C116_afresh_false :
    (Browse.session (typing false [.code c%'/', .code c%'1', .code 10, .code c%'q'] [.code c%'n']) [[(b!"a", .arr [.int 1])]] false [(b!"b", .arr [.int 1])] = .crash ∧
      alone (typing false [] []) 80 24 [.code c%'n'] (.arr [.int 1]) = .waits) ∧
    ∃ s t, Tui.settle ((typing true [] []).env (.arr [.int 2])) 9 (enter (typing true [] []) 1
        (oneView (typing true [.code c%'h', .code c%'q'] []) 0 (nothing 80 24) (.arr [.int 1])).2) = some (.done s) ∧
      Tui.settle ((typing true [] []).env (.arr [.int 2])) 9 (Tui.start 80 24) = some (.done t) ∧ s.collapsed = [[]] ∧ s.screen ≠ t.screen := by
  refine ⟨by decide +kernel, ?_⟩
  have h : ∀ (a b : Option Tui.Drawn), (match a, b with
      | some (.done s), some (.done t) => decide (s.collapsed = [[]]) && decide (s.screen ≠ t.screen)
      | _, _ => false) = true → ∃ s t, a = some (.done s) ∧ b = some (.done t) ∧ s.collapsed = [[]] ∧ s.screen ≠ t.screen := by
    intro a b h
    split at h
    next s t => exact ⟨s, t, rfl, rfl, by simpa using h⟩
    next => cases h
  exact h _ _ (by decide +kernel)

/-- The hypotheses of the part that holds are met: Down and `q` in the first view. -/
example : ∀ e ∈ (typing false [.code c%'j', .timeout, .code c%'q'] []).events 0, Harmless (typing false [] []).lenv e := by
  intro e he
  simp only [typing, if_true, List.mem_cons, List.not_mem_nil, or_false] at he
  rcases he with rfl | rfl | rfl
  · exact (by decide : keyname (fun _ => none) (toupper c%'j') ∉ [some b!"H", some b!"KEY_LEFT", some b!"/"])
  · trivial
  · exact (by decide : keyname (fun _ => none) (toupper c%'q') ∉ [some b!"H", some b!"KEY_LEFT", some b!"/"])

example : Browse.session (typing false [.code c%'j', .timeout, .code c%'q'] [.code c%'n', .code c%'q']) [[(b!"a", .arr [.int 1])]] false [(b!"b", .arr [.int 1])] = .left := by
  decide +kernel

/-- The program with these views: the two files of the example are shown one after the other and left with `q`. -/
example : (program { terminal true with session := Browse.session (typing false [.code c%'q'] [.code c%'q']) } [b!"-W", b!"a", b!"c"]).2 = .main (.exit 0) := by
  decide +kernel

/-- A signal that arrives while the first of two inputs is shown ends its view when the next key is pressed; then the second input is shown, as if nothing had happened. -/
example : (program { terminal true with session := Browse.session (typing false [.stop, .code c%'j'] []) } [b!"-W", b!"a", b!"c"]).2 = .waits ∧
    (shown (program { terminal true with session := Browse.session (typing false [.stop, .code c%'j'] []) } [b!"-W", b!"a", b!"c"]).1.tape).length = 2 := by
  decide +kernel

/-- The hypotheses of `C116_unused_partial` are met, with a folding and a search in the first view. -/
example : (∀ j a, (typing false [.code c%'h', .code c%'/', .code c%'1', .code 10, .code c%'q'] [.code c%'j', .code c%'q']).addr j a = none) ∧
    Browse.session (typing false [.code c%'h', .code c%'/', .code c%'1', .code 10, .code c%'q'] [.code c%'j', .code c%'q']) [[(b!"a", .arr [.int 1])]] false [(b!"b", .arr [.int 1])] = .left :=
  ⟨fun _ _ => rfl, by decide +kernel⟩

end Verif.Props
