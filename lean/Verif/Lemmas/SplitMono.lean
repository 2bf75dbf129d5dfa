import Verif.Lemmas.SplitDone
/-!
# More turns do not change what is drawn
-/
namespace Verif.Lemmas.Split
open Verif.Model Verif.Model.Diff Verif.Model.Split

theorem added_mono {env : Env} {view : View} {side : Bool} {n m : Nat} (hm : n ≤ m) {w : Win} {r : One}
    (h : redrawAdded env view side n w = some r) : redrawAdded env view side m w = some r := by
  induction n generalizing m w with
  | zero => cases h
  | succ n ih =>
    obtain ⟨m, rfl⟩ : ∃ m', m = m' + 1 := ⟨m - 1, by omega⟩
    rw [redrawAdded] at h ⊢
    cases ho : redrawOne env view side w with
    | crash => rw [ho] at h; exact h
    | retry w' => rw [ho] at h; exact h
    | ok w' c =>
      rw [ho] at h
      cases c with
      | true => exact h
      | false =>
        dsimp only at h ⊢
        split
        · next ha =>
          rw [if_pos ha] at h
          exact ih (by omega) h
        · next ha =>
          rw [if_neg ha] at h
          exact h

theorem loop_mono {env : Env} {view : View} {n m : Nat} (hm : n ≤ m) {b0 b1 : Bool} {w0 w1 : Win} {r : Drawn}
    (h : redrawLoop env view n b0 b1 w0 w1 = some r) : redrawLoop env view m b0 b1 w0 w1 = some r := by
  induction n generalizing m b0 b1 w0 w1 with
  | zero => cases h
  | succ n ih =>
    obtain ⟨m, rfl⟩ : ∃ m', m = m' + 1 := ⟨m - 1, by omega⟩
    rw [redrawLoop] at h ⊢
    by_cases hc : (!b0 && !b1) = true
    · rw [if_pos hc] at h ⊢
      exact h
    rw [if_neg hc] at h ⊢
    by_cases hc : (b0 && isAdded env false w0) = true
    · rw [if_pos hc] at h ⊢
      cases hr : redrawAdded env view false n w0 with
      | none => rw [hr] at h; cases h
      | some o =>
        rw [hr] at h
        rw [added_mono (by omega) hr]
        cases o with
        | crash => exact h
        | retry w => exact h
        | ok w c => exact ih (by omega) h
    rw [if_neg hc] at h ⊢
    by_cases hc : (b1 && isAdded env true w1) = true
    · rw [if_pos hc] at h ⊢
      cases hr : redrawAdded env view true n w1 with
      | none => rw [hr] at h; cases h
      | some o =>
        rw [hr] at h
        rw [added_mono (by omega) hr]
        cases o with
        | crash => exact h
        | retry w => exact h
        | ok w c => exact ih (by omega) h
    rw [if_neg hc] at h ⊢
    generalize (if b0 = true then redrawOne env view false w0 else One.ok w0 true) = o0 at h ⊢
    generalize (if b1 = true then redrawOne env view true w1 else One.ok w1 true) = o1 at h ⊢
    cases o0 with
    | crash => exact h
    | retry w => exact h
    | ok w c =>
      cases o1 with
      | crash => exact h
      | retry w => exact h
      | ok w c => exact ih (by omega) h

theorem redraw_mono {env : Env} {n m : Nat} (hm : n ≤ m) {s : St} {r : Drawn} (h : redraw env n s = some r) : redraw env m s = some r :=
  loop_mono hm h

theorem settle_mono {env : Env} {n m k l : Nat} (hm : n ≤ m) (hl : k ≤ l) {s : St} {r : Option St} (h : settle env n k s = some r) :
    settle env m l s = some r := by
  induction k generalizing l s with
  | zero => cases h
  | succ k ih =>
    obtain ⟨l, rfl⟩ : ∃ l', l = l' + 1 := ⟨l - 1, by omega⟩
    rw [settle] at h ⊢
    cases hr : redraw env n s with
    | none => rw [hr] at h; cases h
    | some d =>
      rw [hr] at h
      rw [redraw_mono hm hr]
      cases d with
      | crash => exact h
      | done a b => exact h
      | retry a b => exact ih (by omega) h

theorem settle_all (env : Env) (s : St) : ∃ N K r, ∀ n ≥ N, ∀ k ≥ K, settle env n k s = some r := by
  obtain ⟨r, hr⟩ := settle_ends env _ _ s (Nat.lt_succ_self _) (Nat.lt_succ_self _)
  exact ⟨_, _, r, fun n hn k hk => settle_mono hn hk hr⟩

theorem message_all (env : Env) (s : St) : ∃ N r, ∀ n ≥ N, redrawMessage env n s = some r := by
  obtain ⟨d, hd⟩ := redraw_fuel env _ s (Nat.lt_succ_self _)
  have hd := fun n hn => redraw_mono (n := _) (m := n) hn hd
  unfold redrawMessage
  cases d with
  | crash => exact ⟨_, _, fun n hn => by rw [hd n hn]⟩
  | retry a b => exact ⟨_, _, fun n hn => by rw [hd n hn]⟩
  | done a b => exact ⟨_, _, fun n hn => by rw [hd n hn]⟩

theorem next_all (env : Env) (s : St) : ∃ N r, ∀ n ≥ N, nextResult env n s = some r := by
  unfold nextResult
  cases s.active.results with
  | nil => exact message_all env s
  | cons q l =>
    dsimp only
    cases (Split.jumpValue (q :: l) s.active.last s.active.sel (decide (s.selected ≠ 0)) [] false (env.root (decide (s.selected ≠ 0)))).2 with
    | some e => exact ⟨0, _, fun _ _ => rfl⟩
    | none => exact message_all env _

theorem search_all (env : Env) (pat : Option Search.Pattern) (s : St) : ∃ N r, ∀ n ≥ N, initSearch env n pat s = some r := by
  unfold initSearch
  cases pat with
  | none => exact ⟨0, _, fun _ _ => rfl⟩
  | some p =>
    dsimp only
    split
    · exact ⟨0, _, fun _ _ => rfl⟩
    · exact next_all env _

theorem key_all (env : Env) (name : Bytes) (pat : Option Search.Pattern) (s : St) : ∃ N r, ∀ n ≥ N, evalKey env n name pat s = some r := by
  have ite : ∀ (c : Prop) [Decidable c] (f g : Nat → Option Answer), (∃ N r, ∀ n ≥ N, f n = some r) → (∃ N r, ∀ n ≥ N, g n = some r) →
      ∃ N r, ∀ n ≥ N, (if c then f n else g n) = some r := by
    intro c _ f g hf hg
    by_cases hc : c
    · obtain ⟨N, r, h⟩ := hf
      exact ⟨N, r, fun n hn => by rw [if_pos hc]; exact h n hn⟩
    · obtain ⟨N, r, h⟩ := hg
      exact ⟨N, r, fun n hn => by rw [if_neg hc]; exact h n hn⟩
  have triv : ∀ a : Answer, ∃ N r, ∀ n ≥ N, (some a : Option Answer) = some r := fun a => ⟨0, a, fun _ _ => rfl⟩
  unfold evalKey
  refine ite _ _ _ (triv _) ?_
  refine ite _ _ _ (triv _) ?_
  refine ite _ _ _ (triv _) ?_
  refine ite _ _ _ (triv _) ?_
  refine ite _ _ _ (triv _) ?_
  refine ite _ _ _ (triv _) ?_
  refine ite _ _ _ (triv _) ?_
  refine ite _ _ _ (search_all env pat s) ?_
  refine ite _ _ _ (next_all env s) ?_
  refine ite _ _ _ (triv _) ?_
  refine ite _ _ _ (triv _) ?_
  exact ite _ _ _ (triv _) (triv _)

theorem step_all (env : Env) (i : Input) (s : St) : ∃ N K r, ∀ n ≥ N, ∀ k ≥ K, step env n k i s = some r := by
  cases i with
  | resize cols rows =>
    obtain ⟨N, K, r, h⟩ := settle_all env { s with width := cols / 2, height := less rows 2 }
    exact ⟨N, K, _, fun n hn k hk => by simp only [step, h n hn k hk, Option.map_some]; rfl⟩
  | key name pat =>
    obtain ⟨N, a, h⟩ := key_all env name pat s
    cases a with
    | redraw t =>
      obtain ⟨N', K, r, h'⟩ := settle_all env t
      exact ⟨max N N', K, _, fun n hn k hk => by simp only [step, h n (by omega), h' n (by omega) k hk, Option.map_some]; rfl⟩
    | nextInput t => exact ⟨N, 0, _, fun n hn k hk => by simp only [step, h n hn]; rfl⟩
    | quit => exact ⟨N, 0, _, fun n hn k hk => by simp only [step, h n hn]; rfl⟩
    | crash => exact ⟨N, 0, _, fun n hn k hk => by simp only [step, h n hn]; rfl⟩

end Verif.Lemmas.Split
