import Verif.Lemmas.ReaderTwo
/-!
# Lemmas: strict mode against `-W`; text appended after the input
-/
namespace Verif.Lemmas
open Verif.Model Verif.Spec

/-! ### Strict and lenient -/
section
variable {env1 env2 : Env}

theorem stringLoop_strict (h1 : env1.strictAnd = true) (h2 : env1.ascii = env2.ascii) (h3 : env1.surr = env2.surr)
    (rest : Bytes) (hist : LHist) (warns : List Exn) (acc : Bytes) (t : Tok) (s' : St)
    (h : stringLoop env1 rest hist warns acc = .ret t s') :
    stringLoop env2 rest hist warns acc = .ret t s' ∧ s'.warns = warns := by
  fun_induction stringLoop env1 rest hist warns acc
  all_goals (conv => lhs; rw [stringLoop.eq_def])
  all_goals (try simp only [← h2, ← h3])
  all_goals (clear h2 h3)
  all_goals (try simp only [Out.ret.injEq, reduceCtorEq] at h)
  all_goals first
    | (obtain ⟨rfl, rfl⟩ := h; simp +zetaDelta [*]; done)
    | (simp_all; done)
    | (rename_i ih; have ih := ih h; clear h; simp +zetaDelta [*]; done)
    | (rename_i ih _; have ih := ih h; clear h; simp +zetaDelta [*]; done)
    | skip

theorem boolLoop_strict (fl : Byte) (h1 : env1.strictAnd = true) (hp : env1.params ≠ none) (rest : Bytes) (hist : LHist) (warns : List Exn) (l r : Bytes) (t : Tok) (s' : St)
    (h : boolLoop env1 fl rest hist warns l r = .ret t s') :
    boolLoop env2 fl rest hist warns l r = .ret t s' ∧ s'.warns = warns := by
  have hbe : ∀ s c l r, boolEnd env1 s c l r = .ret t s' → boolEnd env2 s c l r = .ret t s' ∧ s'.warns = s.warns := by
    intro s c l r h
    by_cases he : l ≠ r
    · simp [boolEnd, he, h1, hp] at h
    · simp only [ne_eq, Decidable.not_not] at he
      subst he
      simp only [boolEnd, ne_eq, not_true_eq_false, false_and, if_false] at h ⊢
      split at h
      · simp at h
      · rename_i hn
        rw [if_neg hn]
        refine ⟨h, ?_⟩
        simp at h
        rw [← h.2]
        unfold St.unget; split <;> rfl
  induction rest generalizing hist l r with
  | nil => simp only [boolLoop] at h ⊢; exact hbe _ _ _ _ h
  | cons c rest ih =>
    simp only [boolLoop] at h ⊢
    split at h
    · rename_i hc
      rw [if_pos hc]
      split at h
      · simp at h
      · rename_i hc
        rw [if_neg hc]
        exact ih _ _ _ h
    · rename_i hc
      rw [if_neg hc]
      exact hbe _ _ _ _ h

theorem numberLoop_warns (rest : Bytes) (hist : LHist) (warns : List Exn) (d : Bool) (text : Bytes) (t : Tok) (s' : St)
    (h : numberLoop rest hist warns d text = .ret t s') : s'.warns = warns := by
  have hne : ∀ s c d text, numberEnd s c d text = .ret t s' → s'.warns = s.warns := by
    intro s c d text h
    have hu : ∀ s : St, (s.unget c).warns = s.warns := by intro s; unfold St.unget; split <;> rfl
    unfold numberEnd at h
    dsimp only at h
    split at h
    · simp at h; rw [← h.2, hu]
    · split at h
      · simp at h
      · simp at h; rw [← h.2, hu]
  fun_induction numberLoop rest hist warns d text
  · exact hne _ _ _ _ h
  · rename_i ih; exact ih h
  · rename_i ih; exact ih h
  · exact hne _ _ _ _ h

theorem consumeNull_strict (h1 : env1.strictAnd = true) (s : St) (c : Byte) (t : Tok) (s' : St)
    (h : consumeNull env1 s c = .ret t s') : consumeNull env2 s c = .ret t s' ∧ s'.warns = s.warns := by
  unfold consumeNull at h ⊢
  dsimp only at h ⊢
  split at h
  · split at h
    · simp at h
    · rename_i hp
      split at h
      · rename_i hl
        rw [if_pos hl]
        split at h
        · rename_i hr
          rw [if_pos hr]
          refine ⟨h, ?_⟩
          simp at h; rw [← h.2]
        · unfold Env.strictAnd at h1
          split at h1 <;> simp_all
      · simp at h
  · rename_i heq
    split at h
    · simp at h
    · rename_i hp
      refine ⟨h, ?_⟩
      simp at h; rw [← h.2]

theorem consumeToken_strict (h1 : env1.strictAnd = true) (hp : env1.params ≠ none) (h2 : env1.ascii = env2.ascii) (h3 : env1.surr = env2.surr)
    (s : St) (t : Tok) (s' : St) (h : consumeToken env1 s = .ret t s') :
    consumeToken env2 s = .ret t s' ∧ s'.warns = s.warns := by
  have ht : ∀ rest hist warns, tokenLoop env1 rest hist warns = .ret t s' →
      tokenLoop env2 rest hist warns = .ret t s' ∧ s'.warns = warns := by
    intro rest hist warns h
    induction rest generalizing hist with
    | nil => simp only [tokenLoop] at h ⊢; refine ⟨h, ?_⟩; simp at h; rw [← h.2]
    | cons c rest ih =>
      simp only [tokenLoop] at h ⊢
      by_cases c1 : c = 34
      · rw [if_pos c1] at h ⊢; exact stringLoop_strict h1 h2 h3 _ _ _ _ _ _ h
      rw [if_neg c1] at h ⊢
      by_cases c2 : c = 116 ∨ c = 102 ∨ c = 84 ∨ c = 70
      · rw [if_pos c2] at h ⊢; exact boolLoop_strict _ h1 hp _ _ _ _ _ _ _ h
      rw [if_neg c2] at h ⊢
      by_cases c3 : c = 110 ∨ c = 78
      · rw [if_pos c3] at h ⊢; exact consumeNull_strict h1 _ _ _ _ h
      rw [if_neg c3] at h ⊢
      by_cases c4 : isDigit c = true ∨ c = 46 ∨ c = 45
      · rw [if_pos c4] at h ⊢; exact ⟨h, numberLoop_warns _ _ _ _ _ _ _ h⟩
      rw [if_neg c4] at h ⊢
      split at h
      · rename_i c5; rw [if_pos c5]; refine ⟨h, ?_⟩; simp at h; rw [← h.2]
      · rename_i c5; rw [if_neg c5]
        split at h
        · rename_i c6; rw [if_pos c6]; exact ih _ h
        · simp at h
  unfold consumeToken at h ⊢
  by_cases hg : s.good = true
  · rw [if_pos hg] at h ⊢; exact ht _ _ _ h
  · rw [if_neg hg] at h ⊢
    simp only [Out.ret.injEq] at h
    obtain ⟨rfl, rfl⟩ := h
    exact ⟨rfl, rfl⟩

theorem sim_strict (h1 : env1.strictAnd = true) (hp : env1.params ≠ none) (h2 : env1.ascii = env2.ascii) (h3 : env1.surr = env2.surr)
    (hsort : env1.sort = env2.sort) (w : List Exn) :
    Sim env1 env2 (fun s1 s2 => s1 = s2 ∧ Exhausted s1 ∧ s1.warns = w) (fun _ => True) Eq (fun a b => a = b ∧ (keys a).Nodup) where
  tok := by
    rintro s1 s2 t s' ⟨rfl, hx, hw⟩ h _
    obtain ⟨h', hw'⟩ := consumeToken_strict h1 hp h2 h3 s1 t s' h
    exact ⟨t, s', h', ⟨rfl, tok_exhausted _ _ _ _ hx h, hw'.trans hw⟩, TokRel.refl (fun v hv => rfl) t (tok_prim _ _ _ _ hx h)⟩
  tokG := fun _ _ _ _ _ => trivial
  warnG := fun _ _ _ => trivial
  nil := ⟨rfl, List.nodup_nil⟩
  obj := by rintro a b ⟨rfl, _⟩; rfl
  arr := by
    intro a b h
    congr 1
    induction h with
    | nil => rfl
    | cons h _ ih => rw [h, ih]
  contains := by rintro a b k ⟨rfl, _⟩; rfl
  push := by
    rintro a b k v w ⟨rfl, hn⟩ hc rfl
    refine ⟨by unfold addEntry; rw [hsort], ?_⟩
    rw [contains_false_iff] at hc
    unfold addEntry; split
    · exact nodup_of_perm_push (sortedPush_perm _ _ _) hn hc
    · exact nodup_of_perm_push (push_perm _ _ _) hn hc
  erase := by
    intro a b k _ _ hst
    exfalso
    unfold Env.strictAnd at h1; unfold Env.strictOr at hst
    split at h1 <;> simp_all
  warn := by
    intro s1 s2 k _ hst
    exfalso
    unfold Env.strictAnd at h1; unfold Env.strictOr at hst
    split at h1 <;> simp_all

theorem read_strict (h1 : env1.strictAnd = true) (hp : env1.params ≠ none) (h2 : env1.ascii = env2.ascii) (h3 : env1.surr = env2.surr)
    (hsort : env1.sort = env2.sort) (s : St) (hx : Exhausted s) (r : Option Json) (s' : St) (h : Model.read env1 s = .ret r s') :
    Model.read env2 s = .ret r s' ∧ s'.warns = s.warns := by
  obtain ⟨v2, s2, e1, ⟨rfl, _, hw⟩, h3⟩ := (reader_sim (sim_strict h1 hp h2 h3 hsort s.warns) (fun a b h => h.2) _ _ (Nat.le_refl _)).1 s s r s'
      ⟨rfl, hx, rfl⟩ h trivial
  refine ⟨?_, hw⟩
  refine e1.trans ?_
  congr 1
  cases h3 with
  | none => rfl
  | some h' => rw [h']

end

/-! ### Appended text -/

/-- The state with `x` appended to the unread input. -/
def St.extend (s : St) (x : Bytes) : St := { s with rest := s.rest ++ x }

variable {env : Env} (x : Bytes)

theorem stringLoop_extend (rest : Bytes) (hist : LHist) (warns : List Exn) (acc : Bytes) (t : Tok) (s' : St)
    (h : stringLoop env rest hist warns acc = .ret t s') (hg : s'.good = true) :
    stringLoop env (rest ++ x) hist warns acc = .ret t (St.extend s' x) := by
  fun_induction stringLoop env rest hist warns acc
  all_goals (simp only [List.cons_append, List.nil_append]; try rw [stringLoop.eq_def])
  all_goals (try simp only [Out.ret.injEq, reduceCtorEq] at h)
  all_goals first
    | (obtain ⟨rfl, rfl⟩ := h; simp +zetaDelta [St.extend, *] at *; done)
    | (rename_i ih; have ih := ih h; clear h; simp +zetaDelta [*]; done)
    | (rename_i ih _; have ih := ih h; clear h; simp +zetaDelta [*]; done)
    | skip

theorem boolLoop_extend (fl : Byte) (rest : Bytes) (hist : LHist) (warns : List Exn) (l r : Bytes) (t : Tok) (s' : St)
    (h : boolLoop env fl rest hist warns l r = .ret t s') (hg : s'.good = true) :
    boolLoop env fl (rest ++ x) hist warns l r = .ret t (St.extend s' x) := by
  have hbe : ∀ s c l r, boolEnd env s c l r = .ret t s' → s.good = true ∧ boolEnd env (St.extend s x) c l r = .ret t (St.extend s' x) := by
    intro s c l r h
    have key : ∀ s2 : St, s2.unget c = s' → s2.good = true ∧ (St.extend s2 x).unget c = St.extend s' x := by
      intro s2 h2
      unfold St.unget at h2
      split at h2
      · rename_i hg2
        refine ⟨hg2, ?_⟩
        subst h2
        simp [St.unget, St.extend, hg2]
      · rename_i hg2
        subst h2
        exact absurd hg hg2
    unfold boolEnd at h ⊢
    simp only [show (St.extend s x).hist = s.hist from rfl, show (St.extend s x).warns = s.warns from rfl]
    split at h
    · simp at h
    · rename_i c1; rw [if_neg c1]
      split at h
      · simp at h
      · rename_i c2; rw [if_neg c2]
        split at h
        · simp at h
        · rename_i c3; rw [if_neg c3]
          simp only [Out.ret.injEq] at h ⊢
          obtain ⟨h1, h2⟩ := key _ h.2
          refine ⟨?_, h.1, ?_⟩
          · split at h1 <;> exact h1
          · rw [← h2]
            congr 1
            split <;> rfl
  induction rest generalizing hist l r with
  | nil =>
    simp only [boolLoop] at h ⊢
    have := (hbe _ _ _ _ h).1
    simp at this
  | cons c rest ih =>
    simp only [List.cons_append, boolLoop] at h ⊢
    split at h
    · rename_i hc
      rw [if_pos hc]
      split at h
      · simp at h
      · rename_i hc
        rw [if_neg hc]
        exact ih _ _ _ h
    · rename_i hc
      rw [if_neg hc]
      exact (hbe _ _ _ _ h).2

theorem numberLoop_extend (rest : Bytes) (hist : LHist) (warns : List Exn) (d : Bool) (text : Bytes) (t : Tok) (s' : St)
    (h : numberLoop rest hist warns d text = .ret t s') (hg : s'.good = true) :
    numberLoop (rest ++ x) hist warns d text = .ret t (St.extend s' x) := by
  have hne : ∀ s c d text, numberEnd s c d text = .ret t s' →
      s.good = true ∧ numberEnd (St.extend s x) c d text = .ret t (St.extend s' x) := by
    intro s c d text h
    have key : ∀ s2 : St, s2.unget c = s' → s2.good = true ∧ (St.extend s2 x).unget c = St.extend s' x := by
      intro s2 h2
      unfold St.unget at h2
      split at h2
      · rename_i hg2
        refine ⟨hg2, ?_⟩
        subst h2
        simp [St.unget, St.extend, hg2]
      · rename_i hg2
        subst h2
        exact absurd hg hg2
    unfold numberEnd at h ⊢
    dsimp only at h ⊢
    split at h
    · rename_i c1
      rw [if_pos c1]
      simp only [Out.ret.injEq] at h ⊢
      obtain ⟨h1, h2⟩ := key _ h.2
      exact ⟨h1, h.1, h2⟩
    · rename_i c1
      rw [if_neg c1]
      split at h
      · simp at h
      · simp only [Out.ret.injEq] at h ⊢
        obtain ⟨h1, h2⟩ := key _ h.2
        exact ⟨h1, h.1, h2⟩
  induction rest generalizing hist d text with
  | nil =>
    simp only [numberLoop] at h
    have := (hne _ _ _ _ h).1
    simp at this
  | cons c rest ih =>
    simp only [List.cons_append, numberLoop] at h ⊢
    split at h
    · rename_i hc
      rw [if_pos hc]
      exact ih _ _ _ h
    · rename_i hc
      rw [if_neg hc]
      split at h
      · rename_i hc
        rw [if_pos hc]
        exact ih _ _ _ h
      · rename_i hc
        rw [if_neg hc]
        exact (hne _ _ _ _ h).2

theorem consumeNull_extend (s : St) (c : Byte) (t : Tok) (s' : St) (h : consumeNull env s c = .ret t s') (hg : s'.good = true) :
    consumeNull env (St.extend s x) c = .ret t (St.extend s' x) := by
  obtain ⟨rest, good, hist, warns⟩ := s
  rcases rest with _ | ⟨x1, _ | ⟨x2, _ | ⟨x3, rest⟩⟩⟩
  case cons.cons.cons =>
    simp only [consumeNull, St.extend, List.cons_append] at h ⊢
    repeat' split at h
    all_goals first
      | (simp at h; done)
      | (simp only [Out.ret.injEq] at h; obtain ⟨rfl, rfl⟩ := h; simp_all)
  all_goals
    simp only [consumeNull] at h
    split at h
    · simp at h
    · simp only [Out.ret.injEq] at h
      rw [← h.2] at hg
      simp at hg

theorem consumeToken_extend (s : St) (t : Tok) (s' : St) (h : consumeToken env s = .ret t s') (hg : s'.good = true) :
    s.good = true ∧ consumeToken env (St.extend s x) = .ret t (St.extend s' x) := by
  have ht : ∀ rest hist warns, tokenLoop env rest hist warns = .ret t s' →
      tokenLoop env (rest ++ x) hist warns = .ret t (St.extend s' x) := by
    intro rest hist warns h
    induction rest generalizing hist with
    | nil =>
      simp only [tokenLoop, Out.ret.injEq] at h
      rw [← h.2] at hg
      simp at hg
    | cons c rest ih =>
      simp only [tokenLoop, List.cons_append] at h ⊢
      by_cases c1 : c = 34
      · rw [if_pos c1] at h ⊢; exact stringLoop_extend x _ _ _ _ _ _ h hg
      rw [if_neg c1] at h ⊢
      by_cases c2 : c = 116 ∨ c = 102 ∨ c = 84 ∨ c = 70
      · rw [if_pos c2] at h ⊢; exact boolLoop_extend x _ _ _ _ _ _ _ _ h hg
      rw [if_neg c2] at h ⊢
      by_cases c3 : c = 110 ∨ c = 78
      · rw [if_pos c3] at h ⊢; exact consumeNull_extend x _ _ _ _ h hg
      rw [if_neg c3] at h ⊢
      by_cases c4 : isDigit c = true ∨ c = 46 ∨ c = 45
      · rw [if_pos c4] at h ⊢; exact numberLoop_extend x _ _ _ _ _ _ _ h hg
      rw [if_neg c4] at h ⊢
      split at h
      · rename_i c5; rw [if_pos c5]; simp only [Out.ret.injEq] at h ⊢; exact ⟨h.1, by rw [← h.2]; rfl⟩
      · rename_i c5; rw [if_neg c5]
        split at h
        · rename_i c6; rw [if_pos c6]; exact ih _ h
        · simp at h
  unfold consumeToken at h ⊢
  split at h
  · rename_i hgood
    refine ⟨hgood, ?_⟩
    rw [if_pos (by exact hgood)]
    exact ht _ _ _ h
  · rename_i hgood
    simp only [Out.ret.injEq] at h
    rw [h.2] at hgood
    exact absurd hg hgood

theorem sim_extend :
    Sim env env (fun s1 s2 => s2 = St.extend s1 x ∧ Exhausted s1) (fun s => s.good = true) Eq (fun a b => a = b ∧ (keys a).Nodup) where
  tok := by
    rintro s1 s2 t s' ⟨rfl, hx⟩ h hg
    exact ⟨t, _, (consumeToken_extend x s1 t s' h hg).2, ⟨rfl, tok_exhausted _ _ _ _ hx h⟩, TokRel.refl (fun v hv => rfl) t (tok_prim _ _ _ _ hx h)⟩
  tokG := fun s t s' h hg => (consumeToken_extend x s t s' h hg).1
  warnG := fun _ _ h => h
  nil := ⟨rfl, List.nodup_nil⟩
  obj := by rintro a b ⟨rfl, _⟩; rfl
  arr := by
    intro a b h
    congr 1
    induction h with
    | nil => rfl
    | cons h _ ih => rw [h, ih]
  contains := by rintro a b k ⟨rfl, _⟩; rfl
  push := by
    rintro a b k v w ⟨rfl, hn⟩ hc rfl
    refine ⟨rfl, ?_⟩
    rw [contains_false_iff] at hc
    unfold addEntry; split
    · exact nodup_of_perm_push (sortedPush_perm _ _ _) hn hc
    · exact nodup_of_perm_push (push_perm _ _ _) hn hc
  erase := by
    rintro a b k ⟨rfl, hn⟩ _ hst
    exact ⟨hst, ⟨rfl, erase_nodup _ _ hn⟩, erase_not_contains _ _ hn⟩
  warn := by rintro s1 s2 k ⟨rfl, hx⟩ _; exact ⟨rfl, hx⟩

theorem read_extend (s : St) (hx : Exhausted s) (r : Option Json) (s' : St) (h : Model.read env s = .ret r s')
    (hg : s'.good = true) : Model.read env (St.extend s x) = .ret r (St.extend s' x) := by
  obtain ⟨v2, s2, e1, ⟨rfl, _⟩, h3⟩ := (reader_sim (sim_extend (env := env) x) (fun a b h => h.2) (2 * s.rest.length + 4)
      (2 * (St.extend s x).rest.length + 4) (by simp [St.extend]; omega)).1 s _ r s' ⟨rfl, hx⟩ h hg
  refine e1.trans ?_
  congr 1
  cases h3 with
  | none => rfl
  | some h' => rw [h']

end Verif.Lemmas
