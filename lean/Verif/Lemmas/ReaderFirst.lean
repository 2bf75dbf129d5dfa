import Verif.Lemmas.ReaderStrict
/-!
# Lemmas: strict reading stops where another reader warns for the first time
-/
namespace Verif.Lemmas
open Verif.Model

/-- The error `e` of the strict reader and what the other reader (with the settings `params`) makes of it. -/
def Excused (params : Option Cfg) (e : Exn) {α : Type} (o : Out α) : Prop :=
  (∃ c, e.kind = .escaped c) ∨ (e.kind = .format ∧ (params ≠ none ∨ o = .ub .nullParams)) ∨
    (∃ k, e.kind = .doubleKey k ∧ params ≠ none)

/-- The strict reader ends as the other one does, or with the first warning of the other one; `w` are the warnings before. -/
def Alike (params : Option Cfg) (w : List Exn) {α : Type} (o1 o2 : Out α) : Prop :=
  (o1 = o2 ∧ ∀ a s, o1 = .ret a s → s.warns = w) ∨
    ∃ e, o1 = .throw e ∧ Excused params e o2 ∧ ∀ a s, o2 = .ret a s → (w ++ [e]) <+: s.warns

/-- Both readers on the same state: alike, and the warnings of the other one are kept. -/
def Both (params : Option Cfg) (w : List Exn) {α : Type} (o1 o2 : Out α) : Prop :=
  Alike params w o1 o2 ∧ ∀ a s, o2 = .ret a s → w <+: s.warns

variable {ps : Option Cfg} {w : List Exn} {α β : Type}

theorem Both.ret (a : α) (s : St) (h : s.warns = w) : Both ps w (.ret a s) (.ret a s) := by
  refine ⟨Or.inl ⟨rfl, ?_⟩, ?_⟩
  · intro b t h; injection h with _ h; subst h; assumption
  · intro b t h; injection h with _ h; subst h; rw [‹s.warns = w›]; exact List.prefix_refl _

theorem Both.throw (e : Exn) : Both ps w (.throw e : Out α) (.throw e) :=
  ⟨Or.inl ⟨rfl, fun _ _ h => (by cases h)⟩, fun _ _ h => (by cases h)⟩

theorem Both.uncaught (u : Uncaught) : Both ps w (.uncaught u : Out α) (.uncaught u) :=
  ⟨Or.inl ⟨rfl, fun _ _ h => (by cases h)⟩, fun _ _ h => (by cases h)⟩

theorem Both.ub (u : UB) : Both ps w (.ub u : Out α) (.ub u) :=
  ⟨Or.inl ⟨rfl, fun _ _ h => (by cases h)⟩, fun _ _ h => (by cases h)⟩

theorem Both.fuel : Both ps w (.fuel : Out α) .fuel :=
  ⟨Or.inl ⟨rfl, fun _ _ h => (by cases h)⟩, fun _ _ h => (by cases h)⟩

theorem Both.bind {o1 o2 : Out α} {f1 f2 : α → St → Out β} (h : Both ps w o1 o2) (hf : ∀ a s, Both ps s.warns (f1 a s) (f2 a s)) :
    Both ps w (o1.bind f1) (o2.bind f2) := by
  have grow : ∀ b s', o2.bind f2 = .ret b s' → ∃ a s, o2 = .ret a s ∧ s.warns <+: s'.warns := by
    intro b s' hb
    cases o2 with
    | ret a s => exact ⟨a, s, rfl, (hf a s).2 b s' hb⟩
    | _ => cases hb
  constructor
  · rcases h.1 with ⟨rfl, hw⟩ | ⟨e, rfl, hx, hw⟩
    · cases o1 with
      | ret a s =>
        have := hw a s rfl
        subst this
        exact (hf a s).1
      | _ => exact Or.inl ⟨rfl, fun _ _ h => (by cases h)⟩
    · refine Or.inr ⟨e, rfl, ?_, ?_⟩
      · rcases hx with hx | ⟨hk, hx⟩ | hx
        · exact Or.inl hx
        · refine Or.inr (Or.inl ⟨hk, hx.imp id fun hx => ?_⟩)
          rw [hx]; rfl
        · exact Or.inr (Or.inr hx)
      · intro b s' hb
        obtain ⟨a, s, h1, h2⟩ := grow b s' hb
        exact (hw a s h1).trans h2
  · intro b s' hb
    obtain ⟨a, s, h1, h2⟩ := grow b s' hb
    exact (h.2 a s h1).trans h2

/-- The strict reader stops, the other one goes on with a warning. -/
theorem Both.first {e : Exn} {o2 : Out α} (hx : Excused ps e o2) (h : ∀ a s, o2 = .ret a s → (w ++ [e]) <+: s.warns) :
    Both ps w (.throw e) o2 :=
  ⟨Or.inr ⟨e, rfl, hx, h⟩, fun a s ho => (List.prefix_append _ _).trans (h a s ho)⟩

section
variable {env1 env2 : Env}

theorem stringLoop_both (h1 : env1.strictAnd = true) (h2 : env1.ascii = env2.ascii) (h3 : env1.surr = env2.surr)
    (rest : Bytes) (hist : LHist) (warns : List Exn) (acc : Bytes) :
    Both env2.params warns (stringLoop env1 rest hist warns acc) (stringLoop env2 rest hist warns acc) := by
  fun_induction stringLoop env2 rest hist warns acc
  all_goals (conv in stringLoop env1 _ _ _ _ => rw [stringLoop.eq_def])
  all_goals (try simp only [h2, h3, h1])
  all_goals (try simp +zetaDelta only [*, if_true, if_false, Bool.false_eq_true])
  all_goals first
    | exact Both.ret _ _ rfl
    | exact Both.throw _
    | exact Both.ub _
    | exact Both.uncaught _
    | skip
  · refine Both.first (Or.inl ⟨_, rfl⟩) ?_
    intro a s h; injection h with _ h; subst h; exact List.prefix_refl _
  · rename_i ih
    exact Both.first (Or.inl ⟨_, rfl⟩) ih.2

theorem unget_warns (s : St) (c : Byte) : (s.unget c).warns = s.warns := by unfold St.unget; split <;> rfl

theorem boolEnd_both (h1 : env1.strictAnd = true) (hp : env1.params ≠ none) (s : St) (c : Byte) (l r : Bytes) :
    Both env2.params s.warns (boolEnd env1 s c l r) (boolEnd env2 s c l r) := by
  unfold boolEnd
  by_cases h : l ≠ b!"true" ∧ l ≠ b!"false"
  · rw [if_pos h, if_pos h]; exact Both.throw _
  rw [if_neg h, if_neg h]
  by_cases he : l = r
  · simp only [he, ne_eq, not_true_eq_false, false_and, if_false]
    exact Both.ret _ _ (unget_warns _ _)
  · rw [if_neg (fun x => hp x.2), if_pos ⟨he, h1⟩]
    by_cases hn : env2.params = none
    · rw [if_pos ⟨he, hn⟩]
      exact Both.first (Or.inr (Or.inl ⟨rfl, Or.inr rfl⟩)) (fun a s h => (by cases h))
    rw [if_neg (fun x => hn x.2)]
    by_cases hs : env2.strictAnd = true
    · rw [if_pos ⟨he, hs⟩]; exact Both.throw _
    rw [if_neg (fun x => hs x.2)]
    refine Both.first (Or.inr (Or.inl ⟨rfl, Or.inl hn⟩)) ?_
    intro a t h
    injection h with _ h
    rw [← h, unget_warns]
    simp only [ne_eq, he, not_false_eq_true, if_true]
    exact List.prefix_refl _

theorem boolLoop_both (h1 : env1.strictAnd = true) (hp : env1.params ≠ none) (fl : Byte) (rest : Bytes) (hist : LHist) (warns : List Exn) (l r : Bytes) :
    Both env2.params warns (boolLoop env1 fl rest hist warns l r) (boolLoop env2 fl rest hist warns l r) := by
  induction rest generalizing hist l r with
  | nil => simp only [boolLoop]; exact boolEnd_both h1 hp _ _ _ _
  | cons c rest ih =>
    simp only [boolLoop]
    split
    · split
      · exact Both.throw _
      · exact ih _ _ _
    · exact boolEnd_both h1 hp _ _ _ _

theorem numberEnd_both (s : St) (c : Byte) (d : Bool) (text : Bytes) : Both ps s.warns (numberEnd s c d text) (numberEnd s c d text) := by
  unfold numberEnd
  dsimp only
  split
  · exact Both.ret _ _ (unget_warns _ _)
  · cases intResult text with
    | inl u => exact Both.uncaught _
    | inr v => exact Both.ret _ _ (unget_warns _ _)

theorem numberLoop_both (rest : Bytes) (hist : LHist) (warns : List Exn) (d : Bool) (text : Bytes) :
    Both ps warns (numberLoop rest hist warns d text) (numberLoop rest hist warns d text) := by
  induction rest generalizing hist d text with
  | nil => simp only [numberLoop]; exact numberEnd_both _ _ _ _
  | cons c rest ih =>
    simp only [numberLoop]
    split
    · exact ih _ _ _
    · split
      · exact ih _ _ _
      · exact numberEnd_both _ _ _ _

theorem consumeNull_both (h1 : env1.strictAnd = true) (s : St) (c : Byte) :
    Both env2.params s.warns (consumeNull env1 s c) (consumeNull env2 s c) := by
  unfold consumeNull
  dsimp only
  split
  · rename_i x1 x2 x3 rest hr
    cases hp : s.hist.putN [x1, x2, x3, 0] 3 with
    | none => exact Both.ub _
    | some hist =>
      dsimp only
      split
      · split
        · exact Both.ret _ _ rfl
        · cases hq : env1.params with
          | none => simp [Env.strictAnd, hq] at h1
          | some p =>
            have hs : p.strict = true := by simpa [Env.strictAnd, hq] using h1
            dsimp only
            rw [if_pos hs]
            cases hn : env2.params with
            | none => exact Both.first (Or.inr (Or.inl ⟨rfl, Or.inr rfl⟩)) (fun a s h => (by cases h))
            | some q =>
              dsimp only
              split
              · exact Both.throw _
              · refine Both.first (Or.inr (Or.inl ⟨rfl, Or.inl (by simp)⟩)) ?_
                intro a t h
                injection h with _ h
                rw [← h]
                exact List.prefix_refl _
      · exact Both.throw _
  · split
    · exact Both.ub _
    · exact Both.ret _ _ rfl

theorem consumeToken_both (h1 : env1.strictAnd = true) (hp : env1.params ≠ none) (h2 : env1.ascii = env2.ascii) (h3 : env1.surr = env2.surr) (s : St) :
    Both env2.params s.warns (consumeToken env1 s) (consumeToken env2 s) := by
  have ht : ∀ rest hist, Both env2.params s.warns (tokenLoop env1 rest hist s.warns) (tokenLoop env2 rest hist s.warns) := by
    intro rest hist
    induction rest generalizing hist with
    | nil => simp only [tokenLoop]; exact Both.ret _ _ rfl
    | cons c rest ih =>
      simp only [tokenLoop]
      by_cases c1 : c = 34
      · rw [if_pos c1, if_pos c1]; exact stringLoop_both h1 h2 h3 _ _ _ _
      rw [if_neg c1, if_neg c1]
      by_cases c2 : c = 116 ∨ c = 102 ∨ c = 84 ∨ c = 70
      · rw [if_pos c2, if_pos c2]; exact boolLoop_both h1 hp _ _ _ _ _ _
      rw [if_neg c2, if_neg c2]
      by_cases c3 : c = 110 ∨ c = 78
      · rw [if_pos c3, if_pos c3]
        exact consumeNull_both (s := ⟨rest, true, hist.put c, s.warns⟩) h1 c
      rw [if_neg c3, if_neg c3]
      by_cases c4 : isDigit c = true ∨ c = 46 ∨ c = 45
      · rw [if_pos c4, if_pos c4]; exact numberLoop_both _ _ _ _ _
      rw [if_neg c4, if_neg c4]
      by_cases c5 : isPunct c = true
      · rw [if_pos c5, if_pos c5]; exact Both.ret _ _ rfl
      rw [if_neg c5, if_neg c5]
      by_cases c6 : ignoreChar c = true
      · rw [if_pos c6, if_pos c6]; exact ih _
      rw [if_neg c6, if_neg c6]
      exact Both.throw _
  unfold consumeToken
  by_cases hg : s.good = true
  · rw [if_pos hg, if_pos hg]; exact ht _ _
  · rw [if_neg hg, if_neg hg]; exact Both.ret _ _ rfl

/-- All the functions of the reader, with the same bound on the depth. -/
theorem reader_both (h1 : env1.strictAnd = true) (hp : env1.params ≠ none) (h2 : env1.ascii = env2.ascii) (h3 : env1.surr = env2.surr)
    (h4 : env1.sort = env2.sort) (fuel : Nat) :
    (∀ s, Both env2.params s.warns (readNext env1 fuel s) (readNext env2 fuel s)) ∧
    (∀ r s, Both env2.params s.warns (objectLoop env1 fuel r s) (objectLoop env2 fuel r s)) ∧
    (∀ s, Both env2.params s.warns (readArray env1 fuel s) (readArray env2 fuel s)) ∧
    (∀ acc tok s, Both env2.params s.warns (arrayLoop env1 fuel acc tok s) (arrayLoop env2 fuel acc tok s)) := by
  have tok := consumeToken_both (env1 := env1) (env2 := env2) h1 hp h2 h3
  have hadd : ∀ es k v, addEntry env1 es k v = addEntry env2 es k v := by intro es k v; unfold addEntry; rw [h4]
  have hso : env1.strictOr = true := by
    unfold Env.strictAnd at h1; unfold Env.strictOr
    split at h1 <;> simp_all
  induction fuel with
  | zero =>
    refine ⟨?_, ?_, ?_, ?_⟩ <;> intros
    · simp only [readNext]; exact Both.fuel
    · simp only [objectLoop]; exact Both.fuel
    · simp only [readArray]; exact Both.fuel
    · simp only [arrayLoop]; exact Both.fuel
  | succ fuel ih =>
    obtain ⟨ihN, ihO, ihA, ihL⟩ := ih
    refine ⟨?_, ?_, ?_, ?_⟩
    · intro s
      rw [readNext_succ, readNext_succ]
      refine (tok s).bind ?_
      intro t s
      cases t with
      | val v => exact Both.ret _ _ rfl
      | nothing => exact Both.ret _ _ rfl
      | punct c =>
        dsimp only
        split
        · exact (ihO _ _).bind fun v s => Both.ret _ _ rfl
        · split
          · exact (ihA _).bind fun v s => Both.ret _ _ rfl
          · exact Both.ret _ _ rfl
    · intro r s
      rw [objectLoop_succ, objectLoop_succ]
      have sep : ∀ es t s, Both env2.params s.warns (objSep env1 fuel es t s) (objSep env2 fuel es t s) := by
        intro es t s
        cases t with
        | val v => exact Both.ret _ _ rfl
        | nothing => exact ihO _ _
        | punct c =>
          simp only [objSep]
          split
          · exact Both.ret _ _ rfl
          · exact ihO _ _
      have child : ∀ es key c s, Both env2.params s.warns (objChild env1 fuel es key c s) (objChild env2 fuel es key c s) := by
        intro es key c s
        cases c with
        | none => exact Both.ub _
        | some v =>
          simp only [objChild, hadd]
          exact (tok s).bind (sep _)
      refine (tok s).bind ?_
      intro t s
      unfold objKey
      split
      · rename_i key
        refine (tok s).bind ?_
        intro t s
        cases t with
        | val v => exact Both.throw _
        | nothing => exact Both.throw _
        | punct c =>
          simp only [objColon]
          split
          · exact Both.throw _
          · have go : ∀ s : St, Both env2.params s.warns ((readNext env1 fuel s).bind (objChild env1 fuel (dropKey (r.getD []) key) key))
                ((readNext env2 fuel s).bind (objChild env2 fuel (dropKey (r.getD []) key) key)) :=
              fun s => (ihN s).bind (child _ _)
            cases hc : Json.contains (r.getD []) key with
            | false =>
              simp only [Bool.false_and, Bool.false_eq_true, if_false]
              exact go s
            | true =>
              simp only [Bool.true_and, if_true, hso]
              split
              · exact Both.throw _
              · rename_i hs
                refine Both.first (Or.inr (Or.inr ⟨_, rfl, ?_⟩)) (go (warnDup s key)).2
                intro hn
                simp [Env.strictOr, hn] at hs
      · split
        · exact Both.ret _ _ rfl
        · exact Both.throw _
      · exact Both.throw _
    · intro s
      rw [readArray_succ, readArray_succ]
      refine (tok s).bind ?_
      intro t s
      cases t with
      | val v => exact ihL _ _ _
      | nothing => exact ihL _ _ _
      | punct c =>
        dsimp only
        split
        · exact Both.ret _ _ rfl
        · exact ihL _ _ _
    · intro acc t s
      rw [arrayLoop_succ, arrayLoop_succ]
      have item : Both env2.params s.warns (arrItem env1 fuel t s) (arrItem env2 fuel t s) := by
        cases t with
        | val v => exact Both.ret _ _ rfl
        | nothing => exact Both.throw _
        | punct c =>
          simp only [arrItem]
          split
          · exact ihA _
          · split
            · exact ihO _ _
            · exact Both.throw _
      refine item.bind ?_
      intro v s
      refine (tok s).bind ?_
      intro t s
      cases t with
      | val v => exact Both.throw _
      | nothing => exact Both.throw _
      | punct c =>
        simp only [arrSep]
        split
        · exact Both.ret _ _ rfl
        · split
          · exact (tok s).bind fun t s => ihL _ _ _
          · exact Both.throw _

end
end Verif.Lemmas
