import Verif.Lemmas.GrammarPrefix
/-!
# Lemmas: what an input must contain for the reader to crash
-/
namespace Verif.Lemmas
open Verif.Model Verif.Spec

/-- What the bytes `l` must contain for a failure. -/
def Cause (env : Env) (l : Bytes) : Out Empty → Prop
  | .ub .historyOutOfBounds => (∃ w, [92, 117] ++ w ++ [10] <:+: l ∧ w.length ≤ 2) ∨
      (∃ d w1 w2, (d = 110 ∨ d = 78) ∧ [d] ++ w1 ++ [10] ++ w2 ++ [10] <:+: l ∧ w1.length + w2.length ≤ 1)
  | .ub .nullParams => env.params = none
  | .ub .nullChild => False
  | .uncaught .invalidArgument => 45 ∈ l ∨ 46 ∈ l
  | .uncaught .outOfRange => ∃ ds, ds <:+: l ∧ 19 ≤ ds.length ∧ ∀ d ∈ ds, 48 ≤ d ∧ d ≤ 57
  | .uncaught .rangeError => ∃ h1 h2 h3 h4 n, [92, 117, h1, h2, h3, h4] <:+: l ∧ hexValue h1 h2 h3 h4 = some n ∧ 0xD800 ≤ n ∧ n ≤ 0xDFFF
  | _ => True

variable {env : Env}

theorem Cause.mono {l l' : Bytes} (h : l <:+: l') {x : Out Empty} (hx : Cause env l x) : Cause env l' x := by
  cases x with
  | ub u =>
    cases u
    · rcases hx with ⟨w, h1, h2⟩ | ⟨d, w1, w2, h0, h1, h2⟩
      · exact Or.inl ⟨w, h1.trans h, h2⟩
      · exact Or.inr ⟨d, w1, w2, h0, h1.trans h, h2⟩
    · exact hx
    · exact hx
  | uncaught u =>
    cases u
    · exact hx.imp (fun y => h.subset y) (fun y => h.subset y)
    · obtain ⟨ds, h1, h2⟩ := hx; exact ⟨ds, h1.trans h, h2⟩
    · obtain ⟨a, b, c, d, n, h1, h2⟩ := hx; exact ⟨a, b, c, d, n, h1.trans h, h2⟩
  | _ => trivial

theorem cause_mono {α : Type} {l l' : Bytes} (h : l <:+: l') {o : Out α} (ho : o.Post (fun _ _ => True) (Cause env l)) :
    o.Post (fun _ _ => True) (Cause env l') := Post.mono ho (fun _ _ h => h) (fun _ hx => hx.mono h)

theorem putN_none {hist : LHist} {mem : List Byte} {count : Nat} (hc : count ≤ mem.length) (h : hist.putN mem count = none) :
    10 ∈ mem.take count := by
  refine Classical.byContradiction fun hn => ?_
  obtain ⟨h', e⟩ := putN_some hist mem count hc (fun c hcm hc10 => hn (hc10 ▸ hcm))
  rw [h] at e; simp at e

/-- A batch of all the memory reads past its end only if there is a line feed before its last byte. -/
theorem putN_none_full {hist : LHist} {mem : List Byte} (hm : mem.length ≤ 4) (h : hist.putN mem mem.length = none) :
    ∃ w r x, mem = w ++ 10 :: r ++ [x] ∧ w.length ≤ 2 := by
  rcases mem with _ | ⟨a, _ | ⟨b, _ | ⟨c, _ | ⟨d, _ | ⟨e, l⟩⟩⟩⟩⟩
  · simp [LHist.putN, LHist.putNAux, LHist.findNl] at h
  · by_cases h1 : a = 10 <;> simp [LHist.putN, LHist.putNAux, LHist.findNl, h1] at h
  · by_cases h1 : a = 10
    · exact ⟨[], [], b, by simp [h1], by simp⟩
    · by_cases h2 : b = 10 <;> simp [LHist.putN, LHist.putNAux, LHist.findNl, h1, h2] at h
  · by_cases h1 : a = 10
    · exact ⟨[], [b], c, by simp [h1], by simp⟩
    · by_cases h2 : b = 10
      · exact ⟨[a], [], c, by simp [h2], by simp⟩
      · by_cases h3 : c = 10 <;> simp [LHist.putN, LHist.putNAux, LHist.findNl, h1, h2, h3] at h
  · by_cases h1 : a = 10
    · exact ⟨[], [b, c], d, by simp [h1], by simp⟩
    · by_cases h2 : b = 10
      · exact ⟨[a], [c], d, by simp [h2], by simp⟩
      · by_cases h3 : c = 10
        · exact ⟨[a, b], [], d, by simp [h3], by simp⟩
        · by_cases h4 : d = 10 <;> simp [LHist.putN, LHist.putNAux, LHist.findNl, h1, h2, h3, h4] at h
  · simp at hm

/-- A batch of three bytes with a fourth one behind it reads past the end only if there are two line feeds. -/
theorem putN_none_null {hist : LHist} {a b c : Byte} (h : hist.putN [a, b, c, 0] 3 = none) :
    ∃ w1 w2 r, [a, b, c] = w1 ++ 10 :: w2 ++ 10 :: r ∧ w1.length + w2.length ≤ 1 := by
  by_cases h1 : a = 10 <;> by_cases h2 : b = 10 <;> by_cases h3 : c = 10
  · exact ⟨[], [], [c], by simp [h1, h2], by simp⟩
  · exact ⟨[], [], [c], by simp [h1, h2], by simp⟩
  · exact ⟨[], [b], [], by simp [h1, h3], by simp⟩
  · simp [LHist.putN, LHist.putNAux, LHist.findNl, h1, h2, h3] at h
  · exact ⟨[a], [], [], by simp [h2, h3], by simp⟩
  all_goals simp [LHist.putN, LHist.putNAux, LHist.findNl, h1, h2, h3] at h

theorem infix_of_prefix_suffix {l l' a : Bytes} (h : a <+: l) (h' : l <:+ l') : a <:+: l' := h.isInfix.trans h'.isInfix

theorem stringLoop_cause (rest : Bytes) (hist : LHist) (warns : List Exn) (acc : Bytes) :
    (stringLoop env rest hist warns acc).Post (fun _ _ => True) (Cause env rest) := by
  have tl : ∀ {l : Bytes} {a : Byte}, l <:+: a :: l := fun {l a} => (List.suffix_cons a l).isInfix
  fun_induction stringLoop env rest hist warns acc
  all_goals first
    | trivial
    | (refine cause_mono ?_ (by assumption)
       repeat (first | exact List.infix_rfl | refine List.IsInfix.trans ?_ tl))
    | skip
  · -- complete escape, history
    rename_i h
    obtain ⟨w, r, x, e, hw⟩ := putN_none_full (by simp) h
    simp only [Out.Post, Cause]
    refine Or.inl ⟨w, ?_, hw⟩
    rename_i x1 x2 x3 x4 rest _ _ _ _
    exact ⟨[], r ++ [x] ++ rest, by rw [show 92 :: 117 :: x1 :: x2 :: x3 :: x4 :: rest = [92, 117] ++ [x1, x2, x3, x4] ++ rest by simp, e]; simp⟩
  · -- surrogate
    rename_i h1 h2 h3 h4 rest' _ n hw ht _ _ _ _ _
    have hv : hexValue h1 h2 h3 h4 = some n := by
      cases hv : hexValue h1 h2 h3 h4 with
      | none => obtain ⟨c, hc, _⟩ := hexWord_bad hv; rw [hc] at hw; simp at hw
      | some m => have := (hexWord_value hv).1; rw [this] at hw; simp at hw; rw [hw]
    simp only [Out.Post, Cause]
    refine ⟨h1, h2, h3, h4, n, ⟨[], rest', rfl⟩, hv, ?_⟩
    refine Classical.byContradiction fun hs => ?_
    have := toBytes_utf8 env.surr n (hexWord_value hv).2 hs
    rw [this] at ht; simp at ht
  · rename_i rest hshort _ _ _ _ h
    have hl : rest.length ≤ 4 := by
      rcases rest with _ | ⟨_, _ | ⟨_, _ | ⟨_, _ | ⟨_, _⟩⟩⟩⟩ <;> simp
      exact absurd rfl (hshort _ _ _ _ _)
    obtain ⟨w, r, x, e, hw⟩ := putN_none_full hl h
    simp only [Out.Post, Cause]
    exact Or.inl ⟨w, ⟨[], r ++ [x], by rw [show 92 :: 117 :: rest = [92, 117] ++ rest by simp, e]; simp⟩, hw⟩

theorem boolLoop_cause (fl : Byte) (rest : Bytes) (hist : LHist) (warns : List Exn) (l r : Bytes) :
    (boolLoop env fl rest hist warns l r).Post (fun _ _ => True) (Cause env rest) := by
  have he : ∀ s c l r q, (boolEnd env s c l r).Post (fun _ _ => True) (Cause env q) := by
    intro s c l r q
    unfold boolEnd
    split
    · trivial
    · split
      · rename_i h; exact h.2
      · split <;> trivial
  fun_induction boolLoop env fl rest hist warns l r
  all_goals first
    | trivial
    | exact he _ _ _ _ _
    | (refine cause_mono ?_ (by assumption); exact (List.suffix_cons _ _).isInfix)

theorem consumeNull_cause (s : St) (c : Byte) (hc : c = 110 ∨ c = 78) : (consumeNull env s c).Post (fun _ _ => True) (Cause env (c :: s.rest)) := by
  unfold consumeNull
  split
  · rename_i x1 x2 x3 r e
    split
    · rename_i h
      obtain ⟨w1, w2, r', e', hl⟩ := putN_none_null h
      simp only [Out.Post, Cause]
      refine Or.inr ⟨c, w1, w2, hc, ⟨[], r' ++ r, ?_⟩, hl⟩
      rw [e, show c :: x1 :: x2 :: x3 :: r = [c] ++ [x1, x2, x3] ++ r by simp, e']; simp
    · dsimp only
      split
      · split
        · trivial
        · split
          · assumption
          · split <;> trivial
      · trivial
  · rename_i hshort
    split
    · rename_i h
      simp only [Out.Post, Cause]
      rcases hr : s.rest with _ | ⟨a, _ | ⟨b, _ | ⟨d, l⟩⟩⟩
      · rw [hr] at h
        obtain ⟨w1, w2, r', e', hl⟩ := putN_none_null (a := 0) (b := 0) (c := 0) h
        have : 10 ∈ ([0, 0, 0] : List Nat) := by rw [e']; simp
        simp at this
      · rw [hr] at h
        obtain ⟨w1, w2, r', e', hl⟩ := putN_none_null (a := a) (b := 0) (c := 0) h
        exfalso
        have h2 : ([a, 0, 0] : List Nat).count 10 ≥ 2 := by rw [e']; simp [List.count_cons]; omega
        simp [List.count_cons] at h2
        split at h2 <;> omega
      · rw [hr] at h
        obtain ⟨w1, w2, r', e', hl⟩ := putN_none_null (a := a) (b := b) (c := 0) h
        refine Or.inr ⟨c, [], [], hc, ⟨[], [], ?_⟩, by simp⟩
        have h2 : ([a, b, 0] : List Nat).count 10 ≥ 2 := by rw [e']; simp [List.count_cons]; omega
        simp [List.count_cons] at h2
        have : a = 10 ∧ b = 10 := by split at h2 <;> split at h2 <;> omega
        simp [this]
      · exact absurd hr (hshort _ _ _ _)
    · trivial

/-- A number that fails: the digits after its first character. -/
theorem numberLoop_cause (rest : Bytes) (hist : LHist) (warns : List Exn) (d : Bool) (text : Bytes) :
    (numberLoop rest hist warns d text).Post (fun _ _ => True) (fun x => ∃ u ds, x = .uncaught u ∧ ds <+: rest ∧
      (∀ y ∈ ds, 48 ≤ y ∧ y ≤ 57) ∧ d = false ∧ intResult (text ++ ds) = .inl u) := by
  have he : ∀ s c d text rest, (numberEnd s c d text).Post (fun _ _ => True) (fun x => ∃ u ds, x = .uncaught u ∧ ds <+: rest ∧
      (∀ y ∈ ds, 48 ≤ y ∧ y ≤ 57) ∧ d = false ∧ intResult (text ++ ds) = .inl u) := by
    intro s c d text rest
    unfold numberEnd
    dsimp only
    split
    · trivial
    · rename_i hd
      split
      · rename_i u hu
        exact ⟨u, [], rfl, List.nil_prefix, by simp, by simpa using hd, by simpa using hu⟩
      · trivial
  fun_induction numberLoop rest hist warns d text
  · exact he _ _ _ _ _
  · rename_i hdig ih
    refine Post.mono ih (fun _ _ h => h) ?_
    rintro x ⟨u, ds, e, hp, hd, hb, hi⟩
    refine ⟨u, _ :: ds, e, List.cons_prefix_cons.mpr ⟨rfl, hp⟩, ?_, hb, ?_⟩
    · intro y hy
      simp at hy
      rcases hy with rfl | hy
      · exact (isDigit_iff _).mp hdig
      · exact hd y hy
    · rw [← hi]; simp
  · rename_i ih
    refine Post.mono ih (fun _ _ h => h) ?_
    rintro x ⟨u, ds, e, hp, hd, hb, hi⟩
    simp at hb
  · exact he _ _ _ _ _

theorem decimal_lt (ds : Bytes) (hd : ∀ d ∈ ds, 48 ≤ d ∧ d ≤ 57) : decimal ds < 10 ^ ds.length := by
  induction ds with
  | nil => simp [decimal]
  | cons d ds ih =>
    have h1 := hd d (by simp)
    have h2 := ih (fun x hx => hd x (by simp [hx]))
    simp only [decimal, List.length_cons, Nat.pow_succ]
    have : (d - 48) * 10 ^ ds.length ≤ 9 * 10 ^ ds.length := Nat.mul_le_mul_right _ (by omega)
    omega

theorem digits_long (ds : Bytes) (hd : ∀ d ∈ ds, 48 ≤ d ∧ d ≤ 57) (h : 9223372036854775807 < decimal ds) : 19 ≤ ds.length := by
  have h1 := decimal_lt ds hd
  refine Classical.byContradiction fun hn => ?_
  have h2 : 10 ^ ds.length ≤ 10 ^ 18 := Nat.pow_le_pow_right (by omega) (by omega)
  omega

theorem number_cause {c : Byte} {rest : Bytes} {hist : LHist} {warns : List Exn} :
    (isDigit c = true ∨ c = 46 ∨ c = 45) →
    (numberLoop rest hist warns false [c]).Post (fun _ _ => True) (Cause env (c :: rest)) := by
  intro hc
  refine Post.mono (numberLoop_cause rest hist warns false [c]) (fun _ _ h => h) ?_
  rintro x ⟨u, ds, rfl, hp, hd, _, hi⟩
  rw [isDigit_iff] at hc
  unfold intResult at hi
  have hst : (48 ≤ c ∧ c ≤ 57 → strtol ([c] ++ ds) = some (intValue false (c :: ds))) ∧
      (c = 45 → ds ≠ [] → strtol ([c] ++ ds) = some (intValue true ds)) := by
    constructor
    · intro h
      refine strtol_int false (c :: ds) ⟨by simp, ?_⟩
      intro d hd'
      simp at hd'
      rcases hd' with rfl | hd'
      · exact h
      · exact hd d hd'
    · rintro rfl hne
      exact strtol_int true ds ⟨hne, hd⟩
  cases u with
  | invalidArgument =>
    rcases hc with hc | hc | hc
    · rw [hst.1 hc] at hi
      dsimp only at hi
      split at hi
      · simp at hi
      · split at hi <;> simp at hi
    · exact Or.inr (by simp [hc])
    · exact Or.inl (by simp [hc])
  | rangeError =>
    split at hi
    · simp at hi
    · split at hi
      · simp at hi
      · split at hi <;> simp at hi
  | outOfRange =>
    simp only [Cause]
    rcases hc with hc | hc | hc
    · rw [hst.1 hc] at hi
      dsimp only at hi
      split at hi
      · simp at hi
      · split at hi
        · simp at hi
        · rename_i h2
          have hdig : ∀ d ∈ c :: ds, 48 ≤ d ∧ d ≤ 57 := by
            intro d hd'
            simp at hd'
            rcases hd' with rfl | hd'
            · exact hc
            · exact hd d hd'
          refine ⟨c :: ds, (List.cons_prefix_cons.mpr ⟨rfl, hp⟩).isInfix, digits_long _ hdig ?_, hdig⟩
          simp only [intValue, Bool.false_eq_true, if_false] at h2
          omega
    · subst hc
      simp [strtol, isDigit] at hi
    · subst hc
      cases ds with
      | nil => simp [strtol] at hi
      | cons d ds =>
        rw [hst.2 rfl (by simp)] at hi
        dsimp only at hi
        split at hi
        · simp at hi
        · split at hi
          · simp at hi
          · rename_i h2
            refine ⟨d :: ds, hp.isInfix.trans (List.suffix_cons _ _).isInfix, digits_long _ hd ?_, hd⟩
            simp only [intValue, if_true] at h2
            omega

theorem tokenLoop_cause (rest : Bytes) (hist : LHist) (warns : List Exn) :
    (tokenLoop env rest hist warns).Post (fun _ _ => True) (Cause env rest) := by
  fun_induction tokenLoop env rest hist warns
  · trivial
  · exact cause_mono (List.suffix_cons _ _).isInfix (stringLoop_cause _ _ _ _)
  · exact cause_mono (List.suffix_cons _ _).isInfix (boolLoop_cause _ _ _ _ _ _)
  · exact consumeNull_cause _ _ (by assumption)
  · exact number_cause (by assumption)
  · trivial
  · exact cause_mono (List.suffix_cons _ _).isInfix (by assumption)
  · trivial

/-- The outcome is no one-character token. -/
def NoPunct (o : Out Tok) : Prop := o.Post (fun t _ => ∀ c, t ≠ .punct c) (fun _ => True)

theorem stringLoop_noPunct (rest : Bytes) (hist : LHist) (warns : List Exn) (acc : Bytes) : NoPunct (stringLoop env rest hist warns acc) := by
  fun_induction stringLoop env rest hist warns acc
  all_goals first | assumption | trivial | simp [NoPunct, Out.Post]

theorem boolLoop_noPunct (fl : Byte) (rest : Bytes) (hist : LHist) (warns : List Exn) (l r : Bytes) : NoPunct (boolLoop env fl rest hist warns l r) := by
  have he : ∀ s c l r, NoPunct (boolEnd env s c l r) := by
    intro s c l r
    unfold boolEnd
    split
    · trivial
    · split
      · trivial
      · split
        · trivial
        · simp [NoPunct, Out.Post]
  fun_induction boolLoop env fl rest hist warns l r
  all_goals first | assumption | trivial | exact he _ _ _ _

theorem consumeNull_noPunct (s : St) (c : Byte) : NoPunct (consumeNull env s c) := by
  unfold consumeNull
  split
  · split
    · trivial
    · dsimp only
      split
      · split
        · simp [NoPunct, Out.Post]
        · split
          · trivial
          · split
            · trivial
            · simp [NoPunct, Out.Post]
      · trivial
  · split
    · trivial
    · simp [NoPunct, Out.Post]

theorem numberLoop_noPunct (rest : Bytes) (hist : LHist) (warns : List Exn) (d : Bool) (text : Bytes) : NoPunct (numberLoop rest hist warns d text) := by
  have he : ∀ s c d text, NoPunct (numberEnd s c d text) := by
    intro s c d text
    unfold numberEnd
    dsimp only
    split
    · simp [NoPunct, Out.Post]
    · split
      · trivial
      · simp [NoPunct, Out.Post]
  fun_induction numberLoop rest hist warns d text
  all_goals first | assumption | trivial | exact he _ _ _ _

theorem tokenLoop_punct (rest : Bytes) (hist : LHist) (warns : List Exn) :
    (tokenLoop env rest hist warns).Post (fun t s => ∀ c, t = .punct c → s.good = true ∧ ∃ w, rest = w ++ c :: s.rest) (fun _ => True) := by
  have nostr : ∀ {o : Out Tok}, NoPunct o → ∀ l : Bytes,
      o.Post (fun t s => ∀ c, t = .punct c → s.good = true ∧ ∃ w, l = w ++ c :: s.rest) (fun _ => True) :=
    fun h l => Post.mono h (fun t s h c hc => absurd hc (h c)) (fun _ h => h)
  fun_induction tokenLoop env rest hist warns
  · simp [Out.Post]
  · exact nostr (stringLoop_noPunct _ _ _ _) _
  · exact nostr (boolLoop_noPunct _ _ _ _ _ _) _
  · exact nostr (consumeNull_noPunct _ _) _
  · exact nostr (numberLoop_noPunct _ _ _ _ _) _
  · intro c' hc
    simp at hc
    subst hc
    exact ⟨rfl, [], rfl⟩
  · rename_i ih
    refine Post.mono ih (fun t s h c' hc => ⟨(h c' hc).1, ?_⟩) (fun _ h => h)
    obtain ⟨w, e⟩ := (h c' hc).2
    exact ⟨_ :: w, by rw [e]; rfl⟩
  · trivial

theorem unterminated_plain {c : Byte} {r : Bytes} (h1 : c ≠ 34) (h2 : c ≠ 92) : unterminated (c :: r) = unterminated r := by
  conv => lhs; unfold unterminated
  split
  · rename_i h; simp at h
  · rename_i h; simp at h; exact absurd h.1 h2
  · rename_i h; simp at h; exact absurd h.1 h2
  · rename_i h; simp at h; obtain ⟨rfl, rfl⟩ := h; rw [if_neg h1]

/-- The string that starts at `rest` is cut off. -/
def CutString (rest : Bytes) : Prop := unterminated rest = true ∨ ∃ z, [92, 117] ++ z <:+ rest ∧ z.length ≤ 3

theorem CutString.mono {r l : Bytes} (h : CutString r) (hs : r <:+ l) (hu : unterminated l = unterminated r) : CutString l := by
  rcases h with h | ⟨z, hz, hl⟩
  · exact Or.inl (by rw [hu, h])
  · exact Or.inr ⟨z, hz.trans hs, hl⟩

theorem stringLoop_nothing (rest : Bytes) (hist : LHist) (warns : List Exn) (acc : Bytes) :
    (stringLoop env rest hist warns acc).Post (fun t _ => (t = .nothing → CutString rest) ∧ ∀ c, t ≠ .punct c) (fun _ => True) := by
  have step2 : ∀ {a : Byte} {r : Bytes}, r <:+ 92 :: a :: r := fun {a r} => (List.suffix_cons a r).trans (List.suffix_cons _ _)
  fun_induction stringLoop env rest hist warns acc
  all_goals first
    | trivial
    | (simp [Out.Post, CutString, unterminated]; done)
    | skip
  case case12 rest hshort _ _ _ _ _ _ =>
    refine ⟨fun _ => Or.inr ⟨rest, List.suffix_rfl, ?_⟩, by simp⟩
    rcases rest with _ | ⟨_, _ | ⟨_, _ | ⟨_, _ | ⟨_, _⟩⟩⟩⟩ <;> simp
    exact absurd rfl (hshort _ _ _ _ _)
  case case10 x1 x2 x3 x4 rest _ n hn _ _ _ _ _ _ _ ih =>
    refine Post.mono ih (fun t _ h => ⟨fun ht => (h.1 ht).mono ?_ ?_, h.2⟩) (fun _ h => h)
    · exact ⟨[92, 117, x1, x2, x3, x4], rfl⟩
    · have hv : hexValue x1 x2 x3 x4 = some n := by
        cases hv : hexValue x1 x2 x3 x4 with
        | none => obtain ⟨c, hc, _⟩ := hexWord_bad hv; rw [hc] at hn; simp at hn
        | some m => have := (hexWord_value hv).1; rw [this] at hn; simp at hn; rw [hn]
      obtain ⟨a, b, c, d, ha, hb, hc, hd, _⟩ := hexValue_some hv
      have ha := hexDigit_lt ha; have hb := hexDigit_lt hb; have hc := hexDigit_lt hc; have hd := hexDigit_lt hd
      rw [unterminated, unterminated_plain ha.2.2.1 ha.2.2.2, unterminated_plain hb.2.2.1 hb.2.2.2, unterminated_plain hc.2.2.1 hc.2.2.2,
        unterminated_plain hd.2.2.1 hd.2.2.2]
  case case16 h34 h92 ih =>
    refine Post.mono ih (fun t _ h => ⟨fun ht => (h.1 ht).mono (List.suffix_cons _ _) ?_, h.2⟩) (fun _ h => h)
    exact unterminated_plain h34 h92
  all_goals
    rename_i ih
    exact Post.mono ih (fun t _ h => ⟨fun ht => (h.1 ht).mono step2 rfl, h.2⟩) (fun _ h => h)

theorem boolLoop_val (fl : Byte) (rest : Bytes) (hist : LHist) (warns : List Exn) (l r : Bytes) :
    (boolLoop env fl rest hist warns l r).Post (fun t _ => ∃ v, t = .val v) (fun _ => True) := by
  have he : ∀ s c l r, (boolEnd env s c l r).Post (fun t _ => ∃ v, t = .val v) (fun _ => True) := by
    intro s c l r
    unfold boolEnd
    split
    · trivial
    · split
      · trivial
      · split
        · trivial
        · simp [Out.Post]
  fun_induction boolLoop env fl rest hist warns l r
  all_goals first | assumption | trivial | exact he _ _ _ _

theorem numberLoop_val (rest : Bytes) (hist : LHist) (warns : List Exn) (d : Bool) (text : Bytes) :
    (numberLoop rest hist warns d text).Post (fun t _ => ∃ v, t = .val v) (fun _ => True) := by
  have he : ∀ s c d text, (numberEnd s c d text).Post (fun t _ => ∃ v, t = .val v) (fun _ => True) := by
    intro s c d text
    unfold numberEnd
    dsimp only
    split
    · simp [Out.Post]
    · split
      · trivial
      · simp [Out.Post]
  fun_induction numberLoop rest hist warns d text
  all_goals first | assumption | trivial | exact he _ _ _ _

theorem consumeNull_nothing (s : St) (c : Byte) :
    (consumeNull env s c).Post (fun t _ => (t = .nothing → s.rest.length ≤ 2) ∧ ∀ c, t ≠ .punct c) (fun _ => True) := by
  unfold consumeNull
  split
  · split
    · trivial
    · dsimp only
      split
      · split
        · simp [Out.Post]
        · split
          · trivial
          · split
            · trivial
            · simp [Out.Post]
      · trivial
  · rename_i hshort
    split
    · trivial
    · refine ⟨fun _ => ?_, by simp⟩
      rcases hr : s.rest with _ | ⟨_, _ | ⟨_, _ | ⟨_, _⟩⟩⟩ <;> simp
      exact absurd hr (hshort _ _ _ _)

/-- A token that is no value and opens no container. -/
theorem tokenLoop_noValue (rest : Bytes) (hist : LHist) (warns : List Exn) :
    (tokenLoop env rest hist warns).Post (fun t _ => (t = .nothing ∨ ∃ c, t = .punct c ∧ c ≠ 123 ∧ c ≠ 91) → NoValue rest) (fun _ => True) := by
  have val : ∀ {o : Out Tok} {P : Prop}, o.Post (fun t _ => ∃ v, t = .val v) (fun _ => True) →
      o.Post (fun t _ => (t = .nothing ∨ ∃ c, t = .punct c ∧ c ≠ 123 ∧ c ≠ 91) → P) (fun _ => True) := by
    intro o P h
    refine Post.mono h ?_ (fun _ h => h)
    rintro t _ ⟨v, rfl⟩ h
    simp at h
  fun_induction tokenLoop env rest hist warns
  · exact fun _ => ⟨[], [], rfl, by simp [Blank], Or.inl rfl⟩
  · refine Post.mono (stringLoop_nothing _ _ _ _) ?_ (fun _ h => h)
    rintro t _ ⟨h1, h2⟩ (h | ⟨c, h, _⟩)
    · exact ⟨[], _, rfl, by simp [Blank], Or.inr (Or.inr (Or.inl ⟨_, rfl, h1 h⟩))⟩
    · exact absurd h (h2 c)
  · exact val (boolLoop_val _ _ _ _ _ _)
  · rename_i hc
    refine Post.mono (consumeNull_nothing _ _) ?_ (fun _ h => h)
    rintro t _ ⟨h1, h2⟩ (h | ⟨c, h, _⟩)
    · exact ⟨[], _, rfl, by simp [Blank], Or.inr (Or.inr (Or.inr ⟨_, _, rfl, by simpa using hc, h1 h⟩))⟩
    · exact absurd h (h2 c)
  · exact val (numberLoop_val _ _ _ _ _)
  · rename_i hp
    rintro (h | ⟨c, h, h1, h2⟩)
    · simp at h
    · simp at h
      subst h
      refine ⟨[], _, rfl, by simp [Blank], Or.inr (Or.inl ⟨_, _, rfl, ?_⟩)⟩
      simp [isPunct] at hp
      simp
      omega
  · rename_i hi ih
    refine Post.mono ih (fun t s h ht => ?_) (fun _ h => h)
    obtain ⟨w, x, e, hw, hx⟩ := h ht
    refine ⟨_ :: w, x, by rw [e]; rfl, ?_, hx⟩
    intro c hc
    simp at hc
    rcases hc with rfl | hc
    · simp [ignoreChar] at hi; omega
    · exact hw c hc
  · trivial

/-- A colon without a value behind it. -/
def MissingValue (input : Bytes) : Prop := ∃ u v, input = u ++ 58 :: v ∧ NoValue v

/-- A crash of the reader has its cause in the input. -/
theorem read_cause (junk : List Byte) (n : Nat) (input : Bytes) :
    (Model.read env (St.init junk n input)).Post (fun _ _ => True)
      (fun x => (x = .ub .nullChild ∧ MissingValue input) ∨ Cause env input x) := by
  have H : ReaderInv env (fun s => Exhausted s ∧ s.rest <:+ input) (fun _ => True) (fun es => (keys es).Nodup)
      (fun x => (x = .ub .nullChild ∧ MissingValue input) ∨ Cause env input x) := by
    have := readerInv_state env (fun s => Exhausted s ∧ s.rest <:+ input) (fun _ => True)
      (fun s hs => by
        have := consumeToken_ok env s hs.1
        refine Post.mono this (fun t s' h => ⟨h.1.bad, h.1.suffix.trans hs.2⟩) (fun _ _ => trivial))
      (fun _ _ _ _ => trivial) trivial trivial (fun s k hs _ => hs)
    refine { this with
      tok := fun s hs => ?_
      thr := fun _ _ _ _ => Or.inr trivial
      nullChild := ?_
      fuel := Or.inr trivial }
    · refine Post.mono (Post.and (this.tok s hs) (F' := Cause env input) (R' := fun _ _ => True) ?_) (fun _ _ h => h.1) (fun _ h => Or.inr h.2)
      unfold consumeToken
      split
      · exact cause_mono hs.2.isInfix (tokenLoop_cause _ _ _)
      · trivial
    · rintro ⟨s, s', ws, fuel, s3, hs, h, hn⟩
      refine Or.inl ⟨rfl, ?_⟩
      unfold consumeToken at h
      split at h
      · have hp := tokenLoop_punct (env := env) s.rest s.hist s.warns
        rw [h] at hp
        obtain ⟨hg, w, e⟩ := hp 58 rfl
        obtain ⟨p, hp⟩ := hs.2
        refine ⟨p ++ w, s'.rest, by rw [← hp, e]; simp, ?_⟩
        cases fuel with
        | zero => simp [readNext] at hn
        | succ fuel =>
          rw [readNext] at hn
          have hv := tokenLoop_noValue (env := env) s'.rest s'.hist ws
          have hc : consumeToken env { s' with warns := ws } = tokenLoop env s'.rest s'.hist ws := by
            unfold consumeToken; simp [hg]
          rw [hc] at hn
          rw [bind_eq_ret] at hn
          obtain ⟨tok, s4, e4, hn⟩ := hn
          rw [e4] at hv
          cases tok with
          | val v => simp at hn
          | nothing => exact hv (Or.inl rfl)
          | punct c =>
            refine hv (Or.inr ⟨c, rfl, ?_⟩)
            dsimp only at hn
            split at hn
            · rw [bind_eq_ret] at hn
              obtain ⟨_, _, _, hn⟩ := hn
              simp at hn
            · split at hn
              · rw [bind_eq_ret] at hn
                obtain ⟨_, _, _, hn⟩ := hn
                simp at hn
              · exact ⟨by assumption, by assumption⟩
      · simp at h
  exact Post.mono ((reader_inv H _).1 (St.init junk n input) ⟨init_exhausted _ _ _, List.suffix_rfl⟩) (fun _ _ _ => trivial) (fun _ h => h)

end Verif.Lemmas
