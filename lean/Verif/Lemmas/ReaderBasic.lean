import Verif.Model.Reader
/-!
# Lemmas: outcomes of the reader, token progress
-/
namespace Verif.Lemmas
open Verif.Model

/-- Post-condition of an outcome: `R` on a normal return, `F` on any failure. -/
def _root_.Verif.Model.Out.Post {α : Type} (o : Out α) (R : α → St → Prop) (F : Out Empty → Prop) : Prop :=
  match o with
  | .ret a s => R a s
  | .throw e => F (.throw e)
  | .uncaught u => F (.uncaught u)
  | .ub u => F (.ub u)
  | .fuel => F .fuel

theorem Post.bind {α β : Type} {o : Out α} {f : α → St → Out β} {R : α → St → Prop} {R' : β → St → Prop}
    {F : Out Empty → Prop} (h : o.Post R F) (hf : ∀ a s, R a s → (f a s).Post R' F) : (o.bind f).Post R' F := by
  cases o <;> simp_all [Out.Post, Out.bind]

theorem Post.bind_eq {α β : Type} {o : Out α} {f : α → St → Out β} {R : α → St → Prop} {R' : β → St → Prop}
    {F : Out Empty → Prop} (h : o.Post R F) (hf : ∀ a s, o = .ret a s → R a s → (f a s).Post R' F) : (o.bind f).Post R' F := by
  cases o <;> simp_all [Out.Post, Out.bind]

theorem Post.mono {α : Type} {o : Out α} {R R' : α → St → Prop} {F F' : Out Empty → Prop} (h : o.Post R F)
    (hr : ∀ a s, R a s → R' a s) (hf : ∀ x, F x → F' x) : o.Post R' F' := by
  cases o <;> simp_all [Out.Post]

theorem Post.and {α : Type} {o : Out α} {R R' : α → St → Prop} {F F' : Out Empty → Prop} (h : o.Post R F)
    (h' : o.Post R' F') : o.Post (fun a s => R a s ∧ R' a s) (fun x => F x ∧ F' x) := by
  cases o <;> simp_all [Out.Post]

theorem Post.ret {α : Type} {a : α} {s : St} {R : α → St → Prop} {F : Out Empty → Prop} (h : R a s) :
    (Out.ret a s).Post R F := h

theorem Post.of_ret {α : Type} {o : Out α} {a : α} {s : St} {R : α → St → Prop} {F : Out Empty → Prop}
    (h : o.Post R F) (e : o = .ret a s) : R a s := by subst e; exact h

/-- The primitives a token can denote. -/
def PrimOK : Json → Prop
  | .str _ => True
  | .bool _ => True
  | .null => True
  | .int i => -2147483648 ≤ i ∧ i ≤ 2147483647
  | .long i => (-9223372036854775808 ≤ i ∧ i ≤ 9223372036854775807) ∧ ¬ (-2147483648 ≤ i ∧ i ≤ 2147483647)
  | .dbl _ => True
  | .arr _ => False
  | .obj _ => False

/-- What every token consumption that starts with `rest` unread bytes guarantees. -/
structure TokOK (rest : Bytes) (tok : Tok) (s' : St) : Prop where
  suffix : s'.rest <:+ rest
  bad : s'.good = false → s'.rest = []
  progress : tok ≠ .nothing → s'.rest.length ≤ rest.length
  nothing : tok = .nothing → s'.good = false
  prim : ∀ v, tok = .val v → PrimOK v
  punct : ∀ c, tok = .punct c → isPunct c = true

theorem TokOK.mono {rest rest' : Bytes} {t : Tok} {s : St} (h : TokOK rest t s) (hs : rest <:+ rest') :
    TokOK rest' t s :=
  ⟨h.suffix.trans hs, h.bad, fun hn => Nat.le_trans (h.progress hn) hs.length_le, h.nothing, h.prim, h.punct⟩

theorem post_tok_mono {o : Out Tok} {rest rest' : Bytes} {F : Out Empty → Prop}
    (h : o.Post (fun t s => TokOK rest t s) F) (hs : rest <:+ rest') :
    o.Post (fun t s => TokOK rest' t s) F :=
  Post.mono h (fun _ _ h => h.mono hs) (fun _ h => h)

theorem stringLoop_ok (env : Env) (rest : Bytes) (hist : LHist) (warns : List Exn) (acc : Bytes) :
    (stringLoop env rest hist warns acc).Post (fun t s => TokOK rest t s) (fun x => x ≠ .fuel) := by
  fun_induction stringLoop env rest hist warns acc
  all_goals first
    | (simp only [Out.Post, ne_eq, reduceCtorEq, not_false_eq_true]; done)
    | (refine post_tok_mono (by assumption) ?_
       repeat (first | exact List.suffix_rfl | refine List.IsSuffix.trans ?_ (List.suffix_cons _ _)))
    | (exact ⟨List.suffix_rfl, by simp, by simp, by simp, by simp, by simp⟩)
    | (exact ⟨List.suffix_cons _ _, by simp, by simp, by simp, by simp [PrimOK], by simp⟩)
    | (exact ⟨List.nil_suffix, by simp, by simp, by simp, by simp, by simp⟩)

theorem boolEnd_ok (env : Env) (s : St) (c : Byte) (lower raw : Bytes) (rest : Bytes)
    (h : (s.unget c).rest <:+ rest) (hb : s.good = false → s.rest = []) :
    (boolEnd env s c lower raw).Post (fun t s => TokOK rest t s) (fun x => x ≠ .fuel) := by
  obtain ⟨sr, sg, sh, sw⟩ := s
  unfold boolEnd
  cases sg <;> simp only [St.unget, if_true, if_false, Bool.false_eq_true] at * <;> repeat' split
  all_goals first
    | (simp only [Out.Post, ne_eq, reduceCtorEq, not_false_eq_true]; done)
    | skip
  all_goals
    constructor
    · simp_all
    · simp_all
    · intro _; first | exact h.length_le | simp_all
    · simp
    · simp [PrimOK]
    · simp

theorem boolLoop_ok (env : Env) (fl : Byte) (rest : Bytes) (hist : LHist) (warns : List Exn) (lower raw : Bytes) :
    (boolLoop env fl rest hist warns lower raw).Post (fun t s => TokOK rest t s) (fun x => x ≠ .fuel) := by
  fun_induction boolLoop env fl rest hist warns lower raw
  · exact boolEnd_ok _ _ _ _ _ _ (by simp [St.unget]) (by simp)
  · simp [Out.Post]
  · exact post_tok_mono (by assumption) (List.suffix_cons _ _)
  · exact boolEnd_ok _ _ _ _ _ _ (by simp [St.unget]) (by simp)

theorem intResult_ok (t : Bytes) (v : Json) (h : intResult t = .inr v) : PrimOK v := by
  unfold intResult at h
  repeat' split at h
  all_goals simp at h
  · subst h; simp_all [PrimOK]
  · subst h; simp_all [PrimOK]

theorem numberEnd_ok (s : St) (c : Byte) (d : Bool) (text : Bytes) (rest : Bytes)
    (h : (s.unget c).rest <:+ rest) (hb : s.good = false → s.rest = []) :
    (numberEnd s c d text).Post (fun t s => TokOK rest t s) (fun x => x ≠ .fuel) := by
  obtain ⟨sr, sg, sh, sw⟩ := s
  unfold numberEnd
  cases sg <;> simp only [St.unget, if_true, if_false, Bool.false_eq_true] at * <;> repeat' split
  all_goals first
    | (simp only [Out.Post, ne_eq, reduceCtorEq, not_false_eq_true]; done)
    | skip
  all_goals
    constructor
    · simp_all
    · simp_all
    · intro _; first | exact h.length_le | simp_all
    · simp
    · intro v hv
      simp only [Tok.val.injEq] at hv
      subst hv
      first | exact intResult_ok _ _ (by assumption) | simp [PrimOK]
    · simp

theorem numberLoop_ok (rest : Bytes) (hist : LHist) (warns : List Exn) (d : Bool) (text : Bytes) :
    (numberLoop rest hist warns d text).Post (fun t s => TokOK rest t s) (fun x => x ≠ .fuel) := by
  fun_induction numberLoop rest hist warns d text
  · exact numberEnd_ok _ _ _ _ _ (by simp [St.unget]) (by simp)
  · exact post_tok_mono (by assumption) (List.suffix_cons _ _)
  · exact post_tok_mono (by assumption) (List.suffix_cons _ _)
  · exact numberEnd_ok _ _ _ _ _ (by simp [St.unget]) (by simp)

theorem tokOK_null {x1 x2 x3 : Byte} {r : Bytes} (rest : Bytes) (s : St) (hr : rest = x1 :: x2 :: x3 :: r)
    (h1 : s.rest = r) (h2 : s.good = true) : TokOK rest (.val .null) s := by
  subst hr
  exact ⟨h1 ▸ ((List.suffix_cons _ _).trans (List.suffix_cons _ _)).trans (List.suffix_cons _ _), by simp [h2],
    by simp [h1]; omega, by simp, by simp [PrimOK], by simp⟩

theorem consumeNull_ok (env : Env) (s : St) (first : Byte) :
    (consumeNull env s first).Post (fun t s' => TokOK s.rest t s') (fun x => x ≠ .fuel) := by
  unfold consumeNull
  dsimp only
  repeat' split
  all_goals first
    | (simp only [Out.Post, ne_eq, reduceCtorEq, not_false_eq_true]; done)
    | skip
  all_goals first
    | exact (tokOK_null _ _ (by assumption) rfl rfl)
    | exact ⟨List.nil_suffix, by simp, by simp, by simp, by simp, by simp⟩

/-- Every token that is not "nothing" consumed at least one byte. -/
theorem tokenLoop_ok (env : Env) (rest : Bytes) (hist : LHist) (warns : List Exn) :
    (tokenLoop env rest hist warns).Post
      (fun t s => TokOK rest t s ∧ (t ≠ .nothing → s.rest.length < rest.length)) (fun x => x ≠ .fuel) := by
  have lift : ∀ {o : Out Tok} {c : Byte} {rest : Bytes},
      o.Post (fun t s => TokOK rest t s) (fun x => x ≠ .fuel) →
      o.Post (fun t s => TokOK (c :: rest) t s ∧ (t ≠ .nothing → s.rest.length < (c :: rest).length)) (fun x => x ≠ .fuel) := by
    intro o c rest h
    refine Post.mono h (fun t s h => ⟨h.mono (List.suffix_cons _ _), fun hn => ?_⟩) (fun _ h => h)
    have := h.progress hn
    simp; omega
  fun_induction tokenLoop env rest hist warns
  · exact ⟨⟨List.suffix_rfl, by simp, by simp, by simp, by simp, by simp⟩, by simp⟩
  · exact lift (stringLoop_ok _ _ _ _ _)
  · exact lift (boolLoop_ok _ _ _ _ _ _ _)
  · exact lift (consumeNull_ok _ _ _)
  · exact lift (numberLoop_ok _ _ _ _ _)
  · exact lift (o := .ret _ _) ⟨List.suffix_rfl, by simp, fun _ => Nat.le_refl _, by simp, by simp, by simpa⟩
  · rename_i ih
    refine Post.mono ih (fun t s h => ⟨h.1.mono (List.suffix_cons _ _), fun hn => ?_⟩) (fun _ h => h)
    have := h.2 hn; simp; omega
  · simp [Out.Post]

/-- `consumeToken` on any state whose stream is exhausted once it is not good. -/
theorem consumeToken_ok (env : Env) (s : St) (hb : s.good = false → s.rest = []) :
    (consumeToken env s).Post
      (fun t s' => TokOK s.rest t s' ∧ (t ≠ .nothing → s'.rest.length < s.rest.length)) (fun x => x ≠ .fuel) := by
  unfold consumeToken
  split
  · exact tokenLoop_ok env _ _ _
  · rename_i h
    simp only [Bool.not_eq_true] at h
    exact ⟨⟨List.suffix_rfl, fun _ => hb h, by simp, by simp [h], by simp, by simp⟩, by simp⟩

end Verif.Lemmas
