import Verif.Lemmas.RefusedAll
import Verif.Props.Accepted
import Verif.Props.ReaderErrors
/-! # C127: the refused texts, exactly -/
namespace Verif.Props
open Verif.Model Verif.Spec Verif.Lemmas

/-- Reading ended without a result, for this reason. -/
def EndsWith (o : Out (Option Json)) : Refused.Reason → Prop
  | .error k => ∃ hist, o = .throw ⟨k, hist⟩
  | .uncaught u => o = .uncaught u
  | .undefined u => o = .ub u

theorem endsWith_iff (o : Out (Option Json)) (r : Refused.Reason) : EndsWith o r ↔ why o = some r := by
  cases o with
  | ret a s => cases r <;> simp [EndsWith, why]
  | throw e => obtain ⟨k, h⟩ := e; cases r <;> simp [EndsWith, why]
  | uncaught u => cases r <;> simp [EndsWith, why]
  | ub u => cases r <;> simp [EndsWith, why]
  | fuel => cases r <;> simp [EndsWith, why]

/-- **C127.** Reading an input ends with an error of a kind, with an exception that nobody catches or with undefined behaviour if and only if
`Spec.Refused.StopsValue` says so; it delivers no document and no error if and only if `Spec.Refused.Nothing` says so. Every input either is one of these or
begins, after insignificant bytes, with an accepted text (C126), and no input is both. -/
theorem C127_refused_exactly (strict ascii sort : Bool) (surr : Nat → Option Bytes) (junk : List Byte) (n : Nat) (input : Bytes) :
    (∀ r, EndsWith (Model.read (envOf strict ascii sort surr) (St.init junk n input)) r ↔ Refused.StopsValue ⟨strict, ascii, sort, surr⟩ input r) ∧
    ((∃ s, Model.read (envOf strict ascii sort surr) (St.init junk n input) = .ret none s) ↔ Refused.Nothing ⟨strict, ascii, sort, surr⟩ input) ∧
    ((∃ r, Refused.StopsValue ⟨strict, ascii, sort, surr⟩ input r) ∨ Refused.Nothing ⟨strict, ascii, sort, surr⟩ input ∨
      ∃ w t rest v ws, input = w ++ t ++ rest ∧ Blank w ∧ Accepted.Value ⟨strict, ascii, sort, surr⟩ t rest v ws) ∧
    (∀ r r', Refused.StopsValue ⟨strict, ascii, sort, surr⟩ input r → Refused.StopsValue ⟨strict, ascii, sort, surr⟩ input r' → r = r') ∧
    (∀ r, Refused.StopsValue ⟨strict, ascii, sort, surr⟩ input r → ¬ Refused.Nothing ⟨strict, ascii, sort, surr⟩ input) ∧
    (∀ w t rest v ws, input = w ++ t ++ rest → Blank w → Accepted.Value ⟨strict, ascii, sort, surr⟩ t rest v ws →
      ¬ Refused.Nothing ⟨strict, ascii, sort, surr⟩ input ∧ ∀ r, ¬ Refused.StopsValue ⟨strict, ascii, sort, surr⟩ input r) := by
  have h1 : ∀ r, why (Model.read (envOf strict ascii sort surr) (St.init junk n input)) = some r ↔ Refused.StopsValue ⟨strict, ascii, sort, surr⟩ input r :=
    fun r => refused_iff ⟨strict, ascii, sort, surr⟩ junk n input r
  have h2 : (∃ s, Model.read (envOf strict ascii sort surr) (St.init junk n input) = .ret none s) ↔ Refused.Nothing ⟨strict, ascii, sort, surr⟩ input :=
    nothing_iff ⟨strict, ascii, sort, surr⟩ junk n input
  refine ⟨fun r => (endsWith_iff _ r).trans (h1 r), h2, ?_, ?_, ?_, ?_⟩
  · cases h : Model.read (envOf strict ascii sort surr) (St.init junk n input) with
    | ret a s =>
      cases a with
      | none => exact Or.inr (Or.inl (h2.mp ⟨s, h⟩))
      | some v =>
        obtain ⟨w, t, k1, k2, k3⟩ := (C126_accepted_exactly strict ascii sort surr junk n input v s.rest (s.warns.map Exn.kind)).mp ⟨s, h, rfl, rfl⟩
        exact Or.inr (Or.inr ⟨w, t, _, v, _, k1, k2, k3⟩)
    | throw e => exact Or.inl ⟨.error e.kind, (h1 _).mp (by rw [h]; rfl)⟩
    | uncaught u => exact Or.inl ⟨.uncaught u, (h1 _).mp (by rw [h]; rfl)⟩
    | ub u => exact Or.inl ⟨.undefined u, (h1 _).mp (by rw [h]; rfl)⟩
    | fuel =>
      have := read_post (envOf strict ascii sort surr) _ (init_exhausted junk n input)
      rw [h] at this
      simp [Out.Post] at this
  · intro r r' k k'
    exact Option.some.inj (((h1 r).mpr k).symm.trans ((h1 r').mpr k'))
  · intro r k k'
    obtain ⟨s, hs⟩ := h2.mpr k'
    have := (h1 r).mpr k
    rw [hs] at this
    cases this
  · intro w t rest v ws e hw hv
    obtain ⟨s, hs, -⟩ := (C126_accepted_exactly strict ascii sort surr junk n input v rest ws).mpr ⟨w, t, e, hw, hv⟩
    refine ⟨fun k => ?_, fun r k => ?_⟩
    · obtain ⟨s', hs'⟩ := h2.mpr k
      rw [hs] at hs'
      cases hs'
    · have := (h1 r).mpr k
      rw [hs] at this
      cases this

/-- **C10, exactly.** Reading crashes, by an exception that nobody catches or by undefined behaviour, if and only if `Spec.Refused.StopsValue` gives such a
reason for the input. (The property itself, that reading never crashes, is false: `C10_no_crash_false`.) -/
theorem C10_exactly_partial (strict ascii sort : Bool) (surr : Nat → Option Bytes) (junk : List Byte) (n : Nat) (input : Bytes) :
    (∀ u, Model.read (envOf strict ascii sort surr) (St.init junk n input) = .uncaught u ↔ Refused.StopsValue ⟨strict, ascii, sort, surr⟩ input (.uncaught u)) ∧
    (∀ u, Model.read (envOf strict ascii sort surr) (St.init junk n input) = .ub u ↔ Refused.StopsValue ⟨strict, ascii, sort, surr⟩ input (.undefined u)) :=
  ⟨fun u => (C127_refused_exactly strict ascii sort surr junk n input).1 (.uncaught u), fun u => (C127_refused_exactly strict ascii sort surr junk n input).1 (.undefined u)⟩

/-- **C20, exactly.** The history reads outside the memory it was given if and only if `Spec.Refused.StopsValue` says so for the input (its only cause there: the
four characters after `\u` hold a line feed). (The property itself, that this never happens, is false: `C20_history_bounds_false`.) -/
theorem C20_exactly_partial (strict ascii sort : Bool) (surr : Nat → Option Bytes) (junk : List Byte) (n : Nat) (input : Bytes) :
    Model.read (envOf strict ascii sort surr) (St.init junk n input) = .ub .historyOutOfBounds ↔
      Refused.StopsValue ⟨strict, ascii, sort, surr⟩ input (.undefined .historyOutOfBounds) :=
  (C10_exactly_partial strict ascii sort surr junk n input).2 _

/-- A lone minus sign deep in a document that is otherwise right: the exception is not caught, whatever follows. -/
example (rest : Bytes) (hr : Accepted.NotNext b!".0123456789" rest) :
    Model.read (envOf true false true) (St.init [] 0 (b!"{\"a\": [1, -" ++ rest)) = .uncaught .invalidArgument := by
  refine ((C10_exactly_partial true false true (fun _ => none) [] 0 _).1 _).mpr ?_
  have bad : Refused.StopsValue ⟨true, false, true, fun _ => none⟩ (b!" " ++ (b!"-" ++ rest)) (.uncaught .invalidArgument) := .token (by simp [Blank]) (.minus hr)
  have one : Refused.Padded ⟨true, false, true, fun _ => none⟩ b!"1" ([] ++ b!"," ++ (b!" " ++ (b!"-" ++ rest))) :=
    ⟨[], b!"1", .int 1, [], rfl, by simp [Blank], .prim (.int (neg := false) (ds := b!"1") ⟨by decide, by decide⟩ (by unfold FitsLong; decide) (by intro c r e; cases e; decide))⟩
  have items := Refused.StopsItems.more (m := ⟨true, false, true, fun _ => none⟩) (first := true) one (by simp [Blank]) (.item bad)
  have key : Refused.Key ⟨true, false, true, fun _ => none⟩ b!"\"a\"" b!"a" := ⟨[], b!"a", [], [], rfl, by simp [Blank], .raw (by decide) (by decide) .nil, by simp [Blank]⟩
  have arr := Refused.StopsValue.array (w := b!" ") (by simp [Blank]) items
  have members := Refused.StopsMembers.value (first := true) (seen := []) key (fun _ => by simp) arr
  have whole := Refused.StopsValue.object (w := []) (by simp [Blank]) members
  exact whole

/-- A missing value, and a value that is cut off. -/
example : EndsWith (Model.read (envOf false false true) (St.init [] 0 b!"{\"a\" : }")) (.undefined .nullChild) ∧
    EndsWith (Model.read (envOf false false true) (St.init [] 0 b!"[\"abc")) (.error .notJson) ∧
    Refused.Nothing ⟨false, false, true, fun _ => none⟩ b!" \"abc\\u00" := by
  have blank : Blank b!" " := by simp [Blank]
  refine ⟨?_, ?_, ?_⟩
  · refine ((C127_refused_exactly false false true (fun _ => none) [] 0 _).1 _).mpr ?_
    have key : Refused.Key ⟨false, false, true, fun _ => none⟩ b!"\"a\" " b!"a" := ⟨[], b!"a", [], b!" ", rfl, by simp [Blank], .raw (by decide) (by decide) .nil, blank⟩
    have members := Refused.StopsMembers.noValue (first := true) (seen := []) (x := b!" }") key (fun h => by cases h) (Or.inr ⟨b!" ", c%'}', [], rfl, blank, by decide⟩)
    have whole := Refused.StopsValue.object (w := []) (by simp [Blank]) members
    exact whole
  · refine ((C127_refused_exactly false false true (fun _ => none) [] 0 _).1 _).mpr ?_
    have chars : Accepted.Chars ⟨false, false, true, fun _ => none⟩ b!"abc" b!"abc" [] :=
      .raw (by decide) (by decide) (.raw (by decide) (by decide) (.raw (by decide) (by decide) .nil))
    have cut := Refused.NoToken.str (w := []) (by simp [Blank]) chars .here
    have whole := Refused.StopsValue.array (w := []) (by simp [Blank]) (Refused.StopsItems.noItem (first := true) (Or.inl cut))
    exact whole
  · have chars : Accepted.Chars ⟨false, false, true, fun _ => none⟩ b!"abc" b!"abc" [] :=
      .raw (by decide) (by decide) (.raw (by decide) (by decide) (.raw (by decide) (by decide) .nil))
    have cut := Refused.NoToken.str (w := b!" ") blank chars (.uni (z := b!"00") rfl (by decide) (by decide))
    exact Or.inl cut

end Verif.Props
