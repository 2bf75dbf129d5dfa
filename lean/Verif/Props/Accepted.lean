import Verif.Lemmas.AcceptedAll
import Verif.Props.ReaderTree
/-! # C126: the accepted texts, exactly -/
namespace Verif.Props
open Verif.Model Verif.Spec Verif.Lemmas

/-- **C126.** Reading an input delivers the value `v`, with the warnings `ws`, and leaves `rest` unread, if and only if the input is insignificant bytes, a
text that the productions of `Spec.Accepted` derive with this value and these warnings, and `rest`. -/
theorem C126_accepted_exactly (strict ascii sort : Bool) (surr : Nat → Option Bytes) (junk : List Byte) (n : Nat) (input : Bytes) (v : Json) (rest : Bytes) (ws : List ExnKind) :
    (∃ s, Model.read (envOf strict ascii sort surr) (St.init junk n input) = .ret (some v) s ∧ s.rest = rest ∧ s.warns.map Exn.kind = ws) ↔
      ∃ w t, input = w ++ t ++ rest ∧ Blank w ∧ Accepted.Value ⟨strict, ascii, sort, surr⟩ t rest v ws :=
  accepted_iff ⟨strict, ascii, sort, surr⟩ junk n input v rest ws

/-- With `-W`: a colon separates members, a key is repeated, the object ends with a string, and there is a text after it. -/
example : ∃ w t, b!" {\"a\":Null:\"a\":[-.5] \"x\\y\"}" = w ++ t ++ b!"}" ∧ Blank w ∧
    Accepted.Value ⟨false, false, true, fun _ => none⟩ t b!"}" (.obj [(b!"a", .arr [.dbl b!"-.5"])]) [.format, .doubleKey b!"a", .escaped (c%'y')] := by
  refine (C126_accepted_exactly false false true (fun _ => none) [] 0 _ _ _ _).mp ?_
  obtain ⟨s, h1, h2⟩ := returns_sound (o := Model.read (envOf false false true) (St.init [] 0 b!" {\"a\":Null:\"a\":[-.5] \"x\\y\"}"))
    (a := some (.obj [(b!"a", .arr [.dbl b!"-.5"])])) (p := fun s => decide (s.rest = b!"}") && decide (s.warns.map Exn.kind = [.format, .doubleKey b!"a", .escaped (c%'y')]))
    (by decide +kernel)
  simp only [Bool.and_eq_true, decide_eq_true_iff] at h2
  exact ⟨s, h1, h2.1, h2.2⟩

/-- Strictly: an object that ends with a literal name. -/
example : ∃ s, Model.read (envOf true false true) (St.init [] 0 b!"{\"a\" : 007 true }") = .ret (some (.obj [(b!"a", .int 7)])) s ∧ s.rest = b!" }" ∧ s.warns.map Exn.kind = [] := by
  refine (C126_accepted_exactly true false true (fun _ => none) [] 0 _ _ _ _).mpr ⟨[], b!"{\"a\" : 007 true", rfl, by simp [Blank], ?_⟩
  have blank : Blank b!" " := by simp [Blank]
  have key : Accepted.Chars ⟨true, false, true, fun _ => none⟩ b!"a" b!"a" [] := .raw (by decide) (by decide) .nil
  have seven : Accepted.Value ⟨true, false, true, fun _ => none⟩ b!"007" b!" true }" (.int 7) [] :=
    .prim (.int (neg := false) (ds := b!"007") ⟨by decide, by decide⟩ (by unfold FitsLong; decide) (by intro c r e; cases e; decide))
  have yes : Accepted.Prim ⟨true, false, true, fun _ => none⟩ b!"true" b!" }" (.bool true) [] := .yes .exact (by intro c r e; cases e; decide)
  have ha : Accepted.arranged ⟨true, false, true, fun _ => none⟩ [(b!"a", .int 7)] = [(b!"a", .int 7)] := by simp [Accepted.arranged, lastWins, sortByKey]
  rw [← ha]
  have whole := Accepted.Members.stray (seen := []) (w1 := []) (w2 := b!" ") (w3 := b!" ") (t := b!"007") (w4 := b!" ") (by simp [Blank]) key blank (by simp) blank seven blank yes
  exact .obj whole

end Verif.Props
