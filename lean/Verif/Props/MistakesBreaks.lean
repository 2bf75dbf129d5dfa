import Verif.Props.Mistakes
import Verif.Props.Breaks
import Verif.Lemmas.BreaksPlace
/-!
# Property C106 with line breaks directly after numbers and booleans
-/
namespace Verif.Props
open Verif.Model Verif.Spec Verif.Lemmas

/-- The report about the exception shows the end of the text `t`, with the line breaks directly after numbers and booleans counted twice, and says `what`. -/
def ReportedTwice (e : Exn) (t what : Bytes) : Prop :=
  ∃ k col, (k = 44 ∨ k = 45) ∧ (2 ≤ lineNumber t → col = (lineText t).length % 4294967296) ∧
    displayException e = .shown (lineNumber t + countedTwice t) col what (lastN k (lineText t)) ((lastN k (lineText t)).length - 1)

theorem ReportedTwice.of {e : Exn} {t what : Bytes} (hs : ShowsAt e.hist t) (hne : lineText t ≠ []) (hm : message e.kind = some what) : ReportedTwice e t what := by
  obtain ⟨h1, ⟨k, hk, h2⟩, h3⟩ := hs
  refine ⟨k, e.hist.totalSize, hk, h3, ?_⟩
  unfold displayException
  rw [hm]
  dsimp only
  rw [if_neg, h1, h2]
  rw [h2]
  intro h0
  have h5 : 0 < (lineText t).length := List.length_pos_iff.mpr hne
  simp only [lastN, List.length_drop] at h0
  omega

/-- **C106, exactly, with line breaks anywhere but inside a `\uXXXX` or the four bytes of a `null`.** Take a text that is right up to some place and wrong there, as in `C106_report_partial`, but with line breaks
wherever they are allowed. Whatever follows, reading ends with an exception that names the mistake (`saysNow`), and the report shows the end of the text up to the mistake, on the line of the mistake; the number of this
line is the right one plus the number of line breaks before that directly follow a number or boolean, so it is the right one if and only if there is none. The only exception: a number or boolean for a key that is
directly followed by a line break is shown without its last byte. -/
theorem C106_exactly_partial (strict ascii sort : Bool) (surr : Nat → Option Bytes) (junk : List Byte) (n : Nat) (hj : junk.length = 45) (p : Place) (hp : p.Good ascii strict) (x : Slip) (hx : x.Wrong ascii strict p)
    (after : Bytes) (he : p.Ends (x.text ++ after)) (hx' : x.EndsWith after) (hw : UnbrokenWindows (p.text ++ x.text ++ after)) :
    ∃ e, Model.read (envOf strict ascii sort surr) (St.init junk n (p.text ++ x.text ++ after)) = .throw e ∧ message e.kind = some (saysNow ascii p x) ∧
      (ReportedTwice e (upToBreak (p.text ++ x.text)) (saysNow ascii p x) ∨
        ((∃ w d, x = .notString w d) ∧ (∃ c r, after = c :: r ∧ isBreak c = true) ∧ LacksOne (p.text ++ x.text ++ after) e.hist (p.text ++ x.text))) := by
  obtain ⟨h, ⟨f, hf, _⟩, hs⟩ := slip_throws_br (env := envOf strict ascii sort surr) hw p hp x hx after he hx' (by simp) (hist := LHist.init junk n) (Records.init junk n hj)
  have e : St.init junk n (p.text ++ x.text ++ after) = ⟨p.text ++ (x.text ++ after), true, LHist.init junk n, []⟩ := by simp [St.init]
  have hm : message (Slip.kind ascii p x) = some (saysNow ascii p x) := by
    cases x with
    | punct w c => cases p <;> rfl
    | _ => rfl
  refine ⟨⟨Slip.kind ascii p x, h⟩, ?_, hm, ?_⟩
  · rw [e, read_eq _ _ (by intro h; cases h) f (by rw [hf]; simp), hf]
    rfl
  · rcases hs with ⟨h1, h2⟩ | hs
    · exact Or.inl (ReportedTwice.of h1 h2 hm)
    · exact Or.inr hs

/-- `[1⏎, 12⏎, tru`: a text with a mistake, in which the two line breaks before it directly follow numbers. -/
def twicePlace : Place := .value [.arr [] [⟨[], .int false b!"1", b!"\n"⟩, ⟨b!" ", .int false b!"12", b!"\n"⟩]]

/-- The hypotheses of `C106_exactly_partial` are met by a mistake on the third line of a text with such line breaks, and the report says line 5. -/
example : twicePlace.Good false true ∧ (Slip.word b!" " b!"tru" 93).Wrong false true twicePlace ∧ twicePlace.Ends b!" tru]" ∧ UnbrokenWindows (twicePlace.text ++ b!" tru]") ∧
    twicePlace.text ++ b!" tru]" = b!"[1\n, 12\n, tru]" ∧ lineNumber (upToBreak (twicePlace.text ++ b!" tru]")) = 3 ∧ countedTwice (upToBreak (twicePlace.text ++ b!" tru]")) = 2 ∧
    ∃ e, Model.read (envOf true false true) (St.init (List.replicate 45 0) 0 (twicePlace.text ++ b!" tru]")) = .throw e ∧
      decide (displayException e = .shown 5 6 b!"invalid value" b!", tru]" 5) = true := by
  refine ⟨?_, ⟨blankB (by decide), 116, b!"ru", rfl, by decide, by decide, by decide, by decide, by decide, by decide⟩, trivial, unbrokenB_sound (by decide), by decide, by decide, by decide, throws_sound (by decide +kernel)⟩
  intro f hf
  simp only [List.mem_cons, List.not_mem_nil, or_false] at hf
  subst hf
  refine ⟨blankB (by decide), ?_⟩
  intro i hi
  simp only [List.mem_cons, List.not_mem_nil, or_false] at hi
  rcases hi with rfl | rfl
  · exact ⟨blankB (by decide), ⟨⟨by decide, by decide⟩, by simp only [Doc.Fits, FitsLong]; decide, fun _ => trivial⟩, blankB (by decide)⟩
  · exact ⟨blankB (by decide), ⟨⟨by decide, by decide⟩, by simp only [Doc.Fits, FitsLong]; decide, fun _ => trivial⟩, blankB (by decide)⟩

end Verif.Props
