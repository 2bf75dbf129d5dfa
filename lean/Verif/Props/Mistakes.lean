import Verif.Props.History
import Verif.Lemmas.MistakesPlace
/-!
# Property C106: an error report names the mistake and points at it
-/
namespace Verif.Props
open Verif.Model Verif.Spec Verif.Lemmas

/-- The report about the exception shows the end of the text `t` and says `what`: the line number, the end of that line (up to 44 or 45 characters) with the mark under its last character, and, from the
second line on, the column (modulo `2^32`). -/
def Reported (e : Exn) (t what : Bytes) : Prop :=
  ∃ k col, (k = 44 ∨ k = 45) ∧ (2 ≤ lineNumber t → col = (lineText t).length % 4294967296) ∧
    displayException e = .shown (lineNumber t) col what (lastN k (lineText t)) ((lastN k (lineText t)).length - 1)

/-- Reading `input` ends with a report that shows the end of `t` and says `what`. -/
def ReportOf (strict ascii sort : Bool) (surr : Nat → Option Bytes) (junk : List Byte) (n : Nat) (input t what : Bytes) : Prop :=
  ∃ e, Model.read (envOf strict ascii sort surr) (St.init junk n input) = .throw e ∧ Reported e t what

/-- The history has recorded exactly `t`, and its last line is not empty: the report. -/
theorem reported_of {e : Exn} {jp : Bool} {t what : Bytes} (hr : Records jp e.hist t) (hne : lineText t ≠ []) (hm : message e.kind = some what) : Reported e t what := by
  refine ⟨keep jp, e.hist.totalSize, by cases jp <;> simp [keep], hr.col, ?_⟩
  have h1 : e.hist.toString = lastN (keep jp) (lineText t) := hr.text
  unfold displayException
  rw [hm]
  dsimp only
  have h2 : e.hist.currentLine = lineNumber t := hr.line
  rw [if_neg, h2, h1]
  rw [h1]
  intro h0
  have h5 : 0 < (lineText t).length := List.length_pos_iff.mpr hne
  simp only [lastN, List.length_drop, keep] at h0
  split at h0 <;> omega

theorem lineText_solid {t xs : Bytes} (hx : xs ≠ []) (hb : ∀ c ∈ xs, isBreak c = false) : lineText (t ++ xs) ≠ [] := by
  rw [(lineText_append t xs hx hb).1]
  simp [hx]

theorem doc_solid {ascii strict : Bool} {d : Doc} (hd : GoodDoc ascii strict d) (hk : NoString d) : d.text ≠ [] ∧ ∀ c ∈ d.text, isBreak c = false := by
  have hdig : ∀ ds : Bytes, Digits ds → ∀ c ∈ ds, isBreak c = false := by
    intro ds h c hc
    have := h.2 c hc
    unfold isBreak; simp; omega
  have hint : ∀ neg (ds : Bytes), Digits ds → intText neg ds ≠ [] ∧ ∀ c ∈ intText neg ds, isBreak c = false := by
    intro neg ds h
    refine ⟨by simp [intText, h.1], ?_⟩
    intro c hc
    simp only [intText, List.mem_append] at hc
    rcases hc with hc | hc
    · cases neg <;> simp at hc; subst hc; decide
    · exact hdig ds h c hc
  cases d with
  | true => exact ⟨by simp [Doc.text], by simp only [Doc.text]; decide⟩
  | false => exact ⟨by simp [Doc.text], by simp only [Doc.text]; decide⟩
  | null => exact ⟨by simp [Doc.text], by simp only [Doc.text]; decide⟩
  | int neg ds => exact hint neg ds hd.1
  | frac neg ds fs =>
    refine ⟨by simp [Doc.text], ?_⟩
    intro c hc
    simp only [Doc.text, List.mem_append, List.mem_singleton] at hc
    rcases hc with (hc | rfl) | hc
    · exact (hint neg ds hd.1.1).2 c hc
    · decide
    · exact hdig fs hd.1.2 c hc
  | _ => exact hk.elim

/-- The line a mistake is on is not empty up to the mistake. -/
theorem slip_line {ascii strict : Bool} {p : Place} {x : Slip} (hx : x.Wrong ascii strict p) {after : Bytes} (hw : WholeWindows (p.text ++ x.text ++ after)) : lineText (p.text ++ x.text) ≠ [] := by
  cases x with
  | stray w c =>
    obtain ⟨_, h1, h2, _⟩ := hx
    rw [show p.text ++ Slip.text (.stray w c) = (p.text ++ w) ++ [c] by simp [Slip.text]]
    refine lineText_solid (by simp) ?_
    intro c' hc; simp at hc; subst hc; unfold isBreak; simp; omega
  | word w l c =>
    obtain ⟨_, c0, r, rfl, hc0, hr, _⟩ := hx
    have hl : ∀ y ∈ c0 :: r, isBreak y = false := by
      intro y hy
      rcases List.mem_cons.mp hy with rfl | hy
      · simp at hc0; unfold isBreak; simp; omega
      · have := hr y hy; simp at this; unfold isBreak; simp; omega
    have e : p.text ++ Slip.text (.word w (c0 :: r) c) = ((p.text ++ w) ++ (c0 :: r)) ++ [c] := by simp [Slip.text]
    rw [e]
    by_cases hb : isBreak c = true
    · rw [lineText_snoc_break _ c hb]
      have he : endsLine ((p.text ++ w) ++ (c0 :: r)) = false := by
        unfold endsLine
        rw [List.getLast?_append]
        cases hg : (c0 :: r).getLast? with
        | none => simp at hg
        | some y =>
          simp
          exact hl y (List.mem_of_getLast? hg)
      rw [he]
      exact lineText_solid (by simp) hl
    · exact lineText_solid (by simp) (by simpa using hb)
  | nullWord w n x1 x2 x3 =>
    obtain ⟨_, hn, _⟩ := hx
    have e : p.text ++ Slip.text (.nullWord w n x1 x2 x3) = (p.text ++ w ++ [n, x1, x2]) ++ [x3] := by simp [Slip.text]
    rw [e]
    refine lineText_solid (by simp) ?_
    intro c hc; simp at hc; subst hc
    refine hw.2 n [x1, x2] c ⟨p.text ++ w, after, by simp [Slip.text]⟩ ?_ (by simp)
    simpa using hn
  | hex w items h1 h2 h3 h4 =>
    have e : p.text ++ Slip.text (.hex w items h1 h2 h3 h4) = (p.text ++ w ++ b!"\"" ++ items.flatMap StrItem.text ++ b!"\\u" ++ [h1, h2, h3]) ++ [h4] := by simp [Slip.text]
    rw [e]
    refine lineText_solid (by simp) ?_
    intro c hc; simp at hc; subst hc
    exact hw.1 [h1, h2, h3] c ⟨p.text ++ w ++ b!"\"" ++ items.flatMap StrItem.text, after, by simp [Slip.text]⟩ (by simp)
  | punct w c =>
    have hc : c ∈ b!"{}[],:" := by
      obtain ⟨_, hx⟩ := hx
      cases p with
      | value fs => obtain ⟨_, _, _, _, hc⟩ := hx; simp at hc ⊢; omega
      | key fs w ms => simp at hx ⊢; omega
      | _ => exact hx.elim
    rw [show p.text ++ Slip.text (.punct w c) = (p.text ++ w) ++ [c] by simp [Slip.text]]
    refine lineText_solid (by simp) ?_
    intro c' hc'; simp at hc hc'; subst hc'; unfold isBreak; simp; omega
  | notString w d =>
    obtain ⟨_, hd, hk, _⟩ := hx
    obtain ⟨h1, h2⟩ := doc_solid hd hk
    rw [show p.text ++ Slip.text (.notString w d) = (p.text ++ w) ++ d.text by simp [Slip.text]]
    exact lineText_solid h1 h2
  | again w1 k w2 =>
    rw [show p.text ++ Slip.text (.again w1 k w2) = (p.text ++ w1 ++ strText k ++ w2) ++ [58] by simp [Slip.text]]
    exact lineText_solid (by simp) (by decide)

/-- What the program says about a mistake: what it should say, but the character after "invalid hex value" is the wrong one and the quote after it is missing. -/
def saysNow (ascii : Bool) (p : Place) : Slip → Bytes
  | .hex _ _ h1 h2 h3 h4 => b!"invalid hex value '" ++ [(Slip.badDigit h1 h2 h3 h4 + c%'\'') % 256]
  | x => x.says ascii p

/-- Reading ends with the exception for the mistake, and the history has recorded the text up to the mistake. -/
theorem mistake_thrown (strict ascii sort : Bool) (surr : Nat → Option Bytes) (junk : List Byte) (n : Nat) (hj : junk.length = 45) (p : Place) (hp : p.Good ascii strict) (x : Slip) (hx : x.Wrong ascii strict p)
    (after : Bytes) (he : p.Ends (x.text ++ after)) (hx' : x.EndsWith after) (hq : QuietBreaks (p.text ++ x.text ++ after)) (hw : WholeWindows (p.text ++ x.text ++ after)) :
    ∃ h jp, Model.read (envOf strict ascii sort surr) (St.init junk n (p.text ++ x.text ++ after)) = .throw ⟨Slip.kind ascii p x, h⟩ ∧ Records jp h (p.text ++ x.text) := by
  have H := (recordsRel _ hq hw).weaken
  have hs : Sync (p.text ++ x.text ++ after) (fun h t => ∃ jp, Records jp h t) ⟨p.text ++ (x.text ++ after), true, LHist.init junk n, []⟩ :=
    ⟨fun _ => ⟨[], ⟨false, Records.init junk n hj⟩, by simp, trivial⟩, fun h => by simp at h, fun w hw => by cases hw⟩
  obtain ⟨h, ⟨f, hf, _⟩, t, ⟨jp, hr⟩, ht⟩ := slip_throws (env := envOf strict ascii sort surr) H p hp x hx after he hx' (by
      rintro w m x1 x2 x3 rfl hc
      obtain ⟨_, hn, _⟩ := hx
      have hn : m = 110 ∨ m = 78 := by simpa using hn
      simp at hc
      rcases hc with hc | hc | hc
      · subst hc; exact absurd (hw.2 m [] 10 ⟨p.text ++ w, [x2, x3] ++ after, by simp [Slip.text]⟩ hn (by simp)) (by decide)
      · subst hc; exact absurd (hw.2 m [x1] 10 ⟨p.text ++ w, [x3] ++ after, by simp [Slip.text]⟩ hn (by simp)) (by decide)
      · subst hc; exact absurd (hw.2 m [x1, x2] 10 ⟨p.text ++ w, after, by simp [Slip.text]⟩ hn (by simp)) (by decide)) (by
      rintro w items h1 h2 h3 h4 rfl hc
      simp at hc
      rcases hc with hc | hc | hc | hc
      · subst hc; exact absurd (hw.1 [] 10 ⟨p.text ++ w ++ b!"\"" ++ items.flatMap StrItem.text, [h2, h3, h4] ++ after, by simp [Slip.text]⟩ (by simp)) (by decide)
      · subst hc; exact absurd (hw.1 [h1] 10 ⟨p.text ++ w ++ b!"\"" ++ items.flatMap StrItem.text, [h3, h4] ++ after, by simp [Slip.text]⟩ (by simp)) (by decide)
      · subst hc; exact absurd (hw.1 [h1, h2] 10 ⟨p.text ++ w ++ b!"\"" ++ items.flatMap StrItem.text, [h4] ++ after, by simp [Slip.text]⟩ (by simp)) (by decide)
      · subst hc; exact absurd (hw.1 [h1, h2, h3] 10 ⟨p.text ++ w ++ b!"\"" ++ items.flatMap StrItem.text, after, by simp [Slip.text]⟩ (by simp)) (by decide)) hs
  have ht' : t = p.text ++ x.text := List.append_cancel_right ht
  subst ht'
  refine ⟨h, jp, ?_, hr⟩
  have e : St.init junk n (p.text ++ x.text ++ after) = ⟨p.text ++ (x.text ++ after), true, LHist.init junk n, []⟩ := by simp [St.init]
  rw [e, read_eq _ _ (by intro h; cases h) f (by rw [hf]; simp), hf]
  rfl

/-- **C106, in part.** Take a text that is right up to some place (in any nesting of arrays and objects, with anything before) and wrong there: a character no token begins with, a misspelt `true`, `false`
or `null`, a `\u` without four hexadecimal digits, a `,` `:` `}` or `]` for an item of an array, something else than a string for a key, or in strict mode a key that the object already has. Whatever
follows, reading ends with a report that shows the text up to the mistake, with its line number, and says what is wrong. Missing: a missing comma or colon (`C106_no_separator_false`), the character in the
message about a `\u` (`C106_hex_false`), unknown escapes (`C19_display_false`), and the texts with line breaks that disturb the history (`C17_line_false`). -/
theorem C106_report_partial (strict ascii sort : Bool) (surr : Nat → Option Bytes) (junk : List Byte) (n : Nat) (hj : junk.length = 45) (p : Place) (hp : p.Good ascii strict) (x : Slip) (hx : x.Wrong ascii strict p)
    (after : Bytes) (he : p.Ends (x.text ++ after)) (hx' : x.EndsWith after) (hq : QuietBreaks (p.text ++ x.text ++ after)) (hw : WholeWindows (p.text ++ x.text ++ after)) :
    ReportOf strict ascii sort surr junk n (p.text ++ x.text ++ after) (p.text ++ x.text) (saysNow ascii p x) ∧
    ((∀ w items h1 h2 h3 h4, x ≠ .hex w items h1 h2 h3 h4) → saysNow ascii p x = x.says ascii p) := by
  obtain ⟨h, jp, h1, h2⟩ := mistake_thrown strict ascii sort surr junk n hj p hp x hx after he hx' hq hw
  refine ⟨⟨_, h1, reported_of h2 (slip_line hx hw) ?_⟩, ?_⟩
  · cases x with
    | punct w c => cases p <;> rfl
    | _ => rfl
  · intro hn
    cases x with
    | hex w items h1 h2 h3 h4 => exact absurd rfl (hn _ _ _ _ _ _)
    | _ => rfl

theorem blankB {w : Bytes} (h : w.all (fun c => decide (c ≤ 32 ∨ 127 ≤ c)) = true) : Blank w := by
  intro c hc
  simpa using List.all_eq_true.mp h c hc

/-- A text with a mistake, inside an object inside an array, on the third line: `[ 12,⏎ {"a" : true,⏎ "b": [ nul` and then `x, 3 ]}]`. -/
def slipPlace : Place :=
  .value [.arr [] [⟨b!" ", .int false b!"12", []⟩],
    .obj b!"\n " [⟨[], [.raw 97], b!" ", b!" ", .true, []⟩] b!"\n " [.raw 98] [],
    .arr b!" " []]

/-- The hypotheses of `C106_report_partial` are met by a mistake on the third line of a nested text, and this is the report. -/
example : slipPlace.Good false true ∧ (Slip.nullWord b!" " 110 117 108 120).Wrong false true slipPlace ∧ slipPlace.Ends b!" nulx, 3 ]}]" ∧
    QuietBreaks (slipPlace.text ++ b!" nulx, 3 ]}]") ∧ WholeWindows (slipPlace.text ++ b!" nulx, 3 ]}]") ∧
    slipPlace.text ++ b!" nulx" = b!"[ 12,\n {\"a\" : true,\n \"b\": [ nulx" ∧
    ∃ e, Model.read (envOf true false true) (St.init (List.replicate 45 0) 0 (slipPlace.text ++ b!" nulx, 3 ]}]")) = .throw e ∧
      decide (displayException e = .shown 3 12 b!"invalid value" b!" \"b\": [ nulx" 11) = true := by
  refine ⟨?_, ⟨blankB (by decide), by decide, by decide⟩, trivial, quietB_sound (by decide), windowsB_sound (by decide), by decide, throws_sound (by decide +kernel)⟩
  intro f hf
  simp only [List.mem_cons, List.not_mem_nil, or_false] at hf
  rcases hf with rfl | rfl | rfl
  · refine ⟨blankB (by decide), ?_⟩
    intro i hi
    simp only [List.mem_singleton] at hi
    subst hi
    exact ⟨blankB (by decide), ⟨⟨by decide, by decide⟩, by simp only [Doc.Fits, FitsLong]; decide, fun _ => trivial⟩, blankB (by decide)⟩
  · refine ⟨blankB (by decide), ?_, blankB (by decide), by simp [strWF, StrItem.WF], blankB (by decide), fun _ => by decide⟩
    intro i hi
    simp only [List.mem_singleton] at hi
    subst hi
    exact ⟨blankB (by decide), by simp [strWF, StrItem.WF], blankB (by decide), blankB (by decide), ⟨trivial, trivial, fun _ => trivial⟩, blankB (by decide)⟩
  · exact ⟨blankB (by decide), by simp⟩

/-- **C106 does not hold**: the report about `\u00g0` does not name the bad digit `g`, but a byte that is neither in the text nor printable. -/
theorem C106_hex_false :
    ∃ (p : Place) (x : Slip), p.Good false true ∧ x.Wrong false true p ∧ QuietBreaks (p.text ++ x.text) ∧ WholeWindows (p.text ++ x.text) ∧
      ∃ e, Model.read (envOf true false true) (St.init (List.replicate 45 0) 0 (p.text ++ x.text ++ b!"\"")) = .throw e ∧
        decide (displayException e = .shown 1 7 (b!"invalid hex value '" ++ [142]) b!"\"\\u00g0" 6 ∧ x.says false p = b!"invalid hex value 'g'") = true :=
  ⟨.value [], .hex [] [] 48 48 103 48, by intro f hf; simp at hf, ⟨rfl, blankB (by decide), by simp [strWF], by decide⟩, quietB_sound (by decide), windowsB_sound (by decide), throws_sound (by decide +kernel)⟩

/-- **C106 does not hold**: if after an item or after a key another one of `{}[],:` than the expected separator is written, there is no report at all: for every such text, the message is read far
behind the end of a string constant. -/
theorem C106_no_separator_false (strict ascii sort : Bool) (surr : Nat → Option Bytes) (junk : List Byte) (n : Nat) (p : Place) (hp : p.Good ascii strict) (w : Bytes) (c : Byte) (hx : NoSeparator w c p)
    (after : Bytes) (he : p.Ends (w ++ [c] ++ after)) :
    ∃ e, Model.read (envOf strict ascii sort surr) (St.init junk n (p.text ++ (w ++ [c] ++ after))) = .throw e ∧ displayException e = .ub := by
  have H : HistRel (p.text ++ (w ++ [c] ++ after)) (fun _ _ => True) (fun _ => True) := by constructor <;> intros <;> trivial
  have hs : Sync (p.text ++ (w ++ [c] ++ after)) (fun _ _ => True) ⟨p.text ++ (w ++ [c] ++ after), true, LHist.init junk n, []⟩ :=
    ⟨fun _ => ⟨[], trivial, by simp, trivial⟩, fun h => by simp at h, fun w hw => by cases hw⟩
  have key : ∃ e, FailsV (envOf strict ascii sort surr) ⟨p.text ++ (w ++ [c] ++ after), true, LHist.init junk n, []⟩ e ∧ message e.kind = none := by
    cases p with
    | afterItem fs w' items w1 d =>
      obtain ⟨hb, hc⟩ := hx
      obtain ⟨acc, h, ws, _, F, k⟩ := place_afterItem (env := envOf strict ascii sort surr) (sync_held H _) hp (by simp) he hs
      refine ⟨_, k F (Nat.le_refl _) ⟨.unexpected 93, (w.foldl LHist.put h).put c⟩ ?_, rfl⟩
      rw [List.append_assoc, skip_blank hb, List.singleton_append, punct_tok (punct_of (by simp at hc ⊢; omega))]
      simp only [Out.bind, arrSep]
      simp at hc
      rw [if_neg (by omega), if_neg (by omega)]
    | afterKey fs w' ms w1 k =>
      obtain ⟨hb, hc⟩ := hx
      obtain ⟨es, h, ws, _, k⟩ := place_afterKey (env := envOf strict ascii sort surr) (sync_held H _) hp _ hs
      refine ⟨_, k 0 ⟨.unexpected 58, (w.foldl LHist.put h).put c⟩ ?_, rfl⟩
      rw [List.append_assoc, skip_blank hb, List.singleton_append, punct_tok (punct_of (by simp at hc ⊢; omega))]
      simp only [Out.bind, objColon]
      simp at hc
      rw [if_pos (by omega)]
    | _ => exact hx.elim
  obtain ⟨e, ⟨f, hf, _⟩, hm⟩ := key
  refine ⟨e, ?_, by unfold displayException; rw [hm]⟩
  show Model.read _ ⟨p.text ++ (w ++ [c] ++ after), true, LHist.init junk n, []⟩ = _
  rw [read_eq _ _ (by intro h; cases h) f (by rw [hf]; simp), hf]

/-- Such a text: `[1 :`. -/
example : (Place.afterItem [] [] [] [] (.int false b!"1")).Good false true ∧ NoSeparator b!" " 58 (Place.afterItem [] [] [] [] (.int false b!"1")) ∧
    (Place.afterItem [] [] [] [] (.int false b!"1")).Ends (b!" " ++ [58] ++ b!"2]") :=
  ⟨⟨by simp, blankB (by decide), by simp, blankB (by decide), ⟨⟨by decide, by decide⟩, by simp only [Doc.Fits, FitsLong]; decide, fun _ => trivial⟩⟩, ⟨blankB (by decide), by decide⟩, by intro c hc; simp at hc; subst hc; decide⟩

end Verif.Props
