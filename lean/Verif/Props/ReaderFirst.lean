import Verif.Lemmas.ReaderFirst
/-!
# Properties C101, C102: strict mode and `-W`; a reader with a null pointer for its settings
-/
namespace Verif.Props
open Verif.Model Verif.Lemmas

/-- What `-W` lets pass: unknown escapes, values that are not spelled as they should, repeated keys. -/
def Lenient : ExnKind → Prop
  | .escaped _ => True
  | .format => True
  | .doubleKey _ => True
  | _ => False

/-- The program reads `input` with these settings. -/
def readWith (strict ascii sort : Bool) (surr : Nat → Option Bytes) (junk : List Byte) (n : Nat) (input : Bytes) : Out (Option Json) :=
  Model.read ⟨some ⟨strict, ascii, sort⟩, surr⟩ (St.init junk n input)

/-- The program reads `input` with a null pointer for its settings. -/
def readBare (surr : Nat → Option Bytes) (junk : List Byte) (n : Nat) (input : Bytes) : Out (Option Json) :=
  Model.read ⟨none, surr⟩ (St.init junk n input)

theorem alike_strict (ascii sort : Bool) (surr : Nat → Option Bytes) (junk : List Byte) (n : Nat) (input : Bytes) :
    Alike (some ⟨false, ascii, sort⟩) [] (readWith true ascii sort surr junk n input) (readWith false ascii sort surr junk n input) :=
  ((reader_both (env1 := ⟨some ⟨true, ascii, sort⟩, surr⟩) (env2 := ⟨some ⟨false, ascii, sort⟩, surr⟩) rfl (by simp) rfl rfl rfl _).1 _).1

theorem alike_bare (surr : Nat → Option Bytes) (junk : List Byte) (n : Nat) (input : Bytes) :
    Alike none [] (readWith true false true surr junk n input) (readBare surr junk n input) :=
  ((reader_both (env1 := ⟨some ⟨true, false, true⟩, surr⟩) (env2 := ⟨none, surr⟩) rfl (by simp) rfl rfl rfl _).1 _).1

/-- **C101.** For every input, whatever the other settings: what `-W` reads without a warning strict mode reads as well, with the same result and up to the same
place; what `-W` reads with warnings strict mode refuses, and the error is the first of these warnings, with the same position; what strict mode reads `-W`
reads in the same way; and if the two end differently in any other way, strict mode ends with an error that `-W` lets pass. -/
theorem C101_first_warning (ascii sort : Bool) (surr : Nat → Option Bytes) (junk : List Byte) (n : Nat) (input : Bytes) :
    (∀ r s, readWith false ascii sort surr junk n input = .ret r s → s.warns = [] → readWith true ascii sort surr junk n input = .ret r s) ∧
    (∀ r s e ws, readWith false ascii sort surr junk n input = .ret r s → s.warns = e :: ws →
      readWith true ascii sort surr junk n input = .throw e ∧ Lenient e.kind) ∧
    (∀ r s, readWith true ascii sort surr junk n input = .ret r s → readWith false ascii sort surr junk n input = .ret r s ∧ s.warns = []) ∧
    (∀ e, readWith true ascii sort surr junk n input = .throw e → ¬ Lenient e.kind → readWith false ascii sort surr junk n input = .throw e) ∧
    (readWith true ascii sort surr junk n input ≠ readWith false ascii sort surr junk n input →
      ∃ e, readWith true ascii sort surr junk n input = .throw e ∧ Lenient e.kind) := by
  have ha := alike_strict ascii sort surr junk n input
  have hl : ∀ e, Excused (some ⟨false, ascii, sort⟩) e (readWith false ascii sort surr junk n input) → Lenient e.kind := by
    rintro e (⟨c, h⟩ | ⟨h, _⟩ | ⟨k, h, _⟩) <;> rw [h] <;> trivial
  rcases ha with ⟨he, hw⟩ | ⟨e, he, hx, hw⟩
  · refine ⟨?_, ?_, ?_, ?_, ?_⟩
    · intro r s h _; rw [he]; exact h
    · intro r s e ws h h1
      rw [hw r s (he.trans h)] at h1
      cases h1
    · intro r s h
      exact ⟨he ▸ h, hw r s h⟩
    · intro e h _; rw [← he]; exact h
    · intro h; exact absurd he h
  · refine ⟨?_, ?_, ?_, ?_, ?_⟩
    · intro r s h h1
      have := hw r s h
      rw [h1] at this
      simp at this
    · intro r s e' ws h h1
      have := hw r s h
      rw [h1] at this
      simp at this
      subst this
      exact ⟨he, hl _ hx⟩
    · intro r s h; rw [he] at h; cases h
    · intro e' h h1
      rw [he] at h
      injection h with h
      subst h
      exact absurd (hl _ hx) h1
    · intro _; exact ⟨e, he, hl _ hx⟩

/-- `{"a":TRUE,"a":"\q"}`. -/
def thrice : Bytes := b!"{\"a\":TRUE,\"a\":\"\\q\"}"

def warned : Out (Option Json) → List ExnKind
  | .ret _ s => s.warns.map (·.kind)
  | .throw e => [e.kind]
  | _ => []

def accepted : Out (Option Json) → Bool
  | .ret _ _ => true
  | _ => false

/-- Three warnings under `-W`, the first of them is the error of strict mode; and a document both accept. -/
example : accepted (readWith false false true (fun _ => none) [] 0 thrice) = true ∧
    warned (readWith false false true (fun _ => none) [] 0 thrice) = [.format, .doubleKey b!"a", .escaped c%'q'] ∧
    accepted (readWith true false true (fun _ => none) [] 0 thrice) = false ∧
    warned (readWith true false true (fun _ => none) [] 0 thrice) = [.format] ∧
    accepted (readWith true false true (fun _ => none) [] 0 b!"{\"a\":[1]}") = true := by decide +kernel

/-- **C102 is false as stated**: with a null pointer for the settings an unknown escape is accepted, which the default settings refuse; and a value
that is not spelled as it should makes the program follow the null pointer. -/
theorem C102_no_settings_false :
    (∃ r s, readBare (fun _ => none) [] 0 b!"\"\\q\"" = .ret (some r) s) ∧
    (∃ e, readWith true false true (fun _ => none) [] 0 b!"\"\\q\"" = .throw e) ∧
    (readBare (fun _ => none) [] 0 b!"[True]" = .ub .nullParams) ∧
    (∃ e, readWith true false true (fun _ => none) [] 0 b!"[True]" = .throw e) :=
  ⟨⟨_, _, rfl⟩, ⟨_, rfl⟩, rfl, ⟨_, rfl⟩⟩

/-- **C102, as far as it holds.** For every input: what the default settings accept is read in the same way with a null pointer; what is read with a null pointer and
without a warning is read in the same way with the default settings; with warnings, the first of them is the error of the default settings, and it is about an escape;
and in all other cases the two end in the same way, unless the default settings end with an error about an escape, or with an error about a value at which
the null pointer is followed. In particular repeated keys are refused. -/
theorem C102_no_settings_partial (surr : Nat → Option Bytes) (junk : List Byte) (n : Nat) (input : Bytes) :
    (∀ r s, readWith true false true surr junk n input = .ret r s → readBare surr junk n input = .ret r s) ∧
    (∀ r s, readBare surr junk n input = .ret r s → s.warns = [] → readWith true false true surr junk n input = .ret r s) ∧
    (∀ r s e ws, readBare surr junk n input = .ret r s → s.warns = e :: ws → readWith true false true surr junk n input = .throw e ∧ ∃ c, e.kind = .escaped c) ∧
    (readBare surr junk n input = readWith true false true surr junk n input ∨
      ∃ e, readWith true false true surr junk n input = .throw e ∧
        ((∃ c, e.kind = .escaped c) ∨ (e.kind = .format ∧ readBare surr junk n input = .ub .nullParams))) := by
  rcases alike_bare surr junk n input with ⟨he, hw⟩ | ⟨e, he, hx, hw⟩
  · refine ⟨?_, ?_, ?_, Or.inl he.symm⟩
    · intro r s h; rw [← he]; exact h
    · intro r s h _; rw [he]; exact h
    · intro r s e ws h h1
      rw [hw r s (he.trans h)] at h1
      cases h1
  · have hk : (∃ c, e.kind = .escaped c) ∨ (e.kind = .format ∧ readBare surr junk n input = .ub .nullParams) := by
      rcases hx with h | ⟨h, h1⟩ | ⟨k, _, h⟩
      · exact Or.inl h
      · exact Or.inr ⟨h, h1.resolve_left (by simp)⟩
      · exact absurd rfl h
    refine ⟨?_, ?_, ?_, Or.inr ⟨e, he, hk⟩⟩
    · intro r s h; rw [he] at h; cases h
    · intro r s h h1
      have := hw r s h
      rw [h1] at this
      simp at this
    · intro r s e' ws h h1
      have := hw r s h
      rw [h1] at this
      simp at this
      subst this
      refine ⟨he, hk.resolve_right ?_⟩
      rintro ⟨_, h2⟩
      rw [h2] at h
      cases h

/-- Each case occurs: nothing special, a warning, a repeated key (refused by both), the null pointer. -/
example : accepted (readBare (fun _ => none) [] 0 b!"{\"b\":1,\"a\":[true]}") = true ∧
    warned (readBare (fun _ => none) [] 0 b!"[\"\\q\"]") = [.escaped c%'q'] ∧
    warned (readWith true false true (fun _ => none) [] 0 b!"[\"\\q\"]") = [.escaped c%'q'] ∧
    accepted (readBare (fun _ => none) [] 0 b!"{\"a\":1,\"a\":2}") = false ∧
    warned (readBare (fun _ => none) [] 0 b!"{\"a\":1,\"a\":2}") = [.doubleKey b!"a"] := by decide +kernel

end Verif.Props
