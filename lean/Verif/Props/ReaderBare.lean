import Verif.Lemmas.ReaderBare
import Verif.Props.ReaderFirst
/-!
# Property C102: what a reader with a null pointer for its settings does, compared with one that runs with `-W`
-/
namespace Verif.Props
open Verif.Model Verif.Lemmas

theorem alike_lenient (surr : Nat → Option Bytes) (junk : List Byte) (n : Nat) (input : Bytes) :
    Bare.Alike [] (readBare surr junk n input) (readWith false false true surr junk n input) :=
  ((Bare.reader_both (env1 := ⟨none, surr⟩) (env2 := ⟨some ⟨false, false, true⟩, surr⟩) rfl ⟨_, rfl, rfl⟩ rfl rfl rfl _).1 _).1

/-- A warning about an escape. -/
def AboutEscape (e : Exn) : Prop := ∃ c, e.kind = .escaped c

/-- **C102, exactly.** For every input, with a null pointer for the settings and under `-W` (otherwise the default settings):
if all the warnings of `-W` are about escapes, both read the same, with the same warnings; if the first other warning is about a repeated key, it is the
error without settings; if the first other warning is about the spelling of a value, the null pointer is followed; and if `-W` does not accept the input, the two
end in the same way, or the null pointer is followed, or a repeated key is the error. What is read without settings, `-W` reads in the same way. -/
theorem C102_exactly_partial (surr : Nat → Option Bytes) (junk : List Byte) (n : Nat) (input : Bytes) :
    (∀ r s, readWith false false true surr junk n input = .ret r s → (∀ e ∈ s.warns, AboutEscape e) →
      readBare surr junk n input = .ret r s) ∧
    (∀ r s l e m k, readWith false false true surr junk n input = .ret r s → s.warns = l ++ e :: m → (∀ x ∈ l, AboutEscape x) →
      e.kind = .doubleKey k → readBare surr junk n input = .throw e) ∧
    (∀ r s l e m, readWith false false true surr junk n input = .ret r s → s.warns = l ++ e :: m → (∀ x ∈ l, AboutEscape x) →
      e.kind = .format → readBare surr junk n input = .ub .nullParams) ∧
    ((∀ r s, readWith false false true surr junk n input ≠ .ret r s) →
      readBare surr junk n input = readWith false false true surr junk n input ∨ readBare surr junk n input = .ub .nullParams ∨
        ∃ e k, readBare surr junk n input = .throw e ∧ e.kind = .doubleKey k) ∧
    (∀ r s, readBare surr junk n input = .ret r s → readWith false false true surr junk n input = .ret r s ∧ ∀ e ∈ s.warns, AboutEscape e) := by
  have first : ∀ {w l l' m m' : List Exn} {e e' : Exn}, w = l ++ e :: m → w = l' ++ e' :: m' → (∀ x ∈ l, AboutEscape x) → (∀ x ∈ l', AboutEscape x) →
      ¬ AboutEscape e → ¬ AboutEscape e' → e = e' := by
    intro w l
    induction l generalizing w with
    | nil =>
      intro l' m m' e e' h1 h2 h3 h4 h5 h6
      cases l' with
      | nil => rw [h1] at h2; simp at h2; exact h2.1
      | cons x l' =>
        rw [h1] at h2
        simp at h2
        exact absurd (h4 x (by simp)) (h2.1 ▸ h5)
    | cons y l ih =>
      intro l' m m' e e' h1 h2 h3 h4 h5 h6
      cases l' with
      | nil =>
        rw [h1] at h2
        simp at h2
        exact absurd (h3 y (by simp)) (h2.1 ▸ h6)
      | cons x l' =>
        rw [h1] at h2
        simp at h2
        exact ih rfl h2.2 (fun z hz => h3 z (by simp [hz])) (fun z hz => h4 z (by simp [hz])) h5 h6
  have nf : ∀ e : Exn, e.kind = .format → ¬ AboutEscape e := by rintro e h ⟨c, hc⟩; rw [h] at hc; cases hc
  have nd : ∀ (e : Exn) k, e.kind = .doubleKey k → ¬ AboutEscape e := by rintro e k h ⟨c, hc⟩; rw [h] at hc; cases hc
  have nowhere : ∀ {s : St} {e : Exn}, Bare.Next102 [] e s → ¬ AboutEscape e → ¬ ∀ e ∈ s.warns, AboutEscape e := by
    rintro s e ⟨l, m, h1, h2⟩ hn ha
    exact hn (ha e (by rw [h1]; simp))
  rcases alike_lenient surr junk n input with ⟨h1, h2⟩ | ⟨h1, h2⟩ | ⟨e0, k0, h1, hk, h2⟩
  · have only : ∀ r s, readWith false false true surr junk n input = .ret r s → ∀ e ∈ s.warns, AboutEscape e := by
      intro r s h
      obtain ⟨l, hl, he⟩ := h2 r s (h1.trans h)
      rw [hl, List.nil_append]
      exact he
    refine ⟨fun r s h _ => h1.trans h, ?_, ?_, fun _ => Or.inl h1, fun r s h => ⟨h1 ▸ h, only r s (h1 ▸ h)⟩⟩
    · intro r s l e m k h hw _ hd
      exact absurd (only r s h e (by rw [hw]; simp)) (nd e k hd)
    · intro r s l e m h hw _ hf
      exact absurd (only r s h e (by rw [hw]; simp)) (nf e hf)
  · refine ⟨?_, ?_, fun _ _ _ _ _ _ _ _ _ => h1, fun _ => Or.inr (Or.inl h1), fun r s h => by rw [h1] at h; cases h⟩
    · intro r s h ha
      obtain ⟨e, he, hn⟩ := h2 r s h
      exact absurd ha (nowhere hn (nf e he))
    · intro r s l e m k h hw hl hd
      obtain ⟨e', he', l', m', h3, h4⟩ := h2 r s h
      have := first hw (by simpa using h3) hl h4 (nd e k hd) (nf e' he')
      rw [this, he'] at hd
      cases hd
  · refine ⟨?_, ?_, ?_, fun _ => Or.inr (Or.inr ⟨e0, k0, h1, hk⟩), fun r s h => by rw [h1] at h; cases h⟩
    · intro r s h ha
      exact absurd ha (nowhere (h2 r s h) (nd e0 k0 hk))
    · intro r s l e m k h hw hl hd
      obtain ⟨l', m', h3, h4⟩ := h2 r s h
      rw [h1, first hw (by simpa using h3) hl h4 (nd e k hd) (nd e0 k0 hk)]
    · intro r s l e m h hw hl hf
      obtain ⟨l', m', h3, h4⟩ := h2 r s h
      have := first hw (by simpa using h3) hl h4 (nf e hf) (nd e0 k0 hk)
      rw [this, hk] at hf
      cases hf

/-- Each case occurs: two escapes only; an escape, then a repeated key, then a value; an escape, then a value, then a repeated key; and an input `-W` refuses
after a value that is not spelled as it should. -/
example : accepted (readBare (fun _ => none) [] 0 b!"[\"\\q\",\"\\z\"]") = true ∧
    warned (readWith false false true (fun _ => none) [] 0 b!"[\"\\q\",\"\\z\"]") = [.escaped c%'q', .escaped c%'z'] ∧
    warned (readWith false false true (fun _ => none) [] 0 b!"{\"a\":\"\\q\",\"a\":TRUE}") = [.escaped c%'q', .doubleKey b!"a", .format] ∧
    warned (readBare (fun _ => none) [] 0 b!"{\"a\":\"\\q\",\"a\":TRUE}") = [.doubleKey b!"a"] := by decide +kernel
example : warned (readWith false false true (fun _ => none) [] 0 b!"{\"a\":\"\\q\",\"b\":TRUE,\"a\":1}") = [.escaped c%'q', .format, .doubleKey b!"a"] := by
  decide +kernel
example : readBare (fun _ => none) [] 0 b!"{\"a\":\"\\q\",\"b\":TRUE,\"a\":1}" = .ub .nullParams := rfl
example : readBare (fun _ => none) [] 0 b!"[TRUE,}" = .ub .nullParams ∧ accepted (readWith false false true (fun _ => none) [] 0 b!"[TRUE,}") = false :=
  ⟨rfl, by decide +kernel⟩

end Verif.Props
