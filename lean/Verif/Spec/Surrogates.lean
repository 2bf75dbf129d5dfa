import Verif.Spec.Grammar
/-!
# Escapes of characters beyond U+FFFF

RFC 8259, section 7: such a character is written as two `\u` escapes, a high surrogate followed by a low one.
-/
namespace Verif.Spec
open Verif.Model

/-- First half of a pair. -/
def High (n : Nat) : Prop := 0xD800 ≤ n ∧ n ≤ 0xDBFF

/-- Second half of a pair. -/
def Low (n : Nat) : Prop := 0xDC00 ≤ n ∧ n ≤ 0xDFFF

/-- The character a pair stands for. -/
def character (hi lo : Nat) : Nat := 0x10000 + (hi - 0xD800) * 0x400 + (lo - 0xDC00)

/-- The item is an escape of half a pair, the number `n`. -/
def StrItem.Half (i : StrItem) (n : Nat) : Prop :=
  ∃ h1 h2 h3 h4, i = .uni h1 h2 h3 h4 ∧ hexValue h1 h2 h3 h4 = some n ∧ (High n ∨ Low n)

/-- What the item is read as by a program whose library turns half a pair `n` into `surr n`. -/
def StrItem.ReadsAs (surr : Nat → Option Bytes) (i : StrItem) (bs : Bytes) : Prop :=
  (i.WF false ∧ bs = i.value false) ∨ ∃ n, i.Half n ∧ surr n = some bs

end Verif.Spec
