import Verif.Spec.Grammar
import Verif.Model.Element
/-!
# Specification: search lines and what they look for

A search line is `PATTERN` or `PATTERN/FLAGS`. Nothing here refers to the code of the search.
-/
namespace Verif.Spec
open Verif.Model

/-- One item of the pattern part of a search line. -/
inductive PatItem where
  /-- any character but the slash and the backslash -/
  | plain (c : Byte)
  /-- `\/`: a slash -/
  | slash
  /-- a backslash and another character: both are part of the pattern -/
  | kept (c : Byte)
deriving DecidableEq

namespace PatItem
/-- The characters typed. -/
def text : PatItem → Bytes
  | plain c => [c]
  | slash => b!"\\/"
  | kept c => [c%'\\', c]
/-- The characters looked for. -/
def value : PatItem → Bytes
  | plain c => [c]
  | slash => b!"/"
  | kept c => [c%'\\', c]
/-- The item is what its constructor says; there are no zero bytes in a line. -/
def WF : PatItem → Prop
  | plain c => c ≠ 0 ∧ c ≠ c%'/' ∧ c ≠ c%'\\'
  | slash => True
  | kept c => c ≠ 0 ∧ c ≠ c%'/'
end PatItem

/-- The text of a pattern. -/
def patText (items : List PatItem) : Bytes := items.flatMap PatItem.text
/-- What the pattern stands for. -/
def patValue (items : List PatItem) : Bytes := items.flatMap PatItem.value
/-- All items are well formed and the first is no blank. -/
def patWF (items : List PatItem) : Prop :=
  (∀ i ∈ items, i.WF) ∧ ∀ c ∈ items.head?, c ≠ .plain (c%' ') ∧ c ≠ .plain (c%'\t')

/-- Blanks and tabs. -/
def Blanks (w : Bytes) : Prop := ∀ c ∈ w, c = c%' ' ∨ c = c%'\t'

/-- The characters in lower case. -/
def lower (s : Bytes) : Bytes := s.map fun c => if c%'A' ≤ c ∧ c ≤ c%'Z' then c + 32 else c

/-- Tabs read as blanks. -/
def untab (s : Bytes) : Bytes := s.map fun c => if c = c%'\t' then c%' ' else c

/-- The types a flag may ask for. -/
inductive Kind where
  | bool | number | string | key
deriving DecidableEq

/-- The type a flag asks for: `b`, `n`, `s`, `o`. -/
def kindFlag (c : Byte) : Option Kind :=
  if c = c%'b' then some .bool else if c = c%'n' then some .number else if c = c%'s' then some .string
  else if c = c%'o' then some .key else none

/-- The type asked for by a list of flags: the last one counts. -/
def kindFlags (flags : Bytes) : Option Kind := (flags.filterMap kindFlag).getLast?

/-- The type of an element: an entry counts as a key; containers and `null` have none of the types. -/
def kindOf : Elem → Option Kind
  | .entry _ _ => some .key
  | .value (.bool _) => some .bool
  | .value (.int _) => some .number
  | .value (.long _) => some .number
  | .value (.dbl _) => some .number
  | .value (.str _) => some .string
  | .value .null => none
  | .value (.arr _) => none
  | .value (.obj _) => none

/-- The word stands in the text, delimited by blanks or the ends of the text. -/
def WordIn (word text : Bytes) : Prop :=
  ∃ l r, text = l ++ word ++ r ∧ (l = [] ∨ ∃ l', l = l' ++ [c%' ']) ∧ (r = [] ∨ ∃ r', r = c%' ' :: r')

/-- One item of a text in which `\uXXXX` may stand for a character: a character, or an escape and the character after it. -/
inductive UniItem where
  | raw (c : Byte)
  | uni (h1 h2 h3 h4 after : Byte)
deriving DecidableEq

namespace UniItem
def text : UniItem → Bytes
  | raw c => [c]
  | uni h1 h2 h3 h4 after => b!"\\u" ++ [h1, h2, h3, h4] ++ [after]
/-- The text with the escape replaced by its character. -/
def value : UniItem → Bytes
  | raw c => [c]
  | uni h1 h2 h3 h4 after => utf8 ((hexValue h1 h2 h3 h4).getD 0) ++ [after]
/-- The same without the character after the escape. -/
def lossy : UniItem → Bytes
  | raw c => [c]
  | uni h1 h2 h3 h4 _ => utf8 ((hexValue h1 h2 h3 h4).getD 0)
end UniItem

/-- The text begins with `\u` and at least four more characters. -/
def startsEscape : Bytes → Bool
  | 92 :: 117 :: _ :: _ :: _ :: _ :: _ => true
  | _ => false

/-- The items are what the text is to be read as: escapes are hexadecimal and no surrogates, and no raw character begins an escape. -/
def uniWF : List UniItem → Prop
  | [] => True
  | .raw c :: items => startsEscape (c :: items.flatMap UniItem.text) = false ∧ uniWF items
  | .uni h1 h2 h3 h4 _ :: items => (∃ n, hexValue h1 h2 h3 h4 = some n ∧ ¬ (0xD800 ≤ n ∧ n ≤ 0xDFFF)) ∧ uniWF items

end Verif.Spec

namespace Verif.Spec
/-- A printable ASCII character. -/
def Printing (c : Nat) : Prop := 32 ≤ c ∧ c < 127

/-- Pressing the keys leaves the line: characters are appended, Backspace (8 or 127) removes the last one, if any. -/
inductive Typed : (keys line : List Nat) → Prop
  | start : Typed [] []
  | key {ks l c} : Typed ks l → Printing c → Typed (ks ++ [c]) (l ++ [c])
  | back {ks l c b} : Typed ks (l ++ [c]) → b = 8 ∨ b = 127 → Typed (ks ++ [b]) l
  | nothing {ks b} : Typed ks [] → b = 8 ∨ b = 127 → Typed (ks ++ [b]) []

/-- No place of the text begins an escape `\uXXXX`. -/
def NoEscape (s : List Nat) : Prop := ∀ t, t <:+ s → startsEscape t = false
end Verif.Spec
