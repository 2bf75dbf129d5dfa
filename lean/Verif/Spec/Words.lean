import Verif.Model.Basic
/-!
# The options a help text names
-/
namespace Verif.Spec.Help
open Verif.Model

/-- Blanks, tabs, line breaks and commas separate the words of a help text. -/
def separator (c : Byte) : Bool := c = c%' ' || c = c%'\t' || c = c%'\n' || c = c%','

/-- The words of a text; `word` is what has been read of the present one. -/
def wordsAfter (word : Bytes) : Bytes → List Bytes
  | [] => if word = [] then [] else [word]
  | c :: text => if separator c then (if word = [] then [] else [word]) ++ wordsAfter [] text else wordsAfter (word ++ [c]) text

/-- The words of a text. -/
def words (text : Bytes) : List Bytes := wordsAfter [] text

/-- An option begins with a dash. -/
def IsOption (w : Bytes) : Prop := b!"-" <+: w

/-- What the notation of an option stands for: `--color[=MODE]` is `--color`, or with one of the modes the text names. -/
def spellings (w : Bytes) : List Bytes :=
  if w = b!"--color[=MODE]" then [b!"--color", b!"--color=never", b!"--color=always"] else [w]

/-- The options a text documents. -/
def Documents (text w : Bytes) : Prop := IsOption w ∧ ∃ x ∈ words text, w ∈ spellings x

end Verif.Spec.Help
