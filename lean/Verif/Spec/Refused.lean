import Verif.Spec.Accepted
/-!
# Specification: the texts from which the reader delivers nothing, and what happens instead

A text ends the reader with a report, an exception that nobody catches or undefined behaviour: `StopsValue`. All texts here are whole: they go on to the
end of the input. `Accepted.Value` is what is read before the place of the mistake; the relations only say what stands there.
-/
namespace Verif.Spec.Refused
open Verif.Model Verif.Spec Verif.Spec.Accepted

/-- How reading ends without a document: an error the program reports, an exception that nobody catches, undefined behaviour. -/
inductive Reason where
  | error (k : ExnKind)
  | uncaught (u : Uncaught)
  | undefined (u : UB)
deriving DecidableEq

/-- Inside a string, at a place where an item should begin: what stands there ends the reader. -/
inductive BadItem (m : Mode) : (text : Bytes) → Reason → Prop
  /-- strictly, a backslash before a byte that is no escape -/
  | escape {c y} : m.strict = true → c ∉ b!"\"\\/bfnrtu" → BadItem m ([c%'\\', c] ++ y) (.error (.escaped c))
  /-- strictly, a backslash at the end of the input: the byte is that of the end of the file -/
  | escapeEnd : m.strict = true → BadItem m [c%'\\'] (.error (.escaped 255))
  /-- four characters that are not all hexadecimal digits: the first one that is not -/
  | hex {h1 h2 h3 h4 c y} : m.ascii = false → c%'\n' ∉ [h1, h2, h3] → [h1, h2, h3, h4].find? (fun h => (hexDigit h).isNone) = some c →
      BadItem m (b!"\\u" ++ [h1, h2, h3, h4] ++ y) (.error (.hexValue c))
  /-- a line feed among the first three of four characters: the history is read past its end -/
  | hexBreak {h1 h2 h3 h4 y} : m.ascii = false → c%'\n' ∈ [h1, h2, h3] → BadItem m (b!"\\u" ++ [h1, h2, h3, h4] ++ y) (.undefined .historyOutOfBounds)
  /-- the same if the input ends before four characters -/
  | cutBreak {z} : m.ascii = false → z.length ≤ 3 → c%'\n' ∈ z.dropLast → BadItem m (b!"\\u" ++ z) (.undefined .historyOutOfBounds)
  /-- half a surrogate pair that the library refuses -/
  | half {h1 h2 h3 h4 n y} : m.ascii = false → hexValue h1 h2 h3 h4 = some n → encoded m n = none → BadItem m (b!"\\u" ++ [h1, h2, h3, h4] ++ y) (.uncaught .rangeError)

/-- Inside a string, the input ends at a place where an item should begin, or in an escape that is not taken for a mistake. -/
inductive EndItem (m : Mode) : (text : Bytes) → Prop
  | here : EndItem m []
  | backslash : m.strict = false → EndItem m [c%'\\']
  | uni {z} : m.ascii = false → z.length ≤ 3 → c%'\n' ∉ z.dropLast → EndItem m (b!"\\u" ++ z)

/-- A token at the beginning of the text ends the reader. -/
inductive BadToken (m : Mode) : (text : Bytes) → Reason → Prop
  | str {t v ws y r} : Chars m t v ws → BadItem m y r → BadToken m ([c%'"'] ++ t ++ y) r
  /-- letters that begin like `true` or `false` and are neither -/
  | name {c u rest} : c ∈ b!"tfTF" → (∀ x ∈ u, x ∈ b!"aelrsuAELRSU") → NotNext b!"aelrsuAELRSU" rest → (∀ ws, ¬ Name m b!"true" ([c] ++ u) ws) →
      (∀ ws, ¬ Name m b!"false" ([c] ++ u) ws) → BadToken m ([c] ++ u ++ rest) (.error .format)
  /-- four characters that begin like `null` and are not -/
  | null {c x1 x2 x3 rest} : c ∈ b!"nN" → [x1, x2, x3].count (c%'\n') ≤ 1 → (∀ ws, ¬ Name m b!"null" [c, x1, x2, x3] ws) →
      BadToken m ([c] ++ [x1, x2, x3] ++ rest) (.error .format)
  /-- two line feeds in the three characters after an `n`: the history is read past its end -/
  | nullBreak {c y} : c ∈ b!"nN" → 2 ≤ (y.take 3).count (c%'\n') → BadToken m ([c] ++ y) (.undefined .historyOutOfBounds)
  /-- a minus sign without digits -/
  | minus {rest} : NotNext b!".0123456789" rest → BadToken m (b!"-" ++ rest) (.uncaught .invalidArgument)
  /-- a point, then digits without another point -/
  | point {ds rest} : (∀ d ∈ ds, d ∈ b!"0123456789") → NotNext b!".0123456789" rest → BadToken m (b!"." ++ ds ++ rest) (.uncaught .invalidArgument)
  /-- an integer of more than 64 bits -/
  | large {neg ds rest} : Digits ds → ¬ FitsLong (intValue neg ds) → NotNext b!".0123456789" rest → BadToken m (intText neg ds ++ rest) (.uncaught .outOfRange)
  /-- a printable character with which no token begins -/
  | strange {c rest} : 33 ≤ c → c ≤ 126 → c ∉ b!"\"tfTFnN-.0123456789,:[]{}" → BadToken m ([c] ++ rest) (.error .format)

/-- There is no token in the rest of the input: insignificant bytes only, or a string or `null` that is cut off. -/
inductive NoToken (m : Mode) : (text : Bytes) → Prop
  | blank {w} : Blank w → NoToken m w
  | str {w t v ws y} : Blank w → Chars m t v ws → EndItem m y → NoToken m (w ++ [c%'"'] ++ t ++ y)
  | null {w c z} : Blank w → c ∈ b!"nN" → z.length ≤ 2 → z.count (c%'\n') ≤ 1 → NoToken m (w ++ [c] ++ z)

/-- The next token is one of these characters. -/
def Sign (cs : Bytes) (text : Bytes) : Prop := ∃ w c y, text = w ++ [c] ++ y ∧ Blank w ∧ c ∈ cs

/-- The next token is a string, number or literal name. -/
def Plain (m : Mode) (text : Bytes) : Prop := ∃ w t rest v ws, text = w ++ t ++ rest ∧ Blank w ∧ Prim m t rest v ws

/-- The next token is a number or literal name. -/
def NoString (m : Mode) (text : Bytes) : Prop := ∃ w t rest v ws, text = w ++ t ++ rest ∧ Blank w ∧ Prim m t rest v ws ∧ ∀ x, v ≠ .str x

/-- The text of a key and the insignificant bytes around it. -/
def Key (m : Mode) (text : Bytes) (k : Bytes) : Prop := ∃ w key wk w2, text = w ++ [c%'"'] ++ key ++ [c%'"'] ++ w2 ∧ Blank w ∧ Chars m key k wk ∧ Blank w2

/-- A value with insignificant bytes before it. -/
def Padded (m : Mode) (text rest : Bytes) : Prop := ∃ w t v ws, text = w ++ t ∧ Blank w ∧ Value m t rest v ws

mutual
/-- Reading a value from this text ends the reader. -/
inductive StopsValue (m : Mode) : (text : Bytes) → Reason → Prop
  | token {w x r} : Blank w → BadToken m x r → StopsValue m (w ++ x) r
  | array {w y r} : Blank w → StopsItems m true y r → StopsValue m (w ++ b!"[" ++ y) r
  | object {w y r} : Blank w → StopsMembers m true [] y r → StopsValue m (w ++ b!"{" ++ y) r
/-- Reading items of an array, the first of all or after a comma. -/
inductive StopsItems (m : Mode) : (first : Bool) → (text : Bytes) → Reason → Prop
  | item {first x r} : StopsValue m x r → StopsItems m first x r
  | noItem {first x} : NoToken m x ∨ Sign (if first then b!",:}" else b!",:]}") x → StopsItems m first x (.error .notJson)
  | separator {first t w x r} : Padded m t (w ++ x) → Blank w → BadToken m x r → StopsItems m first (t ++ w ++ x) r
  | noSeparator {first t x} : Padded m t x → NoToken m x ∨ Sign b!":[{}" x ∨ Plain m x → StopsItems m first (t ++ x) (.error (.unexpected (c%']')))
  | more {first t w x r} : Padded m t (w ++ b!"," ++ x) → Blank w → StopsItems m false x r → StopsItems m first (t ++ w ++ b!"," ++ x) r
/-- Reading members of an object, the first of all or after a separator; `seen` are the keys before. -/
inductive StopsMembers (m : Mode) : (first : Bool) → (seen : List Bytes) → (text : Bytes) → Reason → Prop
  | key {first seen w x r} : Blank w → BadToken m x r → StopsMembers m first seen (w ++ x) r
  | noKey {first seen x} : NoToken m x ∨ Sign (if first then b!",:[]{" else b!",:[]{}") x ∨ NoString m x → StopsMembers m first seen x (.error .notAKey)
  | colon {first seen t k x r} : Key m t k → BadToken m x r → StopsMembers m first seen (t ++ x) r
  | noColon {first seen t k x} : Key m t k → NoToken m x ∨ Sign b!",[]{}" x ∨ Plain m x → StopsMembers m first seen (t ++ x) (.error (.unexpected (c%':')))
  /-- strictly, no key may be repeated -/
  | again {first seen t k x} : Key m t k → m.strict = true → k ∈ seen → StopsMembers m first seen (t ++ b!":" ++ x) (.error (.doubleKey k))
  | value {first seen t k x r} : Key m t k → (m.strict = true → k ∉ seen) → StopsValue m x r → StopsMembers m first seen (t ++ b!":" ++ x) r
  /-- a value is missing: the null pointer is followed -/
  | noValue {first seen t k x} : Key m t k → (m.strict = true → k ∉ seen) → NoToken m x ∨ Sign b!",:]}" x →
      StopsMembers m first seen (t ++ b!":" ++ x) (.undefined .nullChild)
  | separator {first seen t k u w x r} : Key m t k → (m.strict = true → k ∉ seen) → Padded m u (w ++ x) → Blank w → BadToken m x r →
      StopsMembers m first seen (t ++ b!":" ++ u ++ w ++ x) r
  | noEnd {first seen t k u x} : Key m t k → (m.strict = true → k ∉ seen) → Padded m u x → NoToken m x →
      StopsMembers m first seen (t ++ b!":" ++ u ++ x) (.error .notAKey)
  | more {first seen t k u w c x r} : Key m t k → (m.strict = true → k ∉ seen) → Padded m u (w ++ [c] ++ x) → Blank w → c ∈ b!",:[]{" →
      StopsMembers m false (k :: seen) x r → StopsMembers m first seen (t ++ b!":" ++ u ++ w ++ [c] ++ x) r
end

/-- Nothing is read, without a report. -/
def Nothing (m : Mode) (text : Bytes) : Prop := NoToken m text ∨ Sign b!",:]}" text

end Verif.Spec.Refused
