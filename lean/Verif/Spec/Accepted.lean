import Verif.Spec.Grammar
import Verif.Model.Reader
/-!
# Specification: the language the reader accepts

Productions for the texts the program takes as a JSON value, with the value each of them delivers and the warnings it causes, in order. The
language is larger than RFC 8259 (`Spec.Grammar`): it tells how the program departs from the standard. `rest` is the text that follows the
production; it matters only where a token ends because of the next character. Nothing here refers to the reader but the names of the warnings.
-/
namespace Verif.Spec.Accepted
open Verif.Model Verif.Spec

/-- The settings that matter, and what the C++ library makes of half a surrogate pair (`none`: it throws). -/
structure Mode where
  /-- no `-W` -/
  strict : Bool
  /-- `--ascii` -/
  ascii : Bool
  /-- no `--keep-order` -/
  sort : Bool
  half : Nat → Option Bytes

/-- The next character, if any, is none of these. -/
def NotNext (cs : Bytes) (rest : Bytes) : Prop := ∀ c r, rest = c :: r → c ∉ cs

/-- The bytes a `\u` escape stands for. -/
def encoded (m : Mode) (n : Nat) : Option Bytes := if 0xD800 ≤ n ∧ n ≤ 0xDFFF then m.half n else some (utf8 n)

/-- Small letters. -/
def small (t : Bytes) : Bytes := t.map fun c => if c%'A' ≤ c ∧ c ≤ c%'Z' then c + 32 else c

/-- What stands between the quotes of a string, the bytes it denotes and the warnings it causes. -/
inductive Chars (m : Mode) : (text : Bytes) → (value : Bytes) → (warnings : List ExnKind) → Prop
  | nil : Chars m [] [] []
  /-- any byte but the quote and the backslash, control characters included -/
  | raw {c t v ws} : c ≠ c%'"' → c ≠ c%'\\' → Chars m t v ws → Chars m ([c] ++ t) ([c] ++ v) ws
  /-- `\"`, `\\`, `\/` -/
  | esc {c t v ws} : c ∈ b!"\"\\/" → Chars m t v ws → Chars m ([c%'\\', c] ++ t) ([c] ++ v) ws
  /-- `\b`, `\f`, `\n`, `\r`, `\t`: both characters are kept -/
  | ctl {c t v ws} : c ∈ b!"bfnrt" → Chars m t v ws → Chars m ([c%'\\', c] ++ t) ([c%'\\', c] ++ v) ws
  /-- `\uXXXX` -/
  | uni {h1 h2 h3 h4 n bs t v ws} : m.ascii = false → hexValue h1 h2 h3 h4 = some n → encoded m n = some bs → Chars m t v ws →
      Chars m (b!"\\u" ++ [h1, h2, h3, h4] ++ t) (bs ++ v) ws
  /-- with `--ascii`, `\u` is kept, whatever follows -/
  | uniAscii {t v ws} : m.ascii = true → Chars m t v ws → Chars m (b!"\\u" ++ t) (b!"\\u" ++ v) ws
  /-- with `-W`, a backslash before any other byte is kept, with a warning -/
  | other {c t v ws} : m.strict = false → c ∉ b!"\"\\/bfnrtu" → Chars m t v ws →
      Chars m ([c%'\\', c] ++ t) ([c%'\\', c] ++ v) ([.escaped c] ++ ws)

/-- A literal name in capital letters, or some of them, is taken with `-W`, with a warning. -/
inductive Name (m : Mode) (name : Bytes) : (text : Bytes) → (warnings : List ExnKind) → Prop
  | exact : Name m name name []
  | casual {t} : m.strict = false → t ≠ name → small t = name → Name m name t [.format]

/-- A value that is no container: its text, what follows, the value, the warnings. -/
inductive Prim (m : Mode) : (text rest : Bytes) → (value : Json) → (warnings : List ExnKind) → Prop
  | str {t rest v ws} : Chars m t v ws → Prim m ([c%'"'] ++ t ++ [c%'"']) rest (.str v) ws
  /-- the letters of `true` and `false` may not follow -/
  | yes {t rest ws} : Name m b!"true" t ws → NotNext b!"aelrsuAELRSU" rest → Prim m t rest (.bool true) ws
  | no {t rest ws} : Name m b!"false" t ws → NotNext b!"aelrsuAELRSU" rest → Prim m t rest (.bool false) ws
  /-- anything may follow `null` -/
  | null {t rest ws} : Name m b!"null" t ws → Prim m t rest .null ws
  /-- digits, perhaps after a minus sign; leading zeros are allowed; 64 bits must suffice -/
  | int {neg ds rest} : Digits ds → FitsLong (intValue neg ds) → NotNext b!".0123456789" rest →
      Prim m (intText neg ds) rest (intJson (intValue neg ds)) []
  /-- one character `-`, `.` or digit, then digits, a point, digits: digits may be missing anywhere -/
  | dbl {c ds fs rest} : c ∈ b!"-.0123456789" → (∀ d ∈ ds, d ∈ b!"0123456789") → (∀ d ∈ fs, d ∈ b!"0123456789") → NotNext b!"0123456789" rest →
      Prim m ([c] ++ ds ++ b!"." ++ fs) rest (.dbl ([c] ++ ds ++ b!"." ++ fs)) []

/-- The warning about a key that is there already. -/
def again (seen : List Bytes) (k : Bytes) : List ExnKind := if k ∈ seen then [.doubleKey k] else []

/-- The last entry of each key counts; sorted without `--keep-order`. -/
def arranged (m : Mode) (es : List (Bytes × Json)) : List (Bytes × Json) := if m.sort then sortByKey (lastWins es) else lastWins es

mutual
/-- A value: its text, what follows, the value, the warnings. -/
inductive Value (m : Mode) : (text rest : Bytes) → (value : Json) → (warnings : List ExnKind) → Prop
  | prim {t rest v ws} : Prim m t rest v ws → Value m t rest v ws
  | arr0 {w rest} : Blank w → Value m (b!"[" ++ w ++ b!"]") rest (.arr []) []
  | arr {t rest vs ws} : Items m t rest vs ws → Value m (b!"[" ++ t) rest (.arr vs) ws
  | obj0 {w rest} : Blank w → Value m (b!"{" ++ w ++ b!"}") rest (.obj []) []
  | obj {t rest es ws} : Members m [] t rest es ws → Value m (b!"{" ++ t) rest (.obj (arranged m es)) ws
/-- The items of an array and the closing bracket. -/
inductive Items (m : Mode) : (text rest : Bytes) → (values : List Json) → (warnings : List ExnKind) → Prop
  | last {w1 t w2 rest v ws} : Blank w1 → Value m t (w2 ++ b!"]" ++ rest) v ws → Blank w2 → Items m (w1 ++ t ++ w2 ++ b!"]") rest [v] ws
  | more {w1 t w2 u rest v ws vs ws'} : Blank w1 → Value m t (w2 ++ b!"," ++ u ++ rest) v ws → Blank w2 → Items m u rest vs ws' →
      Items m (w1 ++ t ++ w2 ++ b!"," ++ u) rest (v :: vs) (ws ++ ws')
/-- The members of an object and what closes it; `seen` are the keys before. Strictly, no key may be repeated. The object ends with a brace or
with a value that is no container, which is lost; any other of the characters `,:[]{` separates members. -/
inductive Members (m : Mode) : (seen : List Bytes) → (text rest : Bytes) → (entries : List (Bytes × Json)) → (warnings : List ExnKind) → Prop
  | last {seen w1 key k wk w2 w3 t w4 rest v ws} : Blank w1 → Chars m key k wk → Blank w2 → (m.strict = true → k ∉ seen) → Blank w3 →
      Value m t (w4 ++ b!"}" ++ rest) v ws → Blank w4 →
      Members m seen (w1 ++ [c%'"'] ++ key ++ [c%'"'] ++ w2 ++ b!":" ++ w3 ++ t ++ w4 ++ b!"}") rest [(k, v)] (wk ++ again seen k ++ ws)
  | stray {seen w1 key k wk w2 w3 t w4 e rest v ws v' we} : Blank w1 → Chars m key k wk → Blank w2 → (m.strict = true → k ∉ seen) → Blank w3 →
      Value m t (w4 ++ e ++ rest) v ws → Blank w4 → Prim m e rest v' we →
      Members m seen (w1 ++ [c%'"'] ++ key ++ [c%'"'] ++ w2 ++ b!":" ++ w3 ++ t ++ w4 ++ e) rest [(k, v)] (wk ++ again seen k ++ ws ++ we)
  | more {seen w1 key k wk w2 w3 t w4 c u rest v ws es ws'} : Blank w1 → Chars m key k wk → Blank w2 → (m.strict = true → k ∉ seen) → Blank w3 →
      Value m t (w4 ++ [c] ++ u ++ rest) v ws → Blank w4 → c ∈ b!",:[]{" → Members m (k :: seen) u rest es ws' →
      Members m seen (w1 ++ [c%'"'] ++ key ++ [c%'"'] ++ w2 ++ b!":" ++ w3 ++ t ++ w4 ++ [c] ++ u) rest ((k, v) :: es) (wk ++ again seen k ++ ws ++ ws')
end

end Verif.Spec.Accepted
