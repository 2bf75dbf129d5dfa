import Verif.Spec.JsonTree
/-!
# Specification: JSON texts (RFC 8259, without exponents) and what they denote

A `Doc` is a concrete syntax tree: a value together with the insignificant bytes around every token. `Doc.text` is the text,
`Doc.value` the document it denotes. Nothing here refers to the reader.

The grammar is a superset of RFC 8259 without exponents in three harmless respects: leading zeros and unescaped control
characters in strings are allowed, and every byte the program calls insignificant may stand where the RFC allows blanks.
Restriction: a `\u` escape denotes a scalar value below `0x10000` (no surrogates).
-/
namespace Verif.Spec
open Verif.Model

/-- Bytes the program skips between tokens: everything but the printable ASCII characters. Includes the blanks of
RFC 8259. -/
def Blank (w : Bytes) : Prop := ∀ c ∈ w, c ≤ 32 ∨ 127 ≤ c

/-- Position of a character in the alphabet of hexadecimal digits, either case. -/
def hexDigit (c : Byte) : Option Nat :=
  match (b!"0123456789abcdef").idxOf? c with
  | some i => some i
  | none => (b!"0123456789ABCDEF").idxOf? c

/-- Value of four hexadecimal digits. -/
def hexValue (h1 h2 h3 h4 : Byte) : Option Nat :=
  match hexDigit h1, hexDigit h2, hexDigit h3, hexDigit h4 with
  | some a, some b, some c, some d => some (a * 4096 + b * 256 + c * 16 + d)
  | _, _, _, _ => none

/-- UTF-8 encoding of a scalar value (Lean's own encoder). -/
def utf8 (n : Nat) : Bytes := (String.utf8EncodeChar (Char.ofNat n)).map UInt8.toNat

/-- One item between the quotes of a string. -/
inductive StrItem where
  /-- any byte except the quote and the backslash -/
  | raw (c : Byte)
  /-- `\"`, `\\`, `\/` -/
  | esc (c : Byte)
  /-- `\b`, `\f`, `\n`, `\r`, `\t` -/
  | ctl (c : Byte)
  /-- `\uXXXX` -/
  | uni (h1 h2 h3 h4 : Byte)
deriving DecidableEq

namespace StrItem
/-- The text of an item. -/
def text : StrItem → Bytes
  | raw c => [c]
  | esc c => [92, c]
  | ctl c => [92, c]
  | uni h1 h2 h3 h4 => [92, 117, h1, h2, h3, h4]

/-- The item is what its constructor says; a `\u` escape is no surrogate (this does not matter with `--ascii`). -/
def WF (ascii : Bool) : StrItem → Prop
  | raw c => c ≠ 34 ∧ c ≠ 92
  | esc c => c ∈ b!"\"\\/"
  | ctl c => c ∈ b!"bfnrt"
  | uni h1 h2 h3 h4 => ∃ n, hexValue h1 h2 h3 h4 = some n ∧ (ascii = true ∨ ¬ (0xD800 ≤ n ∧ n ≤ 0xDFFF))

/-- What the item stands for in the value of the string, as documented: `\b \f \n \r \t` are kept as two characters, `\u` is
decoded to UTF-8, unless `--ascii` is given. -/
def value (ascii : Bool) : StrItem → Bytes
  | raw c => [c]
  | esc c => [c]
  | ctl c => [92, c]
  | uni h1 h2 h3 h4 => if ascii then [92, 117, h1, h2, h3, h4] else utf8 ((hexValue h1 h2 h3 h4).getD 0)
end StrItem

/-- Text of a string literal. -/
def strText (items : List StrItem) : Bytes := [34] ++ items.flatMap StrItem.text ++ [34]

/-- Value of a string literal. -/
def strValue (ascii : Bool) (items : List StrItem) : Bytes := items.flatMap (StrItem.value ascii)

/-- Every item of a string literal is well formed. -/
def strWF (ascii : Bool) (items : List StrItem) : Prop := ∀ i ∈ items, i.WF ascii

/-- Value of a string of decimal digits. -/
def decimal : Bytes → Nat
  | [] => 0
  | d :: ds => (d - 48) * 10 ^ ds.length + decimal ds

/-- A non-empty string of decimal digits. -/
def Digits (ds : Bytes) : Prop := ds ≠ [] ∧ ∀ d ∈ ds, 48 ≤ d ∧ d ≤ 57

/-- Value of an integer literal. -/
def intValue (neg : Bool) (ds : Bytes) : Int := if neg then - (decimal ds : Int) else decimal ds

/-- Text of an integer literal. -/
def intText (neg : Bool) (ds : Bytes) : Bytes := (if neg then [45] else []) ++ ds

/-- The integer fits `long long`. -/
def FitsLong (i : Int) : Prop := -9223372036854775808 ≤ i ∧ i ≤ 9223372036854775807

/-- An integer is delivered as an `int` if it fits 32 bits, as a `long long` otherwise. -/
def intJson (i : Int) : Json := if -2147483648 ≤ i ∧ i ≤ 2147483647 then .int i else .long i

/-- Entries with repeated keys: the last one of each key counts and keeps its place. -/
def lastWins : List (Bytes × Json) → List (Bytes × Json)
  | [] => []
  | e :: es => if es.any (fun e' => decide (e'.1 = e.1)) then lastWins es else e :: lastWins es

mutual
/-- Concrete syntax of a value. -/
inductive Doc where
  | str (items : List StrItem)
  | true
  | false
  | null
  | int (neg : Bool) (digits : Bytes)
  | frac (neg : Bool) (digits fraction : Bytes)
  /-- `[ ]` -/
  | arr0 (w : Bytes)
  | arr (items : Items)
  /-- `{ }` -/
  | obj0 (w : Bytes)
  | obj (members : Members)
/-- Concrete syntax of the items of a non-empty array. -/
inductive Items where
  | one (w1 : Bytes) (d : Doc) (w2 : Bytes)
  | more (w1 : Bytes) (d : Doc) (w2 : Bytes) (items : Items)
/-- Concrete syntax of the members of a non-empty object. -/
inductive Members where
  | one (w1 : Bytes) (key : List StrItem) (w2 w3 : Bytes) (d : Doc) (w4 : Bytes)
  | more (w1 : Bytes) (key : List StrItem) (w2 w3 : Bytes) (d : Doc) (w4 : Bytes) (members : Members)
end

mutual
/-- The text of a value. -/
def Doc.text : Doc → Bytes
  | .str items => strText items
  | .true => b!"true"
  | .false => b!"false"
  | .null => b!"null"
  | .int neg ds => intText neg ds
  | .frac neg ds fs => intText neg ds ++ [46] ++ fs
  | .arr0 w => [91] ++ w ++ [93]
  | .arr its => [91] ++ its.text ++ [93]
  | .obj0 w => [123] ++ w ++ [125]
  | .obj ms => [123] ++ ms.text ++ [125]
/-- The text between the brackets of an array. -/
def Items.text : Items → Bytes
  | .one w1 d w2 => w1 ++ d.text ++ w2
  | .more w1 d w2 its => w1 ++ d.text ++ w2 ++ [44] ++ its.text
/-- The text between the braces of an object. -/
def Members.text : Members → Bytes
  | .one w1 k w2 w3 d w4 => w1 ++ strText k ++ w2 ++ [58] ++ w3 ++ d.text ++ w4
  | .more w1 k w2 w3 d w4 ms => w1 ++ strText k ++ w2 ++ [58] ++ w3 ++ d.text ++ w4 ++ [44] ++ ms.text
end

mutual
/-- Well-formed syntax. -/
def Doc.WF (ascii : Bool) : Doc → Prop
  | .str items => strWF ascii items
  | .true => True
  | .false => True
  | .null => True
  | .int _ ds => Digits ds
  | .frac _ ds fs => Digits ds ∧ Digits fs
  | .arr0 w => Blank w
  | .arr its => its.WF ascii
  | .obj0 w => Blank w
  | .obj ms => ms.WF ascii
def Items.WF (ascii : Bool) : Items → Prop
  | .one w1 d w2 => Blank w1 ∧ d.WF ascii ∧ Blank w2
  | .more w1 d w2 its => Blank w1 ∧ d.WF ascii ∧ Blank w2 ∧ its.WF ascii
def Members.WF (ascii : Bool) : Members → Prop
  | .one w1 k w2 w3 d w4 => Blank w1 ∧ strWF ascii k ∧ Blank w2 ∧ Blank w3 ∧ d.WF ascii ∧ Blank w4
  | .more w1 k w2 w3 d w4 ms => Blank w1 ∧ strWF ascii k ∧ Blank w2 ∧ Blank w3 ∧ d.WF ascii ∧ Blank w4 ∧ ms.WF ascii
end

mutual
/-- The document a text denotes. -/
def Doc.value (ascii sort : Bool) : Doc → Json
  | .str items => .str (strValue ascii items)
  | .true => .bool Bool.true
  | .false => .bool Bool.false
  | .null => .null
  | .int neg ds => intJson (intValue neg ds)
  | .frac neg ds fs => .dbl (intText neg ds ++ [46] ++ fs)
  | .arr0 _ => .arr []
  | .arr its => .arr (its.values ascii sort)
  | .obj0 _ => .obj []
  | .obj ms =>
    let es := lastWins (ms.entries ascii sort)
    .obj (if sort then sortByKey es else es)
def Items.values (ascii sort : Bool) : Items → List Json
  | .one _ d _ => [d.value ascii sort]
  | .more _ d _ its => d.value ascii sort :: its.values ascii sort
/-- All members in source order. -/
def Members.entries (ascii sort : Bool) : Members → List (Bytes × Json)
  | .one _ k _ _ d _ => [(strValue ascii k, d.value ascii sort)]
  | .more _ k _ _ d _ ms => (strValue ascii k, d.value ascii sort) :: ms.entries ascii sort
end

mutual
/-- Every integer literal fits 64 bits. -/
def Doc.Fits : Doc → Prop
  | .int neg ds => FitsLong (intValue neg ds)
  | .arr its => its.Fits
  | .obj ms => ms.Fits
  | _ => True
def Items.Fits : Items → Prop
  | .one _ d _ => d.Fits
  | .more _ d _ its => d.Fits ∧ its.Fits
def Members.Fits : Members → Prop
  | .one _ _ _ _ d _ => d.Fits
  | .more _ _ _ _ d _ ms => d.Fits ∧ ms.Fits
end

/-- The keys of an object in source order. -/
def Members.keys (ascii : Bool) : Members → List Bytes
  | .one _ k _ _ _ _ => [strValue ascii k]
  | .more _ k _ _ _ _ ms => strValue ascii k :: ms.keys ascii

mutual
/-- No object repeats a key. -/
def Doc.Distinct (ascii : Bool) : Doc → Prop
  | .arr its => its.Distinct ascii
  | .obj ms => (ms.keys ascii).Nodup ∧ ms.Distinct ascii
  | _ => True
def Items.Distinct (ascii : Bool) : Items → Prop
  | .one _ d _ => d.Distinct ascii
  | .more _ d _ its => d.Distinct ascii ∧ its.Distinct ascii
/-- No object inside the values repeats a key. -/
def Members.Distinct (ascii : Bool) : Members → Prop
  | .one _ _ _ _ d _ => d.Distinct ascii
  | .more _ _ _ _ d _ ms => d.Distinct ascii ∧ ms.Distinct ascii
end

/-- Number of keys that occurred before (in `seen`, or earlier in the list). -/
def repeatsAfter (seen : List Bytes) : List Bytes → Nat
  | [] => 0
  | k :: ks => (if k ∈ seen then 1 else 0) + repeatsAfter (k :: seen) ks

mutual
/-- Number of repeated keys, over all objects. -/
def Doc.dups (ascii : Bool) : Doc → Nat
  | .arr its => its.dups ascii
  | .obj ms => repeatsAfter [] (ms.keys ascii) + ms.dups ascii
  | _ => 0
def Items.dups (ascii : Bool) : Items → Nat
  | .one _ d _ => d.dups ascii
  | .more _ d _ its => d.dups ascii + its.dups ascii
def Members.dups (ascii : Bool) : Members → Nat
  | .one _ _ _ _ d _ => d.dups ascii
  | .more _ _ _ _ d _ ms => d.dups ascii + ms.dups ascii
end

/-- The value is an array or an object. -/
def Doc.IsContainer : Doc → Prop
  | .arr0 _ | .arr _ | .obj0 _ | .obj _ => True
  | _ => False

/-- RFC 3629: decode one character of at most three bytes; returns the code point and the remaining bytes. -/
def utf8Decode : Bytes → Option (Nat × Bytes)
  | b1 :: rest =>
    if b1 < 0x80 then some (b1, rest)
    else if 0xC2 ≤ b1 ∧ b1 < 0xE0 then
      match rest with
      | b2 :: rest => if 0x80 ≤ b2 ∧ b2 < 0xC0 then some ((b1 - 0xC0) * 64 + (b2 - 0x80), rest) else none
      | _ => none
    else if 0xE0 ≤ b1 ∧ b1 < 0xF0 then
      match rest with
      | b2 :: b3 :: rest =>
        if (0x80 ≤ b2 ∧ b2 < 0xC0) ∧ (0x80 ≤ b3 ∧ b3 < 0xC0) ∧ 0x800 ≤ (b1 - 0xE0) * 4096 + (b2 - 0x80) * 64 + (b3 - 0x80) then
          some ((b1 - 0xE0) * 4096 + (b2 - 0x80) * 64 + (b3 - 0x80), rest)
        else none
      | _ => none
    else none
  | [] => none

/-- The character an escape `\b \f \n \r \t` stands for in JSON. -/
def ctlChar (c : Byte) : Byte :=
  if c = c%'b' then 8 else if c = c%'f' then 12 else if c = c%'n' then 10 else if c = c%'r' then 13 else 9

/-- What an item denotes in JSON (RFC 8259), as UTF-8. -/
def StrItem.denotes : StrItem → Bytes
  | .raw c => [c]
  | .esc c => [c]
  | .ctl c => [ctlChar c]
  | .uni h1 h2 h3 h4 => utf8 ((hexValue h1 h2 h3 h4).getD 0)

/-- The JSON string a literal denotes. -/
def strDenotes (items : List StrItem) : Bytes := items.flatMap StrItem.denotes

/-- The text after an opening quote has no closing quote. -/
def unterminated : Bytes → Bool
  | [] => true
  | [c%'\\'] => true
  | c%'\\' :: _ :: r => unterminated r
  | c :: r => if c = c%'"' then false else unterminated r

/-- There is no complete value at the start of `v`: after insignificant bytes it ends, or has a `,` `:` `]` `}`, or a string or a
`null` that is cut off by the end of the text. -/
def NoValue (v : Bytes) : Prop :=
  ∃ w x, v = w ++ x ∧ Blank w ∧
    (x = [] ∨ (∃ c r, x = c :: r ∧ c ∈ b!",:]}") ∨
      (∃ r, x = c%'"' :: r ∧ (unterminated r = true ∨ ∃ z, b!"\\u" ++ z <:+ r ∧ z.length ≤ 3)) ∨
      (∃ c r, x = c :: r ∧ c ∈ b!"nN" ∧ r.length ≤ 2))

end Verif.Spec
