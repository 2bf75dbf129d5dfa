import Verif.Spec.Grammar
import Verif.Spec.Position
/-!
# Specification: texts that are right up to a place and wrong there

A `Place` is the beginning of a JSON text, up to a point between two of its tokens: any number of arrays and objects have been opened, with any complete items and members before. A `Slip` is what is
wrongly written there. Nothing here refers to the reader.
-/
namespace Verif.Spec
open Verif.Model

/-- A complete item of an array and the comma after it. -/
structure DoneItem where
  w1 : Bytes
  d : Doc
  w2 : Bytes

/-- A complete member of an object and the comma after it. -/
structure DoneMember where
  w1 : Bytes
  key : List StrItem
  w2 : Bytes
  w3 : Bytes
  d : Doc
  w4 : Bytes

def DoneItem.text (i : DoneItem) : Bytes := i.w1 ++ i.d.text ++ i.w2 ++ b!","
def DoneMember.text (m : DoneMember) : Bytes := m.w1 ++ strText m.key ++ m.w2 ++ b!":" ++ m.w3 ++ m.d.text ++ m.w4 ++ b!","

/-- The text of complete items, each with its comma. -/
def itemsText (l : List DoneItem) : Bytes := l.flatMap DoneItem.text
/-- The text of complete members, each with its comma. -/
def membersText (l : List DoneMember) : Bytes := l.flatMap DoneMember.text

/-- The value is well formed, its integers fit 64 bits, and in strict mode no object in it repeats a key. -/
def GoodDoc (ascii strict : Bool) (d : Doc) : Prop := d.WF ascii ∧ d.Fits ∧ (strict = true → d.Distinct ascii)

def DoneItem.Good (ascii strict : Bool) (i : DoneItem) : Prop := Blank i.w1 ∧ GoodDoc ascii strict i.d ∧ Blank i.w2
def DoneMember.Good (ascii strict : Bool) (m : DoneMember) : Prop :=
  Blank m.w1 ∧ strWF ascii m.key ∧ Blank m.w2 ∧ Blank m.w3 ∧ GoodDoc ascii strict m.d ∧ Blank m.w4

/-- The keys of members. -/
def keysOf (ascii : Bool) (l : List DoneMember) : List Bytes := l.map (fun m => strValue ascii m.key)

/-- An array or object that has been opened and is not closed yet, up to the point where a value is to be written. -/
inductive Frame where
  /-- `[`, complete items -/
  | arr (w : Bytes) (items : List DoneItem)
  /-- `{`, complete members, a key and a colon -/
  | obj (w : Bytes) (members : List DoneMember) (w1 : Bytes) (key : List StrItem) (w2 : Bytes)

def Frame.text : Frame → Bytes
  | .arr w items => w ++ b!"[" ++ itemsText items
  | .obj w ms w1 k w2 => w ++ b!"{" ++ membersText ms ++ w1 ++ strText k ++ w2 ++ b!":"

def Frame.Good (ascii strict : Bool) : Frame → Prop
  | .arr w items => Blank w ∧ ∀ i ∈ items, i.Good ascii strict
  | .obj w ms w1 k w2 => Blank w ∧ (∀ m ∈ ms, m.Good ascii strict) ∧ Blank w1 ∧ strWF ascii k ∧ Blank w2 ∧
      (strict = true → (keysOf ascii ms ++ [strValue ascii k]).Nodup)

/-- The text of what has been opened, from the outside to the inside. -/
def framesText (fs : List Frame) : Bytes := fs.flatMap Frame.text

/-- A place between two tokens of a text. -/
inductive Place where
  /-- a value is expected -/
  | value (fs : List Frame)
  /-- after an item of an array: a comma or `]` is expected -/
  | afterItem (fs : List Frame) (w : Bytes) (items : List DoneItem) (w1 : Bytes) (d : Doc)
  /-- in an object: a key is expected (or `}`, if there are no members) -/
  | key (fs : List Frame) (w : Bytes) (ms : List DoneMember)
  /-- after a key: a colon is expected -/
  | afterKey (fs : List Frame) (w : Bytes) (ms : List DoneMember) (w1 : Bytes) (k : List StrItem)
  /-- after a member: a comma or `}` is expected -/
  | afterMember (fs : List Frame) (w : Bytes) (ms : List DoneMember) (w1 : Bytes) (k : List StrItem) (w2 w3 : Bytes) (d : Doc)

namespace Place
/-- The text up to the place. -/
def text : Place → Bytes
  | value fs => framesText fs
  | afterItem fs w items w1 d => framesText fs ++ w ++ b!"[" ++ itemsText items ++ w1 ++ d.text
  | key fs w ms => framesText fs ++ w ++ b!"{" ++ membersText ms
  | afterKey fs w ms w1 k => framesText fs ++ w ++ b!"{" ++ membersText ms ++ w1 ++ strText k
  | afterMember fs w ms w1 k w2 w3 d => framesText fs ++ w ++ b!"{" ++ membersText ms ++ w1 ++ strText k ++ w2 ++ b!":" ++ w3 ++ d.text

/-- The text up to the place is right. -/
def Good (ascii strict : Bool) : Place → Prop
  | value fs => ∀ f ∈ fs, f.Good ascii strict
  | afterItem fs w items w1 d => (∀ f ∈ fs, f.Good ascii strict) ∧ Blank w ∧ (∀ i ∈ items, i.Good ascii strict) ∧ Blank w1 ∧ GoodDoc ascii strict d
  | key fs w ms => (∀ f ∈ fs, f.Good ascii strict) ∧ Blank w ∧ (∀ m ∈ ms, m.Good ascii strict) ∧ (strict = true → (keysOf ascii ms).Nodup)
  | afterKey fs w ms w1 k => (∀ f ∈ fs, f.Good ascii strict) ∧ Blank w ∧ (∀ m ∈ ms, m.Good ascii strict) ∧ (strict = true → (keysOf ascii ms).Nodup) ∧ Blank w1 ∧ strWF ascii k
  | afterMember fs w ms w1 k w2 w3 d => (∀ f ∈ fs, f.Good ascii strict) ∧ Blank w ∧ (∀ m ∈ ms, m.Good ascii strict) ∧ Blank w1 ∧ strWF ascii k ∧ Blank w2 ∧ Blank w3 ∧ GoodDoc ascii strict d ∧
      (strict = true → (keysOf ascii ms ++ [strValue ascii k]).Nodup)
end Place

/-- The text `rest` does not go on with the value before it: after a number there is no digit or dot, after `true` and `false` none of the letters `aelrsu`, in either case. -/
def Ends (d : Doc) (rest : Bytes) : Prop :=
  match d with
  | .int _ _ | .frac _ _ _ => ∀ c, rest.head? = some c → c ∉ b!"0123456789."
  | .true | .false => ∀ c, rest.head? = some c → c ∉ b!"aelrsuAELRSU"
  | _ => True

/-- What is written goes on after the value before the place, if there is one. -/
def Place.Ends : Place → Bytes → Prop
  | afterItem _ _ _ _ d, rest => Spec.Ends d rest
  | afterMember _ _ _ _ _ _ _ d, rest => Spec.Ends d rest
  | _, _ => True

/-- The value is a number, `true`, `false` or `null`. -/
def NoString : Doc → Prop
  | .str _ | .arr _ | .arr0 _ | .obj _ | .obj0 _ => False
  | _ => True

/-- The letters, in lower case. -/
def lowered (t : Bytes) : Bytes := t.map toLower

/-- Something that is wrong at a place, up to the point where it is wrong. -/
inductive Slip where
  /-- a printable character no token begins with -/
  | stray (w : Bytes) (c : Byte)
  /-- letters of `true` and `false` that are not one of these words, and the character after them -/
  | word (w : Bytes) (letters : Bytes) (next : Byte)
  /-- `n` and three characters, not `null` -/
  | nullWord (w : Bytes) (n x1 x2 x3 : Byte)
  /-- a string, up to a `\u` with something else than four hexadecimal digits -/
  | hex (w : Bytes) (items : List StrItem) (h1 h2 h3 h4 : Byte)
  /-- a wrong one of `{}[],:` -/
  | punct (w : Bytes) (c : Byte)
  /-- a number, `true`, `false` or `null` for a key -/
  | notString (w : Bytes) (d : Doc)
  /-- a key that the object already has, and the colon -/
  | again (w1 : Bytes) (k : List StrItem) (w2 : Bytes)

namespace Slip
def text : Slip → Bytes
  | stray w c => w ++ [c]
  | word w l c => w ++ l ++ [c]
  | nullWord w n x1 x2 x3 => w ++ [n, x1, x2, x3]
  | hex w items h1 h2 h3 h4 => w ++ b!"\"" ++ items.flatMap StrItem.text ++ b!"\\u" ++ [h1, h2, h3, h4]
  | punct w c => w ++ [c]
  | notString w d => w ++ d.text
  | again w1 k w2 => w1 ++ strText k ++ w2 ++ b!":"

/-- No token begins with the printable character. -/
def IsStray (c : Byte) : Prop := 32 < c ∧ c < 127 ∧ c ∉ b!"\"{}[],:0123456789.-tfnTFN"

/-- The word is wrong: it begins with `t` or `f`, has no more letters than `true` or `false`, all of them from `aelrsu`, and is neither `true` nor `false` in any case; the character after it is none of
these letters. -/
def IsWord (l : Bytes) (next : Byte) : Prop :=
  ∃ c r, l = c :: r ∧ c ∈ b!"tfTF" ∧ (∀ x ∈ r, x ∈ b!"aelrsuAELRSU") ∧ (l.length ≤ 4 ∨ (c ∈ b!"fF" ∧ l.length ≤ 5)) ∧ lowered l ≠ b!"true" ∧ lowered l ≠ b!"false" ∧
    next ∉ b!"aelrsuAELRSU"

/-- What is written is wrong at the place, with the settings. -/
def Wrong (ascii strict : Bool) (p : Place) : Slip → Prop
  | stray w c => Blank w ∧ IsStray c
  | word w l c => Blank w ∧ IsWord l c
  | nullWord w n x1 x2 x3 => Blank w ∧ n ∈ b!"nN" ∧ lowered [x1, x2, x3] ≠ b!"ull"
  | hex w items h1 h2 h3 h4 => ascii = false ∧ Blank w ∧ strWF ascii items ∧ hexValue h1 h2 h3 h4 = none
  | punct w c => Blank w ∧ match p with
    | .value fs => ∃ fs' w' items, fs = fs' ++ [.arr w' items] ∧ (c ∈ b!",:}" ∨ (c = c%']' ∧ items ≠ []))
    | .key _ _ ms => c ∈ b!"{[],:" ∨ (c = c%'}' ∧ ms ≠ [])
    | _ => False
  | notString w d => Blank w ∧ GoodDoc ascii strict d ∧ NoString d ∧ (match p with | .key _ _ _ => True | _ => False)
  | again w1 k w2 => Blank w1 ∧ strWF ascii k ∧ Blank w2 ∧ strict = true ∧ (match p with | .key _ _ ms => strValue ascii k ∈ keysOf ascii ms | _ => False)

/-- A number or word for a key is followed by something else; nothing else needs an end. -/
def EndsWith : Slip → Bytes → Prop
  | notString _ d, after => after ≠ [] ∧ Spec.Ends d after
  | _, _ => True

/-- The first of the four characters that is no hexadecimal digit. -/
def badDigit (h1 h2 h3 h4 : Byte) : Byte := ([h1, h2, h3, h4].find? (fun c => (hexDigit c).isNone)).getD 0

/-- What the report should say. -/
def says (ascii : Bool) (p : Place) : Slip → Bytes
  | stray _ _ | word _ _ _ | nullWord _ _ _ _ _ => b!"invalid value"
  | hex _ _ h1 h2 h3 h4 => b!"invalid hex value '" ++ [badDigit h1 h2 h3 h4] ++ b!"'"
  | punct _ _ => match p with
    | .key _ _ _ => b!"expected string key for object"
    | _ => b!"expected json entry, got token"
  | notString _ _ => b!"expected string key for object"
  | again _ k _ => b!"Unexpected double key " ++ strValue ascii k ++ b!" for object"
end Slip

/-- A separator that is missing: at a place after a key, an item or a member, another of `{}[],:` than the expected one. (After a member the program takes any token for the comma.) -/
def NoSeparator (w : Bytes) (c : Byte) : Place → Prop
  | .afterItem _ _ _ _ _ => Blank w ∧ c ∈ b!"{}[:"
  | .afterKey _ _ _ _ _ => Blank w ∧ c ∈ b!"{}[],"
  | _ => False

end Verif.Spec
