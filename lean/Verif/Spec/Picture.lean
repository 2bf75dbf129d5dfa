import Verif.Spec.Outline
import Verif.Model.Paint
/-!
# Specification: the picture of a document on the terminal

What a user sees on a place of the terminal is a character, in reverse video or not, in some colours or the default ones. A line of the outline is
seen with its characters one after the other: keys and strings in cyan, numbers in green, `true`, `false` and `null` in red, all else in the default colours; a
line that is a result of the search in white on blue. The line of the selection is in reverse video.
-/
namespace Verif.Spec
open Verif.Model Verif.Model.Paint

/-- What is seen on a place. -/
structure Seen where
  ch : Byte
  inverse : Bool
  colours : Option (Colour × Colour)
deriving Repr, DecidableEq

/-- What a user sees of a place of the terminal. -/
def seen (look : Look) (g : Term.Glyph) : Seen := ⟨g.ch, g.attr.reverse, g.attr.colour.bind (palette look)⟩

/-- A place where nothing is. -/
def unused : Seen := ⟨32, false, none⟩

/-- The colours of a value. -/
def shade : Json → Option (Colour × Colour)
  | .str _ => some (.cyan, .black)
  | .int _ => some (.green, .black)
  | .long _ => some (.green, .black)
  | .dbl _ => some (.green, .black)
  | .bool _ => some (.red, .black)
  | .null => some (.red, .black)
  | .arr _ => none
  | .obj _ => none

/-- The parts of a line of the outline, with their colours: an entry has a key, a separator and the rest. -/
def parts (root : Json) (r : Row) : List (Bytes × Option (Colour × Colour)) :=
  match elem root r.elem with
  | some (.entry k v) => [(shown k, some (.cyan, .black)), (b!": ", none), (r.text.drop ((shown k).length + 2), shade v)]
  | some (.value v) => [(r.text, shade v)]
  | none => []

/-- A line of the outline as it is to be seen. -/
def picture (withColours : Bool) (root : Json) (sel : Option Path) (results : List Path) (r : Row) : List Seen :=
  (parts root r).flatMap fun part => part.1.map fun c =>
    ⟨c, decide (sel = some r.item), if !withColours then none else if results.contains r.elem then some (.white, .blue) else part.2⟩

/-- The number of the place in line `y`, column `x`. -/
def place (width y x : Nat) : Nat := y * width + x

/-- A printable ASCII text: each byte takes a place of the terminal. -/
def Ascii (s : Bytes) : Prop := ∀ c ∈ s, 32 ≤ c ∧ c < 127

mutual
/-- A document all texts of which are printable ASCII. -/
def AsciiDoc : Json → Prop
  | .arr xs => AsciiItems xs
  | .obj es => AsciiEntries es
  | .str s => Ascii s
  | _ => True
def AsciiItems : List Json → Prop
  | [] => True
  | v :: vs => AsciiDoc v ∧ AsciiItems vs
def AsciiEntries : List (Bytes × Json) → Prop
  | [] => True
  | (k, v) :: es => Ascii k ∧ AsciiDoc v ∧ AsciiEntries es
end

/-- The functions of the C library on such texts: a text takes as many places as it has bytes (`len`, see C61 and `Model/StrLen.lean`), and numbers are written with such bytes. -/
structure Plain (fmt : Bytes → Bytes) (len : Bytes → Nat) : Prop where
  len : ∀ s, Ascii s → len s = s.length
  fmt : ∀ s, Ascii (fmt s)

end Verif.Spec
