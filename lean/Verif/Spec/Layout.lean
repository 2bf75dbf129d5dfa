import Verif.Spec.Grammar
import Verif.Model.SimpleOutput
/-!
# Specification: what the redirected output of a document looks like

`fmt` is the text of a fractional number as the C++ library prints it (`std::to_string(double)`), as a function of its source text.
-/
namespace Verif.Spec
open Verif.Model

/-- One line of the output. -/
inductive Line where
  /-- `{` or `[` -/
  | opening (object : Bool)
  /-- `}` or `]` -/
  | closing (object : Bool)
  /-- an array item or a root that is no container -/
  | item (text : Bytes)
  /-- an object entry whose value is no container -/
  | entry (key value : Bytes)
  /-- the key of an object entry whose value is a container: the container is on the following lines -/
  | key (key : Bytes)
deriving DecidableEq

/-- The bytes of a line, without indentation and comma. -/
def Line.text : Line → Bytes
  | .opening o => if o then b!"{" else b!"["
  | .closing o => if o then b!"}" else b!"]"
  | .item t => t
  | .entry k v => b!"\"" ++ k ++ b!"\":" ++ v
  | .key k => b!"\"" ++ k ++ b!"\":"

/-- The text of a value that is no container, strings in quotes. -/
def quoted (fmt : Bytes → Bytes) : Json → Bytes
  | .str s => b!"\"" ++ s ++ b!"\""
  | v => v.stringify fmt

mutual
/-- The lines of a document: a container is its opening bracket, its elements in order, its closing bracket. The value of
an object entry is printed without quotes even if it is a string. -/
def outline (fmt : Bytes → Bytes) : Json → List Line
  | .arr xs => [.opening false] ++ outlineItems fmt xs ++ [.closing false]
  | .obj es => [.opening true] ++ outlineEntries fmt es ++ [.closing true]
  | .str s => [.item (quoted fmt (.str s))]
  | .bool b => [.item (quoted fmt (.bool b))]
  | .null => [.item (quoted fmt .null)]
  | .int i => [.item (quoted fmt (.int i))]
  | .long i => [.item (quoted fmt (.long i))]
  | .dbl s => [.item (quoted fmt (.dbl s))]
def outlineItems (fmt : Bytes → Bytes) : List Json → List Line
  | [] => []
  | x :: xs => outline fmt x ++ outlineItems fmt xs
def outlineEntries (fmt : Bytes → Bytes) : List (Bytes × Json) → List Line
  | [] => []
  | (k, v) :: es => (if v.isContainer then .key k :: outline fmt v else [.entry k (v.stringify fmt)]) ++ outlineEntries fmt es
end

/-- Depth of the lines after a line. -/
def Line.depthAfter (d : Nat) : Line → Nat
  | .opening _ => d + 1
  | .closing _ => d - 1
  | _ => d

/-- Depth of a line: a closing bracket is as deep as its opening bracket. -/
def Line.depthOf (d : Nat) : Line → Nat
  | .closing _ => d - 1
  | _ => d

/-- A line starts with a comma iff it is not a closing bracket and the line before it ends an element (it is neither an opening
bracket nor a key). -/
def hasComma (prev : Option Line) (l : Line) : Bool :=
  match prev, l with
  | _, .closing _ => false
  | none, _ => false
  | some (.opening _), _ => false
  | some (.key _), _ => false
  | _, _ => true

/-- Lines with their depth and comma; `d` is the number of brackets open before the first line. -/
def arrange (d : Nat) (prev : Option Line) : List Line → List (Nat × Bytes)
  | [] => []
  | l :: ls => (l.depthOf d, (if hasComma prev l then b!"," else []) ++ l.text) :: arrange (l.depthAfter d) (some l) ls

/-- Four blanks per level, the text, a line end. -/
def pretty (ls : List (Nat × Bytes)) : Bytes := ls.flatMap fun l => List.replicate (4 * l.1) (c%' ') ++ l.2 ++ b!"\n"

/-- The texts alone. -/
def compact (ls : List (Nat × Bytes)) : Bytes := ls.flatMap fun l => l.2

/-- Every closing bracket closes the last opening bracket still open (kinds in `stack`, innermost first), and all are closed
at the end. -/
def balanced : (stack : List Bool) → List Line → Bool
  | st, [] => st.isEmpty
  | st, .opening o :: ls => balanced (o :: st) ls
  | o' :: st, .closing o :: ls => o' == o && balanced st ls
  | [], .closing _ :: _ => false
  | st, _ :: ls => balanced st ls

/-- Remove line ends, and the blanks at the beginning of every line. -/
def stripLayout : (atStart : Bool) → Bytes → Bytes
  | _, [] => []
  | b, c :: cs =>
    if c = c%'\n' then stripLayout true cs
    else if b && c == c%' ' then stripLayout true cs
    else c :: stripLayout false cs

mutual
/-- All the keys and texts a document is made of. -/
def texts (fmt : Bytes → Bytes) : Json → List Bytes
  | .arr xs => textsItems fmt xs
  | .obj es => textsEntries fmt es
  | .str s => [s]
  | .bool b => [Json.stringify fmt (.bool b)]
  | .null => [Json.stringify fmt .null]
  | .int i => [Json.stringify fmt (.int i)]
  | .long i => [Json.stringify fmt (.long i)]
  | .dbl s => [Json.stringify fmt (.dbl s)]
def textsItems (fmt : Bytes → Bytes) : List Json → List Bytes
  | [] => []
  | x :: xs => texts fmt x ++ textsItems fmt xs
def textsEntries (fmt : Bytes → Bytes) : List (Bytes × Json) → List Bytes
  | [] => []
  | (k, v) :: es => k :: texts fmt v ++ textsEntries fmt es
end

mutual
/-- Nesting depth: 0 for a value that is no container. -/
def depth : Json → Nat
  | .arr xs => depthItems xs + 1
  | .obj es => depthEntries es + 1
  | _ => 0
def depthItems : List Json → Nat
  | [] => 0
  | x :: xs => max (depth x) (depthItems xs)
def depthEntries : List (Bytes × Json) → Nat
  | [] => 0
  | (_, v) :: es => max (depth v) (depthEntries es)
end

/-- A text that, put between quotes, is a string literal whose value is that same text: raw characters and the escapes
that are kept. -/
def SelfReading (ascii : Bool) (s : Bytes) : Prop :=
  ∃ items, strWF ascii items ∧ items.flatMap StrItem.text = s ∧ strValue ascii items = s

mutual
/-- The documents that are printed as they can be read: keys and strings without characters that need an escape, numbers
in the form the reader delivers them, object keys distinct (and in order, when objects are sorted), no object entry
with a string as value, fractional numbers printed with digits on both sides of the point. -/
def Printable (ascii sort : Bool) (fmt : Bytes → Bytes) : Json → Prop
  | .arr xs => PrintableItems ascii sort fmt xs
  | .obj es => (es.map Prod.fst).Nodup ∧ (sort = true → es.Pairwise fun a b => a.1 < b.1) ∧ PrintableEntries ascii sort fmt es
  | .str s => SelfReading ascii s
  | .bool _ => True
  | .null => True
  | .int i => intJson i = .int i ∧ FitsLong i
  | .long i => intJson i = .long i ∧ FitsLong i
  | .dbl s => ∃ neg ds fs, Digits ds ∧ Digits fs ∧ fmt s = intText neg ds ++ b!"." ++ fs
def PrintableItems (ascii sort : Bool) (fmt : Bytes → Bytes) : List Json → Prop
  | [] => True
  | x :: xs => Printable ascii sort fmt x ∧ PrintableItems ascii sort fmt xs
def PrintableEntries (ascii sort : Bool) (fmt : Bytes → Bytes) : List (Bytes × Json) → Prop
  | [] => True
  | (k, v) :: es => SelfReading ascii k ∧ (∀ s, v ≠ .str s) ∧ Printable ascii sort fmt v ∧ PrintableEntries ascii sort fmt es
end

mutual
/-- The document with every fractional number written the way it is printed. -/
def reprint (fmt : Bytes → Bytes) : Json → Json
  | .arr xs => .arr (reprintItems fmt xs)
  | .obj es => .obj (reprintEntries fmt es)
  | .dbl s => .dbl (fmt s)
  | .str s => .str s
  | .bool b => .bool b
  | .null => .null
  | .int i => .int i
  | .long i => .long i
def reprintItems (fmt : Bytes → Bytes) : List Json → List Json
  | [] => []
  | x :: xs => reprint fmt x :: reprintItems fmt xs
def reprintEntries (fmt : Bytes → Bytes) : List (Bytes × Json) → List (Bytes × Json)
  | [] => []
  | (k, v) :: es => (k, reprint fmt v) :: reprintEntries fmt es
end

end Verif.Spec
