import Verif.Model.SplitPaint
import Verif.Spec.Picture
import Verif.Spec.SplitOutline
import Verif.Spec.SplitView
/-!
# Specification: what is seen of the diff view on the terminal

The windows of the two documents are side by side, each in a frame: the first one begins in line 1, column 1 of the terminal, the second one in line 1, in the column
where the second half begins. In its first line a window has the name of its document. Below, the texts of the outline (`Spec/SplitOutline.lean`) are seen, in the same
colours as in the view of a single document; the first two columns are for the signs of differences.
-/
namespace Verif.Spec.SplitView
open Verif.Model Verif.Model.Diff Verif.Model.Split Verif.Model.SplitPaint Verif.Model.Paint Verif.Spec

/-- The states of a session, with what is on the terminal, and the message on its last line if there is one. -/
inductive Watched (look : Looks) (env : Env) (n k cols rows : Nat) (ok : St → Split.Input → Prop) : St → Display → Option Bytes → Prop where
  | start {s : St} {d : Display} : settleOn look env n k (Split.start env cols rows) ⟨cols, rows, fun _ _ => Term.nothing⟩ = some (some (s, d)) →
      Watched look env n k cols rows ok s d none
  | input {s t : St} {d d' : Display} {m m' : Option Bytes} (i : Split.Input) : Watched look env n k cols rows ok s d m → ok s i →
      stepOn look env n k i s d m = some (.nextInput t, d', m') → Watched look env n k cols rows ok t d' m'

/-- The parts of a text and their colours: an entry has a key, a separator and the rest. -/
def cellParts (env : Env) (c : Cell) : List (Bytes × Option (Colour × Colour)) :=
  match env.elem c.who with
  | some (.entry k v) => [(shown k, some (.cyan, .black)), (b!": ", none), (c.text.drop ((shown k).length + 2), shade v)]
  | some (.value v) => [(c.text, shade v)]
  | none => []

/-- A text as it is to be seen: reversed if it is that of the selection, in white on blue if it is a result of the search. -/
def cellPicture (withColours : Bool) (env : Env) (c : Cell) : List Seen :=
  (cellParts env c).flatMap fun part => part.1.map fun ch =>
    ⟨ch, c.selected, if !withColours then none else if c.searched then some (.white, .blue) else part.2⟩

/-- The sign of a difference. -/
def sign : Op → Bytes
  | .add => b!"++"
  | .mod => b!"!!"
  | .rem => b!"--"
  | .equ => []

/-- Its colours. -/
def signColours : Op → Option (Colour × Colour)
  | .add => some (.green, .black)
  | .mod => some (.cyan, .black)
  | .rem => some (.magenta, .black)
  | .equ => none

/-- The sign of a difference as it is to be seen. -/
def signPicture (withColours : Bool) (op : Op) : List Seen := (sign op).map fun ch => ⟨ch, true, if withColours then signColours op else none⟩

/-- The columns of a window. -/
def inner (s : St) : Nat := s.width - 2

/-- What is seen on a place of the window of a document; the places are counted line by line. -/
def seenIn (look : Looks) (s : St) (side : Bool) (d : Display) (place : Nat) : Seen :=
  seen (look.of side) (d.at_ (1 + place / inner s) ((if side then s.width else 1) + place % inner s))

/-- The place where a text begins. -/
def cellPlace (s : St) (c : Cell) : Nat := c.row * inner s + c.col

/-- The place is taken by a text of the window. -/
def TakenByText (s : St) (w : Win) (place : Nat) : Prop := ∃ c ∈ w.screen, cellPlace s c ≤ place ∧ place < cellPlace s c + c.text.length

/-- The place is taken by the sign of a difference. -/
def TakenBySign (s : St) (w : Win) (place : Nat) : Prop := ∃ m ∈ w.marks, m.row * inner s ≤ place ∧ place < m.row * inner s + 2

/-- One of the two windows. -/
def windowSide (s : St) (side : Bool) : Win := if side then s.second else s.first

/-- What is to be seen in column `x` of the first line of a window: the name of its document, cut at the width of the window, and blanks; in black on green in the
active window, in black on white in the other one. -/
def titleSeen (look : Looks) (s : St) (side : Bool) (x : Nat) : Seen :=
  ⟨((look.of side).name ++ List.replicate (inner s) 32).getD x 32, false,
    if look.colours then some (if side = activeSide s then (.black, .green) else (.black, .white)) else none⟩

/-- A place of a window shows what it should: the title, the texts the window is made of (`Listing`, C77) with their characters in their places and colours, and nothing
anywhere else. -/
structure PlaceRight (look : Looks) (env : Env) (s : St) (side : Bool) (d : Display) (place : Nat) : Prop where
  title : place < inner s → seenIn look s side d place = titleSeen look s side place
  texts : ∀ c ∈ (windowSide s side).screen, ∀ j, place = cellPlace s c + j → j < c.text.length → (cellPicture look.colours env c)[j]? = some (seenIn look s side d place)
  rest : inner s ≤ place → ¬ TakenByText s (windowSide s side) place → ¬ TakenBySign s (windowSide s side) place → seenIn look s side d place = unused

/-- A place of a window shows the sign that is to be there. -/
def SignRight (look : Looks) (s : St) (side : Bool) (d : Display) (place : Nat) : Prop :=
  ∀ m ∈ (windowSide s side).marks, ∀ j, place = m.row * inner s + j → j < 2 → (signPicture look.colours m.op)[j]? = some (seenIn look s side d place)

/-- The signs that are seen in a window: on the line of every text of an element that was added, removed or modified the sign for that; and a place below the title where there is no text
shows nothing, or part of the sign of the text of its line, or of that for a line of the other window, if there is no text in its line. -/
structure SignsSeen (look : Looks) (env : Env) (s : St) (side : Bool) (d : Display) : Prop where
  all : ∀ c ∈ (windowSide s side).screen, env.op c.who ≠ .equ → ∀ j < 2, (signPicture look.colours (env.op c.who))[j]? = some (seenIn look s side d (c.row * inner s + j))
  only : ∀ place, inner s ≤ place → place + 1 < inner s * s.height → ¬ TakenByText s (windowSide s side) place → seenIn look s side d place ≠ unused →
    ∃ op, (signPicture look.colours op)[place % inner s]? = some (seenIn look s side d place) ∧
      ((∃ c ∈ (windowSide s side).screen, c.row = place / inner s ∧ env.op c.who = op) ∨ (op = .rem ∧ ∀ c ∈ (windowSide s side).screen, c.row ≠ place / inner s))

/-- The texts of the window begin inside of it. -/
def Inside (s : St) (w : Win) : Prop := ∀ c ∈ w.screen, c.row < s.height ∧ c.col < inner s

/-- Each text of the window ends on the line where it begins. -/
def Short (s : St) (w : Win) : Prop := ∀ c ∈ w.screen, c.col + c.text.length ≤ inner s

end Verif.Spec.SplitView
