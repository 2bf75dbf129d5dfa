import Verif.Spec.Picture
/-!
# Specification: where the lines of a document are written when some begin to the right of the terminal

The lines are written one after the other. A line that begins in a column of the terminal is written there. One that begins further to the right cannot be:
if it is a bracket it is left out, otherwise it is written where the line before ended. What is written later covers what was there.
-/
namespace Verif.Spec
open Verif.Model Verif.Model.Paint

/-- The line is a bracket of an open container, with no key. -/
def loneBracket (root : Json) (folded : List Path) (r : Row) : Bool :=
  match elem root r.elem with
  | some (.value (.arr _)) => !folded.contains r.elem
  | some (.value (.obj _)) => !folded.contains r.elem
  | _ => false

/-- The lines that are written, each with the place where it begins: `lines` are the lines to be shown, each with its line of the terminal, `cursor` is the place where
the text before ended. -/
def writtenLines (root : Json) (folded : List Path) (width : Nat) : (cursor : Nat) → (lines : List (Nat × Row)) → List (Nat × Row)
  | _, [] => []
  | cursor, (y, r) :: lines =>
    if r.col < width then (place width y r.col, r) :: writtenLines root folded width (place width y r.col + r.text.length) lines
    else if loneBracket root folded r then writtenLines root folded width cursor lines
    else (cursor, r) :: writtenLines root folded width (cursor + r.text.length) lines

/-- The first line of the terminal: the name of the input and blanks, black on green. If the name is as long as the terminal is wide, a blank is on the next line. -/
def titlePicture (look : Look) (width : Nat) : List Seen :=
  (look.name.take width ++ List.replicate (max 1 (width - look.name.length)) 32).map fun c => ⟨c, false, if look.colours then some (.black, .green) else none⟩

/-- What is seen on a place: the last of the texts that are written there. -/
def lastWritten (texts : List (Nat × List Seen)) (k : Nat) : Seen :=
  ((texts.filterMap fun a => if a.1 ≤ k then a.2[k - a.1]? else none).getLast?).getD unused

end Verif.Spec
