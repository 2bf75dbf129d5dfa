import Verif.Spec.Keys
/-!
# Specification: which keys are which commands

The codes above 255 are those of the curses library: 258 Down, 259 Up, 260 Left, 261 Right, 338 Page Down, 339 Page Up; 23 is Control-W.
-/
namespace Verif.Spec.KeyTable
open Verif.Model Verif.Model.Search Verif.Model.Loop

inductive Action where
  | quit | up | down | pageUp | pageDown | right | left | next | otherWindow | rightWindow | leftWindow
deriving Repr, DecidableEq

/-- The keys and their commands. -/
def table : List (List Nat × Action) :=
  [([c%'q'], .quit), ([c%'Q'], .quit),
   ([c%'k'], .up), ([c%'K'], .up), ([259], .up), ([c%'j'], .down), ([c%'J'], .down), ([258], .down),
   ([339], .pageUp), ([338], .pageDown),
   ([c%'l'], .right), ([c%'L'], .right), ([261], .right), ([c%'h'], .left), ([c%'H'], .left), ([260], .left),
   ([c%'n'], .next), ([c%'N'], .next),
   ([23, c%'w'], .otherWindow), ([23, c%'W'], .otherWindow),
   ([23, c%'l'], .rightWindow), ([23, c%'L'], .rightWindow), ([23, 261], .rightWindow),
   ([23, c%'h'], .leftWindow), ([23, c%'H'], .leftWindow), ([23, 260], .leftWindow)]

/-- One name of each command. -/
def Action.word : Action → Bytes
  | .quit => b!"Q"
  | .up => b!"KEY_UP"
  | .down => b!"KEY_DOWN"
  | .pageUp => b!"KEY_PPAGE"
  | .pageDown => b!"KEY_NPAGE"
  | .right => b!"KEY_RIGHT"
  | .left => b!"KEY_LEFT"
  | .next => b!"N"
  | .otherWindow => b!"^W-W"
  | .rightWindow => b!"^W-KEY_RIGHT"
  | .leftWindow => b!"^W-KEY_LEFT"

end Verif.Spec.KeyTable
