import Verif.Spec.Refused
import Verif.Spec.Layout
import Verif.Spec.Process
/-!
# Specification: what the program does with its inputs, in each of its modes

The inputs are taken in their order, each is an accepted text (`Spec.Accepted`) or not (`Spec.Refused`). What the program does depends only on the documents of the inputs up to the first one that is
none, on the warnings about them, and on what stopped the reading.
-/
namespace Verif.Spec.Batch
open Verif.Model Verif.Model.Main Verif.Model.Program Verif.Spec Verif.Spec.Accepted Verif.Spec.Refused

/-- How the run through the inputs ends: at the end; at an input with a mistake; at an input without a document; by a signal while an input is read. -/
inductive End where
  | complete
  | mistake (r : Reason)
  | empty
  | signal
deriving DecidableEq

/-- The run through the inputs, each with the information whether a signal ends the program while it is read: the documents, the warnings, how it ends. -/
inductive Runs (m : Mode) : (inputs : List (Bool × Bytes)) → (docs : List Json) → (warnings : List ExnKind) → End → Prop
  | complete : Runs m [] [] [] .complete
  | document {w t rest v ws inputs docs ws' en} : Blank w → Value m t rest v ws → Runs m inputs docs ws' en →
      Runs m ((false, w ++ t ++ rest) :: inputs) (v :: docs) (ws ++ ws') en
  | mistake {x r inputs} : StopsValue m x r → Runs m ((false, x) :: inputs) [] [] (.mistake r)
  | empty {x inputs} : Nothing m x → Runs m ((false, x) :: inputs) [] [] .empty
  | signal {x inputs} : Runs m ((true, x) :: inputs) [] [] .signal

/-- A document as it is printed: its lines with their commas; without `--compress` each with its indentation, four blanks for each open bracket (counted modulo 65536), and a line feed. -/
def print (fmt : Bytes → Bytes) (compress : Bool) (v : Json) : Bytes :=
  (arrange 0 none (outline fmt v)).flatMap fun l =>
    if compress then l.2 else List.replicate (4 * (l.1 % 65536)) (c%' ') ++ l.2 ++ b!"\n"

/-- The message about this error or warning is undefined behaviour: a character is added to the address of a text (of nine characters, for the first). -/
def unsayable : ExnKind → Bool
  | .unexpected c => decide (9 < c)
  | .escaped _ => true
  | _ => false

/-- The reading of the inputs itself ends the program. A mistake that can be reported does not. -/
def fatal : End → Option Fin
  | .signal => some .killed
  | .mistake (.uncaught _) => some (.main .uncaught)
  | .mistake (.undefined _) => some (.main .ub)
  | .mistake (.error k) => if unsayable k then some (.main .ub) else none
  | _ => none

/-- The warnings are the last thing to be displayed. The status is 0, whatever was reported. -/
def farewell (warnings : List ExnKind) : Fin := if warnings.any unsayable then .main .ub else .main (.exit 0)

/-- What is done, apart from reports on standard error. -/
def deeds (tape : List Happening) : List Happening := tape.filter fun h => match h with | .report _ => false | _ => true

/-- With the output redirected: the documents are printed. -/
def filtering (fmt : Bytes → Bytes) (compress : Bool) (docs : List Json) (warnings : List ExnKind) (en : End) : List Happening × Fin :=
  (docs.map fun v => .output (print fmt compress v), (fatal en).getD (farewell warnings))

/-- With `--diff-cmd`. The documents, with the names of their inputs, are written into temporary files; if one of these cannot be created, the program tries for ever. If all inputs were read and the warnings
about them displayed, the command is run, with the names of the temporary files for each `{}`. A command that does not exit by itself is waited for for ever. At the regular end the files are removed. -/
def externally (creatable : Bytes → Bool) (child : List DiffCmd.Cell → Child) (cmd : List Bytes) (fmt : Bytes → Bytes) (compress : Bool) (docs : List (Bytes × Json)) (warnings : List ExnKind) (en : End) :
    List Happening × Fin :=
  let files := docs.map fun d => DiffCmd.tempName d.1
  let written := (docs.takeWhile fun d => creatable (DiffCmd.tempName d.1)).map fun d => Happening.wrote (DiffCmd.tempName d.1) (print fmt compress d.2)
  if ∃ f ∈ files, creatable f = false then (written, .main .hangs)
  else match fatal en with
    | some f => (written, f)
    | none =>
      if en ≠ .complete then (written ++ files.map .removed, .main (.exit 0))
      else if warnings.any unsayable then (written, .main .ub)
      else
        let argv := (cmd.flatMap fun a => if a = b!"{}" then files else [a]).map DiffCmd.Cell.text ++ [.null]
        match child argv with
        | .noFork => (written ++ files.map .removed, .main (.exit 0))
        | .exits _ => (written ++ [.ran argv] ++ files.map .removed, .main (.exit 0))
        | .noExec true => (written ++ [.ran argv] ++ files.map .removed, .main (.exit 0))
        | .noExec false => (written ++ [.ran argv], .main .hangs)
        | .killed _ => (written ++ [.ran argv], .main .hangs)

/-- The views of the documents, one after the other, each until the user leaves it: what is done, and how the program ends if a view does not end. -/
def visits (session : List (List (Bytes × Json)) → Bool → List (Bytes × Json) → ViewEnd) : (before docs : List (Bytes × Json)) → List Happening × Option Fin
  | _, [] => ([], none)
  | before, d :: docs =>
    match session (before.map fun b => [b]) false [d] with
    | .left => (.view [d] :: (visits session (before ++ [d]) docs).1, (visits session (before ++ [d]) docs).2)
    | .crash => ([.view [d]], some .viewCrash)
    | .waits => ([.view [d]], some .waits)

/-- On a terminal: the terminal is taken, the documents are shown one after the other, the terminal is given back. It is not given back if the reading ends the program. -/
def browsing (terminal : Bool) (session : List (List (Bytes × Json)) → Bool → List (Bytes × Json) → ViewEnd) (docs : List (Bytes × Json)) (warnings : List ExnKind) (en : End) : List Happening × Fin :=
  if terminal = false then ([], .main .ub)
  else match visits session [] docs with
    | (views, some f) => (.enter :: views, f)
    | (views, none) =>
      match fatal en with
      | some f => (.enter :: views, f)
      | none => (.enter :: views ++ [.leave], farewell warnings)

/-- With `--diff`: only if all inputs were read the terminal is taken; two documents are shown side by side, three are too many. -/
def comparing (terminal : Bool) (session : List (List (Bytes × Json)) → Bool → List (Bytes × Json) → ViewEnd) (clash : Json → Json → Bool) (docs : List (Bytes × Json)) (warnings : List ExnKind) (en : End) :
    List Happening × Fin :=
  match fatal en with
  | some f => ([], f)
  | none =>
    if en ≠ .complete then ([], .main (.exit 0))
    else if terminal = false then ([], .main .ub)
    else match docs with
      | [a, b] =>
        if clash a.2 b.2 then ([.enter], .main .ub)
        else match session [] false [a, b] with
          | .left => ([.enter, .view [a, b], .leave], farewell warnings)
          | .crash => ([.enter, .view [a, b]], .viewCrash)
          | .waits => ([.enter, .view [a, b]], .waits)
      | _ => ([.enter], .main .uncaught)

end Verif.Spec.Batch
