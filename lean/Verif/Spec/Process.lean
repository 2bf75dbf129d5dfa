import Verif.Model.Program
/-!
# Vocabulary about what a process does

What is done is a list of happenings, in order. Whether the terminal is taken is read off the list, and so are the effects `Model/Main.lean` speaks of.
-/
namespace Verif.Spec.Process
open Verif.Model Verif.Model.Main Verif.Model.Program

/-- Is the terminal taken after these happenings? -/
def taken (tape : List Happening) : Bool :=
  tape.foldl (fun b h => match h with | .enter => true | .leave => false | _ => b) false

/-- This has happened at a time when the terminal was (not) taken. -/
def At (tape : List Happening) (h : Happening) (t : Bool) : Prop := ∃ before after, tape = before ++ h :: after ∧ taken before = t

/-- The terminal is taken only when it is free, given back only when it is taken, and documents are shown only while it is taken. -/
def Orderly (tape : List Happening) : Prop :=
  ¬ At tape .enter true ∧ ¬ At tape .leave false ∧ ∀ docs, ¬ At tape (.view docs) false

/-- A report that an input could not be read. -/
def Failure : Report → Prop
  | .eof _ => True
  | .error .. => True
  | .cutError .. => True
  | _ => False

/-- What a happening adds to the effects. -/
def effect (f : Effects) : Happening → Effects
  | .report r => { f with err := f.err ++ [r] }
  | .output b => { f with out := f.out ++ b }
  | .view docs => { f with views := f.views ++ [docs] }
  | .wrote name contents => { f with written := f.written ++ [(name, contents)] }
  | .removed name => { f with removed := f.removed ++ [name] }
  | .ran argv => { f with ran := some argv }
  | _ => f

/-- The effects of what happened. -/
def effects (tape : List Happening) : Effects := tape.foldl effect {}

/-- No signal arrives, there is a terminal, and the user leaves each view. -/
def Calm (e : Surround) : Prop := (∀ i, e.signal i = false) ∧ e.devTty = true ∧ ∀ before b docs, e.session before b docs = .left

end Verif.Spec.Process
