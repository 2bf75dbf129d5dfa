import Verif.Model.Basic
/-!
# Specification: the words of a command line

A command line is a sequence of words: a single argument (an option or the name of a file), a command `--diff-cmd … ;` (the `;` may be missing at
the end of the line), or, at the end, a text `-- …`.
-/
namespace Verif.Spec.CommandLine
open Verif.Model

inductive Word where
  | single (arg : Bytes)
  | command (args : List Bytes)
  | openCommand (args : List Bytes)
  | text (args : List Bytes)
deriving Repr, DecidableEq

/-- The arguments of a word. -/
def Word.args : Word → List Bytes
  | .single a => [a]
  | .command as => b!"--diff-cmd" :: as ++ [b!";"]
  | .openCommand as => b!"--diff-cmd" :: as
  | .text as => b!"--" :: as

/-- The words in their places: a command extends to the first `;`, a command without `;` and a text extend to the end. -/
def Proper : List Word → Prop
  | [] => True
  | .single a :: ws => a ≠ b!"--" ∧ a ≠ b!"--diff-cmd" ∧ Proper ws
  | .command as :: ws => b!";" ∉ as ∧ Proper ws
  | .openCommand as :: ws => b!";" ∉ as ∧ ws = []
  | .text _ :: ws => ws = []

/-- No word that extends to the end of the line. -/
def Closed (ws : List Word) : Prop := ∀ w ∈ ws, match w with | .single _ => True | .command _ => True | _ => False

/-- The options without effect on the course of the program, with their documented meaning below. -/
def flags : List Bytes := [b!"-W", b!"--ascii", b!"--color", b!"--color=always", b!"--color=never", b!"--diff", b!"--compress", b!"--keep-order"]

/-- The single arguments of a command line. -/
def singles (ws : List Word) : List Bytes := ws.filterMap fun | .single a => some a | _ => none

/-- The commands of a command line. -/
def commands (ws : List Word) : List (List Bytes) := ws.filterMap fun | .command as => some as | .openCommand as => some as | _ => none

/-- The text of a command line. -/
def texts (ws : List Word) : List (List Bytes) := ws.filterMap fun | .text as => some as | _ => none

/-- The single arguments that are no options. -/
def files (ws : List Word) : List Bytes := (singles ws).filter fun a => !b!"-".isPrefixOf a

/-- The options about colours, in order: does the option ask for colours? -/
def colours (ws : List Word) : List Bool := (singles ws).filterMap fun a =>
  if a = b!"--color" ∨ a = b!"--color=always" then some true else if a = b!"--color=never" then some false else none

/-- Nothing is wrong with the command line: its options are known, none asks for help or the version, its files can be opened and are named once, and there
is at most one command. -/
structure Good (canOpen : Bytes → Bool) (ws : List Word) : Prop where
  proper : Proper ws
  options : ∀ a ∈ singles ws, a ∈ flags ∨ b!"-".isPrefixOf a = false
  opened : ∀ f ∈ files ws, canOpen f = true
  distinct : (files ws).Nodup
  command : (commands ws).length ≤ 1

/-- Arguments joined by single blanks. -/
def joined : List Bytes → Bytes
  | [] => []
  | [a] => a
  | a :: as => a ++ b!" " ++ joined as

end Verif.Spec.CommandLine
