import Verif.Spec.SplitPicture
/-!
# The layers of a window of the diff view

What is written in a window, one after the other: the later one covers the earlier one. See C71, C94, C95.
-/
namespace Verif.Spec.SplitView
open Verif.Model Verif.Model.Diff Verif.Model.Split Verif.Model.SplitPaint Verif.Model.Term

/-- What is written in a window: a text, or a sign `--` for a line of the other window that has no counterpart here. -/
inductive Layer where
  | text (c : Cell)
  | gap (line : Nat)

/-- The line of a layer, counting the lines that are scrolled out. -/
def Layer.line (w : Win) : Layer → Nat
  | .text c => c.row + w.scroll
  | .gap y => y

/-- The text is the bracket of an open container, without a key. -/
def IsBracket (env : Env) (s : St) (c : Cell) : Prop :=
  c.closing = true ∨ ∃ v, env.elem c.who = some (.value v) ∧ v.isContainer = true ∧ c.who ∉ s.collapsed

open Classical in
/-- The sign that belongs to a layer. The one of a bracket is on the line of the bracket; that of any other text, and of a gap, is as many lines too low as the window is scrolled. -/
noncomputable def Layer.signs (env : Env) (s : St) (w : Win) : Layer → List Mark
  | .text c => if env.op c.who = .equ then [] else [⟨if IsBracket env s c then c.row else c.row + w.scroll, env.op c.who⟩]
  | .gap y => [⟨y, .rem⟩]

/-- The layers a window consists of, from the first to the last. -/
structure Layers (env : Env) (s : St) (w : Win) (ls : List Layer) : Prop where
  texts : w.screen = ls.flatMap fun | .text c => [c] | .gap _ => []
  signs : w.marks = ls.flatMap (Layer.signs env s w)
  order : ls.Pairwise fun a b => a.line w < b.line w

/-- What a text writes to a place. -/
def textSeen (look : Looks) (env : Env) (s : St) (place : Nat) (c : Cell) : List Seen :=
  if cellPlace s c ≤ place then ((cellPicture look.colours env c)[place - cellPlace s c]?).toList else []

/-- What a sign writes to a place; signs below the window are not seen. -/
def signSeen (look : Looks) (s : St) (place : Nat) (m : Mark) : List Seen :=
  if m.row < s.height ∧ m.row * inner s ≤ place then ((signPicture look.colours m.op)[place - m.row * inner s]?).toList else []

open Classical in
/-- What a layer writes to a place, in this order: a bracket before its sign, any other text after it. -/
noncomputable def Layer.seen (look : Looks) (env : Env) (s : St) (w : Win) (place : Nat) (l : Layer) : List Seen :=
  match l with
  | .text c => if IsBracket env s c then textSeen look env s place c ++ (l.signs env s w).flatMap (signSeen look s place)
      else (l.signs env s w).flatMap (signSeen look s place) ++ textSeen look env s place c
  | .gap _ => (l.signs env s w).flatMap (signSeen look s place)

end Verif.Spec.SplitView
