import Verif.Model.Split
/-!
# Specification: sessions of the diff view
-/
namespace Verif.Spec.SplitView
open Verif.Model Verif.Model.Diff Verif.Model.Split

/-- The view shows the comparison of its two documents; `order` is any order of the pairs (the addresses of the elements are arbitrary). -/
def Compared (env : Env) : Prop := diff env.fmt env.left env.right = some env.table ∧ env.order.Perm env.table.equivalences

/-- The states the view goes through, between two inputs, on a terminal of the given size; `ok` tells which inputs are made. -/
inductive Reached (env : Env) (n k cols rows : Nat) (ok : St → Input → Prop) : St → Prop where
  | start {s : St} : settle env n k (start env cols rows) = some (some s) → Reached env n k cols rows ok s
  | input {s t : St} (i : Input) : Reached env n k cols rows ok s → ok s i → step env n k i s = some (.nextInput t) → Reached env n k cols rows ok t

/-- Any input. -/
def anyInput (_ : St) (_ : Input) : Prop := True

/-- Any input but `/` and `N`. -/
def noSearch (_ : St) (i : Input) : Prop := ∀ name pat, i = .key name pat → name ≠ b!"/" ∧ name ≠ b!"N"

/-- `e` is an element of the first (`side = false`) or second document. -/
def IsElement (env : Env) (side : Bool) (e : Ptr) : Prop :=
  match side, e with
  | false, .left p => ((Elem.value env.left).at p).isSome
  | true, .right p => ((Elem.value env.right).at p).isSome
  | _, _ => False

/-- The window that is not active. -/
def other (s : St) : Win := if s.selected = 0 then s.second else s.first

/-- The document of the active window. -/
def activeSide (s : St) : Bool := decide (s.selected ≠ 0)

/-- Any input, but a search is made only if the first hit (the matches in the first document come first) is in the document of the
active window. -/
def ownSearch (env : Env) (s : St) (i : Input) : Prop :=
  ∀ pat e, i = .key b!"/" (some pat) → (search env pat).head? = some e → IsElement env (activeSide s) e

/-- The window that is active after a key, if window `w` was: `^W W` goes to the other one, `^W L` and `^W →` to the second, `^W H` and `^W ←`
to the first. -/
def windowAfter (name : Bytes) (w : Nat) : Nat :=
  if name = b!"^W-W" then 1 - w
  else if name = b!"^W-L" ∨ name = b!"^W-KEY_RIGHT" then 1
  else if name = b!"^W-H" ∨ name = b!"^W-KEY_LEFT" then 0
  else w

/-- A session: the inputs one after the other; `none` if it does not go on to the end. -/
def session (env : Env) (n k : Nat) : List Input → St → Option St
  | [], s => some s
  | i :: l, s =>
    match step env n k i s with
    | some (.nextInput t) => session env n k l t
    | _ => none

/-- A session from the beginning. -/
def sessionFrom (env : Env) (n k cols rows : Nat) (l : List Input) : Option St :=
  match settle env n k (start env cols rows) with
  | some (some s) => session env n k l s
  | _ => none

end Verif.Spec.SplitView
