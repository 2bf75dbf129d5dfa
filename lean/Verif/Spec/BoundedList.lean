/-!
# Specification: a list that remembers only its last `n` items
-/
namespace Verif.Spec

/-- The last `n` items of `l`. -/
def lastN {T : Type} (n : Nat) (l : List T) : List T := l.drop (l.length - n)

/-- Operations of a history buffer. -/
inductive BufOp (T : Type) where
  | put (x : T)
  | putN (xs : List T)
  | pop
  | reset
deriving Repr, DecidableEq

/-- What a history buffer of capacity `n` should hold after an operation. -/
def boundedStep {T : Type} (n : Nat) (l : List T) : BufOp T → List T
  | .put x => lastN n (l ++ [x])
  | .putN xs => lastN n (l ++ xs)
  | .pop => l.dropLast
  | .reset => []

/-- No `pop` directly after a `pop` (an empty batch does not count as a write). -/
def noDoublePop {T : Type} : (justPopped : Bool) → List (BufOp T) → Bool
  | _, [] => true
  | _, .put _ :: ops => noDoublePop false ops
  | jp, .putN xs :: ops => noDoublePop (jp && xs.isEmpty) ops
  | jp, .pop :: ops => !jp && noDoublePop true ops
  | _, .reset :: ops => noDoublePop false ops

end Verif.Spec
