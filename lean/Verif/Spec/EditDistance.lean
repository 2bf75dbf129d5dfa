import Verif.Model.Basic
/-!
# Specification: edit scripts
-/
namespace Verif.Spec

/-- One single-character edit: insertion, deletion or substitution, at any place. -/
inductive Edit : Bytes → Bytes → Prop where
  | insert (p s : Bytes) (c : Byte) : Edit (p ++ s) (p ++ [c] ++ s)
  | delete (p s : Bytes) (c : Byte) : Edit (p ++ [c] ++ s) (p ++ s)
  | substitute (p s : Bytes) (c d : Byte) : Edit (p ++ [c] ++ s) (p ++ [d] ++ s)

/-- `Edits n a b`: `n` single-character edits turn `a` into `b`. -/
inductive Edits : Nat → Bytes → Bytes → Prop where
  | done (a : Bytes) : Edits 0 a a
  | step {n : Nat} {a b c : Bytes} : Edits n a b → Edit b c → Edits (n + 1) a c

end Verif.Spec
