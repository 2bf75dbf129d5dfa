import Verif.Model.Basic
import Verif.Model.Float32
/-!
# Model of `src/levenshtein.cpp:6-37` (distance of two strings)

The cells of the matrix are `int`: lengths are below `2^31`.
-/
namespace Verif.Model

/-- `src/levenshtein.cpp:16-24` — one row of the matrix: the cells after the first one, for the character `x` of the first string. `prev`
is the row above from the column before on, `left` the cell to the left. -/
def levRow (x : Byte) : (prev : List Nat) → (b : Bytes) → (left : Nat) → List Nat
  | diag :: up :: prev, y :: b, left =>
    let v := min (min (up + 1) (left + 1)) (diag + if x = y then 0 else 1)
    v :: levRow x (up :: prev) b v
  | _, _, _ => []

/-- `src/levenshtein.cpp:15-25` — the rows `i` to the last one, given row `i - 1`; the result is the last row. -/
def levRows (b : Bytes) : (i : Nat) → (a : Bytes) → (prev : List Nat) → List Nat
  | _, [], prev => prev
  | i, x :: a, prev => levRows b (i + 1) a (i :: levRow x prev b i)

/-- `src/levenshtein.cpp:6-31` — `levenshtein`. -/
def levenshtein (a b : Bytes) : Nat :=
  if a = b then 0
  else (levRows b 1 a (List.range (b.length + 1))).getD b.length 0

/-- `src/levenshtein.cpp:33-38` — `levenshteinPercent`. -/
def levenshteinPercent (a b : Bytes) : F32 :=
  if a.isEmpty && b.isEmpty then F32.one
  else F32.oneSub (F32.div (F32.ofNat (levenshtein a b)) (F32.ofNat (max a.length b.length)))

/-- `include/levenshtein.hpp:5-7`, `src/levenshtein.cpp:173` — `score > LEVENSHTEIN_SENSIBILITY`. -/
def percentSimilar (a b : Bytes) : Bool := F32.lt F32.seventy (levenshteinPercent a b)

end Verif.Model
