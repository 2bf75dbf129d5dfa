import Verif.Model.Element
import Verif.Model.SimpleOutput
import Verif.Model.Levenshtein
/-!
# Model of the comparison of two documents (`src/levenshtein.cpp:40-210`, `include/levenshteinMatrice.hpp`)

A pointer to an element is its document (`left`: first input) and its position. `none` as a result is undefined
behaviour (division by zero, null pointer). `new`/`delete` and memory are not modelled. `fmt` stands for `std::to_string(double)`.
-/
namespace Verif.Model.Diff
open Verif.Model

/-- A `const JSonElement *` into the first (`left`) or second document. -/
inductive Ptr where
  | left (p : Path)
  | right (p : Path)
deriving DecidableEq, Repr

/-- `include/outputFlag.hh:9-14` — `eLevenshteinOperator`. -/
inductive Op where
  | add | rem | mod | equ
deriving DecidableEq, Repr

/-- `std::map::operator[]` followed by an assignment. The order of the list has no meaning (a `std::map` of pointers is ordered
by address). -/
def setKey {V : Type} (m : List (Ptr × V)) (k : Ptr) (v : V) : List (Ptr × V) :=
  (k, v) :: m.filter (fun e => decide (e.1 ≠ k))

/-- `std::map::find` / `at`. -/
def look {V : Type} (m : List (Ptr × V)) (k : Ptr) : Option V :=
  match m with
  | [] => none
  | e :: m => if e.1 = k then some e.2 else look m k

/-- `for (pair e : other) m[e.first] = e.second` (`include/levenshteinMatrice.hpp:190-193`). -/
def setAll {V : Type} (m other : List (Ptr × V)) : List (Ptr × V) :=
  other.foldl (fun m e => setKey m e.1 e.2) m

/-- `include/levenshteinMatrice.hpp:9-61`, `:219-221` — what the three classes of difference tables store: `areSimilar()`, `result()`,
`operations`, and the equivalences (`equivalentA`/`equivalentB` of a score are the single pair; none for a manual one). -/
structure Table where
  similar : Bool
  result : Nat
  operations : List (Ptr × Op)
  equivalences : List (Ptr × Ptr)
deriving Repr, DecidableEq

/-- `src/levenshtein.cpp:105-108` — `get`: `none` is `std::out_of_range`. -/
def Table.get (t : Table) (e : Ptr) : Option Op := look t.operations e

/-- `src/levenshtein.cpp:134-144`, `:187-192` — `getEquivalence` scans the map in the order of addresses, here an arbitrary
`order` of its pairs. -/
def scan (order : List (Ptr × Ptr)) (e : Ptr) : Option Ptr :=
  match order with
  | [] => none
  | it :: order => if it.1 = e then some it.2 else if it.2 = e then some it.1 else scan order e

/-- `src/levenshtein.cpp:64-69` — the number of values of the cell type, `unsigned char`, `unsigned short` or `unsigned int`. -/
def cellSize (n m : Nat) : Nat :=
  if n < 255 ∧ m < 255 then 256 else if n < 65535 ∧ m < 65535 then 65536 else 4294967296

/-- `cell + 1` inside an expression: `unsigned char` and `unsigned short` are promoted to `int`, `unsigned int` wraps. -/
def succ (w x : Nat) : Nat := if w = 4294967296 then (x + 1) % w else x + 1

/-- `include/levenshteinMatrice.hpp:100` — `chCost`, of type `T`; `cost` is `areSimilar() ? 0 : result()` of the children. -/
def chCost (w diag cost : Nat) : Nat := (diag + cost) % w

/-- `include/levenshteinMatrice.hpp:102-103` — the change is taken. -/
def takes (w ch up left : Nat) : Bool := decide (ch ≤ succ w up) && decide (ch ≤ succ w left)

/-- `include/levenshteinMatrice.hpp:76-113` — the cell `matrice[i][j]`: the array as a function of the indices. -/
def cell (w : Nat) (cost : Nat → Nat → Nat) : Nat → Nat → Nat
  | 0, j => j % w
  | i + 1, 0 => (i + 1) % w
  | i + 1, j + 1 =>
    let up := cell w cost i (j + 1)
    let left := cell w cost (i + 1) j
    let ch := chCost w (cell w cost i j) (cost i j)
    if takes w ch up left then ch else succ w (min up left) % w
termination_by i j => i + j

/-- `include/levenshteinMatrice.hpp:102-108` — `subMatrice[i][j]` is kept (not null). -/
def kept (w : Nat) (cost : Nat → Nat → Nat) (i j : Nat) : Bool :=
  takes w (chCost w (cell w cost i j) (cost i j)) (cell w cost i (j + 1)) (cell w cost (i + 1) j)

/-- One turn of the loop of `shortestPath`: a child of one side only, or a pair of children (numbers from 0). -/
inductive Step where
  | dropLeft (i : Nat)
  | dropRight (j : Nat)
  | pair (i j : Nat) (op : Op)
deriving Repr, DecidableEq

/-- `include/levenshteinMatrice.hpp:163-213` — the turns of the loop of `shortestPath`, from `(_i, _j)` on. `none`: `subMatrice` is null
(`:201`). The branches `:211-222` are never reached. -/
def trace (w : Nat) (cost : Nat → Nat → Nat) : Nat → Nat → Option (List Step)
  | 0, 0 => some []
  | i + 1, 0 => (trace w cost i 0).map (.dropLeft i :: ·)
  | 0, j + 1 => (trace w cost 0 j).map (.dropRight j :: ·)
  | i + 1, j + 1 =>
    if cell w cost (i + 1) (j + 1) > cell w cost i (j + 1) then (trace w cost i (j + 1)).map (.dropLeft i :: ·)
    else if cell w cost (i + 1) (j + 1) > cell w cost (i + 1) j then (trace w cost (i + 1) j).map (.dropRight j :: ·)
    else if kept w cost i j then
      (trace w cost i j).map
        (.pair i j (if cell w cost (i + 1) (j + 1) = cell w cost i j then .equ else .mod) :: ·)
    else none
termination_by i j => i + j

/-- `include/levenshteinMatrice.hpp:171-211` — what one turn of the loop does to the two maps. -/
def applyStep (pa pb : Path) (sub : Nat → Nat → Table) (acc : List (Ptr × Op) × List (Ptr × Ptr)) :
    Step → List (Ptr × Op) × List (Ptr × Ptr)
  | .dropLeft i => (setKey acc.1 (.left (pa ++ [i])) .add, acc.2)
  | .dropRight j => (setKey acc.1 (.right (pb ++ [j])) .add, acc.2)
  | .pair i j op =>
    let ops := setKey (setKey acc.1 (.right (pb ++ [j])) op) (.left (pa ++ [i])) op
    (setAll ops (sub i j).operations,
      setKey (setAll acc.2 (sub i j).equivalences) (.left (pa ++ [i])) (.right (pb ++ [j])))

/-- `include/levenshteinMatrice.hpp:116` — `1 - (matrice[n][m] / std::max(n, m))` in `size_t`; it is then stored in a `float`,
which keeps it 0, or at least 1. -/
def relative (dist n m : Nat) : Nat := (18446744073709551616 + 1 - dist / max n m) % 18446744073709551616

/-- `include/levenshteinMatrice.hpp:66-121` (`build<T>`), `:141-154` (`addRoot`), `src/levenshtein.cpp:54-72`: two containers at `pa`, `pb` with
`n` and `m` children, whose children compare as `sub`. -/
def containers (pa pb : Path) (n m : Nat) (sub : Nat → Nat → Table) : Option Table :=
  let w := cellSize n m
  let cost := fun i j => if (sub i j).similar then 0 else (sub i j).result
  let dist := cell w cost n m
  if max n m = 0 then none
  else if relative dist n m = 0 then
    some { similar := false, result := dist
           operations := setKey (setKey [] (.left pa) .add) (.right pb) .add, equivalences := [] }
  else match trace w cost n m with
    | none => none
    | some steps =>
      let (ops, eqs) := steps.foldl (applyStep pa pb sub) ([], [])
      some { similar := true, result := dist
             operations := setKey (setKey ops (.right pb) .equ) (.left pa) .equ
             equivalences := setKey (setKey eqs (.left pa) (.right pb)) (.right pb) (.left pa) }

/-- `src/levenshtein.cpp:73-86` — one container (`c`, with `size` children) and something else (`o`): `LevenshteinMatrice_manual`. -/
def manual (c o : Ptr) (size : Nat) : Table :=
  { similar := false, result := size + 1, operations := setKey (setKey [] c .rem) o .add, equivalences := [] }

/-- `src/levenshtein.cpp:171-185`, `:187-210` — `LevenshteinMatriceWithScore`; `s` is `score > LEVENSHTEIN_SENSIBILITY`. -/
def score (s : Bool) (a b : Ptr) (sameType : Bool) : Table :=
  { similar := s, result := if s then 0 else 1
    operations :=
      if sameType then setKey (setKey [] b (if s then .equ else .mod)) a (if s then .equ else .mod)
      else setKey (setKey [] b .add) a .add
    equivalences := if sameType then [(a, b)] else [] }

/-- `src/jsonPrimitive.cpp:49-65` — `getTypeStr()` of a primitive. -/
def typeStr : Json → Bytes
  | .str _ => b!"str"
  | .null => b!"null"
  | .bool _ => b!"bool"
  | .int _ => b!"number"
  | .long _ => b!"number"
  | .dbl _ => b!"number"
  | .arr _ => []
  | .obj _ => []

/-- A table as a function of the two indices (rows out of range do not occur). -/
def atIndex (t : List (List Table)) (i j : Nat) : Table :=
  ((t[i]?).bind (·[j]?)).getD ⟨false, 0, [], []⟩

/-- A row of comparisons; `none` as soon as one of them is undefined behaviour (`include/levenshteinMatrice.hpp:97`). -/
def row (f : Nat → Elem → Option Table) : Nat → List Elem → Option (List Table)
  | _, [] => some []
  | j, y :: ys => (f j y).bind fun t => (row f (j + 1) ys).map (t :: ·)

/-- `src/levenshtein.cpp:73-101` — comparison of a primitive `a` with any element. -/
def primitive (fmt : Bytes → Bytes) (a : Json) (pa : Path) (b : Elem) (pb : Path) : Table :=
  match b with
  | .entry _ _ => score false (.left pa) (.right pb) false
  | .value v =>
    if v.isContainer then manual (.right pb) (.left pa) (Elem.kids (.value v)).length
    else score (percentSimilar (a.stringify fmt) (v.stringify fmt)) (.left pa) (.right pb) (decide (typeStr a = typeStr v))

/-- `src/levenshtein.cpp:89-101` — comparison of an entry with key `k` with any element; `same` compares the two values when the keys agree. -/
def entryWith (k : Bytes) (pa : Path) (b : Elem) (pb : Path) (same : Json → Option Table) : Option Table :=
  match b with
  | .entry k' v' => if k = k' then same v' else some (score false (.left pa) (.right pb) true)
  | .value v =>
    if v.isContainer then some (manual (.right pb) (.left pa) (Elem.kids (.value v)).length)
    else some (score false (.left pa) (.right pb) false)

mutual

/-- `src/levenshtein.cpp:49-103` — `Builder::build` for a value of the first document (at `pa`) and an element of the second one
(at `pb`). -/
def build (fmt : Bytes → Bytes) (a : Json) (pa : Path) (b : Elem) (pb : Path) : Option Table :=
  match a with
  | .arr xs =>
    if b.isContainer then
      (buildItems fmt xs pa 0 b.kids pb).bind fun t => containers pa pb xs.length b.kids.length (atIndex t)
    else some (manual (.left pa) (.right pb) xs.length)
  | .obj es =>
    if b.isContainer then
      (buildEntries fmt es pa 0 b.kids pb).bind fun t => containers pa pb es.length b.kids.length (atIndex t)
    else some (manual (.left pa) (.right pb) es.length)
  | .str s => some (primitive fmt (.str s) pa b pb)
  | .bool x => some (primitive fmt (.bool x) pa b pb)
  | .null => some (primitive fmt .null pa b pb)
  | .int i => some (primitive fmt (.int i) pa b pb)
  | .long i => some (primitive fmt (.long i) pa b pb)
  | .dbl s => some (primitive fmt (.dbl s) pa b pb)

/-- `include/levenshteinMatrice.hpp:92-97` — the comparisons of the items from number `i` on with all the children `ys`. -/
def buildItems (fmt : Bytes → Bytes) (xs : List Json) (pa : Path) (i : Nat) (ys : List Elem) (pb : Path) : Option (List (List Table)) :=
  match xs with
  | [] => some []
  | x :: xs =>
    (row (fun j y => build fmt x (pa ++ [i]) y (pb ++ [j])) 0 ys).bind fun r =>
      (buildItems fmt xs pa (i + 1) ys pb).map (r :: ·)

/-- The same for the entries of an object. -/
def buildEntries (fmt : Bytes → Bytes) (es : List (Bytes × Json)) (pa : Path) (i : Nat) (ys : List Elem) (pb : Path) :
    Option (List (List Table)) :=
  match es with
  | [] => some []
  | (k, v) :: es =>
    (row (fun j y => entryWith k (pa ++ [i]) y (pb ++ [j])
        (fun v' => build fmt v (pa ++ [i, 0]) (.value v') (pb ++ [j, 0]))) 0 ys).bind fun r =>
      (buildEntries fmt es pa (i + 1) ys pb).map (r :: ·)

end

/-- `src/levenshtein.cpp:49-103` — `Builder::build` for any two elements. -/
def buildE (fmt : Bytes → Bytes) (a : Elem) (pa : Path) (b : Elem) (pb : Path) : Option Table :=
  match a with
  | .value v => build fmt v pa b pb
  | .entry k v => entryWith k pa b pb (fun v' => build fmt v (pa ++ [0]) (.value v') (pb ++ [0]))

/-- `src/curseSplitOutput.cpp:75-83` — the comparison of two documents. -/
def diff (fmt : Bytes → Bytes) (a b : Json) : Option Table := build fmt a [] (.value b) []

end Verif.Model.Diff
