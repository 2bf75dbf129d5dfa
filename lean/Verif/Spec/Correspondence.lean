import Verif.Model.Element
import Verif.Spec.JsonTree
import Verif.Spec.EditDistance
/-!
# Specification: alignments of two sequences, correspondences of two trees
-/
namespace Verif.Spec
open Verif.Model

/-- `Align cost n m pairs t`: an order-preserving alignment of `n` children with `m` children, of total cost `t`: a child left alone costs 1,
the child number `i` (from 0) facing the child number `j` costs `cost i j`; `pairs` lists the children facing each other. -/
inductive Align (cost : Nat → Nat → Nat) : Nat → Nat → List (Nat × Nat) → Nat → Prop where
  | done : Align cost 0 0 [] 0
  | aloneLeft {i j t : Nat} {l : List (Nat × Nat)} : Align cost i j l t → Align cost (i + 1) j l (t + 1)
  | aloneRight {i j t : Nat} {l : List (Nat × Nat)} : Align cost i j l t → Align cost i (j + 1) l (t + 1)
  | facing {i j t : Nat} {l : List (Nat × Nat)} : Align cost i j l t → Align cost (i + 1) (j + 1) ((i, j) :: l) (t + cost i j)

/-- The least cost of an alignment of `n` children with `m` children. -/
def Least (cost : Nat → Nat → Nat) (n m d : Nat) : Prop := (∃ l, Align cost n m l d) ∧ ∀ l d', Align cost n m l d' → d ≤ d'

/-- A correspondence between the positions of two documents that respects the tree structure: one-to-one, a pair lies below
a pair, and children facing each other below the same pair are in the same order on both sides. -/
structure TreeMatching (R : Path → Path → Prop) : Prop where
  left_unique : ∀ {p q q'}, R p q → R p q' → q = q'
  right_unique : ∀ {p p' q}, R p q → R p' q → p = p'
  parents : ∀ {p q}, R p q → (p = [] ∧ q = []) ∨ ∃ p' i q' j, p = p' ++ [i] ∧ q = q' ++ [j] ∧ R p' q'
  ordered : ∀ {p q i j i' j'}, R (p ++ [i]) (q ++ [j]) → R (p ++ [i']) (q ++ [j']) → (i < i' ↔ j < j')

/-- Primitives of the same JSON type. -/
def sameKind : Json → Json → Bool
  | .str _, .str _ => true
  | .bool _, .bool _ => true
  | .null, .null => true
  | .int _, .int _ => true
  | .int _, .long _ => true
  | .int _, .dbl _ => true
  | .long _, .int _ => true
  | .long _, .long _ => true
  | .long _, .dbl _ => true
  | .dbl _, .int _ => true
  | .dbl _, .long _ => true
  | .dbl _, .dbl _ => true
  | _, _ => false

/-- What "equal" amounts to in a difference table, given the displayed `text` of a primitive: two containers; two entries with the same
key; two primitives of the same type whose texts are equal or less than 30% of the longer one apart (nothing about texts of 16 MiB and more). -/
def Resembles (text : Json → Bytes) : Elem → Elem → Prop
  | .entry k _, .entry k' _ => k = k'
  | .value v, .value v' =>
    (IsContainer v ∧ IsContainer v') ∨
    (sameKind v v' = true ∧ (max (text v).length (text v').length < 2 ^ 24 →
      text v = text v' ∨ ∃ n, Edits n (text v) (text v') ∧ 10 * n < 3 * max (text v).length (text v').length))
  | _, _ => False

/-- Two texts that count as the same: equal, or less than 30% of the longer one apart. -/
def Near (t t' : Bytes) : Prop := t = t' ∨ ∃ n, Edits n t t' ∧ 10 * n < 3 * max t.length t'.length

/-- `Facing text x y c`: two children facing each other cost `c`, given the displayed `text` of a primitive. Primitives cost 1, or nothing if their texts are near; entries with the same key cost what their
values cost, other entries 1, an entry and a primitive 1; a container and something else one more than the container has children. Two containers, whose children `cost` as said here, cost what the
cheapest alignment of these children costs, but nothing if that is less than the larger number of children. (Nor if it is twice this number, and nothing is aligned: a defect.) -/
inductive Facing (text : Json → Bytes) : Elem → Elem → Nat → Prop where
  | near {v v' : Json} : ¬ IsContainer v → ¬ IsContainer v' → Near (text v) (text v') → Facing text (.value v) (.value v') 0
  | far {v v' : Json} : ¬ IsContainer v → ¬ IsContainer v' → ¬ Near (text v) (text v') → Facing text (.value v) (.value v') 1
  | sameKey {k : Bytes} {v v' : Json} {c : Nat} : Facing text (.value v) (.value v') c → Facing text (.entry k v) (.entry k v') c
  | otherKey {k k' : Bytes} {v v' : Json} : k ≠ k' → Facing text (.entry k v) (.entry k' v') 1
  | entryLeft {k : Bytes} {v v' : Json} : ¬ IsContainer v' → Facing text (.entry k v) (.value v') 1
  | entryRight {k : Bytes} {v v' : Json} : ¬ IsContainer v → Facing text (.value v) (.entry k v') 1
  | containerLeft {x y : Elem} : x.isContainer = true → y.isContainer = false → Facing text x y (x.kids.length + 1)
  | containerRight {x y : Elem} : x.isContainer = false → y.isContainer = true → Facing text x y (y.kids.length + 1)
  | containers {x y : Elem} {cost : Nat → Nat → Nat} {pairs : List (Nat × Nat)} {n : Nat} : x.isContainer = true → y.isContainer = true →
      (∀ (i j : Nat) (u w : Elem), x.kids[i]? = some u → y.kids[j]? = some w → Facing text u w (cost i j)) →
      Align cost x.kids.length y.kids.length pairs n → (∀ pairs' n', Align cost x.kids.length y.kids.length pairs' n' → n ≤ n') →
      Facing text x y (if n < max x.kids.length y.kids.length ∨ n = 2 * max x.kids.length y.kids.length then 0 else n)

/-- The limit of the numbers in the table of two containers with `n` and `m` children. -/
def cellLimit (n m : Nat) : Nat := if max n m < 255 then 256 else if max n m < 65535 then 65536 else 4294967296

/-- The sums in the tables of all containers of `a` and `b` at the same depth stay below the limit: whatever is added to the least cost `d` of the first `i` and the first `j` children (1 for a child left alone, or
the cost of the next two children facing each other). -/
def RoomFor (text : Json → Bytes) (a b : Elem) : Prop :=
  ∀ (p q : Path) (x y : Elem) (cost : Nat → Nat → Nat), p.length = q.length → a.at p = some x → b.at q = some y → x.isContainer = true → y.isContainer = true →
    (∀ (i j : Nat) (u w : Elem), x.kids[i]? = some u → y.kids[j]? = some w → Facing text u w (cost i j)) →
    x.kids.length + y.kids.length < 4294967296 ∧
    ∀ (i j d : Nat), i ≤ x.kids.length → j ≤ y.kids.length → Least cost i j d →
      d + 1 < cellLimit x.kids.length y.kids.length ∧ (i < x.kids.length → j < y.kids.length → d + cost i j < cellLimit x.kids.length y.kids.length)

/-- The texts of all primitives are shorter than 16 MiB. -/
def ShortTexts (text : Json → Bytes) (a : Elem) : Prop := ∀ p v, a.at p = some (.value v) → (text v).length < 2 ^ 24

end Verif.Spec
