import Verif.Spec.Accepted
import Verif.Model.Heap
/-!
# Specification: the values the reader loses

The productions of `Spec.Accepted`, without the warnings, and with the values that end an object in the place of its brace: they are read and belong to
no document. `lost` are these values, in the order of the text. A value that is removed later, because its key is repeated, is not lost: it is
destroyed, but what it lost inside stays lost.
-/
namespace Verif.Spec.Lost
open Verif.Model Verif.Spec Verif.Spec.Accepted

mutual
/-- A value: its text, what follows, the value, what is lost in it. -/
inductive Value (m : Mode) : (text rest : Bytes) → (value : Json) → (lost : List Json) → Prop
  | prim {t rest v ws} : Prim m t rest v ws → Value m t rest v []
  | arr0 {w rest} : Blank w → Value m (b!"[" ++ w ++ b!"]") rest (.arr []) []
  | arr {t rest vs ls} : Items m t rest vs ls → Value m (b!"[" ++ t) rest (.arr vs) ls
  | obj0 {w rest} : Blank w → Value m (b!"{" ++ w ++ b!"}") rest (.obj []) []
  | obj {t rest es ls} : Members m [] t rest es ls → Value m (b!"{" ++ t) rest (.obj (arranged m es)) ls
/-- The items of an array and the closing bracket. -/
inductive Items (m : Mode) : (text rest : Bytes) → (values : List Json) → (lost : List Json) → Prop
  | last {w1 t w2 rest v ls} : Blank w1 → Value m t (w2 ++ b!"]" ++ rest) v ls → Blank w2 → Items m (w1 ++ t ++ w2 ++ b!"]") rest [v] ls
  | more {w1 t w2 u rest v ls vs ls'} : Blank w1 → Value m t (w2 ++ b!"," ++ u ++ rest) v ls → Blank w2 → Items m u rest vs ls' →
      Items m (w1 ++ t ++ w2 ++ b!"," ++ u) rest (v :: vs) (ls ++ ls')
/-- The members of an object and what closes it; `seen` are the keys before. -/
inductive Members (m : Mode) : (seen : List Bytes) → (text rest : Bytes) → (entries : List (Bytes × Json)) → (lost : List Json) → Prop
  | last {seen w1 key k wk w2 w3 t w4 rest v ls} : Blank w1 → Chars m key k wk → Blank w2 → (m.strict = true → k ∉ seen) → Blank w3 →
      Value m t (w4 ++ b!"}" ++ rest) v ls → Blank w4 →
      Members m seen (w1 ++ [c%'"'] ++ key ++ [c%'"'] ++ w2 ++ b!":" ++ w3 ++ t ++ w4 ++ b!"}") rest [(k, v)] ls
  /-- the value `v'` is lost -/
  | stray {seen w1 key k wk w2 w3 t w4 e rest v ls v' we} : Blank w1 → Chars m key k wk → Blank w2 → (m.strict = true → k ∉ seen) → Blank w3 →
      Value m t (w4 ++ e ++ rest) v ls → Blank w4 → Prim m e rest v' we →
      Members m seen (w1 ++ [c%'"'] ++ key ++ [c%'"'] ++ w2 ++ b!":" ++ w3 ++ t ++ w4 ++ e) rest [(k, v)] (ls ++ [v'])
  | more {seen w1 key k wk w2 w3 t w4 c u rest v ls es ls'} : Blank w1 → Chars m key k wk → Blank w2 → (m.strict = true → k ∉ seen) → Blank w3 →
      Value m t (w4 ++ [c] ++ u ++ rest) v ls → Blank w4 → c ∈ b!",:[]{" → Members m (k :: seen) u rest es ls' →
      Members m seen (w1 ++ [c%'"'] ++ key ++ [c%'"'] ++ w2 ++ b!":" ++ w3 ++ t ++ w4 ++ [c] ++ u) rest ((k, v) :: es) (ls ++ ls')
end

/-- The objects there are, in the order of their addresses (that is, in which they were made), are primitives with these values. -/
def Left (mem : Heap.Mem) (lost : List Json) : Prop :=
  ∃ addresses : List Nat, addresses.Pairwise (· < ·) ∧ (∀ x, mem.get x ≠ none ↔ x ∈ addresses) ∧
    addresses.map (fun x => (mem.get x).map Heap.Obj.body) = lost.map (fun v => some (.prim v))

end Verif.Spec.Lost
