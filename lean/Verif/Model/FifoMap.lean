/-!
# Model of `fifoMap` (`include/fifoMap.hpp`)

The `std::deque` is a list. `operator[]` returns a reference; `access` is a call whose result is read, `assign` a call whose result is
assigned to.
-/
namespace Verif.Model

variable {K V : Type} [DecidableEq K]

/-- `include/fifoMap.hpp:16-23` — `contains`. -/
def FifoMap.contains (m : List (K × V)) (k : K) : Bool :=
  match m with
  | [] => false
  | e :: m => if e.1 = k then true else FifoMap.contains m k

/-- `include/fifoMap.hpp:25-34` — `operator[]`: the map afterwards and the value of the reference (`V()` for a new key). -/
def FifoMap.access [Inhabited V] (m : List (K × V)) (k : K) : List (K × V) × V :=
  match m with
  | [] => ([(k, default)], default)
  | e :: m => if e.1 = k then (e :: m, e.2) else (e :: (FifoMap.access m k).1, (FifoMap.access m k).2)

/-- `include/fifoMap.hpp:25-34` — `m[k] = v`. -/
def FifoMap.assign (m : List (K × V)) (k : K) (v : V) : List (K × V) :=
  match m with
  | [] => [(k, v)]
  | e :: m => if e.1 = k then (e.1, v) :: m else e :: FifoMap.assign m k v

end Verif.Model
