import Verif.Model.Diff
/-! # Model of `OutputFlag` (`src/outputFlag.cpp`, `include/outputFlag.hh`) -/
namespace Verif.Model
open Verif.Model.Diff

/-- `include/outputFlag.hh:48-59`: the members. `short` has 16 bits. -/
structure OutputFlag where
  mode : BitVec 16
  type : Nat
  diffOp : Op
deriving Repr, DecidableEq

namespace OutputFlag

/-- `include/outputFlag.hh:60` — `MODE_SELECTED`. -/
def modeSelected : BitVec 16 := 1
/-- `include/outputFlag.hh:61` — `MODE_SEARCHED`. -/
def modeSearched : BitVec 16 := 2

/-- `src/outputFlag.cpp:28-29` — the constructor. -/
def new (m : BitVec 16) : OutputFlag := ⟨m, 0, .equ⟩

/-- `src/outputFlag.cpp:34-35` — `selected()`. -/
def selected (f : OutputFlag) : Bool := f.mode &&& modeSelected != 0

/-- `src/outputFlag.cpp:37-44` — `selected(v)`. -/
def setSelected (f : OutputFlag) (v : Bool) : OutputFlag :=
  { f with mode := if v then f.mode ||| modeSelected else f.mode &&& ~~~ modeSelected }

/-- `src/outputFlag.cpp:46-47` — `searched()`. -/
def searched (f : OutputFlag) : Bool := f.mode &&& modeSearched != 0

/-- `src/outputFlag.cpp:49-56` — `searched(v)`. -/
def setSearched (f : OutputFlag) (v : Bool) : OutputFlag :=
  { f with mode := if v then f.mode ||| modeSearched else f.mode &&& ~~~ modeSearched }

/-- `src/outputFlag.cpp:61-62` — `type(t)`. -/
def setType (f : OutputFlag) (t : Nat) : OutputFlag := { f with type := t }

/-- `src/outputFlag.cpp:67-68` — `diffOp(e)`. -/
def setDiffOp (f : OutputFlag) (e : Op) : OutputFlag := { f with diffOp := e }

end OutputFlag
end Verif.Model
