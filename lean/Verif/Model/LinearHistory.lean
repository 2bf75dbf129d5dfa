import Verif.Model.Basic
import Verif.Model.WrappedBuffer
/-!
# Model of `src/linearHistory.cpp` (the error context of the reader)
-/
namespace Verif.Model

/-- `include/config.h:10-12` — `ERROR_HISTORY_LEN`. -/
abbrev errorHistoryLen : Nat := 45

/-- `include/linearHistory.hh:12-39` — `class LinearHistory: public WrappedBuffer<char, ERROR_HISTORY_LEN>`.
`unsigned int line` is an unbounded natural number here (it would wrap around after `2^32` lines). -/
structure LHist where
  buf : WBuf Byte errorHistoryLen
  willReset : Bool
  line : Nat
deriving Repr, DecidableEq

namespace LHist

/-- `src/linearHistory.cpp:9-10` — constructor; the memory of the ring buffer is uninitialised (`junk*`). -/
def init (junkBuf : List Byte) (junkWritten : Nat) : LHist :=
  { buf := WBuf.init junkBuf junkWritten, willReset := false, line := 1 }

/-- `src/linearHistory.cpp:15-16` — `currentLine()`. -/
def currentLine (h : LHist) : Nat := h.line

/-- `include/wrappedBuffer.hpp:78-80` — `totalSize()`, shown as the column. -/
def totalSize (h : LHist) : Nat := h.buf.totalSize

/-- `include/wrappedBuffer.hpp:168-192` — `toString()`, shown as the context. -/
def toString (h : LHist) : Bytes := h.buf.toString

/-- `src/linearHistory.cpp:20-25` and `:34-39` — the pending reset at the start of both `put`s. -/
def flush (h : LHist) : LHist :=
  if h.willReset then { buf := h.buf.reset, willReset := false, line := h.line + 1 } else h

/-- `src/linearHistory.cpp:18-30` — `put(char item)`. -/
def put (h : LHist) (c : Byte) : LHist :=
  let h := h.flush
  if c = c%'\n' ∨ c = c%'\r' then { h with willReset := true }
  else { h with buf := h.buf.put c }

/-- `include/wrappedBuffer.hpp:142-158` — inherited `pop_back()`: it does not look at `willReset`. -/
def popBack (h : LHist) : LHist := { h with buf := h.buf.popBack }

/-- `src/linearHistory.cpp:40-56` — the search loop: index of the first newline among the first `count`
characters. `none` in the outer option: the loop read past the end of the memory `mem` (undefined
behaviour). -/
def findNl : (mem : List Byte) → (count : Nat) → Option (Option Nat)
  | _, 0 => some none
  | [], _ + 1 => none
  | c :: mem, count + 1 =>
    if c = c%'\n' then some (some 0)
    else match findNl mem count with
      | none => none
      | some none => some none
      | some (some i) => some (some (i + 1))

/-- `src/linearHistory.cpp:32-58` — `put(char items[], unsigned int count)`. `mem` is all the memory that may be
read from `items` on; `none` is undefined behaviour (a read outside `mem`). The recursive call of line
47 passes `count - i` characters from `&items[i + 1]`. The call depth is bounded by the memory (`fuel`). -/
def putNAux : (fuel : Nat) → LHist → (mem : List Byte) → (count : Nat) → Option LHist
  | 0, _, _, _ => none
  | fuel + 1, h, mem, count =>
    let h := h.flush
    match findNl mem count with
    | none => none
    | some none => some { h with buf := h.buf.putN (mem.take count) }
    | some (some i) =>
      if i < count - 1 then putNAux fuel { h with willReset := true } (mem.drop (i + 1)) (count - i)
      else some { h with willReset := true }

/-- `src/linearHistory.cpp:32-58` — the batch `put` with enough fuel for every memory. -/
def putN (h : LHist) (mem : List Byte) (count : Nat) : Option LHist := putNAux (mem.length + 1) h mem count

end LHist
end Verif.Model
