/-!
# Model of `include/wrappedBuffer.hpp` (the ring buffer)

`T buffer[SIZE]` is a list of length `SIZE`; `int curR, curW` are integers; `unsigned int written` is a
natural number below `2^32` with wrap-around. The constructor leaves `buffer` and `written`
uninitialised: both start as parameters (`junk`).
-/
namespace Verif.Model

/-- `include/wrappedBuffer.hpp:18-60` — the fields of `WrappedBuffer<T, SIZE>`. -/
structure WBuf (T : Type) (SIZE : Nat) where
  /-- `T buffer[SIZE]` -/
  buffer : List T
  /-- `int curR` -/
  curR : Int
  /-- `int curW` -/
  curW : Int
  /-- `unsigned int written` (kept reduced modulo `2^32`) -/
  written : Nat
deriving Repr, DecidableEq

namespace WBuf
variable {T : Type} {SIZE : Nat}

/-- `2^32`, the modulus of `unsigned int`. -/
def uintMod : Nat := 4294967296

/-- `include/wrappedBuffer.hpp:62-64` — constructor: `curR(0), curW(-1)`; `buffer` and `written` are not
initialised, so their contents are arbitrary (`junkBuf`, `junkWritten`). -/
def init (junkBuf : List T) (junkWritten : Nat) : WBuf T SIZE :=
  { buffer := junkBuf, curR := 0, curW := -1, written := junkWritten }

/-- `include/wrappedBuffer.hpp:70-76` — `reset()`. -/
def reset (b : WBuf T SIZE) : WBuf T SIZE :=
  { b with curR := 0, curW := -1, written := 0 }

/-- `include/wrappedBuffer.hpp:78-80` — `totalSize()`. -/
def totalSize (b : WBuf T SIZE) : Nat := b.written

/-- `include/wrappedBuffer.hpp:160-166` — `size()`. -/
def size (b : WBuf T SIZE) : Nat :=
  if b.curW = -1 then 0
  else if b.curR > b.curW then ((SIZE : Int) - b.curR + b.curW + 1).toNat
  else (b.curW - b.curR + 1).toNat

/-- `include/wrappedBuffer.hpp:82-106` — `put(T item)`. -/
def put (b : WBuf T SIZE) (item : T) : WBuf T SIZE :=
  let w := (b.written + 1) % uintMod
  if b.curW + 1 = (SIZE : Int) then
    { buffer := b.buffer.set 0 item, curR := 1, curW := 0, written := w }
  else if b.curW = -1 then
    { buffer := b.buffer.set 0 item, curR := SIZE, curW := 0, written := w }
  else
    let cw := b.curW + 1
    let buf := b.buffer.set cw.toNat item
    if b.curR = cw then
      let cr := b.curR + 1
      { buffer := buf, curR := if cr > (SIZE : Int) then 0 else cr, curW := cw, written := w }
    else
      { buffer := buf, curR := b.curR, curW := cw, written := w }

/-- `memcpy(&buffer[pos], items, n)`: overwrite `n` cells from `pos` on by the first `n` items. -/
def memcpy (buf : List T) (pos : Nat) (items : List T) (n : Nat) : List T :=
  buf.take pos ++ items.take n ++ buf.drop (pos + n)

/-- `include/wrappedBuffer.hpp:116-120` — `while (count > SIZE) { count -= SIZE; items += SIZE; }`.
The loop is bounded by the list length (`fuel`), which is enough because `SIZE > 0`. -/
def skipBlocks (SIZE : Nat) : Nat → List T → List T
  | 0, items => items
  | fuel + 1, items => if items.length > SIZE then skipBlocks SIZE fuel (items.drop SIZE) else items

/-- `include/wrappedBuffer.hpp:108-140` — `put(T items[], unsigned int count)` with `count = items.length`.
`size() + count` is taken without overflow of `unsigned int` (batches are at most 4 bytes in this program). -/
def putN (b : WBuf T SIZE) (items : List T) : WBuf T SIZE :=
  let newSize := b.size + items.length
  if items.length = 0 then b
  else
    let w := (b.written + items.length) % uintMod
    let items := skipBlocks SIZE items.length items
    let (buf, items, curW) :=
      if b.curW + items.length ≥ (SIZE : Int) then
        if b.curW + 1 ≠ (SIZE : Int) then
          let k := ((SIZE : Int) - b.curW - 1).toNat
          (memcpy b.buffer (b.curW + 1).toNat items k, items.drop k, (-1 : Int))
        else (b.buffer, items, (-1 : Int))
      else (b.buffer, items, b.curW)
    let buf := memcpy buf (curW + 1).toNat items items.length
    let curW := curW + items.length
    if curW = (SIZE : Int) then
      { buffer := buf, curR := 1, curW := 0, written := w }
    else if newSize ≥ SIZE then
      { buffer := buf, curR := (curW + 1) % (SIZE : Int), curW := curW, written := w }
    else
      { buffer := buf, curR := b.curR, curW := curW, written := w }

/-- `include/wrappedBuffer.hpp:142-158` — `pop_back()`. `written--` wraps around. -/
def popBack (b : WBuf T SIZE) : WBuf T SIZE :=
  let oldSize := b.size
  let w := (b.written + (uintMod - 1)) % uintMod
  if oldSize = 0 then { b with written := w }
  else if oldSize = 1 then { b with curW := -1, curR := 0, written := w }
  else
    let cw := b.curW - 1
    { b with curW := if cw < 0 then cw + SIZE else cw, written := w }

/-- `include/wrappedBuffer.hpp:168-192` — `toString()`: the first `for` loop reads
`buffer[from..curW]` when `curW >= from`, `buffer[from..SIZE-1]` otherwise; the `while` loop then reads
`buffer[0..curW]` as long as fewer than `size()` items were read. -/
def toString (b : WBuf T SIZE) : List T :=
  let size := b.size
  if size = 0 then []
  else
    let from_ : Int := if b.curR = (SIZE : Int) then 0 else b.curR
    let seg1 :=
      if b.curW ≥ from_ then (b.buffer.drop from_.toNat).take (b.curW - from_ + 1).toNat
      else b.buffer.drop from_.toNat
    let seg2 := b.buffer.take (min (b.curW + 1).toNat (size - seg1.length))
    seg1 ++ seg2

end WBuf
end Verif.Model
