import Verif.Py

/-!
# Model of `cocotbext/axi/sparse_memory.py`
-/

namespace Verif

/-- `SparseMemory` objects (sparse_memory.py 28-31): the declared size and the dict from block address to
block. Simplifications: the dict is a partial function; `size` is a natural number. -/
structure SparseMemory where
  size : Nat
  segs : Nat → Option Bytes

namespace SparseMemory

/-- `SparseMemory.__init__` (sparse_memory.py 29-31). -/
def init (size : Nat) : SparseMemory := { size := size, segs := fun _ => none }

/-- The dict assignment `self.segs[k] = block` (sparse_memory.py 68-69). -/
def setSeg (m : SparseMemory) (k : Nat) (b : Bytes) : SparseMemory :=
  { m with segs := fun i => if i = k then some b else m.segs i }

/-- A fresh block, `b'\x00'*4096` / `bytearray(4096)` (sparse_memory.py 48, 68). -/
def zeroBlock : Bytes := List.replicate 4096 0

/-- `try: block = self.segs[block_addr] except KeyError: ...` (sparse_memory.py 45-48, 65-69). -/
def getBlock (m : SparseMemory) (k : Nat) : Bytes :=
  match m.segs k with
  | some b => b
  | none => zeroBlock

/-- The `while length > 0` loop of `read` (sparse_memory.py 41-51); returns the bytes appended to `data`.
`address & 0xfff` is `address % 4096`. -/
def readLoop (m : SparseMemory) (address length : Nat) : Bytes :=
  if _h : 0 < length then
    let block_offset := address % 4096
    let block_addr := address - block_offset
    let block_len := min (4096 - block_offset) length
    let block := m.getBlock block_addr
    pySlice block block_offset (block_offset + block_len)
      ++ readLoop m (address + block_len) (length - block_len)
  else []
termination_by length
decreasing_by
  have : address % 4096 < 4096 := Nat.mod_lt _ (by decide)
  omega

/-- `SparseMemory.read` (sparse_memory.py 33-52). -/
def read (m : SparseMemory) (address length : Int) : Py Bytes :=
  if address < 0 ∨ address ≥ m.size then .error .valueError
  else if length < 0 then .error .valueError
  else if address + length > m.size then .error .valueError
  else .ok (readLoop m address.toNat length.toNat)

/-- The `while length > 0` loop of `write` (sparse_memory.py 61-73). -/
def writeLoop (m : SparseMemory) (address offset length : Nat) (data : Bytes) : SparseMemory :=
  if _h : 0 < length then
    let block_offset := address % 4096
    let block_addr := address - block_offset
    let block_len := min (4096 - block_offset) length
    let block := m.getBlock block_addr
    let block := pySliceAssign block block_offset (block_offset + block_len)
      (pySlice data offset (offset + block_len))
    writeLoop (m.setSeg block_addr block) (address + block_len) (offset + block_len)
      (length - block_len) data
  else m
termination_by length
decreasing_by
  have : address % 4096 < 4096 := Nat.mod_lt _ (by decide)
  omega

/-- `SparseMemory.write` (sparse_memory.py 54-73) for `bytes`-like data. -/
def write (m : SparseMemory) (address : Int) (data : Bytes) : Py Unit × SparseMemory :=
  if address < 0 ∨ address ≥ m.size then (.error .valueError, m)
  else if address + data.length > m.size then (.error .valueError, m)
  else (.ok (), writeLoop m address.toNat 0 data.length data)

/-- `SparseMemory.clear` (sparse_memory.py 75-76). -/
def clear (m : SparseMemory) : SparseMemory := { m with segs := fun _ => none }

/-- `SparseMemory.__getitem__` with an `int` key (sparse_memory.py 90-92). -/
def getItem (m : SparseMemory) (key : Int) : Py UInt8 :=
  match m.read key 1 with
  | .error e => .error e
  | .ok d => match d[0]? with
    | some b => .ok b
    | none => .error .indexError

/-- A Python slice object `start:stop:step` (`key` of sparse_memory.py 90-111). -/
structure Slice where
  start : Option Int
  stop : Option Int
  step : Option Int

/-- `SparseMemory.__getitem__` with a slice key (sparse_memory.py 93-98). `slice.indices` raises
`ValueError` for step 0; the bounds for a step other than 1 are irrelevant here as that case raises. -/
def getSlice (m : SparseMemory) (s : Slice) : Py Bytes :=
  match s.step with
  | some 0 => .error .valueError
  | _ =>
    let start := sliceBound s.start 0 m.size
    let stop := sliceBound s.stop m.size m.size
    if s.step = none ∨ s.step = some 1 then m.read start ((stop : Int) - start)
    else .error .indexError

/-- `SparseMemory.__setitem__` with an `int` key (sparse_memory.py 100-102): `self.write(key, [value])`.
A value outside `range(256)` makes the slice assignment of line 70 raise `ValueError` after the block has
been created (lines 66-69). -/
def setItem (m : SparseMemory) (key : Int) (value : Int) : Py Unit × SparseMemory :=
  if key < 0 ∨ key ≥ m.size then (.error .valueError, m)
  else if key + 1 > m.size then (.error .valueError, m)
  else match toByte value with
    | .ok b => m.write key [b]
    | .error e =>
      let block_addr := key.toNat - key.toNat % 4096
      match m.segs block_addr with
      | some _ => (.error e, m)
      | none => (.error e, m.setSeg block_addr zeroBlock)

/-- `SparseMemory.__setitem__` with a slice key (sparse_memory.py 103-111); `value` has already been
converted to `bytes` (line 106). -/
def setSlice (m : SparseMemory) (s : Slice) (value : Bytes) : Py Unit × SparseMemory :=
  match s.step with
  | some 0 => (.error .valueError, m)
  | _ =>
    let start := sliceBound s.start 0 m.size
    let stop := sliceBound s.stop m.size m.size
    if s.step = none ∨ s.step = some 1 then
      if (stop : Int) - start ≠ value.length then (.error .indexError, m)
      else m.write start value
    else (.error .indexError, m)

end SparseMemory
end Verif
