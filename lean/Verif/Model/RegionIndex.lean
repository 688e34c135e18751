import Verif.Model.AddressSpace

/-!
# Model of indexing memory regions, `cocotbext/axi/address_space.py` lines 210-217 and 242-246

The index operations of a region are those of its `mem` object: a `SparseMemory` (sparse_memory.py 90-111) or a buffer such as `mmap`, whose
item access is that of CPython's `mmap` object.
-/

namespace Verif

open SparseMemory (Slice)

/-- One bound of a slice of an object of length `n` as CPython adjusts it (`PySlice_Unpack`, `PySlice_AdjustIndices`), for `self.mem[key]` of
address_space.py 211 and 214; `down` says whether the step is negative, `first` whether this is the start. -/
def adjustBound (down first : Bool) (n : Nat) : Option Int → Int
  | none => if down = first then (if down then (n : Int) - 1 else n) else if down then -1 else 0
  | some x =>
    if x < 0 then (if x + n < 0 then (if down then -1 else 0) else x + n)
    else if (n : Int) ≤ x then (if down then (n : Int) - 1 else n) else x

/-- The number of positions from `start` (inclusive) to `stop` (exclusive) with the step (`PySlice_AdjustIndices`, for address_space.py 211 and 214). -/
def sliceCount (start stop step : Int) : Nat :=
  if step < 0 then (if stop < start then ((start - stop - 1) / (-step)).toNat + 1 else 0)
  else if start < stop then ((stop - start - 1) / step).toNat + 1 else 0

/-- The positions that a slice of an object of length `n` designates, in order; step 0 raises `ValueError` (for address_space.py 211 and 214). -/
def slicePositions (n : Nat) (s : Slice) : Py (List Nat) :=
  let step := s.step.getD 1
  if step = 0 then .error .valueError
  else
    let start := adjustBound (decide (step < 0)) true n s.start
    let stop := adjustBound (decide (step < 0)) false n s.stop
    .ok ((List.range (sliceCount start stop step)).map fun i => (start + (i : Nat) * step).toNat)

/-- Storing values at positions one by one (for address_space.py 214). -/
def putAll : List Nat → Bytes → Bytes → Bytes
  | p :: ps, v :: vs, b => putAll ps vs (b.set p v)
  | _, _, b => b

namespace Backing

/-- `self.mem[key]` with an `int` key (address_space.py 211, 243). For `mmap` a negative index counts from the end, and outside the buffer
`IndexError` is raised. -/
def getItem (bk : Backing) (key : Int) : Py UInt8 :=
  match bk with
  | .sparse m => m.getItem key
  | .buf b =>
    let i := if key < 0 then key + b.length else key
    if i < 0 then .error .indexError
    else match b[i.toNat]? with
      | some v => .ok v
      | none => .error .indexError

/-- `self.mem[key]` with a slice key (address_space.py 211, 243). -/
def getKey (bk : Backing) (s : Slice) : Py Bytes :=
  match bk with
  | .sparse m => m.getSlice s
  | .buf b =>
    match slicePositions b.length s with
    | .error e => .error e
    | .ok ps => .ok (ps.map fun p => b.getD p 0)

/-- `self.mem[key] = value` with an `int` key (address_space.py 214, 246). `mmap` checks the index before the value. -/
def setItem (bk : Backing) (key value : Int) : Py Unit × Backing :=
  match bk with
  | .sparse m =>
    let r := m.setItem key value
    (r.1, .sparse r.2)
  | .buf b =>
    let i := if key < 0 then key + b.length else key
    if i < 0 ∨ i ≥ b.length then (.error .indexError, bk)
    else match toByte value with
      | .error e => (.error e, bk)
      | .ok v => (.ok (), .buf (b.set i.toNat v))

/-- `self.mem[key] = value` with a slice key and bytes (address_space.py 214, 246). `mmap` raises `IndexError` when the length differs from the
number of positions. -/
def setKey (bk : Backing) (s : Slice) (value : Bytes) : Py Unit × Backing :=
  match bk with
  | .sparse m =>
    let r := m.setSlice s value
    (r.1, .sparse r.2)
  | .buf b =>
    match slicePositions b.length s with
    | .error e => (.error e, bk)
    | .ok ps =>
      if ps.length ≠ value.length then (.error .indexError, bk)
      else (.ok (), .buf (putAll ps value b))

end Backing

/-- Iterating over an object that has `__getitem__` but not `__iter__`, as regions (address_space.py 210-211, 242-243) and sparse memories
(sparse_memory.py 90-98) are: Python asks for the items from index `i` on until `IndexError`; another exception ends the loop with it. -/
inductive Iterates (get : Int → Py UInt8) : Nat → Py Bytes → Prop
  | stop {i : Nat} (h : get i = .error .indexError) : Iterates get i (.ok [])
  | raise {i : Nat} {e : PyErr} (h : get i = .error e) (he : e ≠ .indexError) : Iterates get i (.error e)
  | item {i : Nat} {b : UInt8} {d : Bytes} (h : get i = .ok b) (t : Iterates get (i + 1) (.ok d)) : Iterates get i (.ok (b :: d))
  | later {i : Nat} {b : UInt8} {e : PyErr} (h : get i = .ok b) (t : Iterates get (i + 1) (.error e)) : Iterates get i (.error e)

/-- `region[key]` of a `MemoryRegion` or `SparseMemoryRegion` over memory object `k` (address_space.py 210-211, 242-243). -/
def regionGetItem (k : Nat) (key : Int) (h : Heap) : Py UInt8 := (h k).getItem key

/-- `region[start:stop:step]` (address_space.py 210-211, 242-243). -/
def regionGetSlice (k : Nat) (s : Slice) (h : Heap) : Py Bytes := (h k).getKey s

/-- `region[key] = value` (address_space.py 213-214, 245-246). -/
def regionSetItem (k : Nat) (key value : Int) (h : Heap) : Py Unit × Heap :=
  let r := (h k).setItem key value
  (r.1, h.set k r.2)

/-- `region[start:stop:step] = value` (address_space.py 213-214, 245-246). -/
def regionSetSlice (k : Nat) (s : Slice) (value : Bytes) (h : Heap) : Py Unit × Heap :=
  let r := (h k).setKey s value
  (r.1, h.set k r.2)

/-- `bytes(region)` of a `MemoryRegion` over a buffer (address_space.py 216-217). Over a sparse memory `bytes(self.mem)` iterates over it; see
`Iterates`. -/
def regionBytes (k : Nat) (h : Heap) : Option Bytes :=
  match h k with
  | .sparse _ => none
  | .buf b => some b

end Verif
