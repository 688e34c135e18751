import Verif.Model.AddressSpace

/-!
# Writing lists of integers, and `write_byte`

`write_byte(address, v)` is `write(address, [v])` (memory.py 57-58, address_space.py 119-120): the data are a list, not `bytes`. Every object
passes it on, and the memories treat it in different ways. Below, for each interface object, what its `write` does with a list.
-/

namespace Verif

/-- A coroutine `write(address, data)` for lists of integers. -/
abbrev ListWrite (σ : Type) := Int → List Int → σ → Py Unit × σ

/-- The `while length > 0` loop of `SparseMemory.write` (sparse_memory.py 61-73) on a list: the slice assignment (line 70) raises `ValueError` for
values outside `range(256)`, without effect, after the block has been created (lines 66-69). -/
def SparseMemory.writeListLoop (m : SparseMemory) (address offset length : Nat) (data : List Int) : Py Unit × SparseMemory :=
  if _h : 0 < length then
    let block_offset := address % 4096
    let block_addr := address - block_offset
    let block_len := min (4096 - block_offset) length
    let block := m.getBlock block_addr
    match pyBytes (pySlice data offset (offset + block_len)) with
    | .error e => (.error e, m.setSeg block_addr block)
    | .ok d =>
      let block := pySliceAssign block block_offset (block_offset + block_len) d
      writeListLoop (m.setSeg block_addr block) (address + block_len) (offset + block_len) (length - block_len) data
  else (.ok (), m)
termination_by length
decreasing_by
  have : address % 4096 < 4096 := Nat.mod_lt _ (by decide)
  omega

/-- `SparseMemory.write` with a list (sparse_memory.py 54-73). -/
def SparseMemory.writeList (m : SparseMemory) (address : Int) (data : List Int) : Py Unit × SparseMemory :=
  if address < 0 ∨ address ≥ m.size then (.error .valueError, m)
  else if address + data.length > m.size then (.error .valueError, m)
  else writeListLoop m address.toNat 0 data.length data

namespace ListWrite

variable {σ : Type}

/-- `MemoryInterface.write` (address_space.py 102-104). -/
def checked (size : Nat) (w : ListWrite σ) : ListWrite σ := fun address data st =>
  match Iface.checkRange size address data.length with
  | .error e => (.error e, st)
  | .ok () => w address data st

/-- `MemoryRegion` over memory object `k` (address_space.py 198-199). -/
def memoryRegion (size k : Nat) : ListWrite Heap := checked size fun address data h =>
  let r := (h k).setSliceList address (address + data.length) data
  (r.1, h.set k r.2)

/-- `SparseMemoryRegion` over memory object `k` (address_space.py 230-231). -/
def sparseMemoryRegion (size k : Nat) : ListWrite Heap := checked size fun address data h =>
  match h k with
  | .sparse m =>
    let r := m.writeList address data
    (r.1, h.set k (.sparse r.2))
  | .buf _ => (.error .attributeError, h)

/-- `Window` (address_space.py 169-170). -/
def window (parent : ListWrite σ) (offset : Int) (size : Nat) : ListWrite σ := checked size fun address data st =>
  match Iface.getParentAddress size offset address with
  | .error e => (.error e, st)
  | .ok a => parent a data st

/-- Body of the loop of `AddressSpace.write` (address_space.py 324-337); `w e` is the `write` of the region of entry `e`. -/
def spaceLoop (w : Entry σ → ListWrite σ) : List (Entry σ) → Int → Int → Int → List Int → σ → Py Unit × σ
  | [], _, _, length, _, st => if length > 0 then (.error .exception, st) else (.ok (), st)
  | e :: rest, address, start, length, data, st =>
    if e.base > address then (.error .exception, st)
    else
      let segAddr := address - e.base
      let segLen := min (e.size - segAddr) length
      match w e (AddressSpace.segTarget e address segAddr) (pySlice data start.toNat (start + segLen).toNat) st with
      | (.error er, st) => (.error er, st)
      | (.ok (), st) => spaceLoop w rest (address + segLen) (start + segLen) (length - segLen) data st

/-- `AddressSpace.write` (address_space.py 318-337). -/
def space (s : AddressSpace σ) (w : Entry σ → ListWrite σ) : ListWrite σ := fun address data st =>
  match s.findRegions address data.length with
  | .error e => (.error e, st)
  | .ok [] => (.error .exception, st)
  | .ok regions => spaceLoop w regions address 0 data.length data st

/-- `MemoryInterface.write_byte` (address_space.py 119-120). -/
def writeByte (w : ListWrite σ) (address v : Int) : σ → Py Unit × σ := w address [v]

end ListWrite
end Verif
