import Verif.Model.Memory
import Verif.Model.Buddy

/-!
# Model of `cocotbext/axi/address_space.py`

An interface object is modelled by its observable operations over a shared store `σ` (the state of all
memories and peripherals). `async` methods run to completion (the modelled bodies contain no suspension
point of their own).
-/

namespace Verif

/-- An object of (a subclass of) `MemoryInterface` (address_space.py 32-149): its public `read`/`write`
coroutines, `size` and `base`. `respTuple` says whether `read` returns a response object with a `.data`
attribute (bus masters) rather than plain `bytes` (memories, address spaces). -/
structure Iface (σ : Type) where
  size : Nat
  base : Option Int
  respTuple : Bool
  read : Int → Int → σ → Py Bytes × σ
  write : Int → Bytes → σ → Py Unit × σ

namespace Iface

variable {σ : Type}

/-- `MemoryInterface.check_range` (address_space.py 53-59). -/
def checkRange (size : Nat) (address : Int) (length : Int := 0) : Py Unit :=
  if address < 0 ∨ address ≥ size then .error .valueError
  else if length < 0 then .error .valueError
  else if address + length > size then .error .valueError
  else .ok ()

/-- `MemoryInterface.__init__/read/write` (address_space.py 33-39, 70-72, 102-104): the public operations check
the range and then call `_read`/`_write`. -/
def ofPrivate (size : Nat) (base : Option Int) (respTuple : Bool)
    (read_ : Int → Int → σ → Py Bytes × σ) (write_ : Int → Bytes → σ → Py Unit × σ) : Iface σ :=
  { size := size
    base := base
    respTuple := respTuple
    read := fun address length st =>
      match checkRange size address length with
      | .error e => (.error e, st)
      | .ok () => read_ address length st
    write := fun address data st =>
      match checkRange size address data.length with
      | .error e => (.error e, st)
      | .ok () => write_ address data st }

/-- `MemoryInterface.get_absolute_address` (address_space.py 61-65). -/
def getAbsoluteAddress (p : Iface σ) (address : Int) : Py (Option Int) :=
  match p.base with
  | none => .ok none
  | some b =>
    match checkRange p.size address with
    | .error e => .error e
    | .ok () => .ok (some (address + b))

/-- `Window.get_parent_address` (address_space.py 161-164). -/
def getParentAddress (size : Nat) (offset : Int) (address : Int) : Py Int :=
  if address < 0 ∨ address ≥ size then .error .valueError else .ok (address + offset)

/-- `Window` (address_space.py 152-170). -/
def window (parent : Iface σ) (offset : Int) (size : Nat) (base : Option Int) : Iface σ :=
  ofPrivate size base parent.respTuple
    (fun address length st =>
      match getParentAddress size offset address with
      | .error e => (.error e, st)
      | .ok a => parent.read a length st)
    (fun address data st =>
      match getParentAddress size offset address with
      | .error e => (.error e, st)
      | .ok a => parent.write a data st)

/-- `MemoryInterface.create_window` (address_space.py 131-136). -/
def createWindow (p : Iface σ) (offset : Int) (size : Option Int := none) : Py (Iface σ) :=
  let size : Int := match size with
    | none => p.size - offset
    | some s => if s = 0 ∨ s < 0 then p.size - offset else s
  match checkRange p.size offset size with
  | .error e => .error e
  | .ok () =>
    match p.getAbsoluteAddress offset with
    | .error e => .error e
    | .ok base => .ok (window p offset size.toNat base)

/-- `MemoryInterface.read_words` (address_space.py 74-79). -/
def readWords (p : Iface σ) (address : Int) (count : Nat) (bo : ByteOrder) (ws : Nat) (st : σ) :
    Py (List Nat) × σ :=
  match p.read address (count * ws : Nat) st with
  | (.error e, st) => (.error e, st)
  | (.ok d, st) => (.ok (Memory.unpackWords bo ws d count), st)

/-- `MemoryInterface.write_words` (address_space.py 106-111). -/
def writeWords (p : Iface σ) (address : Int) (words : List Int) (bo : ByteOrder) (ws : Nat) (st : σ) :
    Py Unit × σ :=
  match Memory.packWords bo ws words with
  | .error e => (.error e, st)
  | .ok d => p.write address d st

/-- `MemoryInterface.read_byte` (address_space.py 87-88): `(await self.read(address, 1)).data[0]`;
`bytes` has no attribute `data`. -/
def readByte (p : Iface σ) (address : Int) (st : σ) : Py UInt8 × σ :=
  match p.read address 1 st with
  | (.error e, st) => (.error e, st)
  | (.ok d, st) =>
    if p.respTuple then
      match d[0]? with
      | some b => (.ok b, st)
      | none => (.error .indexError, st)
    else (.error .attributeError, st)

end Iface

/-- The store of memory objects, indexed by an object identity (the `mem` objects of regions, address_space.py 188-193, 220-225). -/
abbrev Heap := Nat → Backing

/-- Replace one memory object (an item assignment to one `mem` object, address_space.py 199, 231). -/
def Heap.set (h : Heap) (k : Nat) (b : Backing) : Heap := fun i => if i = k then b else h i

/-- `MemoryRegion` over memory object `k` (address_space.py 188-201). -/
def memoryRegion (size : Nat) (base : Option Int) (k : Nat) : Iface Heap :=
  Iface.ofPrivate size base false
    (fun address length h => ((h k).getSlice address (address + length), h))
    (fun address data h =>
      let r := (h k).setSlice address (address + data.length) data
      (r.1, h.set k r.2))

/-- `SparseMemoryRegion` over memory object `k` (address_space.py 220-231); a non-sparse `mem` object has
no `read`/`write` methods. -/
def sparseMemoryRegion (size : Nat) (base : Option Int) (k : Nat) : Iface Heap :=
  Iface.ofPrivate size base false
    (fun address length h => match h k with
      | .sparse m => (m.read address length, h)
      | .buf _ => (.error .attributeError, h))
    (fun address data h => match h k with
      | .sparse m =>
        let r := m.write address data
        (r.1, h.set k (.sparse r.2))
      | .buf _ => (.error .attributeError, h))

/-- A peripheral object wrapped by `PeripheralRegion`: its `read`/`write` methods are plain functions
(`isAsync = false`) or coroutines. `readM`/`writeM` give the effect of one complete execution of the
method (`obj` of address_space.py 249-264). -/
structure Peripheral (σ : Type) where
  isAsync : Bool
  readM : Int → Int → σ → Py Bytes × σ
  writeM : Int → Bytes → σ → Py Unit × σ

/-- `PeripheralRegion._read/_write` (address_space.py 254-264): `await obj.method(...)`, and on `TypeError` call
`obj.method(...)` again without `await`. For a plain method the first call runs it and `await` of its
result raises `TypeError`, so it is called a second time. For a coroutine that itself raises `TypeError`
the second call only creates a coroutine object that is never run: `_write` returns normally, and
`_read` returns the coroutine object instead of bytes (modelled as the caller's `TypeError`). -/
def Peripheral.attempt {σ α : Type} (isAsync : Bool) (unawaited : Py α) (m : σ → Py α × σ) (st : σ) :
    Py α × σ :=
  match m st with
  | (.error .typeError, st') => if isAsync then (unawaited, st') else m st'
  | (.error e, st') => (.error e, st')
  | (.ok v, st') => if isAsync then (.ok v, st') else m st'

/-- `PeripheralRegion` (address_space.py 249-264). -/
def peripheralRegion {σ : Type} (obj : Peripheral σ) (size : Nat) (base : Option Int) : Iface σ :=
  Iface.ofPrivate size base false
    (fun a n st => Peripheral.attempt obj.isAsync (.error .typeError) (obj.readM a n) st)
    (fun a d st => Peripheral.attempt obj.isAsync (.ok ()) (obj.writeM a d) st)

/-- An entry of `AddressSpace.regions` (address_space.py 296): `(base, size, offset, region)`. -/
structure Entry (σ : Type) where
  base : Int
  size : Int
  offset : Option Int
  region : Iface σ

/-- `AddressSpace` objects (address_space.py 267-271). -/
structure AddressSpace (σ : Type) where
  size : Nat
  base : Option Int
  regions : List (Entry σ)

namespace AddressSpace

variable {σ : Type}

/-- Tuple order used by `regions.sort()` (address_space.py 283). Simplification: only `(base, size)` is
compared; entries agreeing on both would compare `offset` and then the region objects (`TypeError`).
Registered regions of nonzero size never agree on `base` (C15). -/
def entryLe (x y : Entry σ) : Bool := decide (x.base < y.base ∨ (x.base = y.base ∧ x.size ≤ y.size))

/-- Insertion into a sorted list; the result of `list.sort()` (address_space.py 283). -/
def insertEntry (x : Entry σ) : List (Entry σ) → List (Entry σ)
  | [] => [x]
  | y :: ys => if entryLe x y then x :: y :: ys else y :: insertEntry x ys

/-- `regions.sort()` (address_space.py 283). -/
def sortEntries : List (Entry σ) → List (Entry σ)
  | [] => []
  | x :: xs => insertEntry x (sortEntries xs)

/-- `AddressSpace.find_regions` (address_space.py 273-284). -/
def findRegions (s : AddressSpace σ) (address : Int) (length : Int := 1) : Py (List (Entry σ)) :=
  if address < 0 ∨ address ≥ s.size then .error .valueError
  else if length < 0 then .error .valueError
  else
    let length := max length 1
    .ok (sortEntries (s.regions.filter fun e =>
      decide (address < e.base + e.size ∧ e.base < address + length)))

/-- `AddressSpace.get_absolute_address` (inherited, address_space.py 61-65). -/
def getAbsoluteAddress (s : AddressSpace σ) (address : Int) : Py (Option Int) :=
  match s.base with
  | none => .ok none
  | some b =>
    match Iface.checkRange s.size address with
    | .error e => .error e
    | .ok () => .ok (some (address + b))

/-- `AddressSpace.register_region` (address_space.py 286-296). Returns the new space; the mutation of
`region._base` is reflected in the stored entry. -/
def registerRegion (s : AddressSpace σ) (region : Iface σ) (base : Int) (size : Option Int := none)
    (offset : Option Int := some 0) : Py Unit × AddressSpace σ :=
  let size : Int := match size with
    | none => region.size
    | some n => n
  match s.findRegions base size with
  | .error e => (.error e, s)
  | .ok (_ :: _) => (.error .valueError, s)
  | .ok [] =>
    let rbase : Py (Option Int) :=
      if offset = some 0 then s.getAbsoluteAddress base else .ok none
    match rbase with
    | .error e => (.error e, s)
    | .ok b => (.ok (), { s with regions := s.regions ++ [⟨base, size, offset, { region with base := b }⟩] })

/-- The address passed to the region: `seg_addr+offset` after `if offset is None: seg_addr = address;
offset = 0` (address_space.py 306-311, 327-332). -/
def segTarget (e : Entry σ) (address segAddr : Int) : Int :=
  match e.offset with
  | none => address + 0
  | some o => segAddr + o

/-- Body of the loop of `read` (address_space.py 303-316). `bytes(...)` of a response object is its `data`
(`__bytes__`, axi_master.py 106, axil_master.py 82, apb.py 67). -/
def readLoop : List (Entry σ) → Int → Int → Bytes → σ → Py Bytes × σ
  | [], _, length, acc, st => if length > 0 then (.error .exception, st) else (.ok acc, st)
  | e :: rest, address, length, acc, st =>
    if e.base > address then (.error .exception, st)
    else
      let segAddr := address - e.base
      let segLen := min (e.size - segAddr) length
      match e.region.read (segTarget e address segAddr) segLen st with
      | (.error er, st) => (.error er, st)
      | (.ok d, st) => readLoop rest (address + segLen) (length - segLen) (acc ++ d) st

/-- `AddressSpace.read` (address_space.py 298-316). -/
def read (s : AddressSpace σ) (address length : Int) (st : σ) : Py Bytes × σ :=
  match s.findRegions address length with
  | .error e => (.error e, st)
  | .ok [] => (.error .exception, st)
  | .ok regions => readLoop regions address length [] st

/-- Body of the loop of `write` (address_space.py 324-337); `data[start:start+seg_len]` with `start ≥ 0`. -/
def writeLoop : List (Entry σ) → Int → Int → Int → Bytes → σ → Py Unit × σ
  | [], _, _, length, _, st => if length > 0 then (.error .exception, st) else (.ok (), st)
  | e :: rest, address, start, length, data, st =>
    if e.base > address then (.error .exception, st)
    else
      let segAddr := address - e.base
      let segLen := min (e.size - segAddr) length
      match e.region.write (segTarget e address segAddr) (pySlice data start.toNat (start + segLen).toNat) st with
      | (.error er, st) => (.error er, st)
      | (.ok (), st) => writeLoop rest (address + segLen) (start + segLen) (length - segLen) data st

/-- `AddressSpace.write` (address_space.py 318-337). -/
def write (s : AddressSpace σ) (address : Int) (data : Bytes) (st : σ) : Py Unit × σ :=
  match s.findRegions address data.length with
  | .error e => (.error e, st)
  | .ok [] => (.error .exception, st)
  | .ok regions => writeLoop regions address 0 data.length data st

/-- An address space used as an interface object (it overrides `read` and `write`, so there is no
`check_range`; address_space.py 298, 318). -/
def toIface (s : AddressSpace σ) : Iface σ :=
  { size := s.size, base := s.base, respTuple := false, read := s.read, write := s.write }

end AddressSpace

/-- `Pool` (address_space.py 351-362): an address space with an allocator. -/
structure Pool (σ : Type) where
  space : AddressSpace σ
  allocator : Buddy

namespace Pool

/-- `Pool.__init__` (address_space.py 352-355). -/
def init {σ : Type} (base : Option Int) (size : Nat) : Pool σ :=
  { space := { size := size, base := base, regions := [] }, allocator := Buddy.init size }

/-- `Pool.alloc_region` (address_space.py 357-362); `mk` is `region_type(size)`. Returns the base. -/
def allocRegion {σ : Type} (p : Pool σ) (mk : Nat → Iface σ) (size : Int) : Py Nat × Pool σ :=
  match p.allocator.alloc size with
  | (.error e, al) => (.error e, { p with allocator := al })
  | (.ok base, al) =>
    match p.space.registerRegion (mk size.toNat) base with
    | (.error e, sp) => (.error e, { space := sp, allocator := al })
    | (.ok (), sp) => (.ok base, { space := sp, allocator := al })

end Pool

/-- `AddressSpace.create_pool` (address_space.py 339-348), with the types `Pool` and `MemoryRegion`. Returns the pool, whose `_base` was set by
`register_region`. The entry of the new space stands for the pool as it is now: see `setPool`. -/
def AddressSpace.createPool {σ : Type} (s : AddressSpace σ) (base size : Option Int := none) : Py (Pool σ) × AddressSpace σ :=
  let base : Int := match base with
    | none => 0
    | some b => b
  let size : Int := match size with
    | none => s.size - base
    | some n => n
  match Iface.checkRange s.size base size with
  | .error e => (.error e, s)
  | .ok () =>
    let pool : Pool σ := Pool.init (some base) size.toNat
    match s.registerRegion pool.space.toIface base (some size) with
    | (.error e, s) => (.error e, s)
    | (.ok (), s) =>
      match s.getAbsoluteAddress base with
      | .error e => (.error e, s)
      | .ok b => (.ok { pool with space := { pool.space with base := b } }, s)

/-- The address space after something was allocated from the pool that is entry `i`: the list refers to the pool object, so the entry shows the pool
as it is then (address_space.py 296, 357-362). -/
def AddressSpace.setPool {σ : Type} (s : AddressSpace σ) (i : Nat) (pool : Pool σ) : AddressSpace σ :=
  { s with regions := s.regions.modify i fun e => { e with region := pool.space.toIface } }

/-- `WindowPool` (address_space.py 173-180): a window with an allocator. -/
structure WindowPool (σ : Type) where
  win : Iface σ
  allocator : Buddy

namespace WindowPool

variable {σ : Type}

/-- `MemoryInterface.create_window_pool` (address_space.py 138-146) and `WindowPool.__init__` (174-177). -/
def create (p : Iface σ) (offset : Option Int := none) (size : Option Int := none) :
    Py (WindowPool σ) :=
  let offset : Int := match offset with
    | none => 0
    | some o => o
  let size : Int := match size with
    | none => p.size - offset
    | some s => s
  match Iface.checkRange p.size offset size with
  | .error e => .error e
  | .ok () =>
    match p.getAbsoluteAddress offset with
    | .error e => .error e
    | .ok base => .ok { win := Iface.window p offset size.toNat base, allocator := Buddy.init size.toNat }

/-- `WindowPool.alloc_window` (address_space.py 179-180). Returns the offset and the window. -/
def allocWindow (p : WindowPool σ) (size : Int) : Py (Nat × Iface σ) × WindowPool σ :=
  match p.allocator.alloc size with
  | (.error e, al) => (.error e, { p with allocator := al })
  | (.ok off, al) =>
    match p.win.createWindow off (some size) with
    | .error e => (.error e, { p with allocator := al })
    | .ok w => (.ok (off, w), { p with allocator := al })

end WindowPool
end Verif
