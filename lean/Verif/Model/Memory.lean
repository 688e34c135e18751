import Verif.Model.SparseMemory

/-!
# Model of `cocotbext/axi/memory.py`
-/

namespace Verif

/-- The `mem` object of a `Memory`: a `SparseMemory` or a fixed-size buffer such as `mmap`
(memory.py 30-34; README: "mmap object"). -/
inductive Backing
  | sparse (m : SparseMemory)
  | buf (b : Bytes)

namespace Backing

/-- `len(self.mem)` before the `ssize_t` check (memory.py 35). -/
def rawLen : Backing → Nat
  | .sparse m => m.size
  | .buf b => b.length

/-- `self.mem[address:address+length]` (memory.py 39). For a buffer, a reversed window is empty. -/
def getSlice (bk : Backing) (start stop : Int) : Py Bytes :=
  match bk with
  | .sparse m => m.getSlice ⟨some start, some stop, none⟩
  | .buf b => .ok (pySlice b (sliceBound (some start) 0 b.length) (sliceBound (some stop) 0 b.length))

/-- `self.mem[address:address+len(data)] = data` (memory.py 42). `mmap` raises `IndexError` when the
size differs (a reversed window counts as empty). -/
def setSlice (bk : Backing) (start stop : Int) (data : Bytes) : Py Unit × Backing :=
  match bk with
  | .sparse m =>
    let r := m.setSlice ⟨some start, some stop, none⟩ data
    (r.1, .sparse r.2)
  | .buf b =>
    let lo := sliceBound (some start) 0 b.length
    let hi := sliceBound (some stop) 0 b.length
    if hi - lo ≠ data.length then (.error .indexError, bk)
    else (.ok (), .buf (pySliceAssign b lo hi data))

/-- `self.mem[address:address+len(data)] = data` with a list of integers (memory.py 42). A sparse memory converts it with `bytes()`
(sparse_memory.py 104-109); `mmap` raises `TypeError` since a list is not a bytes-like object. -/
def setSliceList (bk : Backing) (start stop : Int) (l : List Int) : Py Unit × Backing :=
  match bk with
  | .sparse m =>
    match pyBytes l with
    | .error e => (.error e, bk)
    | .ok d =>
      let r := m.setSlice ⟨some start, some stop, none⟩ d
      (r.1, .sparse r.2)
  | .buf _ => (.error .typeError, bk)

end Backing

/-- `Memory` objects (memory.py 29-36). -/
structure Memory where
  size : Nat
  mem : Backing

namespace Memory

/-- `Memory.__init__` (memory.py 30-36): `self.size = len(self.mem)`. -/
def init (size : Nat := 2 ^ 64) (mem : Option Backing := none) : Py Memory :=
  let bk := match mem with
    | some bk => bk
    | none => .sparse (SparseMemory.init size)
  match pyLen bk.rawLen with
  | .ok n => .ok { size := n, mem := bk }
  | .error e => .error e

/-- `Memory.read` (memory.py 38-39). -/
def read (m : Memory) (address length : Int) : Py Bytes := m.mem.getSlice address (address + length)

/-- `Memory.write` (memory.py 41-42). -/
def write (m : Memory) (address : Int) (data : Bytes) : Py Unit × Memory :=
  let r := m.mem.setSlice address (address + data.length) data
  (r.1, { m with mem := r.2 })

/-- The loop of `write_words` (memory.py 46-48). -/
def packWords (bo : ByteOrder) (ws : Nat) : List Int → Py Bytes
  | [] => .ok []
  | w :: rest =>
    match toBytes ws bo w with
    | .error e => .error e
    | .ok d =>
      match packWords bo ws rest with
      | .error e => .error e
      | .ok r => .ok (d ++ r)

/-- `Memory.write_words` (memory.py 44-49); `write_dwords`/`write_qwords` are `ws = 4, 8` (51-55), and
the single-word forms pass a one-element list (60-67). -/
def writeWords (m : Memory) (address : Int) (words : List Int) (bo : ByteOrder := .little)
    (ws : Nat := 2) : Py Unit × Memory :=
  match packWords bo ws words with
  | .error e => (.error e, m)
  | .ok d => m.write address d

/-- `Memory.write` with a list of integers (memory.py 41-42); see `Backing.setSliceList`. -/
def writeList (m : Memory) (address : Int) (l : List Int) : Py Unit × Memory :=
  let r := m.mem.setSliceList address (address + l.length) l
  (r.1, { m with mem := r.2 })

/-- `Memory.write_byte` (memory.py 57-58): `self.write(address, [data])`. -/
def writeByte (m : Memory) (address : Int) (v : Int) : Py Unit × Memory := m.writeList address [v]

/-- The loop of `read_words` (memory.py 72-73). -/
def unpackWords (bo : ByteOrder) (ws : Nat) (data : Bytes) (count : Nat) : List Nat :=
  (List.range count).map fun k => fromBytes bo (pySlice data (ws * k) (ws * (k + 1)))

/-- `Memory.read_words` (memory.py 69-74); `read_dwords`/`read_qwords` are `ws = 4, 8` (76-80). -/
def readWords (m : Memory) (address : Int) (count : Nat) (bo : ByteOrder := .little)
    (ws : Nat := 2) : Py (List Nat) :=
  match m.read address (count * ws : Nat) with
  | .error e => .error e
  | .ok d => .ok (unpackWords bo ws d count)

/-- `Memory.read_byte` (memory.py 82-83). -/
def readByte (m : Memory) (address : Int) : Py UInt8 :=
  match m.read address 1 with
  | .error e => .error e
  | .ok d => match d[0]? with
    | some b => .ok b
    | none => .error .indexError

/-- `Memory.read_word` (memory.py 85-86). -/
def readWord (m : Memory) (address : Int) (bo : ByteOrder := .little) (ws : Nat := 2) : Py Nat :=
  match m.readWords address 1 bo ws with
  | .error e => .error e
  | .ok l => match l[0]? with
    | some w => .ok w
    | none => .error .indexError

end Memory
end Verif
