import Verif.Model.Memory

/-!
# Model of `cocotbext/axi/utils.py` and of the `hexdump` methods

A Python `str` is the list of its characters. Simplification: addresses, lengths, offsets and row sizes are not negative.
`hexdump` prints what `hexdump_lines` returns (utils.py 35-38, 41-46), so it has no model of its own.
-/

namespace Verif.Hexdump

/-- A Python `str` (the lines made by utils.py 26-50). -/
abbrev Str := List Char

/-- One digit of the format `x` (the f-strings of utils.py 26-33). -/
def digit (n : Nat) : Char := if n < 10 then Char.ofNat (48 + n) else Char.ofNat (87 + n)

/-- The format `x` of an `int` (the f-strings of utils.py 26-33). -/
def hex (n : Nat) : Str := if h : n < 16 then [digit n] else hex (n / 16) ++ [digit (n % 16)]
termination_by n

/-- The format `0<w>x`. -/
def hexPad (w n : Nat) : Str := List.replicate (w - (hex n).length) '0' ++ hex n

/-- The format `<w>` of a `str`: padded with spaces on the right (the f-strings of utils.py 26-33). -/
def padRight (w : Nat) (s : Str) : Str := s ++ List.replicate (w - s.length) ' '

/-- The character shown for a byte (utils.py 31). -/
def shown (ch : UInt8) : Char := if 32 < ch.toNat ∧ ch.toNat < 127 then Char.ofNat ch.toNat else '.'

/-- The loop of `hexdump_line` (utils.py 27-31): `h` and `c`. -/
def columns : Bytes → Str × Str
  | [] => ([], [])
  | ch :: rest => (hexPad 2 ch.toNat ++ ' ' :: (columns rest).1, shown ch :: (columns rest).2)

/-- `hexdump_line` (utils.py 26-32). -/
def line (data : Bytes) (offset row : Nat) : Str :=
  let hc := columns (pySlice data 0 row)
  hexPad 8 offset ++ [':', ' '] ++ padRight (row * 3) hc.1 ++ ' ' :: hc.2

/-- The `k` of `range(start, stop, row)`; `ValueError` for step 0. -/
def range (start stop row : Nat) : Py (List Nat) :=
  if row = 0 then .error .valueError
  else .ok ((List.range ((stop - start + row - 1) / row)).map fun i => start + i * row)

/-- `stop` (utils.py 36, 43, 49): `length` counts only if it is not 0. -/
def stopOf (len start : Nat) (length : Option Nat) : Nat :=
  match length with
  | none => len
  | some n => if n ≠ 0 then min (start + n) len else len

/-- The loop of `hexdump_lines` (utils.py 44-45) over an object with slices `get`. -/
def loop (get : Nat → Nat → Py Bytes) (stop row : Nat) (pre : Str) (offset : Nat) : List Nat → Py (List Str)
  | [] => .ok []
  | k :: ks =>
    match get k (min (k + row) stop) with
    | .error e => .error e
    | .ok d =>
      match loop get stop row pre offset ks with
      | .error e => .error e
      | .ok ls => .ok ((pre ++ line d (k + offset) row) :: ls)

/-- `hexdump_lines` (utils.py 41-46) of an object of length `len` with slices `get`. -/
def linesOf (len : Nat) (get : Nat → Nat → Py Bytes) (start : Nat) (length : Option Nat) (row : Nat) (pre : Str) (offset : Nat) :
    Py (List Str) :=
  let stop := stopOf len start length
  match range start stop row with
  | .error e => .error e
  | .ok ks => loop get stop row pre offset ks

/-- `hexdump_lines` (utils.py 41-46) of `bytes`. -/
def lines (data : Bytes) (start : Nat := 0) (length : Option Nat := none) (row : Nat := 16) (pre : Str := []) (offset : Nat := 0) :
    Py (List Str) :=
  linesOf data.length (fun a b => .ok (pySlice data a b)) start length row pre offset

/-- `"\n".join(...)` (utils.py 50). -/
def joinNL : List Str → Str
  | [] => []
  | [l] => l
  | l :: ls => l ++ '\n' :: joinNL ls

/-- `hexdump_str` (utils.py 49-50). -/
def str (data : Bytes) (start : Nat := 0) (length : Option Nat := none) (row : Nat := 16) (pre : Str := []) (offset : Nat := 0) :
    Py Str :=
  match lines data start length row pre offset with
  | .error e => .error e
  | .ok ls => .ok (joinNL ls)

end Verif.Hexdump

namespace Verif

open Hexdump

/-- `SparseMemory.hexdump_lines` (sparse_memory.py 81-82). -/
def SparseMemory.hexdumpLines (m : SparseMemory) (address length : Nat) (pre : Str := []) : Py (List Str) :=
  match m.read address length with
  | .error e => .error e
  | .ok d => lines d 0 none 16 pre address

/-- `MemoryRegion.hexdump_lines` (address_space.py 204-205) for a `bytearray`/`mmap`. -/
def regionHexdumpLines (mem : Bytes) (address length : Nat) (pre : Str := []) : Py (List Str) :=
  lines (pySlice mem address (address + length)) 0 none 16 pre address

/-- `Memory.hexdump_lines` (memory.py 97-98); `len(self.mem)` may raise (utils.py 43). -/
def Memory.hexdumpLines (m : Memory) (address length : Nat) (pre : Str := []) : Py (List Str) :=
  match pyLen m.mem.rawLen with
  | .error e => .error e
  | .ok n => linesOf n (fun a b => m.mem.getSlice a b) address (some length) 16 pre 0

end Verif
