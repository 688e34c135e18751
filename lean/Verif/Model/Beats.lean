import Verif.Model.Memory
import Verif.Model.AddressSpace

/-!
# Code shared (textually repeated) by the AXI, AXI-lite and APB models

Packing bytes into bus words, unpacking words, the strobe scan of the slaves, response folding and slave
targets.
-/

namespace Verif

/-- `AxiResp` (constants.py 104-108). -/
inductive Resp
  | okay
  | exokay
  | slverr
  | decerr
  deriving DecidableEq, Repr

/-- The packing loop `for j in range(start, stop): val |= data[offset] << j*8; offset += 1`
(axi_master.py 520-523, axil_master.py 292-295, apb.py 391-395). `cnt` is the number of iterations left; the
result is `(val, offset)`. -/
def packLanes (data : Bytes) : (cnt j val offset : Nat) → Py (Nat × Nat)
  | 0, _, val, offset => .ok (val, offset)
  | cnt + 1, j, val, offset =>
    match data[offset]? with
    | none => .error .indexError
    | some b => packLanes data cnt (j + 1) (val ||| (b.toNat <<< (j * 8))) (offset + 1)

/-- The unpacking loop `for j in range(start, stop): data.append((cycle_data >> j*8) & 0xff)`
(axi_master.py 1008-1009, axil_master.py 563-564, apb.py 440-441). -/
def unpackLanes (cycleData start stop : Nat) : Bytes :=
  (List.range' start (stop - start)).map fun j => UInt8.ofNat ((cycleData >>> (j * 8)) &&& 0xff)

/-- The strobe scan: `for i in range(byte_lanes): if strb & (1 << i): ...` and the final flush
(axi_slave.py 161-184, axil_slave.py 122-148, apb.py 568-591). `offset` always equals `i`. `data` is the word as
`byte_lanes` little-endian bytes. Returns the list of `(address, bytes)` writes. -/
def opsLoop (word : Nat) (data : Bytes) (strb : Nat) :
    (cnt i : Nat) → (startOffset : Option Nat) → List (Nat × Bytes) → List (Nat × Bytes)
  | 0, i, startOffset, ops =>
    match startOffset with
    | some s => if i ≠ s then ops ++ [(word + s, pySlice data s i)] else ops
    | none => ops
  | cnt + 1, i, startOffset, ops =>
    if strb.testBit i then
      match startOffset with
      | none => opsLoop word data strb cnt (i + 1) (some i) ops
      | some s => opsLoop word data strb cnt (i + 1) (some s) ops
    else
      match startOffset with
      | none => opsLoop word data strb cnt (i + 1) none ops
      | some s =>
        if i ≠ s then opsLoop word data strb cnt (i + 1) none (ops ++ [(word + s, pySlice data s i)])
        else opsLoop word data strb cnt (i + 1) none ops

/-- The operation list of one write beat (axi_slave.py 163-189). -/
def writeOps (lanes word : Nat) (data : Bytes) (strb : Nat) : List (Nat × Bytes) :=
  opsLoop word data strb lanes 0 none []

/-- What a slave calls: its `_read`/`_write` methods (axi_slave.py 95-96, 259-260). -/
structure Target (σ : Type) where
  read : Nat → Nat → σ → Py Bytes × σ
  write : Nat → Bytes → σ → Py Unit × σ

/-- `for addr, data in write_ops: await self._write(addr, data)` inside the `try` (axi_slave.py 186-189, axil_slave.py 150-153, apb.py 593-596): stops
at the first exception. -/
def performOps {σ : Type} (t : Target σ) : List (Nat × Bytes) → σ → Py Unit × σ
  | [], st => (.ok (), st)
  | (a, d) :: rest, st =>
    match t.write a d st with
    | (.error e, st) => (.error e, st)
    | (.ok (), st) => performOps t rest st

/-- The `_read`/`_write` overrides of the RAM models: `address % self.size`, then `Memory.read/write`
(axi_ram.py 33-34, 41-42; axil_ram.py 33-34, 41-42; apb.py 630-634). A size of zero is
`ZeroDivisionError`. -/
def ramTarget : Target Memory where
  read a n m := if m.size = 0 then (.error .exception, m) else (m.read ((a % m.size : Nat) : Int) n, m)
  write a d m := if m.size = 0 then (.error .exception, m) else m.write ((a % m.size : Nat) : Int) d

/-- The default target of a slave: an object with `read`/`write` coroutines, e.g. an address space or a
region (axi_slave.py 95-96, 259-260). -/
def Target.ofIface {σ : Type} (i : Iface σ) : Target σ where
  read a n st := i.read a n st
  write a d st := i.write a d st

/-- Response folding: `if r != OKAY: resp = r` over the responses of an operation
(axi_master.py 610-611, 995-996; axil_master.py 328-329, 552-553). -/
def foldResp : Resp → List Resp → Resp
  | resp, [] => resp
  | resp, r :: rest => foldResp (if r ≠ .okay then r else resp) rest

end Verif
