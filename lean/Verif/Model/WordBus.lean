import Verif.Model.Beats

/-!
# The data path shared (textually repeated) by the AXI-lite and APB models

A request is cut at word boundaries into single-word transfers; the slave executes each of them on its target.
The AXI-lite code (axil_master.py, axil_slave.py) and the APB code (apb.py) repeat the same computations line by
line, so one model serves both.

Simplification: `data` is a list of bytes (`bytes(data)` has been applied); log messages are dropped.
-/

namespace Verif.Word

/-- What a master knows of its bus: `byte_lanes`, `address_width`, `awprot_present`/`arprot_present`/
`pprot_present` and `wstrb_present`/`pstrb_present` (axil_master.py 119-126, 377-382; apb.py 153-161). -/
structure Cfg where
  lanes : Nat
  addrWidth : Nat
  prot : Bool := true
  strb : Bool := true

/-- `strb_mask` (axil_master.py 123, apb.py 157). -/
def Cfg.mask (c : Cfg) : Nat := 2 ^ c.lanes - 1

/-- The `data` argument of a write: an integer (rejected) or bytes (axil_master.py 189-193, apb.py 255-259). -/
inductive DataArg
  | int (n : Int)
  | bytes (d : Bytes)

/-- A queued command: `AxiLiteWriteCmd`, `AxiLiteReadCmd`, `ApbWriteCmd`, `ApbReadCmd` without the event
(axil_master.py 40-44, 62-66; apb.py 41-45, 55-59). -/
structure Cmd where
  address : Nat
  length : Nat
  prot : Int
  deriving DecidableEq, Repr

/-- The checks of `write`/`init_write` (axil_master.py 159-171, 185-198; apb.py 202-214, 251-264); 2 is
`AxiProt.NONSECURE`. -/
def acceptWrite (c : Cfg) (address : Int) (data : DataArg) (prot : Int) : Py (Cmd × Bytes) :=
  if address < 0 ∨ address ≥ 2 ^ c.addrWidth then .error .valueError
  else match data with
    | .int _ => .error .valueError
    | .bytes d =>
      if address + d.length > 2 ^ c.addrWidth then .error .valueError
      else if !c.prot ∧ prot ≠ 2 then .error .valueError
      else .ok ({ address := address.toNat, length := d.length, prot := prot }, d)

/-- The checks of `read`/`init_read` (axil_master.py 413-423, 437-447; apb.py 227-237, 277-287). -/
def acceptRead (c : Cfg) (address length : Int) (prot : Int) : Py Cmd :=
  if address < 0 ∨ address ≥ 2 ^ c.addrWidth then .error .valueError
  else if length < 0 then .error .valueError
  else if address + length > 2 ^ c.addrWidth then .error .valueError
  else if !c.prot ∧ prot ≠ 2 then .error .valueError
  else .ok { address := address.toNat, length := length.toNat, prot := prot }

/-- `word_addr` (axil_master.py 261, 512; apb.py 357). -/
def wordAddr (c : Cfg) (cmd : Cmd) : Nat := cmd.address / c.lanes * c.lanes

/-- `start_offset` (axil_master.py 263, 539; apb.py 359). -/
def startOffset (c : Cfg) (cmd : Cmd) : Nat := cmd.address % c.lanes

/-- `end_offset` (axil_master.py 264, 540; apb.py 360); Python's `%` of a possibly negative number. -/
def endOffset (c : Cfg) (cmd : Cmd) : Nat := (((cmd.address : Int) + cmd.length - 1) % c.lanes + 1).toNat

/-- `strb_start` (axil_master.py 266, apb.py 362). -/
def strbStart (c : Cfg) (cmd : Cmd) : Nat := (c.mask <<< startOffset c cmd) &&& c.mask

/-- `strb_end` (axil_master.py 267, apb.py 363). A negative shift count would raise `ValueError`; `end_offset` is
at most `byte_lanes`. -/
def strbEnd (c : Cfg) (cmd : Cmd) : Py Nat :=
  if c.lanes < endOffset c cmd then .error .valueError else .ok (c.mask >>> (c.lanes - endOffset c cmd))

/-- `cycles` (axil_master.py 269, 514; apb.py 365). -/
def cycles (c : Cfg) (cmd : Cmd) : Nat := (cmd.length + cmd.address % c.lanes + c.lanes - 1) / c.lanes

/-- `start`: the first byte lane of transfer `k` (axil_master.py 281-286, 555-559; apb.py 380-385, 432-436). -/
def startLane (c : Cfg) (cmd : Cmd) (k : Nat) : Nat := if k = 0 then startOffset c cmd else 0

/-- `stop`: the end of the byte lanes of transfer `k` (axil_master.py 282-289, 556-561; apb.py 381-388, 433-438). -/
def stopLane (c : Cfg) (cmd : Cmd) (k : Nat) : Nat := if k = cycles c cmd - 1 then endOffset c cmd else c.lanes

/-- The strobes of transfer `k` (axil_master.py 283-290; apb.py 382-389). -/
def strbLane (c : Cfg) (cmd : Cmd) (k : Nat) (strbE : Nat) : Nat :=
  let strb := c.mask
  let strb := if k = 0 then strb &&& strbStart c cmd else strb
  if k = cycles c cmd - 1 then strb &&& strbE else strb

/-- The address of transfer `k` (axil_master.py 298-301, 524-527; apb.py 405-408). -/
def beatAddr (c : Cfg) (cmd : Cmd) (k : Nat) : Nat :=
  if k = 0 then cmd.address else wordAddr c cmd + k * c.lanes

/-- A single-word write transfer: address, `prot`, data word and strobes (axil_master.py 294-308, apb.py 358-380). -/
structure WXfer where
  addr : Nat
  prot : Int
  data : Nat
  strb : Nat
  deriving DecidableEq, Repr

/-- A single-word read transfer (axil_master.py 525-530, apb.py 358-380). -/
structure RXfer where
  addr : Nat
  prot : Int
  deriving DecidableEq, Repr

/-- The loop over the transfers of a write (axil_master.py 280-312, apb.py 379-417). `rem` counts the iterations
left, `k = cycles - rem`. -/
def writeLoop (c : Cfg) (cmd : Cmd) (data : Bytes) (strbE : Nat) :
    (rem offset : Nat) → (out : List WXfer) → Py (List WXfer)
  | 0, _, out => .ok out
  | rem + 1, offset, out =>
    let k := cycles c cmd - (rem + 1)
    match packLanes data (stopLane c cmd k - startLane c cmd k) (startLane c cmd k) 0 offset with
    | .error e => .error e
    | .ok (val, offset) =>
      writeLoop c cmd data strbE rem offset
        (out ++ [{ addr := beatAddr c cmd k, prot := cmd.prot, data := val, strb := strbLane c cmd k strbE }])

/-- The transfers of a write (`_process_write`, axil_master.py 256-314; the write part of `_run`,
apb.py 357-417). -/
def writeXfers (c : Cfg) (cmd : Cmd) (data : Bytes) : Py (List WXfer) :=
  match strbEnd c cmd with
  | .error e => .error e
  | .ok strbE => writeLoop c cmd data strbE (cycles c cmd) 0 []

/-- The transfers of a read (`_process_read`, axil_master.py 507-532; the read part of `_run`,
apb.py 357-417). -/
def readXfers (c : Cfg) (cmd : Cmd) : List RXfer :=
  (List.range (cycles c cmd)).map fun k => { addr := beatAddr c cmd k, prot := cmd.prot }

/-- The slave executes one write transfer: align the address, apply the strobes (all lanes without a strobe
signal), perform the writes, SLVERR on an exception (axil_slave.py 109-156; apb.py 549, 560-599). -/
def slaveWrite {σ : Type} (t : Target σ) (lanes : Nat) (strbPresent : Bool) (x : WXfer) (st : σ) : Py Resp × σ :=
  let addr := x.addr / lanes * lanes
  let strb := if strbPresent then x.strb else 2 ^ lanes - 1
  match toBytes lanes .little x.data with
  | .error e => (.error e, st)
  | .ok data =>
    match performOps t (writeOps lanes addr data strb) st with
    | (.ok (), st) => (.ok .okay, st)
    | (.error _, st) => (.ok .slverr, st)

/-- The slave executes one read transfer: read `byte_lanes` bytes at the aligned address; zeros and SLVERR on an
exception (axil_slave.py 227-242; apb.py 549, 601-612). -/
def slaveRead {σ : Type} (t : Target σ) (lanes : Nat) (x : RXfer) (st : σ) : (Nat × Resp) × σ :=
  match t.read (x.addr / lanes * lanes) lanes st with
  | (.ok data, st) => ((fromBytesLE data, .okay), st)
  | (.error _, st) => ((fromBytesLE (List.replicate lanes 0), .slverr), st)

/-- The slave serves a list of write transfers, in order (`_process_write`'s outer loop) (axil_slave.py 108-158). -/
def slaveWrites {σ : Type} (t : Target σ) (lanes : Nat) (strbPresent : Bool) :
    List WXfer → σ → Py (List Resp) × σ
  | [], st => (.ok [], st)
  | x :: xs, st =>
    match slaveWrite t lanes strbPresent x st with
    | (.error e, st) => (.error e, st)
    | (.ok r, st) =>
      match slaveWrites t lanes strbPresent xs st with
      | (.error e, st) => (.error e, st)
      | (.ok rs, st) => (.ok (r :: rs), st)

/-- The slave serves a list of read transfers, in order (axil_slave.py 226-248). -/
def slaveReads {σ : Type} (t : Target σ) (lanes : Nat) : List RXfer → σ → List (Nat × Resp) × σ
  | [], st => ([], st)
  | x :: xs, st =>
    let (r, st) := slaveRead t lanes x st
    let (rs, st) := slaveReads t lanes xs st
    (r :: rs, st)

/-- The response of a write: fold the responses of its `cycles` transfers (axil_master.py 321-334; apb.py 369,
429-430). `none`: fewer responses than transfers have arrived. -/
def writeResult (c : Cfg) (cmd : Cmd) (bs : List Resp) : Option (Resp × List Resp) :=
  if bs.length < cycles c cmd then none
  else some (foldResp .okay (bs.take (cycles c cmd)), bs.drop (cycles c cmd))

/-- The loop over the responses of a read (axil_master.py 542-564; apb.py 428-441). -/
def readLoop (c : Cfg) (cmd : Cmd) : (rem : Nat) → List (Nat × Resp) → Bytes → Resp →
    Option (Bytes × Resp × List (Nat × Resp))
  | 0, rs, data, resp => some (data, resp, rs)
  | _ + 1, [], _, _ => none
  | rem + 1, r :: rs, data, resp =>
    let k := cycles c cmd - (rem + 1)
    readLoop c cmd rem rs (data ++ unpackLanes r.1 (startLane c cmd k) (stopLane c cmd k))
      (if r.2 ≠ .okay then r.2 else resp)

/-- The result of a read: data, response, and the responses not consumed (axil_master.py 534-570; apb.py 428-454). -/
def readResult (c : Cfg) (cmd : Cmd) (rs : List (Nat × Resp)) : Option (Bytes × Resp × List (Nat × Resp)) :=
  readLoop c cmd (cycles c cmd) rs [] .okay

end Verif.Word
