import Verif.Model.Beats

/-!
# Model of `cocotbext/axi/axi_master.py`, `axi_slave.py` and `axi_ram.py`: requests, bursts and beats

The bodies of `_process_write`, `_process_read`, `_process_write_resp_id`, `_process_read_resp_id` and of the
slaves' `_process_write`/`_process_read`, for one command or one burst. Channel `send`/`recv` are modelled
by the sequence of transactions sent or received (queues are FIFO, see the stream model); the optional AXI
signals `awlen, awsize, awburst, ...` are assumed to be connected.
-/

namespace Verif.Axi

/-- `AxiBurstType` (constants.py 30-33). -/
inductive Burst
  | fixed
  | incr
  | wrap
  deriving DecidableEq, Repr

/-- Sideband values of a request (axi_master.py 41-54, 75-87). -/
structure Side where
  lock : Int := 0
  cache : Int := 3
  prot : Int := 2
  qos : Int := 0
  region : Int := 0
  user : Int := 0
  deriving DecidableEq, Repr

/-- Which optional sideband signals are connected (axi_master.py 239-247, 683-689). -/
structure Present where
  lock : Bool := true
  cache : Bool := true
  prot : Bool := true
  qos : Bool := true
  region : Bool := true
  user : Bool := true
  wuser : Bool := true

/-- Parameters of a master: widths of the bus signals and the constructor argument `max_burst_len`
(axi_master.py 222-254, 662-687). -/
structure Cfg where
  lanes : Nat
  addrWidth : Nat
  idWidth : Nat
  maxBurstLenArg : Int := 256
  present : Present := {}

/-- `self.max_burst_len = max(min(max_burst_len, 256), 1)` (axi_master.py 239, 678). -/
def Cfg.maxBurstLen (c : Cfg) : Nat := (max (min c.maxBurstLenArg 256) 1).toNat

/-- `self.max_burst_size = (self.byte_lanes-1).bit_length()` (axi_master.py 240, 679). -/
def Cfg.maxBurstSize (c : Cfg) : Nat := bitLength (c.lanes - 1)

/-- `self.id_count = 2**len(awid)` (axi_master.py 222, 662). -/
def Cfg.idCount (c : Cfg) : Nat := 2 ^ c.idWidth

/-- The `wuser` argument (axi_master.py 337-342): an int or a list (`None` is normalised to 0 after the check). -/
inductive WUser
  | int (v : Int)
  | list (l : List Int)
  deriving DecidableEq, Repr

/-- Arguments of a read or write request. `burst` and `lock` are the integers passed to the enum
constructors; `awid`/`size` of `None` are `none` (axi_master.py 282-348, 717-771). -/
structure Req where
  address : Int
  length : Int
  id : Option Int := none
  burst : Int := 1
  size : Option Int := none
  side : Side := {}

/-- An accepted command, `AxiWriteCmd`/`AxiReadCmd` without the payload (axi_master.py 41-54, 75-87). -/
structure Cmd where
  address : Nat
  length : Nat
  id : Option Nat
  burst : Burst
  size : Nat
  side : Side
  deriving DecidableEq, Repr

/-- `AxiBurstType(burst)` (axi_master.py 305, 374, 740, 797): `ValueError` for an undefined value. -/
def burstOf (v : Int) : Py Burst :=
  if v = 0 then .ok .fixed else if v = 1 then .ok .incr else if v = 2 then .ok .wrap else .error .valueError

/-- The sideband checks (axi_master.py 312-333, 381-402, 747-766, 804-823); `AxiLockType(lock)` raises for
undefined values, `AxiProt` is a flag type accepting every integer. -/
def checkSide (p : Present) (s : Side) : Py Unit :=
  if ¬ (s.lock = 0 ∨ s.lock = 1) then .error .valueError
  else if !p.lock && decide (s.lock ≠ 0) then .error .valueError
  else if !p.cache && decide (s.cache ≠ 3) then .error .valueError
  else if !p.prot && decide (s.prot ≠ 2) then .error .valueError
  else if !p.qos && decide (s.qos ≠ 0) then .error .valueError
  else if !p.region && decide (s.region ≠ 0) then .error .valueError
  else if !p.user && decide (s.user ≠ 0) then .error .valueError
  else .ok ()

/-- The ID argument (axi_master.py 300-303, 369-372, 735-738, 792-795): `None` or negative selects an automatic
ID. -/
def checkId (c : Cfg) (id : Option Int) : Py (Option Nat) :=
  match id with
  | none => .ok none
  | some i => if i < 0 then .ok none else if i > c.idCount then .error .valueError else .ok (some i.toNat)

/-- The size argument (axi_master.py 307-310, 376-379, 742-745, 799-802): `None` or negative selects the maximum. -/
def checkSize (c : Cfg) (size : Option Int) : Py Nat :=
  match size with
  | none => .ok c.maxBurstSize
  | some s => if s < 0 then .ok c.maxBurstSize
    else if s > c.maxBurstSize then .error .valueError else .ok s.toNat

/-- The argument checks shared by `init_write`/`write` (axi_master.py 290-333, 360-402; the data is already a
byte string, so `length = len(data) ≥ 0`) and `init_read`/`read` (axi_master.py 724-766, 782-823). The
`wuser` check of writes is `checkWUser`. -/
def checkReq (c : Cfg) (r : Req) : Py Cmd :=
  if r.address < 0 ∨ r.address ≥ 2 ^ c.addrWidth then .error .valueError
  else if r.length < 0 then .error .valueError
  else if r.burst ≠ 0 ∧ r.address + r.length > 2 ^ c.addrWidth then .error .valueError
  else
    match checkId c r.id with
    | .error e => .error e
    | .ok id =>
      match burstOf r.burst with
      | .error e => .error e
      | .ok burst =>
        match checkSize c r.size with
        | .error e => .error e
        | .ok size =>
          match checkSide c.present r.side with
          | .error e => .error e
          | .ok () => .ok { address := r.address.toNat, length := r.length.toNat, id := id, burst := burst,
                            size := size, side := r.side }

/-- `if not self.wuser_present and wuser != 0: raise ValueError` (axi_master.py 334-335, 403-404; a list differs
from `0`). -/
def checkWUser (p : Present) (w : WUser) : Py Unit :=
  if !p.wuser && decide (w ≠ .int 0) then .error .valueError else .ok ()

/-- `init_write`/`write` up to queueing the command (axi_master.py 290-342, 360-420): `length` is `len(data)`. -/
def acceptWrite (c : Cfg) (r : Req) (data : Bytes) (wuser : WUser) : Py Cmd :=
  match checkReq c { r with length := data.length } with
  | .error e => .error e
  | .ok cmd =>
    match checkWUser c.present wuser with
    | .error e => .error e
    | .ok () => .ok cmd

/-- `init_read`/`read` up to queueing the command (axi_master.py 724-766, 782-823). -/
def acceptRead (c : Cfg) (r : Req) : Py Cmd := checkReq c r

/-- An AW or AR transaction (axi_master.py 536-547, 922-933). -/
structure ABeat where
  id : Nat
  addr : Nat
  len : Nat
  size : Nat
  burst : Burst
  side : Side
  deriving DecidableEq, Repr

/-- A W transaction (axi_master.py 560-571). -/
structure WBeat where
  data : Nat
  strb : Nat
  last : Bool
  user : Int
  deriving DecidableEq, Repr

/-- A B transaction (axi_slave.py 145-147). -/
structure BBeat where
  id : Nat
  resp : Resp
  user : Int := 0
  deriving DecidableEq, Repr

/-- An R transaction (axi_slave.py 311-324). -/
structure RBeat where
  id : Nat
  data : Nat
  resp : Resp
  last : Bool
  user : Int := 0
  deriving DecidableEq, Repr

/-- The burst length computed when a new burst starts at beat `k` (axi_master.py 529-532, 915-918):
`min(cycles-k, min(max(max_burst_len,1),256))`, then limited to the 4 KiB boundary. -/
def burstLen (maxBurstLen nb cycles k curAddr : Nat) : Nat :=
  let bl := min (cycles - k) (min (max maxBurstLen 1) 256)
  (min (bl * nb) (0x1000 - (curAddr &&& 0xfff)) + nb - 1) / nb

/-- Variables of the loop of `_process_write` (axi_master.py 488-495); `out` are the transactions sent so far, in
order. -/
structure WLoop where
  curAddr : Nat
  offset : Nat
  cycleOffset : Nat
  n : Nat
  burstLength : Nat
  burstList : List Nat
  out : List (ABeat ⊕ WBeat)
  deriving DecidableEq

/-- `w.wuser` of beat `k` (axi_master.py 565-571). -/
def wuserAt (w : WUser) (k : Nat) : Int :=
  match w with
  | .int v => v
  | .list l => match l[k]? with
    | some v => v
    | none => 0

/-- The next `cur_addr` (axi_master.py 575-580, 941-946). -/
def nextAddr (cmd : Cmd) (k curAddr : Nat) : Nat :=
  let nb := 2 ^ cmd.size
  if cmd.burst = .fixed then cmd.address
  else if k = 0 then (cmd.address / nb) * nb + nb
  else curAddr + nb

/-- The byte-lane strobe `(mask << start) & mask & (mask >> (byte_lanes - stop))` (axi_master.py 518). A negative
shift count is `ValueError`. -/
def strobe (lanes start stop : Nat) : Py Nat :=
  if lanes < stop then .error .valueError
  else
    let mask := 2 ^ lanes - 1
    .ok ((mask <<< start) &&& mask &&& (mask >>> (lanes - stop)))

/-- One iteration of the loop of `_process_write` (axi_master.py 509-581; the log messages are omitted). -/
def writeBeat (c : Cfg) (cmd : Cmd) (data : Bytes) (wuser : WUser) (awid cycles k : Nat) (s : WLoop) :
    Py WLoop :=
  let nb := 2 ^ cmd.size
  let startOffset := cmd.address % c.lanes
  let endOffset := (((cmd.address : Int) + data.length - 1) % c.lanes + 1).toNat
  let start := if k = 0 then startOffset else s.cycleOffset
  let stop := if k = cycles - 1 then endOffset else s.cycleOffset + nb
  match strobe c.lanes start stop with
  | .error e => .error e
  | .ok strb =>
    match packLanes data (stop - start) start 0 s.offset with
    | .error e => .error e
    | .ok (val, offset) =>
      let newBurst := decide (s.n ≥ s.burstLength)
      let bl := if newBurst then burstLen c.maxBurstLen nb cycles k s.curAddr else s.burstLength
      let n := (if newBurst then 0 else s.n) + 1
      let aw : List (ABeat ⊕ WBeat) := if newBurst then
        [.inl { id := awid, addr := s.curAddr, len := bl - 1, size := cmd.size, burst := cmd.burst
                side := cmd.side }] else []
      .ok { curAddr := nextAddr cmd k s.curAddr
            offset := offset
            cycleOffset := (s.cycleOffset + nb) % c.lanes
            n := n
            burstLength := bl
            burstList := if newBurst then s.burstList ++ [bl] else s.burstList
            out := s.out ++ aw ++ [.inr { data := val, strb := strb, last := decide (n ≥ bl)
                                          user := wuserAt wuser k }] }

/-- `for k in range(cycles)` (axi_master.py 509-581); `rem` iterations are left. -/
def writeLoop (c : Cfg) (cmd : Cmd) (data : Bytes) (wuser : WUser) (awid cycles : Nat) :
    Nat → WLoop → Py WLoop
  | 0, s => .ok s
  | rem + 1, s =>
    match writeBeat c cmd data wuser awid cycles (cycles - (rem + 1)) s with
    | .error e => .error e
    | .ok s => writeLoop c cmd data wuser awid cycles rem s

/-- Number of beats of a request (axi_master.py 486, 892). -/
def cyclesOf (cmd : Cmd) : Nat :=
  let nb := 2 ^ cmd.size
  (cmd.length + cmd.address % nb + nb - 1) / nb

/-- The ID used, and the next `cur_id` (axi_master.py 497-501, 901-905). -/
def chooseId (c : Cfg) (cmd : Cmd) (curId : Nat) : Nat × Nat :=
  match cmd.id with
  | some i => (i, curId)
  | none => (curId, (curId + 1) % c.idCount)

/-- The body of `_process_write` for one command (axi_master.py 475-586; `active_id` is in the tag model): the transactions sent on AW and W, the
ID, the list of burst lengths handed to the response handler and the next `cur_id`. -/
def processWrite (c : Cfg) (curId : Nat) (cmd : Cmd) (data : Bytes) (wuser : WUser) :
    Py (List (ABeat ⊕ WBeat) × Nat × List Nat × Nat) :=
  let nb := 2 ^ cmd.size
  let aligned := (cmd.address / nb) * nb
  let word := (cmd.address / c.lanes) * c.lanes
  let cycles := cyclesOf cmd
  let idn := chooseId c cmd curId
  match writeLoop c cmd data wuser idn.1 cycles cycles
      { curAddr := cmd.address, offset := 0, cycleOffset := aligned - word, n := 0, burstLength := 0
        burstList := [], out := [] } with
  | .error e => .error e
  | .ok s => .ok (s.out, idn.1, s.burstList, idn.2)

/-- `while True` of `_process_write` (axi_master.py 474-586) over a sequence of queued commands: per command, the
transactions sent, the ID used and the burst lengths. -/
def processWrites (c : Cfg) : Nat → List (Cmd × Bytes × WUser) → Py (List (List (ABeat ⊕ WBeat) × Nat × List Nat))
  | _, [] => .ok []
  | curId, (cmd, data, wuser) :: rest =>
    match processWrite c curId cmd data wuser with
    | .error e => .error e
    | .ok (out, id, bl, curId) =>
      match processWrites c curId rest with
      | .error e => .error e
      | .ok l => .ok ((out, id, bl) :: l)

/-- Variables of the loop of `_process_read` (axi_master.py 894-899). -/
structure RLoop where
  curAddr : Nat
  n : Nat
  burstLength : Nat
  burstList : List Nat
  out : List ABeat
  deriving DecidableEq

/-- One iteration of the loop of `_process_read` (axi_master.py 909-946). -/
def readBeat (c : Cfg) (cmd : Cmd) (arid cycles k : Nat) (s : RLoop) : RLoop :=
  let nb := 2 ^ cmd.size
  let n := s.n + 1
  if n ≥ s.burstLength then
    let bl := burstLen c.maxBurstLen nb cycles k s.curAddr
    { curAddr := nextAddr cmd k s.curAddr, n := 0, burstLength := bl, burstList := s.burstList ++ [bl]
      out := s.out ++ [{ id := arid, addr := s.curAddr, len := bl - 1, size := cmd.size
                         burst := cmd.burst, side := cmd.side }] }
  else { s with curAddr := nextAddr cmd k s.curAddr, n := n }

/-- `for k in range(cycles)` (axi_master.py 909-946). -/
def readLoop (c : Cfg) (cmd : Cmd) (arid cycles : Nat) : Nat → RLoop → RLoop
  | 0, s => s
  | rem + 1, s => readLoop c cmd arid cycles rem (readBeat c cmd arid cycles (cycles - (rem + 1)) s)

/-- The body of `_process_read` for one command (axi_master.py 883-951). -/
def processRead (c : Cfg) (curId : Nat) (cmd : Cmd) : List ABeat × Nat × List Nat × Nat :=
  let cycles := cyclesOf cmd
  let idn := chooseId c cmd curId
  let s := readLoop c cmd idn.1 cycles cycles
    { curAddr := cmd.address, n := 0, burstLength := 0, burstList := [], out := [] }
  (s.out, idn.1, s.burstList, idn.2)

/-- `while True` of `_process_read` (axi_master.py 884-951) over a sequence of queued commands. -/
def processReads (c : Cfg) : Nat → List Cmd → List (List ABeat × Nat × List Nat)
  | _, [] => []
  | curId, cmd :: rest =>
    let (out, id, bl, curId) := processRead c curId cmd
    (out, id, bl) :: processReads c curId rest

/-- The body of `_process_write_resp_id` (axi_master.py 598-626): one response is taken per entry of
`burst_list`; the result is the response code and the list of `buser` values, and the responses not taken.
Running out of responses (`queueEmpty`) stands for waiting. -/
def writeRespLoop : List Nat → List BBeat → Resp → List Int → Py (Resp × List Int × List BBeat)
  | [], bs, resp, user => .ok (resp, user, bs)
  | _ :: _, [], _, _ => .error .queueEmpty
  | _ :: bl, b :: bs, resp, user => writeRespLoop bl bs (if b.resp ≠ .okay then b.resp else resp) (user ++ [b.user])

/-- The result of a write operation (axi_master.py 601-626). -/
def writeResult (burstList : List Nat) (bs : List BBeat) : Py (Resp × List Int × List BBeat) :=
  writeRespLoop burstList bs .okay []

/-- Loop of `_process_read_resp_id` over the beats of one burst (axi_master.py 982-1013): `k` beats done of
`burstLength`. -/
def readRespBurst (c : Cfg) (cmd : Cmd) (burstLength : Nat) :
    (rem : Nat) → List RBeat → (cycleOffset : Nat) → (first : Bool) → Bytes → Resp → List Int →
    Py (List RBeat × Nat × Bool × Bytes × Resp × List Int)
  | 0, rs, co, first, data, resp, user => .ok (rs, co, first, data, resp, user)
  | rem + 1, rs, co, first, data, resp, user =>
    match rs with
    | [] => .error .queueEmpty
    | r :: rs =>
      let k := burstLength - (rem + 1)
      if r.last ≠ decide (k = burstLength - 1) then .error .assertionError
      else
        let nb := 2 ^ cmd.size
        let start := if first then cmd.address % c.lanes else co
        let stop := co + nb
        readRespBurst c cmd burstLength rem rs ((co + nb) % c.lanes) false
          (data ++ unpackLanes r.data start stop) (if r.resp ≠ .okay then r.resp else resp) (user ++ [r.user])

/-- `for burst_length in cmd.burst_list` (axi_master.py 981-1017). -/
def readRespBursts (c : Cfg) (cmd : Cmd) : List Nat → List RBeat → Nat → Bool → Bytes → Resp → List Int →
    Py (Bytes × Resp × List Int × List RBeat)
  | [], rs, _, _, data, resp, user => .ok (data, resp, user, rs)
  | bl :: rest, rs, co, first, data, resp, user =>
    match readRespBurst c cmd bl bl rs co first data resp user with
    | .error e => .error e
    | .ok (rs, co, first, data, resp, user) => readRespBursts c cmd rest rs co first data resp user

/-- The body of `_process_read_resp_id` (axi_master.py 963-1029): from the received R beats to the returned data,
response code, `ruser` list and the beats not taken. Running out of beats (`queueEmpty`) stands for
waiting. -/
def readResult (c : Cfg) (cmd : Cmd) (burstList : List Nat) (rs : List RBeat) :
    Py (Bytes × Resp × List Int × List RBeat) :=
  let nb := 2 ^ cmd.size
  let aligned := (cmd.address / nb) * nb
  let word := (cmd.address / c.lanes) * c.lanes
  match readRespBursts c cmd burstList rs (aligned - word) true [] .okay [] with
  | .error e => .error e
  | .ok (data, resp, user, rs) => .ok (data.take cmd.length, resp, user, rs)

/-! ## Slaves -/

/-- Address stepping of the slaves (axi_slave.py 196-201, 331-336). -/
def slaveNext (burst : Burst) (nb lower upper cur : Nat) : Nat :=
  if burst ≠ .fixed then
    let cur := cur + nb
    if burst = .wrap ∧ cur = upper then lower else cur
  else cur

/-- Outcome of serving one burst: finished, waiting for more W beats, or died on an assertion (axi_slave.py 113-203, 276-336). -/
inductive Served (α : Type)
  | done (v : α)
  | starved
  | failed (e : PyErr)

/-- `for n in range(length)` of `AxiSlaveWrite._process_write` (axi_slave.py 149-201); `rem` beats left of
`length`. -/
def slaveWriteBeats {σ : Type} (t : Target σ) (lanes : Nat) (wstrbPresent : Bool) (burst : Burst)
    (nb length lower upper : Nat) :
    (rem : Nat) → (curAddr : Nat) → Resp → List WBeat → σ → Served (Resp × List WBeat) × σ
  | 0, _, resp, ws, st => (.done (resp, ws), st)
  | _ + 1, _, _, [], st => (.starved, st)
  | rem + 1, cur, resp, w :: ws, st =>
    let word := (cur / lanes) * lanes
    let strb := if wstrbPresent then w.strb else 2 ^ lanes - 1
    match toBytes lanes .little w.data with
    | .error e => (.failed e, st)
    | .ok data =>
      let (resp, st) := match performOps t (writeOps lanes word data strb) st with
        | (.ok (), st) => (resp, st)
        | (.error _, st) => (Resp.slverr, st)
      let n := length - (rem + 1)
      if w.last ≠ decide (n = length - 1) then (.failed .assertionError, st)
      else slaveWriteBeats t lanes wstrbPresent burst nb length lower upper rem
        (slaveNext burst nb lower upper cur) resp ws st

/-- `AxiSlaveWrite._process_write` for one AW transaction (axi_slave.py 115-203). -/
def slaveWrite {σ : Type} (t : Target σ) (lanes : Nat) (wstrbPresent : Bool) (aw : ABeat) (ws : List WBeat)
    (st : σ) : Served (BBeat × List WBeat) × σ :=
  let nb := 2 ^ aw.size
  if ¬ nb ≤ lanes then (.failed .assertionError, st)
  else
    let aligned := (aw.addr / nb) * nb
    let length := aw.len + 1
    let transfer := nb * length
    let lower := (aw.addr / transfer) * transfer
    if aw.burst = .incr ∧ ¬ 0x1000 - (aligned &&& 0xfff) ≥ transfer then (.failed .assertionError, st)
    else
      match slaveWriteBeats t lanes wstrbPresent aw.burst nb length lower (lower + transfer) length aligned
          .okay ws st with
      | (.done (resp, ws), st) => (.done ({ id := aw.id, resp := resp }, ws), st)
      | (.starved, st) => (.starved, st)
      | (.failed e, st) => (.failed e, st)

/-- Serving a sequence of AW transactions with the W stream (axi_slave.py 114, `while True`). Returns the B
transactions. -/
def slaveWrites {σ : Type} (t : Target σ) (lanes : Nat) (wstrbPresent : Bool) :
    List ABeat → List WBeat → σ → Served (List BBeat × List WBeat) × σ
  | [], ws, st => (.done ([], ws), st)
  | aw :: rest, ws, st =>
    match slaveWrite t lanes wstrbPresent aw ws st with
    | (.starved, st) => (.starved, st)
    | (.failed e, st) => (.failed e, st)
    | (.done (b, ws), st) =>
      match slaveWrites t lanes wstrbPresent rest ws st with
      | (.done (bs, ws), st) => (.done (b :: bs, ws), st)
      | (.starved, st) => (.starved, st)
      | (.failed e, st) => (.failed e, st)

/-- `for n in range(length)` of `AxiSlaveRead._process_read` (axi_slave.py 308-336; `int.from_bytes`). -/
def slaveReadBeats {σ : Type} (t : Target σ) (lanes : Nat) (burst : Burst) (id nb length lower upper : Nat) :
    (rem : Nat) → (curAddr : Nat) → σ → List RBeat × σ
  | 0, _, st => ([], st)
  | rem + 1, cur, st =>
    let word := (cur / lanes) * lanes
    let n := length - (rem + 1)
    let r : Resp × Bytes × σ := match t.read word lanes st with
      | (.ok d, st) => (.okay, d, st)
      | (.error _, st) => (.slverr, List.replicate lanes 0, st)
    let beat : RBeat := { id := id, data := fromBytes .little r.2.1, resp := r.1, last := decide (n = length - 1) }
    let rest := slaveReadBeats t lanes burst id nb length lower upper rem
      (slaveNext burst nb lower upper cur) r.2.2
    (beat :: rest.1, rest.2)

/-- `AxiSlaveRead._process_read` for one AR transaction (axi_slave.py 278-336). -/
def slaveRead {σ : Type} (t : Target σ) (lanes : Nat) (ar : ABeat) (st : σ) : Served (List RBeat) × σ :=
  let nb := 2 ^ ar.size
  if ¬ nb ≤ lanes then (.failed .assertionError, st)
  else
    let aligned := (ar.addr / nb) * nb
    let length := ar.len + 1
    let transfer := nb * length
    let lower := (ar.addr / transfer) * transfer
    if ar.burst = .incr ∧ ¬ 0x1000 - (aligned &&& 0xfff) ≥ transfer then (.failed .assertionError, st)
    else
      let r := slaveReadBeats t lanes ar.burst ar.id nb length lower (lower + transfer) length aligned st
      (.done r.1, r.2)

/-- Serving a sequence of AR transactions (axi_slave.py 277, `while True`). -/
def slaveReads {σ : Type} (t : Target σ) (lanes : Nat) : List ABeat → σ → Served (List RBeat) × σ
  | [], st => (.done [], st)
  | ar :: rest, st =>
    match slaveRead t lanes ar st with
    | (.starved, st) => (.starved, st)
    | (.failed e, st) => (.failed e, st)
    | (.done rs, st) =>
      match slaveReads t lanes rest st with
      | (.done rs', st) => (.done (rs ++ rs'), st)
      | (.starved, st) => (.starved, st)
      | (.failed e, st) => (.failed e, st)

end Verif.Axi
