import Verif.Model.Wiring
import Verif.Model.WordBus

/-!
# Model of how the fields of a transaction cross a connection, and of the results that are made from responses

A source drives the fields of a transaction on the signals that its bus has; the sink creates a transaction with all fields zero and samples the
signals that its bus has into it. The masters make the results of operations from the transactions that arrive.

Simplification: only the values are here (when signals are driven and sampled is in the models of streams); the masters' waiting for responses is in
the models of the masters.
-/

namespace Verif.Wiring

open DefineStream (Str Stream transaction)
open Axi (BBeat RBeat)

/-- The attributes of a transaction object (stream.py 57-69). -/
abbrev Trans := List (Str × Int)

/-- The values of the signals of a design (unsigned). -/
abbrev Wires := Str → Int

/-- `Bus.drive(obj)` of `cocotb_bus`, as called at stream.py 275: every signal of the bus that is an attribute of the object is assigned; a value that
does not fit, read as signed or unsigned, raises `OverflowError`. -/
def driveAll : List (Str × Str × Nat) → Trans → Wires → Py Wires
  | [], _, w => .ok w
  | (a, n, k) :: hs, t, w =>
    match t.lookup a with
    | none => driveAll hs t w
    | some v =>
      if -(2 ^ (k - 1) : Nat) ≤ v ∧ v < (2 ^ k : Nat) then driveAll hs t (fun m => if m = n then v % (2 ^ k : Nat) else w m)
      else .error .overflowError

/-- `setattr(obj, a, v)` for an attribute that exists. -/
def setAttr (a : Str) (v : Int) (t : Trans) : Trans := t.map fun x => if x.1 = a then (x.1, v) else x

/-- `Bus.sample(obj)` of `cocotb_bus`, as called at stream.py 361-362, 419-420: every signal of the bus that is an attribute of the object is
copied to it. -/
def sampleAll : List (Str × Str × Nat) → Wires → Trans → Trans
  | [], _, t => t
  | (a, n, _) :: hs, w, t => sampleAll hs w (if (t.lookup a).isSome then setAttr a (w n) t else t)

/-- One transaction crosses a channel: the sender's object with the given attributes, `self.bus.drive(obj)` (stream.py 275), and at the other end
`obj = self._transaction_obj(); self.bus.sample(obj)` (stream.py 419-420). Both ends have a bus on the same signals. -/
def transfer (st : Stream) (d : Design) (pfx : Option Str) (w : Wires) (kwargs : Trans) : Py Trans :=
  match connect st.signals st.optional d pfx with
  | .error e => .error e
  | .ok b =>
    match transaction st.fields kwargs with
    | .error e => .error e
    | .ok t =>
      match driveAll b.handles t w with
      | .error e => .error e
      | .ok w =>
        match transaction st.fields [] with
        | .error e => .error e
        | .ok t => .ok (sampleAll b.handles w t)

/-- The same over one of the channels of AXI and AXI-lite. -/
def Chan.transfer (c : Chan) (d : Design) (pfx : Option Str) (w : Wires) (kwargs : List (String × Int)) : Py Trans :=
  match c.stream with
  | .error e => .error e
  | .ok st => Wiring.transfer st d pfx w (kwargs.map fun x => (x.1.toList, x.2))

/-- `int(getattr(t, name, default))` with default 0 (axi_master.py 591, 607-608, 957, 985-995; axil_master.py 326, 550). -/
def attrOf (t : Trans) (a : String) : Int := (t.lookup a.toList).getD 0

/-- The value of an `AxiResp` (constants.py 104-108). -/
def respVal : Resp → Int
  | .okay => 0
  | .exokay => 1
  | .slverr => 2
  | .decerr => 3

/-- `AxiResp(v)` (constants.py 104-108). -/
def respOf (v : Int) : Py Resp :=
  if v = 0 then .ok .okay else if v = 1 then .ok .exokay else if v = 2 then .ok .slverr else if v = 3 then .ok .decerr else .error .valueError

/-- A response of an AXI slave as its master sees it (axi_slave.py 145-147, 203-208; axi_master.py 589-591, 607-608). -/
def arriveB (d : Design) (pfx : Option Str) (w : Wires) (b : BBeat) : Py BBeat :=
  match axiB.transfer d pfx w [("bid", b.id), ("bresp", respVal b.resp), ("buser", b.user)] with
  | .error e => .error e
  | .ok t =>
    match respOf (attrOf t "bresp") with
    | .error e => .error e
    | .ok r => .ok { id := (attrOf t "bid").toNat, resp := r, user := attrOf t "buser" }

/-- A beat of read data of an AXI slave as its master sees it (axi_slave.py 311-324; axi_master.py 955-957, 988-995). -/
def arriveR (d : Design) (pfx : Option Str) (w : Wires) (b : RBeat) : Py RBeat :=
  match axiR.transfer d pfx w [("rid", b.id), ("rdata", b.data), ("rresp", respVal b.resp), ("rlast", if b.last then 1 else 0), ("ruser", b.user)] with
  | .error e => .error e
  | .ok t =>
    match respOf (attrOf t "rresp") with
    | .error e => .error e
    | .ok r => .ok { id := (attrOf t "rid").toNat, data := (attrOf t "rdata").toNat, resp := r, last := decide (attrOf t "rlast" ≠ 0)
                     user := attrOf t "ruser" }

/-- A response of an AXI-lite slave as its master sees it (axil_slave.py 129-156; axil_master.py 326). -/
def arriveLiteB (d : Design) (pfx : Option Str) (w : Wires) (r : Resp) : Py Resp :=
  match liteB.transfer d pfx w [("bresp", respVal r)] with
  | .error e => .error e
  | .ok t => respOf (attrOf t "bresp")

/-- Read data of an AXI-lite slave as its master sees it (axil_slave.py 232-253; axil_master.py 549-550). -/
def arriveLiteR (d : Design) (pfx : Option Str) (w : Wires) (b : Nat × Resp) : Py (Nat × Resp) :=
  match liteR.transfer d pfx w [("rdata", b.1), ("rresp", respVal b.2)] with
  | .error e => .error e
  | .ok t =>
    match respOf (attrOf t "rresp") with
    | .error e => .error e
    | .ok r => .ok ((attrOf t "rdata").toNat, r)

/-- A sequence of transactions, one after the other. -/
def arriveAll {α β : Type} (f : α → Py β) : List α → Py (List β)
  | [] => .ok []
  | a :: l =>
    match f a with
    | .error e => .error e
    | .ok b =>
      match arriveAll f l with
      | .error e => .error e
      | .ok l => .ok (b :: l)

/-- `AxiWriteResp` (axi_master.py 67-71). -/
structure WriteResp where
  address : Nat
  length : Nat
  resp : Resp
  user : Option (List Int)
  deriving DecidableEq

/-- `AxiReadResp` (axi_master.py 100-107). -/
structure ReadResp where
  address : Nat
  data : Bytes
  resp : Resp
  user : Option (List Int)
  deriving DecidableEq

/-- What `_process_write_resp_id` of a master returns for a command (axi_master.py 598-628): `self.buser_present` is line 250. -/
def Part.writeResp (x : Part) (cmd : Axi.Cmd) (burstList : List Nat) (bs : List BBeat) : Py WriteResp :=
  match Axi.writeResult burstList bs with
  | .error e => .error e
  | .ok (resp, user, _) =>
    .ok { address := cmd.address, length := cmd.length, resp := resp, user := if decide ("buser".toList ∈ x.has) then some user else none }

/-- What `_process_read_resp_id` of a master returns for a command (axi_master.py 963-1028): `self.ruser_present` is line 687. -/
def Part.readResp (x : Part) (maxBurstLen : Int) (cmd : Axi.Cmd) (burstList : List Nat) (rs : List RBeat) : Py ReadResp :=
  match Axi.readResult (x.readCfg maxBurstLen) cmd burstList rs with
  | .error e => .error e
  | .ok (data, resp, user, _) =>
    .ok { address := cmd.address, data := data, resp := resp, user := if decide ("ruser".toList ∈ x.has) then some user else none }

end Verif.Wiring
