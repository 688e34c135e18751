import Verif.Model.Axi
import Verif.Model.AxiOps

/-!
# An `AxiMaster` connected to an `AxiSlave` (or `AxiRam`)

Puts the operation bookkeeping of the masters (`Model/AxiOps.lean`), what they send (`Model/Axi.lean`) and the slaves
together, on one target. The five channels are FIFOs (the stream model and its theorems C04 - C10 justify that). Both ends of a
channel see the same reset.

Scheduling: every piece of every coroutine between two suspensions is an event of its own, in any order; an event that is not
possible does nothing. The slave serves one data beat per event: the `_read`/`_write` of the RAM models
do not suspend. Targets that suspend inside an access are covered in `Model/AxiClock.lean`. All optional signals are assumed to be connected.
-/

namespace Verif.AxiSys

open Verif.Axi Verif.AxiOps

/-- The arguments of a call of `write`/`init_write` (axi_master.py 282-284, 357-358). -/
structure WArgs where
  req : Req
  data : Bytes
  wuser : WUser := .int 0

/-- The operation that call number `k` makes: the ID asked for, and one response for each burst (axi_master.py 412-420,
509-549, 601-604). -/
def wOp (c : Cfg) (args : Nat → WArgs) (k : Nat) : Op :=
  match acceptWrite c (args k).req (args k).data (args k).wuser with
  | .ok cmd =>
    match processWrite c 0 cmd (args k).data (args k).wuser with
    | .ok (_, _, bl, _) => { key := k, id? := cmd.id, bursts := bl.map fun _ => 0 }
    | .error _ => { key := k, id? := cmd.id }
  | .error _ => { key := k }

/-- The variables of `AxiSlaveWrite._process_write` while it serves a burst (axi_slave.py 117-153). -/
structure WBurst where
  aw : ABeat
  n : Nat
  cur : Nat
  resp : Resp
  deriving DecidableEq

/-- The write side: `AxiMasterWrite`, the channels and `AxiSlaveWrite` (axi_master.py 196-280, axi_slave.py 35-93). -/
structure WPort where
  m : Master BBeat := {}
  /-- how many times `write`/`init_write` have been called -/
  calls : Nat := 0
  /-- what `_process_write` has still to send for its current command -/
  todo : List (ABeat ⊕ WBeat) := []
  aw : List ABeat := []
  w : List WBeat := []
  b : List BBeat := []
  /-- the burst that the slave is serving -/
  sl : Option WBurst := none
  /-- a coroutine has died of an exception (what happens then is not modelled further) -/
  died : Bool := false

/-- Events of the write side (axi_master.py 282-636, axi_slave.py 95-203). -/
inductive WEv
  | write
  | init
  | runInit (i : Nat)
  | take
  | sendAW
  | sendW
  | start
  | slaveAW
  | slaveW
  | slaveB
  | deliver
  | workTake (i : Nat)
  | workGet (i : Nat)
  | workDone (i : Nat)
  | reset (v : Bool)

namespace WPort

variable {σ : Type} (c : Cfg) (args : Nat → WArgs) (t : Target σ)

/-- `write(...)` (axi_master.py 357-423): a rejected call only raises. -/
def write (p : WPort) : WPort :=
  match acceptWrite c (args p.calls).req (args p.calls).data (args p.calls).wuser with
  | .ok _ => { p with calls := p.calls + 1, m := p.m.step c.idCount (.write (wOp c args p.calls)) }
  | .error _ => { p with calls := p.calls + 1 }

/-- `init_write(...)` (axi_master.py 274-348). -/
def init (p : WPort) : WPort :=
  match acceptWrite c (args p.calls).req (args p.calls).data (args p.calls).wuser with
  | .ok _ => { p with calls := p.calls + 1, m := p.m.step c.idCount (.init (wOp c args p.calls)) }
  | .error _ => { p with calls := p.calls + 1 }

/-- `_process_write` gets a command (axi_master.py 475-503). -/
def take (p : WPort) : WPort :=
  match p.died, p.m.running, p.m.cur, p.m.queue with
  | false, true, none, op :: _ =>
    let a := args op.key
    match acceptWrite c a.req a.data a.wuser with
    | .error _ => { p with died := true }
    | .ok cmd =>
      match processWrite c p.m.curId cmd a.data a.wuser with
      | .error _ => { p with died := true }
      | .ok (out, _, _, _) => { p with m := p.m.step c.idCount .take, todo := out }
  | _, _, _, _ => p

/-- `_process_write` sends an AW transaction (axi_master.py 534-549). An ID that does not fit the signal cannot be driven. -/
def sendAW (p : WPort) : WPort :=
  match p.died, p.todo with
  | false, .inl a :: rest =>
    if a.id < c.idCount then { p with m := p.m.step c.idCount .burst, todo := rest, aw := p.aw ++ [a] }
    else { p with died := true }
  | _, _ => p

/-- `_process_write` sends a W transaction (axi_master.py 560-573). -/
def sendW (p : WPort) : WPort :=
  match p.died, p.todo with
  | false, .inr w :: rest => { p with todo := rest, w := p.w ++ [w] }
  | _, _ => p

/-- `start_cmd` after the last transaction (axi_master.py 583-586). -/
def start (p : WPort) : WPort :=
  match p.died, p.todo with
  | false, [] => { p with m := p.m.step c.idCount .start }
  | _, _ => p

/-- The slave gets an AW transaction and checks it (axi_slave.py 115-147). -/
def slaveAW (p : WPort) : WPort :=
  match p.died, p.sl, p.aw with
  | false, none, a :: rest =>
    let nb := 2 ^ a.size
    let aligned := (a.addr / nb) * nb
    if ¬ nb ≤ c.lanes then { p with died := true }
    else if a.burst = .incr ∧ ¬ 0x1000 - (aligned &&& 0xfff) ≥ nb * (a.len + 1) then { p with died := true }
    else { p with aw := rest, sl := some { aw := a, n := 0, cur := aligned, resp := .okay } }
  | _, _, _ => p

/-- The slave gets a W transaction and performs its writes (axi_slave.py 149-201). -/
def slaveW (p : WPort) (st : σ) : WPort × σ :=
  match p.died, p.sl, p.w with
  | false, some s, w :: rest =>
    if s.n < s.aw.len + 1 then
      let nb := 2 ^ s.aw.size
      let transfer := nb * (s.aw.len + 1)
      let lower := (s.aw.addr / transfer) * transfer
      match toBytes c.lanes .little w.data with
      | .error _ => ({ p with died := true }, st)
      | .ok data =>
        let r := performOps t (writeOps c.lanes ((s.cur / c.lanes) * c.lanes) data w.strb) st
        let resp := match r.1 with
          | .ok () => s.resp
          | .error _ => .slverr
        if w.last ≠ decide (s.n = s.aw.len) then ({ p with died := true }, r.2)
        else
          let cur := slaveNext s.aw.burst nb lower (lower + transfer) s.cur
          ({ p with w := rest, sl := some { aw := s.aw, n := s.n + 1, cur := cur, resp := resp } }, r.2)
    else (p, st)
  | _, _, _ => (p, st)

/-- The slave sends the B transaction (axi_slave.py 145-147, 203). -/
def slaveB (p : WPort) : WPort :=
  match p.died, p.sl with
  | false, some s =>
    if s.n = s.aw.len + 1 then { p with sl := none, b := p.b ++ [{ id := s.aw.id, resp := s.resp }] } else p
  | _, _ => p

/-- `_process_write_resp` gets a B transaction (axi_master.py 588-596). -/
def deliver (p : WPort) : WPort :=
  match p.b with
  | x :: rest => { p with m := p.m.step c.idCount (.resp x.id x), b := rest }
  | [] => p

/-- Both ends see the reset (axi_master.py 430-471, axi_slave.py 98-112): the master flushes its operations, the channels are
cleared and the slave forgets its burst. -/
def reset (p : WPort) (v : Bool) : WPort :=
  if v then { p with m := p.m.step c.idCount (.reset true), todo := [], aw := [], w := [], b := [], sl := none, died := false }
  else { p with m := p.m.step c.idCount (.reset false) }

/-- One event, and its effect on the target (axi_master.py 282-636, axi_slave.py 95-203). -/
def step (p : WPort) (st : σ) : WEv → WPort × σ
  | .write => (p.write c args, st)
  | .init => (p.init c args, st)
  | .runInit i => ({ p with m := p.m.step c.idCount (.runInit i) }, st)
  | .take => (p.take c args, st)
  | .sendAW => (p.sendAW c, st)
  | .sendW => (p.sendW, st)
  | .start => (p.start c, st)
  | .slaveAW => (p.slaveAW c, st)
  | .slaveW => p.slaveW c t st
  | .slaveB => (p.slaveB, st)
  | .deliver => (p.deliver c, st)
  | .workTake i => ({ p with m := p.m.step c.idCount (.workTake i) }, st)
  | .workGet i => ({ p with m := p.m.step c.idCount (.workGet i) }, st)
  | .workDone i => ({ p with m := p.m.step c.idCount (.workDone i) }, st)
  | .reset v => (p.reset c v, st)

end WPort

/-! ## The read side -/

/-- The operation that call number `k` of `read`/`init_read` makes: `arlen` of each burst (axi_master.py 836-843, 909-933,
981-982). -/
def rOp (c : Cfg) (args : Nat → Req) (k : Nat) : Op :=
  match acceptRead c (args k) with
  | .ok cmd => { key := k, id? := cmd.id, bursts := (processRead c 0 cmd).2.2.1.map (· - 1) }
  | .error _ => { key := k }

/-- The variables of `AxiSlaveRead._process_read` while it serves a burst (axi_slave.py 279-306). -/
structure RBurst where
  ar : ABeat
  n : Nat
  cur : Nat
  deriving DecidableEq

/-- The read side: `AxiMasterRead`, the channels and `AxiSlaveRead` (axi_master.py 638-715, axi_slave.py 206-257). -/
structure RPort where
  m : Master RBeat := {}
  calls : Nat := 0
  todo : List ABeat := []
  ar : List ABeat := []
  r : List RBeat := []
  sl : Option RBurst := none
  died : Bool := false

/-- Events of the read side (axi_master.py 717-1035, axi_slave.py 259-336). -/
inductive REv
  | read
  | init
  | runInit (i : Nat)
  | take
  | sendAR
  | start
  | slaveAR
  | slaveR
  | deliver
  | workTake (i : Nat)
  | workGet (i : Nat)
  | workDone (i : Nat)
  | reset (v : Bool)

namespace RPort

variable {σ : Type} (c : Cfg) (args : Nat → Req) (t : Target σ)

/-- `read(...)` (axi_master.py 779-843). -/
def read (p : RPort) : RPort :=
  match acceptRead c (args p.calls) with
  | .ok _ => { p with calls := p.calls + 1, m := p.m.step c.idCount (.write (rOp c args p.calls)) }
  | .error _ => { p with calls := p.calls + 1 }

/-- `init_read(...)` (axi_master.py 714-770). -/
def init (p : RPort) : RPort :=
  match acceptRead c (args p.calls) with
  | .ok _ => { p with calls := p.calls + 1, m := p.m.step c.idCount (.init (rOp c args p.calls)) }
  | .error _ => { p with calls := p.calls + 1 }

/-- `_process_read` gets a command (axi_master.py 884-907). -/
def take (p : RPort) : RPort :=
  match p.died, p.m.running, p.m.cur, p.m.queue with
  | false, true, none, op :: _ =>
    match acceptRead c (args op.key) with
    | .error _ => { p with died := true }
    | .ok cmd => { p with m := p.m.step c.idCount .take, todo := (processRead c p.m.curId cmd).1 }
  | _, _, _, _ => p

/-- `_process_read` sends an AR transaction (axi_master.py 920-936). -/
def sendAR (p : RPort) : RPort :=
  match p.died, p.todo with
  | false, a :: rest =>
    if a.id < c.idCount then { p with m := p.m.step c.idCount .burst, todo := rest, ar := p.ar ++ [a] }
    else { p with died := true }
  | _, _ => p

/-- `start_cmd` after the last transaction (axi_master.py 948-951). -/
def start (p : RPort) : RPort :=
  match p.died, p.todo with
  | false, [] => { p with m := p.m.step c.idCount .start }
  | _, _ => p

/-- The slave gets an AR transaction and checks it (axi_slave.py 279-306). -/
def slaveAR (p : RPort) : RPort :=
  match p.died, p.sl, p.ar with
  | false, none, a :: rest =>
    let nb := 2 ^ a.size
    let aligned := (a.addr / nb) * nb
    if ¬ nb ≤ c.lanes then { p with died := true }
    else if a.burst = .incr ∧ ¬ 0x1000 - (aligned &&& 0xfff) ≥ nb * (a.len + 1) then { p with died := true }
    else { p with ar := rest, sl := some { ar := a, n := 0, cur := aligned } }
  | _, _, _ => p

/-- The slave reads a word and sends it (axi_slave.py 308-336). -/
def slaveR (p : RPort) (st : σ) : RPort × σ :=
  match p.died, p.sl with
  | false, some s =>
    let nb := 2 ^ s.ar.size
    let transfer := nb * (s.ar.len + 1)
    let lower := (s.ar.addr / transfer) * transfer
    let r : Resp × Bytes × σ := match t.read ((s.cur / c.lanes) * c.lanes) c.lanes st with
      | (.ok d, st) => (.okay, d, st)
      | (.error _, st) => (.slverr, List.replicate c.lanes 0, st)
    let beat : RBeat := { id := s.ar.id, data := fromBytes .little r.2.1, resp := r.1, last := decide (s.n = s.ar.len) }
    ({ p with r := p.r ++ [beat]
              sl := if s.n < s.ar.len then
                  some { s with n := s.n + 1, cur := slaveNext s.ar.burst nb lower (lower + transfer) s.cur }
                else none }, r.2.2)
  | _, _ => (p, st)

/-- `_process_read_resp` gets an R transaction (axi_master.py 953-961). -/
def deliver (p : RPort) : RPort :=
  match p.r with
  | x :: rest => { p with m := p.m.step c.idCount (.resp x.id x), r := rest }
  | [] => p

/-- Both ends see the reset (axi_master.py 850-881, axi_slave.py 262-274). -/
def reset (p : RPort) (v : Bool) : RPort :=
  if v then { p with m := p.m.step c.idCount (.reset true), todo := [], ar := [], r := [], sl := none, died := false }
  else { p with m := p.m.step c.idCount (.reset false) }

/-- One event, and its effect on the target (axi_master.py 717-1035, axi_slave.py 259-336). -/
def step (p : RPort) (st : σ) : REv → RPort × σ
  | .read => (p.read c args, st)
  | .init => (p.init c args, st)
  | .runInit i => ({ p with m := p.m.step c.idCount (.runInit i) }, st)
  | .take => (p.take c args, st)
  | .sendAR => (p.sendAR c, st)
  | .start => (p.start c, st)
  | .slaveAR => (p.slaveAR c, st)
  | .slaveR => p.slaveR c t st
  | .deliver => (p.deliver c, st)
  | .workTake i => ({ p with m := p.m.step c.idCount (.workTake i) }, st)
  | .workGet i => ({ p with m := p.m.step c.idCount (.workGet i) }, st)
  | .workDone i => ({ p with m := p.m.step c.idCount (.workDone i) }, st)
  | .reset v => (p.reset c v, st)

end RPort

/-! ## Both sides -/

/-- `AxiMaster` and `AxiSlave`: write and read side on one target (axi_master.py 1032-1052, axi_slave.py 339-353). -/
structure Sys (σ : Type) where
  w : WPort := {}
  r : RPort := {}
  mem : σ

/-- Events of the connected system: one of its write side or of its read side (axi_master.py 1038-1078, axi_slave.py 339-347). -/
inductive Ev
  | w (e : WEv)
  | r (e : REv)

/-- One event (axi_master.py 1038-1078, axi_slave.py 339-347). -/
def Sys.step {σ : Type} (c : Cfg) (wa : Nat → WArgs) (ra : Nat → Req) (t : Target σ) (s : Sys σ) : Ev → Sys σ
  | .w e =>
    let x := s.w.step c wa t s.mem e
    { s with w := x.1, mem := x.2 }
  | .r e =>
    let x := s.r.step c ra t s.mem e
    { s with r := x.1, mem := x.2 }

/-- The system after the events `evs`, from construction with the target in state `st`. `wa k` and `ra k` are the
arguments of the `k`-th call of `write`/`init_write` and `read`/`init_read`
(axi_master.py 1039-1046, axi_slave.py 340-347, then any events). -/
def Sys.run {σ : Type} (c : Cfg) (wa : Nat → WArgs) (ra : Nat → Req) (t : Target σ) (st : σ) (evs : List Ev) : Sys σ :=
  evs.foldl (Sys.step c wa ra t) { mem := st }

end Verif.AxiSys
