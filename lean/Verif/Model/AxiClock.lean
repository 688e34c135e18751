import Verif.Model.AxiSystem
import Verif.Model.Stream

/-!
# An `AxiMaster` connected to an `AxiSlave`, at clock-edge granularity

As `Model/AxiSystem.lean`, but every channel is a `StreamSource` connected to a `StreamSink` (`Model/Stream.lean`) instead of a FIFO:
transactions move by handshakes at the edges of one clock, both ends of every channel may be paused at any time, the
queues have the occupancy limit 2 and a full source blocks the coroutine that sends (axi_master.py 211-216, 653-656,
axi_slave.py 53-58, 224-227).

The pieces of coroutines that do not touch a channel are those of `WPort`/`RPort`. The write side and the read side are reset
as a whole (every component awaits the same edge of the reset signal, and all of them run before anything else), but not
necessarily together.

The target may suspend: any number of events may come between the start of `await self._write(...)` or `await self._read(...)`, the instant
at which the access takes effect, and its return (`Acc`, `CRPort.got`). The effect of one access happens at one instant. The assertions that
the slave makes about a W transaction are evaluated at that instant; they never fail (`C94_no_failure`).
-/

namespace Verif.AxiSys

open Verif.Axi Verif.AxiOps
open Verif.Stream (Net NetCfg NetEv)

/-- Every channel has `ready` and `valid`; the limit of both queues is 2 (axi_channels.py 34-58; axi_master.py 212-216, 654-656;
axi_slave.py 54-58, 225-227). -/
def chanCfg : NetCfg := { hasReady := true, srcLimit := 2, snkLimit := 2 }

/-- What the components of one channel do by themselves, and the `pause` setters. `resume` is the coroutine blocked in `send()`
going on when `dequeue_event` has fired (stream.py 172-289, 370-435). -/
inductive Inner
  | srcRun
  | srcWake
  | snkRun
  | snkWake
  | snkSpurious
  | resume
  | srcPause (v : Bool)
  | snkPause (v : Bool)

section

variable {α : Type}

/-- The coroutine that sends on this channel is blocked in `send()` (stream.py 226-229). -/
def blocked (s : Net α) : Bool := !s.src.waiters.isEmpty

/-- The transaction that `recv()` returns, if it does not block (stream.py 309-321). -/
def avail (s : Net α) : Option α := s.snk.queue.head?

/-- One event inside a channel (stream.py 172-289, 370-435). -/
def Inner.step (s : Net α) : Inner → Net α
  | .srcRun => s.step chanCfg .srcRun
  | .srcWake => s.step chanCfg .srcWake
  | .snkRun => s.step chanCfg .snkRun
  | .snkWake => s.step chanCfg .snkWake
  | .snkSpurious => s.step chanCfg .snkSpurious
  | .resume => if s.src.waiters.any (·.2) then s.step chanCfg (.resume 0) else s
  | .srcPause v => s.step chanCfg (.srcPause v)
  | .snkPause v => s.step chanCfg (.snkPause v)

/-- Reset asserted on a channel: the master and the slave kill their coroutines, so that a blocked `send()` is gone, and `clear()`
both ends; source and sink kill their coroutines and drop `valid` and `ready` (axi_master.py 430-443, axi_slave.py 98-107,
stream.py 145-161, 253-258, 388-393). The history starts again. -/
def resetNet (s : Net α) : Net α :=
  { src := { s.src.clear.reset true with waiters := [], sent := [] }
    snk := { s.snk.clear.reset true with got := [], captured := [] }
    settled := false }

/-- Reset de-asserted on a channel: both coroutines start (stream.py 163-166). -/
def startNet (s : Net α) : Net α :=
  { src := s.src.reset false, snk := s.snk.reset false, settled := false }

/-- The simulator can go on to the next clock edge (cocotb's scheduler; models no line of /repo). -/
def canTick (s : Net α) : Bool := s.settled && s.src.pc.still && s.snk.pc.still

/-- Signal writes can take effect (cocotb's scheduler; models no line of /repo). -/
def canCommit (s : Net α) : Bool := s.src.pc.still && s.snk.pc.still

/-- The transactions on their way through a channel, the next one to be received first: in the queue of the sink, sampled at
a clock edge, on the bus, in the queue of the source, in a blocked `send()`
(the queues and signals of stream.py 100-137, 260-289, 401-435). -/
def content (s : Net α) : List α :=
  let xfer := s.src.valid && s.snk.ready
  s.snk.queue ++ (if s.snk.pc = .due ∧ xfer = true then s.src.data.toList else []) ++
    (if s.src.pc = .due ∧ xfer = true then [] else if s.src.nvalid then s.src.ndata.toList else []) ++
    s.src.queue ++ s.src.waiters.map (·.1)

end

/-! ## The write side -/

/-- Where `AxiSlaveWrite._process_write` is with a W transaction (axi_slave.py 149-201): it has none; it has received it and waits for the
target, which has not yet done anything; the target has done its work but `_write` has not returned. -/
inductive Acc
  | none
  | held (w : WBeat)
  | performed
  deriving DecidableEq

/-- The W transaction received but not yet executed (notation; models no line of /repo). -/
def Acc.beat : Acc → List WBeat
  | .held w => [w]
  | _ => []

/-- `AxiMasterWrite`, the channels and `AxiSlaveWrite` (axi_master.py 196-280, axi_slave.py 35-93). -/
structure CWPort where
  m : Master BBeat := {}
  calls : Nat := 0
  todo : List (ABeat ⊕ WBeat) := []
  aw : Net ABeat := {}
  w : Net WBeat := {}
  b : Net BBeat := {}
  sl : Option WBurst := none
  acc : Acc := .none
  died : Bool := false

namespace CWPort

variable {σ : Type} (c : Cfg) (args : Nat → WArgs) (t : Target σ)

/-- The same with the channels as FIFOs, where a W transaction has left the channel when it is executed (notation, for Proof/AxiClock.lean; models
no line of /repo). -/
def view (p : CWPort) : WPort :=
  { m := p.m, calls := p.calls, todo := p.todo, aw := content p.aw, w := p.acc.beat ++ content p.w, b := content p.b, sl := p.sl, died := p.died }

/-- After a piece of a coroutine that does not touch a channel (notation; models no line of /repo). -/
def update (p : CWPort) (q : WPort) : CWPort :=
  { p with m := q.m, calls := q.calls, todo := q.todo, sl := q.sl, died := q.died }

/-- `_process_write` is blocked in one of its `send()` (axi_master.py 549, 573). -/
def stuck (p : CWPort) : Bool := blocked p.aw || blocked p.w

/-- `_process_write` calls `send()` for an AW transaction (axi_master.py 534-549). -/
def sendAW (p : CWPort) : CWPort :=
  match p.died, p.todo, p.stuck with
  | false, .inl a :: rest, false =>
    if a.id < c.idCount then
      { p with m := p.m.step c.idCount .burst, todo := rest, aw := p.aw.step chanCfg (.send a) }
    else { p with died := true }
  | _, _, _ => p

/-- `_process_write` calls `send()` for a W transaction (axi_master.py 560-573). -/
def sendW (p : CWPort) : CWPort :=
  match p.died, p.todo, p.stuck with
  | false, .inr w :: rest, false => { p with todo := rest, w := p.w.step chanCfg (.send w) }
  | _, _, _ => p

/-- `start_cmd` after the last transaction has been put into the queue (axi_master.py 583-586). -/
def start (p : CWPort) : CWPort := if p.stuck then p else p.update (p.view.start c)

/-- The slave gets an AW transaction and checks it (axi_slave.py 115-147); before that, its `send()` for the last burst has returned
(axi_slave.py 203). -/
def slaveAW (p : CWPort) : CWPort :=
  match p.died, p.sl, blocked p.b, avail p.aw with
  | false, none, false, some a =>
    let nb := 2 ^ a.size
    let aligned := (a.addr / nb) * nb
    if ¬ nb ≤ c.lanes then { p with died := true }
    else if a.burst = .incr ∧ ¬ 0x1000 - (aligned &&& 0xfff) ≥ nb * (a.len + 1) then { p with died := true }
    else { p with aw := p.aw.step chanCfg .recv, sl := some { aw := a, n := 0, cur := aligned, resp := .okay } }
  | _, _, _, _ => p

/-- The slave gets a W transaction (axi_slave.py 149-152); the target performs its writes (158-196); `_write` returns and the slave goes on
(194-201). -/
def slaveW (p : CWPort) (st : σ) : CWPort × σ :=
  match p.died, p.sl, p.acc with
  | false, some s, .none =>
    match avail p.w with
    | some w => if s.n < s.aw.len + 1 then ({ p with w := p.w.step chanCfg .recv, acc := .held w }, st) else (p, st)
    | none => (p, st)
  | false, some s, .held w =>
    if s.n < s.aw.len + 1 then
      let nb := 2 ^ s.aw.size
      let transfer := nb * (s.aw.len + 1)
      let lower := (s.aw.addr / transfer) * transfer
      match toBytes c.lanes .little w.data with
      | .error _ => ({ p with died := true }, st)
      | .ok data =>
        let r := performOps t (writeOps c.lanes ((s.cur / c.lanes) * c.lanes) data w.strb) st
        let resp := match r.1 with
          | .ok () => s.resp
          | .error _ => .slverr
        if w.last ≠ decide (s.n = s.aw.len) then ({ p with died := true }, r.2)
        else
          let cur := slaveNext s.aw.burst nb lower (lower + transfer) s.cur
          ({ p with acc := .performed
                    sl := some { aw := s.aw, n := s.n + 1, cur := cur, resp := resp } }, r.2)
    else (p, st)
  | false, some _, .performed => ({ p with acc := .none }, st)
  | _, _, _ => (p, st)

/-- The slave calls `send()` for the B transaction, when the last `_write` has returned (axi_slave.py 145-147, 203). -/
def slaveB (p : CWPort) : CWPort :=
  match p.died, p.sl with
  | false, some s =>
    if s.n = s.aw.len + 1 ∧ blocked p.b = false ∧ p.acc ≠ .performed then
      { p with sl := none, b := p.b.step chanCfg (.send { id := s.aw.id, resp := s.resp }) }
    else p
  | _, _ => p

/-- `_process_write_resp` gets a B transaction (axi_master.py 588-596). -/
def deliver (p : CWPort) : CWPort :=
  match avail p.b with
  | some x => { p with m := p.m.step c.idCount (.resp x.id x), b := p.b.step chanCfg .recv }
  | none => p

/-- Everything on the write side sees the reset (axi_master.py 430-471, axi_slave.py 98-112). -/
def reset (p : CWPort) (v : Bool) : CWPort :=
  if v then
    { p with m := p.m.step c.idCount (.reset true), todo := [], aw := resetNet p.aw, w := resetNet p.w, b := resetNet p.b
             sl := none, acc := .none, died := false }
  else { p with m := p.m.step c.idCount (.reset false), aw := startNet p.aw, w := startNet p.w, b := startNet p.b }

/-- One event, and its effect on the target (axi_master.py 282-636, axi_slave.py 95-203). -/
def step (p : CWPort) (st : σ) : WEv → CWPort × σ
  | .sendAW => (p.sendAW c, st)
  | .sendW => (p.sendW, st)
  | .start => (p.start c, st)
  | .slaveAW => (p.slaveAW c, st)
  | .slaveW => p.slaveW c t st
  | .slaveB => (p.slaveB, st)
  | .deliver => (p.deliver c, st)
  | .reset v => (p.reset c v, st)
  | .write => (p.update (p.view.write c args), st)
  | .init => (p.update (p.view.init c args), st)
  | .take => (p.update (p.view.take c args), st)
  | .runInit i => ({ p with m := p.m.step c.idCount (.runInit i) }, st)
  | .workTake i => ({ p with m := p.m.step c.idCount (.workTake i) }, st)
  | .workGet i => ({ p with m := p.m.step c.idCount (.workGet i) }, st)
  | .workDone i => ({ p with m := p.m.step c.idCount (.workDone i) }, st)

end CWPort

/-! ## The read side -/

/-- `AxiMasterRead`, the channels and `AxiSlaveRead` (axi_master.py 638-715, axi_slave.py 206-257). -/
structure CRPort where
  m : Master RBeat := {}
  calls : Nat := 0
  todo : List ABeat := []
  ar : Net ABeat := {}
  r : Net RBeat := {}
  sl : Option RBurst := none
  /-- the transaction of an access that has taken effect but not returned -/
  got : Option RBeat := none
  died : Bool := false

namespace CRPort

variable {σ : Type} (c : Cfg) (args : Nat → Req) (t : Target σ)

/-- The same with the channels as FIFOs, where an R transaction is in the channel when the target has been read (notation, for
Proof/AxiClock.lean; models no line of /repo). -/
def view (p : CRPort) : RPort :=
  { m := p.m, calls := p.calls, todo := p.todo, ar := content p.ar, r := content p.r ++ p.got.toList, sl := p.sl, died := p.died }

/-- After a piece of a coroutine that does not touch a channel (notation; models no line of /repo). -/
def update (p : CRPort) (q : RPort) : CRPort :=
  { p with m := q.m, calls := q.calls, todo := q.todo, sl := q.sl, died := q.died }

/-- `_process_read` calls `send()` for an AR transaction (axi_master.py 920-936). -/
def sendAR (p : CRPort) : CRPort :=
  match p.died, p.todo, blocked p.ar with
  | false, a :: rest, false =>
    if a.id < c.idCount then
      { p with m := p.m.step c.idCount .burst, todo := rest, ar := p.ar.step chanCfg (.send a) }
    else { p with died := true }
  | _, _, _ => p

/-- `start_cmd` after the last transaction has been put into the queue (axi_master.py 948-951). -/
def start (p : CRPort) : CRPort := if blocked p.ar then p else p.update (p.view.start c)

/-- The slave gets an AR transaction and checks it (axi_slave.py 279-306); before that, its last `_read` and
`send()` have returned. -/
def slaveAR (p : CRPort) : CRPort :=
  match p.died, p.sl, p.got, blocked p.r, avail p.ar with
  | false, none, none, false, some a =>
    let nb := 2 ^ a.size
    let aligned := (a.addr / nb) * nb
    if ¬ nb ≤ c.lanes then { p with died := true }
    else if a.burst = .incr ∧ ¬ 0x1000 - (aligned &&& 0xfff) ≥ nb * (a.len + 1) then { p with died := true }
    else { p with ar := p.ar.step chanCfg .recv, sl := some { ar := a, n := 0, cur := aligned } }
  | _, _, _, _, _ => p

/-- The target is read (axi_slave.py 308-325); `_read` returns and the slave calls `send()` (325-336). -/
def slaveR (p : CRPort) (st : σ) : CRPort × σ :=
  match p.died, p.got, p.sl, blocked p.r with
  | false, some b, _, false => ({ p with r := p.r.step chanCfg (.send b), got := none }, st)
  | false, none, some s, false =>
    let nb := 2 ^ s.ar.size
    let transfer := nb * (s.ar.len + 1)
    let lower := (s.ar.addr / transfer) * transfer
    let r : Resp × Bytes × σ := match t.read ((s.cur / c.lanes) * c.lanes) c.lanes st with
      | (.ok d, st) => (.okay, d, st)
      | (.error _, st) => (.slverr, List.replicate c.lanes 0, st)
    let beat : RBeat := { id := s.ar.id, data := fromBytes .little r.2.1, resp := r.1, last := decide (s.n = s.ar.len) }
    ({ p with got := some beat
              sl := if s.n < s.ar.len then
                  some { s with n := s.n + 1, cur := slaveNext s.ar.burst nb lower (lower + transfer) s.cur }
                else none }, r.2.2)
  | _, _, _, _ => (p, st)

/-- `_process_read_resp` gets an R transaction (axi_master.py 953-961). -/
def deliver (p : CRPort) : CRPort :=
  match avail p.r with
  | some x => { p with m := p.m.step c.idCount (.resp x.id x), r := p.r.step chanCfg .recv }
  | none => p

/-- Everything on the read side sees the reset (axi_master.py 850-881, axi_slave.py 262-274). -/
def reset (p : CRPort) (v : Bool) : CRPort :=
  if v then
    { p with m := p.m.step c.idCount (.reset true), todo := [], ar := resetNet p.ar, r := resetNet p.r, sl := none
             got := none, died := false }
  else { p with m := p.m.step c.idCount (.reset false), ar := startNet p.ar, r := startNet p.r }

/-- One event, and its effect on the target (axi_master.py 717-1035, axi_slave.py 259-336). -/
def step (p : CRPort) (st : σ) : REv → CRPort × σ
  | .sendAR => (p.sendAR c, st)
  | .start => (p.start c, st)
  | .slaveAR => (p.slaveAR c, st)
  | .slaveR => p.slaveR c t st
  | .deliver => (p.deliver c, st)
  | .reset v => (p.reset c v, st)
  | .read => (p.update (p.view.read c args), st)
  | .init => (p.update (p.view.init c args), st)
  | .take => (p.update (p.view.take c args), st)
  | .runInit i => ({ p with m := p.m.step c.idCount (.runInit i) }, st)
  | .workTake i => ({ p with m := p.m.step c.idCount (.workTake i) }, st)
  | .workGet i => ({ p with m := p.m.step c.idCount (.workGet i) }, st)
  | .workDone i => ({ p with m := p.m.step c.idCount (.workDone i) }, st)

end CRPort

/-! ## Both sides and the clock -/

/-- `AxiMaster`, `AxiSlave` and the five channels (axi_master.py 1032-1052, axi_slave.py 339-353). -/
structure CSys (σ : Type) where
  w : CWPort := {}
  r : CRPort := {}
  mem : σ

/-- The channels of an AXI bus (axi_channels.py 28-62). -/
inductive Chan
  | aw
  | w
  | b
  | ar
  | r

/-- Events: a piece of a coroutine of a master or slave or a call; something happening inside a channel; an edge of the clock;
signal writes taking effect (axi_master.py 196-1035, axi_slave.py 35-336, stream.py 172-435). -/
inductive CEv
  | w (e : WEv)
  | r (e : REv)
  | chan (k : Chan) (e : Inner)
  | tick
  | commit

namespace CSys

variable {σ : Type} (c : Cfg) (wa : Nat → WArgs) (ra : Nat → Req) (t : Target σ)

/-- The same event in every channel (the five channels of axi_channels.py 28-62). -/
def all (s : CSys σ) (e : {α : Type} → NetEv α) : CSys σ :=
  { s with w := { s.w with aw := s.w.aw.step chanCfg e, w := s.w.w.step chanCfg e, b := s.w.b.step chanCfg e }
           r := { s.r with ar := s.r.ar.step chanCfg e, r := s.r.r.step chanCfg e } }

/-- An event in one channel (the five channels of axi_channels.py 28-62). -/
def inner (s : CSys σ) : Chan → Inner → CSys σ
  | .aw, e => { s with w := { s.w with aw := e.step s.w.aw } }
  | .w, e => { s with w := { s.w with w := e.step s.w.w } }
  | .b, e => { s with w := { s.w with b := e.step s.w.b } }
  | .ar, e => { s with r := { s.r with ar := e.step s.r.ar } }
  | .r, e => { s with r := { s.r with r := e.step s.r.r } }

/-- One event. All channels see the same clock edges, and signal writes take effect at the same time everywhere
(the common `clock` of axi_master.py 1039-1044 and axi_slave.py 340-347). -/
def step (s : CSys σ) : CEv → CSys σ
  | .w e =>
    let x := s.w.step c wa t s.mem e
    { s with w := x.1, mem := x.2 }
  | .r e =>
    let x := s.r.step c ra t s.mem e
    { s with r := x.1, mem := x.2 }
  | .chan k e => s.inner k e
  | .tick =>
    if canTick s.w.aw && canTick s.w.w && canTick s.w.b && canTick s.r.ar && canTick s.r.r then s.all .tick else s
  | .commit =>
    if canCommit s.w.aw && canCommit s.w.w && canCommit s.w.b && canCommit s.r.ar && canCommit s.r.r then s.all .commit else s

/-- The system after the events `evs`, from construction with the target in state `st`
(axi_master.py 1039-1046, axi_slave.py 340-347, then any events). -/
def run (st : σ) (evs : List CEv) : CSys σ := evs.foldl (step c wa ra t) { mem := st }

/-- The same with the channels as FIFOs (notation; models no line of /repo). -/
def view (s : CSys σ) : Sys σ := { w := s.w.view, r := s.r.view, mem := s.mem }

end CSys

end Verif.AxiSys
