import Verif.Model.AxiClock
import Verif.Model.LiteOps
import Verif.Model.WordBus

/-!
# An `AxiLiteMaster` connected to an `AxiLiteSlave`, at clock-edge granularity

As `Model/LiteOps.lean` (`Duo`), but every channel is a `StreamSource` connected to a `StreamSink` (`Model/Stream.lean`) instead of a
FIFO: transactions move by handshakes at the edges of one clock, both ends of every channel may be paused at any time, the queues
have the occupancy limit 2 and a full source blocks the coroutine that sends (axil_master.py 101-106, 361-364,
axil_slave.py 53-58, 179-182). The AW and the W transaction of a write transfer travel on two channels.

The target may suspend: any number of events may come between the start of an access, the instant at which it takes effect, and its
return (`held`, `got`). The effect of one access (of all writes of one transfer, if the strobe has gaps) happens at one instant.

The channels and what happens inside them are those of `Model/AxiClock.lean`. The write side and the read side are reset as a
whole, but not necessarily together.
-/

namespace Verif.LiteOps

open Verif.AxiSys (chanCfg Inner Chan blocked avail content resetNet startNet canTick canCommit)
open Verif.Stream (Net NetEv)

/-- How a write transfer is split into the AW and the W transaction, and what the slave makes of a pair of them
(axil_master.py 275-311, axil_slave.py 107-125). -/
structure Halves (χ α β : Type) where
  aw : χ → α
  w : χ → β
  join : α → β → χ

/-- The AW transaction has the address and the protection bits, the W transaction data and strobe (axil_master.py 297-309);
the slave uses both (axil_slave.py 109-120). -/
def xferHalves : Halves Word.WXfer (Nat × Int) (Nat × Nat) where
  aw x := (x.addr, x.prot)
  w x := (x.data, x.strb)
  join a b := { addr := a.1, prot := a.2, data := b.1, strb := b.2 }

/-- `AxiLiteMasterWrite`, the channels and `AxiLiteSlaveWrite` (axil_master.py 86-150, axil_slave.py 35-87). -/
structure ClkW (χ α β ρ : Type) where
  m : Lite χ ρ := {}
  /-- `_process_write` has called `aw_channel.send` for the current transfer, but not `w_channel.send` -/
  awSent : Bool := false
  aw : Net α := {}
  w : Net β := {}
  b : Net ρ := {}
  /-- the AW transaction for which the slave awaits the W transaction -/
  sl : Option α := none
  /-- the W transaction that the slave has received and not yet executed -/
  held : Option β := none
  /-- the response to accesses that have taken effect but not returned -/
  got : Option ρ := none

/-- Pieces of the coroutines of the write side, and calls (axil_master.py 152-344, axil_slave.py 89-158). -/
inductive ClkWEv (χ ρ : Type)
  /-- a step of the master that does not touch a channel -/
  | master (e : Ev χ ρ)
  | sendAW
  | sendW
  | slaveAW
  | slaveW
  | deliver
  | reset (v : Bool)

/-- `_process_write_resp` awaits `b_channel.recv()` (axil_master.py 323-324, 546-547). -/
def Lite.awaits {χ ρ : Type} (m : Lite χ ρ) : Bool :=
  match m.running, m.respCur, m.bch with
  | true, some (_, _ + 1, _), [] => true
  | _, _, _ => false

namespace ClkW

variable {χ α β ρ σ : Type} (h : Halves χ α β) (f : χ → σ → ρ × σ)

/-- The same with the channels as FIFOs, in which the AW and W transactions of a transfer are one entry. A transfer counts as sent
when `send()` is called for its W transaction, and as answered when its accesses have taken effect (notation, for Proof/LiteClock.lean;
models no line of /repo). -/
def view (p : ClkW χ α β ρ) : Port χ ρ :=
  { m := p.m, req := List.zipWith h.join (p.sl.toList ++ content p.aw) (p.held.toList ++ content p.w)
    rsp := content p.b ++ p.got.toList }

/-- `_process_write` is blocked in one of its `send()` (axil_master.py 311-312). -/
def stuck (p : ClkW χ α β ρ) : Bool := blocked p.aw || blocked p.w

/-- A piece of a coroutine of the master, or a call, that does not touch a channel. `_process_write` gets the next command when its
last `send()` has returned (axil_master.py 258, 312-314). Simplification: the current command is cleared when the last `send()`
is called instead of when it returns, so that a reset in between signals the event of the command once instead of twice (with
the same value). -/
def master (p : ClkW χ α β ρ) (e : Ev χ ρ) : ClkW χ α β ρ :=
  match e, p.stuck with
  | .take, true => p
  | e, _ => if own e then { p with m := p.m.step e } else p

/-- `_process_write` calls `aw_channel.send` (axil_master.py 297-302, 311). -/
def sendAW (p : ClkW χ α β ρ) : ClkW χ α β ρ :=
  match p.m.running, p.m.cur, p.awSent, p.stuck with
  | true, some (_, x :: _), false, false => { p with awSent := true, aw := p.aw.step chanCfg (.send (h.aw x)) }
  | _, _, _, _ => p

/-- `_process_write` calls `w_channel.send` (axil_master.py 307-309, 312). -/
def sendW (p : ClkW χ α β ρ) : ClkW χ α β ρ :=
  match p.m.running, p.m.cur, p.awSent, p.stuck with
  | true, some (_, x :: _), true, false =>
    { p with m := p.m.step .send, awSent := false, w := p.w.step chanCfg (.send (h.w x)) }
  | _, _, _, _ => p

/-- The slave gets an AW transaction (axil_slave.py 109-112); before that, the last `_write` and the
last `send()` have returned (axil_slave.py 153-158). -/
def slaveAW (p : ClkW χ α β ρ) : ClkW χ α β ρ :=
  match p.sl, p.got, blocked p.b, avail p.aw with
  | none, none, false, some a => { p with aw := p.aw.step chanCfg .recv, sl := some a }
  | _, _, _, _ => p

/-- The slave gets the W transaction (axil_slave.py 114-120); the target performs the writes (122-156); the last `_write` returns and the
slave calls `b_channel.send` (153-158). -/
def slaveW (p : ClkW χ α β ρ) (mem : σ) : ClkW χ α β ρ × σ :=
  match p.got, p.sl, p.held with
  | some r, _, _ =>
    match blocked p.b with
    | false => ({ p with got := none, b := p.b.step chanCfg (.send r) }, mem)
    | true => (p, mem)
  | none, some _, none =>
    match avail p.w with
    | some x => ({ p with w := p.w.step chanCfg .recv, held := some x }, mem)
    | none => (p, mem)
  | none, some a, some x =>
    let r := f (h.join a x) mem
    ({ p with sl := none, held := none, got := some r.1 }, r.2)
  | none, none, _ => (p, mem)

/-- `b_channel.recv()` returns (axil_master.py 324). The response is in `bch` until `_process_write_resp` goes on with it
(`respGet`). -/
def deliver (p : ClkW χ α β ρ) : ClkW χ α β ρ :=
  match p.m.awaits, avail p.b with
  | true, some r => { p with m := p.m.step (.resp r), b := p.b.step chanCfg .recv }
  | _, _ => p

/-- Everything on the write side sees the reset (axil_master.py 210-254, axil_slave.py 92-105, stream.py 145-166). -/
def reset (p : ClkW χ α β ρ) (v : Bool) : ClkW χ α β ρ :=
  if v then { m := p.m.step (.reset true), aw := resetNet p.aw, w := resetNet p.w, b := resetNet p.b }
  else { p with m := p.m.step (.reset false), aw := startNet p.aw, w := startNet p.w, b := startNet p.b }

/-- One event, and its effect on the target (axil_master.py 152-344, axil_slave.py 89-158). -/
def step (p : ClkW χ α β ρ) (mem : σ) : ClkWEv χ ρ → ClkW χ α β ρ × σ
  | .master e => (p.master e, mem)
  | .sendAW => (p.sendAW h, mem)
  | .sendW => (p.sendW h, mem)
  | .slaveAW => (p.slaveAW, mem)
  | .slaveW => p.slaveW h f mem
  | .deliver => (p.deliver, mem)
  | .reset v => (p.reset v, mem)

end ClkW

/-- `AxiLiteMasterRead`, the channels and `AxiLiteSlaveRead` (axil_master.py 346-404, axil_slave.py 161-206). -/
structure ClkR (χ ρ : Type) where
  m : Lite χ ρ := {}
  ar : Net χ := {}
  r : Net ρ := {}
  /-- the AR transaction that the slave has received and not yet executed -/
  held : Option χ := none
  /-- the response to an access that has taken effect but not returned -/
  got : Option ρ := none

/-- Pieces of the coroutines of the read side, and calls (axil_master.py 406-580, axil_slave.py 208-248). -/
inductive ClkREv (χ ρ : Type)
  | master (e : Ev χ ρ)
  | sendAR
  | slaveR
  | deliver
  | reset (v : Bool)

namespace ClkR

variable {χ ρ σ : Type} (g : χ → σ → ρ × σ)

/-- The same with the channels as FIFOs (notation, for Proof/LiteClock.lean; models no line of /repo). -/
def view (p : ClkR χ ρ) : Port χ ρ := { m := p.m, req := p.held.toList ++ content p.ar, rsp := content p.r ++ p.got.toList }

/-- As `ClkW.master` (axil_master.py 509, 530-532). -/
def master (p : ClkR χ ρ) (e : Ev χ ρ) : ClkR χ ρ :=
  match e, blocked p.ar with
  | .take, true => p
  | e, _ => if own e then { p with m := p.m.step e } else p

/-- `_process_read` calls `ar_channel.send` (axil_master.py 523-530). -/
def sendAR (p : ClkR χ ρ) : ClkR χ ρ :=
  match p.m.running, p.m.cur, blocked p.ar with
  | true, some (_, x :: _), false => { p with m := p.m.step .send, ar := p.ar.step chanCfg (.send x) }
  | _, _, _ => p

/-- The slave gets an AR transaction when its last `send()` has returned (axil_slave.py 227-230); the target is read (232-236); `_read`
returns and the slave calls `r_channel.send` (236-244). -/
def slaveR (p : ClkR χ ρ) (mem : σ) : ClkR χ ρ × σ :=
  match p.got, p.held, blocked p.r with
  | some r, _, false => ({ p with got := none, r := p.r.step chanCfg (.send r) }, mem)
  | none, none, false =>
    match avail p.ar with
    | some x => ({ p with ar := p.ar.step chanCfg .recv, held := some x }, mem)
    | none => (p, mem)
  | none, some x, _ =>
    let r := g x mem
    ({ p with held := none, got := some r.1 }, r.2)
  | _, _, _ => (p, mem)

/-- `r_channel.recv()` returns (axil_master.py 547); see `ClkW.deliver`. -/
def deliver (p : ClkR χ ρ) : ClkR χ ρ :=
  match p.m.awaits, avail p.r with
  | true, some x => { p with m := p.m.step (.resp x), r := p.r.step chanCfg .recv }
  | _, _ => p

/-- Everything on the read side sees the reset (axil_master.py 462-505, axil_slave.py 211-223). -/
def reset (p : ClkR χ ρ) (v : Bool) : ClkR χ ρ :=
  if v then { m := p.m.step (.reset true), ar := resetNet p.ar, r := resetNet p.r }
  else { p with m := p.m.step (.reset false), ar := startNet p.ar, r := startNet p.r }

/-- One event, and its effect on the target (axil_master.py 406-580, axil_slave.py 208-248). -/
def step (p : ClkR χ ρ) (mem : σ) : ClkREv χ ρ → ClkR χ ρ × σ
  | .master e => (p.master e, mem)
  | .sendAR => (p.sendAR, mem)
  | .slaveR => p.slaveR g mem
  | .deliver => (p.deliver, mem)
  | .reset v => (p.reset v, mem)

end ClkR

/-- `AxiLiteMaster`, `AxiLiteSlave`/`AxiLiteRam` and the five channels (axil_master.py 582-616, axil_slave.py 251-260,
axil_ram.py 45-53). -/
structure Clk (χ α β ρ χ' ρ' σ : Type) where
  w : ClkW χ α β ρ := {}
  r : ClkR χ' ρ' := {}
  mem : σ

/-- Events: a piece of a coroutine of a master or slave or a call; something happening inside a channel; an edge of the clock;
signal writes taking effect (axil_master.py 86-580, axil_slave.py 35-248, stream.py 172-435). -/
inductive ClkEv (χ ρ χ' ρ' : Type)
  | w (e : ClkWEv χ ρ)
  | r (e : ClkREv χ' ρ')
  | chan (k : Chan) (e : Inner)
  | tick
  | commit

namespace Clk

variable {χ α β ρ χ' ρ' σ : Type} (h : Halves χ α β) (f : χ → σ → ρ × σ) (g : χ' → σ → ρ' × σ)

/-- The same event in every channel (the five channels of axil_channels.py 28-59). -/
def all (s : Clk χ α β ρ χ' ρ' σ) (e : {α : Type} → NetEv α) : Clk χ α β ρ χ' ρ' σ :=
  { s with w := { s.w with aw := s.w.aw.step chanCfg e, w := s.w.w.step chanCfg e, b := s.w.b.step chanCfg e }
           r := { s.r with ar := s.r.ar.step chanCfg e, r := s.r.r.step chanCfg e } }

/-- An event in one channel (the five channels of axil_channels.py 28-59). -/
def inner (s : Clk χ α β ρ χ' ρ' σ) : Chan → Inner → Clk χ α β ρ χ' ρ' σ
  | .aw, e => { s with w := { s.w with aw := e.step s.w.aw } }
  | .w, e => { s with w := { s.w with w := e.step s.w.w } }
  | .b, e => { s with w := { s.w with b := e.step s.w.b } }
  | .ar, e => { s with r := { s.r with ar := e.step s.r.ar } }
  | .r, e => { s with r := { s.r with r := e.step s.r.r } }

/-- One event. All channels see the same clock edges, and signal writes take effect at the same time everywhere
(the common `clock` of axil_master.py 583-590 and axil_slave.py 252-259). -/
def step (s : Clk χ α β ρ χ' ρ' σ) : ClkEv χ ρ χ' ρ' → Clk χ α β ρ χ' ρ' σ
  | .w e =>
    let x := s.w.step h f s.mem e
    { s with w := x.1, mem := x.2 }
  | .r e =>
    let x := s.r.step g s.mem e
    { s with r := x.1, mem := x.2 }
  | .chan k e => s.inner k e
  | .tick =>
    if canTick s.w.aw && canTick s.w.w && canTick s.w.b && canTick s.r.ar && canTick s.r.r then s.all .tick else s
  | .commit =>
    if canCommit s.w.aw && canCommit s.w.w && canCommit s.w.b && canCommit s.r.ar && canCommit s.r.r then s.all .commit else s

/-- The system after the events `evs`, from construction with the target in state `m0`. -/
def run (m0 : σ) (evs : List (ClkEv χ ρ χ' ρ')) : Clk χ α β ρ χ' ρ' σ := evs.foldl (step h f g) { mem := m0 }

/-- The same with the channels as FIFOs (notation; models no line of /repo). -/
def view (s : Clk χ α β ρ χ' ρ' σ) : Duo χ ρ χ' ρ' σ := { w := s.w.view h, r := s.r.view, mem := s.mem }

end Clk

end Verif.LiteOps
