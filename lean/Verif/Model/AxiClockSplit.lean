import Verif.Model.ChanSplit

/-!
# An `AxiMaster` and an `AxiSlave` with separate resets, at clock-edge granularity

As `Model/AxiClock.lean`, but the master and the slave are given different `reset` signals (axi_master.py 197, 211-216, 280, 639, 653-656,
715, axi_slave.py 36, 53-58, 93, 207, 224-227, 257), so either can be reset alone. Unlike in `Model/AxiSplit.lean`, the channels have
handshakes, pauses and bounded queues, and targets may suspend. The flag `died` is one for the coroutines of both ends; a reset of one end
alone leaves it as it is (it is never set in the histories of C141: `C141_no_failure_partial`).
-/

namespace Verif.AxiSys

open Verif.Axi Verif.AxiOps

/-- The master alone sees its reset: it flushes its operations and kills its coroutines, and its ends of the channels are cleared and stop
(axi_master.py 430-471, stream.py 145-166). -/
def CWPort.resetM (c : Cfg) (p : CWPort) (v : Bool) : CWPort :=
  if v then
    { p with m := p.m.step c.idCount (.reset true), todo := [], aw := downSrc p.aw, w := downSrc p.w, b := downSnk p.b }
  else { p with m := p.m.step c.idCount (.reset false), aw := upSrc p.aw, w := upSrc p.w, b := upSnk p.b }

/-- The slave alone sees its reset: its coroutine is killed, and its ends of the channels are cleared and stop (axi_slave.py 98-112,
stream.py 145-166). An access of the target that has begun but not taken effect does not happen. -/
def CWPort.resetS (p : CWPort) (v : Bool) : CWPort :=
  if v then { p with sl := none, acc := .none, aw := downSnk p.aw, w := downSnk p.w, b := downSrc p.b }
  else { p with aw := upSnk p.aw, w := upSnk p.w, b := upSrc p.b }

/-- As `CWPort.resetM` (axi_master.py 850-881, stream.py 145-166). -/
def CRPort.resetM (c : Cfg) (p : CRPort) (v : Bool) : CRPort :=
  if v then { p with m := p.m.step c.idCount (.reset true), todo := [], ar := downSrc p.ar, r := downSnk p.r }
  else { p with m := p.m.step c.idCount (.reset false), ar := upSrc p.ar, r := upSnk p.r }

/-- As `CWPort.resetS` (axi_slave.py 262-274, stream.py 145-166). -/
def CRPort.resetS (p : CRPort) (v : Bool) : CRPort :=
  if v then { p with sl := none, got := none, ar := downSnk p.ar, r := downSrc p.r }
  else { p with ar := upSnk p.ar, r := upSrc p.r }

/-- The connected system (axi_master.py 1032-1052, axi_slave.py 339-353). `upW` and `upR`: the write side and the read side of the slave are
out of reset. They are not used by `step`: the slave has nothing to do while it is in reset, because its channels are empty. -/
structure CSplit (σ : Type) where
  c : CSys σ
  upW : Bool := false
  upR : Bool := false

/-- Events: those of `CSys`, in which both components see their resets, and resets of one component (one side of it: a reset of the whole
component is one of each) (axi_master.py 1038-1078, axi_slave.py 339-347, reset.py 27-60). -/
inductive CSplitEv
  | both (e : CEv)
  | masterW (v : Bool)
  | slaveW (v : Bool)
  | masterR (v : Bool)
  | slaveR (v : Bool)

namespace CSplit

variable {σ : Type} (c : Cfg) (wa : Nat → WArgs) (ra : Nat → Req) (t : Target σ)

/-- One event (axi_master.py 196-1035, axi_slave.py 35-336, stream.py 145-435). -/
def step (s : CSplit σ) : CSplitEv → CSplit σ
  | .both e =>
    { c := s.c.step c wa ra t e
      upW := match e with | .w (.reset v) => !v | _ => s.upW
      upR := match e with | .r (.reset v) => !v | _ => s.upR }
  | .masterW v => { s with c := { s.c with w := s.c.w.resetM c v } }
  | .slaveW v => { s with c := { s.c with w := s.c.w.resetS v }, upW := !v }
  | .masterR v => { s with c := { s.c with r := s.c.r.resetM c v } }
  | .slaveR v => { s with c := { s.c with r := s.c.r.resetS v }, upR := !v }

/-- The system after the events `evs`, from construction with the target in state `st` (axi_master.py 1039-1046, axi_slave.py 340-347,
then any events). -/
def run (st : σ) (evs : List CSplitEv) : CSplit σ := evs.foldl (step c wa ra t) { c := { mem := st } }

end CSplit

end Verif.AxiSys
