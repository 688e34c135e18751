import Verif.Model.ChanSplit
import Verif.Model.LiteClock

/-!
# An `AxiLiteMaster` and an `AxiLiteSlave` with separate resets, at clock-edge granularity

As `Model/LiteClock.lean`, but the master and the slave are given different `reset` signals (axil_master.py 87, 97, 101-106,
axil_slave.py 36, 49, 53-58), so either can be reset alone. Unlike in `Model/LiteSplit.lean`, the channels have handshakes, pauses and
bounded queues, and targets may suspend.
-/

namespace Verif.LiteOps

open Verif.AxiSys (downSrc downSnk upSrc upSnk)

namespace ClkW

variable {χ α β ρ : Type}

/-- The master alone sees its reset: it flushes its operations and kills its coroutines, and its ends of the channels are cleared and stop
(axil_master.py 210-254, stream.py 145-166). -/
def resetM (p : ClkW χ α β ρ) (v : Bool) : ClkW χ α β ρ :=
  if v then { p with m := p.m.step (.reset true), awSent := false, aw := downSrc p.aw, w := downSrc p.w, b := downSnk p.b }
  else { p with m := p.m.step (.reset false), aw := upSrc p.aw, w := upSrc p.w, b := upSnk p.b }

/-- The slave alone sees its reset: its coroutine is killed, and its ends of the channels are cleared and stop (axil_slave.py 92-105,
stream.py 145-166). An access of the target that has begun but not taken effect does not happen. -/
def resetS (p : ClkW χ α β ρ) (v : Bool) : ClkW χ α β ρ :=
  if v then { p with sl := none, held := none, got := none, aw := downSnk p.aw, w := downSnk p.w, b := downSrc p.b }
  else { p with aw := upSnk p.aw, w := upSnk p.w, b := upSrc p.b }

end ClkW

namespace ClkR

variable {χ ρ : Type}

/-- As `ClkW.resetM` (axil_master.py 462-505, stream.py 145-166). -/
def resetM (p : ClkR χ ρ) (v : Bool) : ClkR χ ρ :=
  if v then { p with m := p.m.step (.reset true), ar := downSrc p.ar, r := downSnk p.r }
  else { p with m := p.m.step (.reset false), ar := upSrc p.ar, r := upSnk p.r }

/-- As `ClkW.resetS` (axil_slave.py 211-223, stream.py 145-166). -/
def resetS (p : ClkR χ ρ) (v : Bool) : ClkR χ ρ :=
  if v then { p with held := none, got := none, ar := downSnk p.ar, r := downSrc p.r }
  else { p with ar := upSnk p.ar, r := upSrc p.r }

end ClkR

/-- The connected system (axil_master.py 582-616, axil_slave.py 251-260). `upW` and `upR`: the write side and the read side of the slave are
out of reset. They are not used by `step`: the slave has nothing to do while it is in reset, because its channels are empty. -/
structure ClkSplit (χ α β ρ χ' ρ' σ : Type) where
  c : Clk χ α β ρ χ' ρ' σ
  upW : Bool := false
  upR : Bool := false

/-- Events: those of `Clk`, in which both components see their resets, and resets of one component (one side of it: a reset of the whole
component is one of each) (axil_master.py 582-616, axil_slave.py 251-260, reset.py 27-60). -/
inductive ClkSplitEv (χ ρ χ' ρ' : Type)
  | both (e : ClkEv χ ρ χ' ρ')
  | masterW (v : Bool)
  | slaveW (v : Bool)
  | masterR (v : Bool)
  | slaveR (v : Bool)

namespace ClkSplit

variable {χ α β ρ χ' ρ' σ : Type} (h : Halves χ α β) (f : χ → σ → ρ × σ) (g : χ' → σ → ρ' × σ)

/-- One event (axil_master.py 86-580, axil_slave.py 35-248, stream.py 145-435). -/
def step (s : ClkSplit χ α β ρ χ' ρ' σ) : ClkSplitEv χ ρ χ' ρ' → ClkSplit χ α β ρ χ' ρ' σ
  | .both e =>
    { c := s.c.step h f g e
      upW := match e with | .w (.reset v) => !v | _ => s.upW
      upR := match e with | .r (.reset v) => !v | _ => s.upR }
  | .masterW v => { s with c := { s.c with w := s.c.w.resetM v } }
  | .slaveW v => { s with c := { s.c with w := s.c.w.resetS v }, upW := !v }
  | .masterR v => { s with c := { s.c with r := s.c.r.resetM v } }
  | .slaveR v => { s with c := { s.c with r := s.c.r.resetS v }, upR := !v }

/-- The system after the events `evs`, from construction with the target in state `m0`. -/
def run (m0 : σ) (evs : List (ClkSplitEv χ ρ χ' ρ')) : ClkSplit χ α β ρ χ' ρ' σ := evs.foldl (step h f g) { c := { mem := m0 } }

end ClkSplit

end Verif.LiteOps
