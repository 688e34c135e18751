import Verif.Model.LiteClock

/-!
# An `AxiLiteMaster` and an `AxiLiteSlave` with separate resets

As `Model/LiteOps.lean` (`Duo`), but the master and the slave are given different `reset` signals (axil_master.py 87, 97, 101-106,
axil_slave.py 36, 49, 53-58), so either can be reset alone. A transaction in a channel is either still with the component that sent it (in the queue of its source or
on the bus, where `valid` is taken back by a reset) or in the queue of the component that receives it, and a reset discards what
is with the component that is reset. The AW and the W transaction of a write transfer travel on two channels. Queues are
unbounded FIFOs (`Model/LiteClock.lean` has the occupancy limits and the handshakes); handshakes need both ends out of reset. What the slave does
with a transfer is one event, as in `Duo`.
-/

namespace Verif.LiteOps

/-- The write side (axil_master.py 86-150, axil_slave.py 35-87). -/
structure SplitW (χ α β ρ : Type) where
  m : Lite χ ρ := {}
  /-- `_process_write` has sent the AW transaction of the current transfer, but not the W transaction -/
  awSent : Bool := false
  /-- AW transactions that have not left the master -/
  awSrc : List α := []
  /-- AW transactions that the slave has not taken from its channel -/
  awSnk : List α := []
  wSrc : List β := []
  wSnk : List β := []
  /-- responses that have not left the slave; those that have are in `bch` -/
  bSrc : List ρ := []
  /-- `_process_write` of the slave runs -/
  up : Bool := false
  /-- the AW transaction for which the slave awaits the W transaction -/
  sl : Option α := none

/-- Events of the write side (axil_master.py 152-344, axil_slave.py 89-158, stream.py 236-266, 303-330). -/
inductive SplitWEv (χ ρ : Type)
  /-- a step of the master that does not touch a channel -/
  | master (e : Ev χ ρ)
  | sendAW
  | sendW
  /-- handshakes -/
  | moveAW
  | moveW
  | moveB
  | slaveAW
  | slaveW
  /-- the reset of the master / of the slave / of both is asserted or deasserted -/
  | resetM (v : Bool)
  | resetS (v : Bool)
  | resetBoth (v : Bool)

namespace SplitW

variable {χ α β ρ σ : Type}

/-- `_handle_reset` of the master and of its channels (axil_master.py 210-254, stream.py 145-166). -/
def resetM (p : SplitW χ α β ρ) (v : Bool) : SplitW χ α β ρ :=
  if v then { p with m := p.m.step (.reset true), awSent := false, awSrc := [], wSrc := [] }
  else { p with m := p.m.step (.reset false) }

/-- `_handle_reset` of the slave and of its channels (axil_slave.py 92-105, stream.py 145-166). -/
def resetS (p : SplitW χ α β ρ) (v : Bool) : SplitW χ α β ρ :=
  if v then { p with up := false, sl := none, awSnk := [], wSnk := [], bSrc := [] } else { p with up := true }

/-- One event (axil_master.py 152-344, axil_slave.py 89-158). -/
def step (h : Halves χ α β) (f : χ → σ → ρ × σ) (p : SplitW χ α β ρ) (mem : σ) : SplitWEv χ ρ → SplitW χ α β ρ × σ
  | .master e => (if own e then { p with m := p.m.step e } else p, mem)
  | .sendAW =>
    (match p.m.running, p.m.cur, p.awSent with
    | true, some (_, x :: _), false => { p with awSent := true, awSrc := p.awSrc ++ [h.aw x] }
    | _, _, _ => p, mem)
  | .sendW =>
    (match p.m.running, p.m.cur, p.awSent with
    | true, some (_, x :: _), true => { p with m := p.m.step .send, awSent := false, wSrc := p.wSrc ++ [h.w x] }
    | _, _, _ => p, mem)
  | .moveAW =>
    (match p.m.running, p.up, p.awSrc with
    | true, true, a :: rest => { p with awSrc := rest, awSnk := p.awSnk ++ [a] }
    | _, _, _ => p, mem)
  | .moveW =>
    (match p.m.running, p.up, p.wSrc with
    | true, true, x :: rest => { p with wSrc := rest, wSnk := p.wSnk ++ [x] }
    | _, _, _ => p, mem)
  | .moveB =>
    (match p.m.running, p.up, p.bSrc with
    | true, true, r :: rest => { p with m := p.m.step (.resp r), bSrc := rest }
    | _, _, _ => p, mem)
  | .slaveAW =>
    (match p.up, p.sl, p.awSnk with
    | true, none, a :: rest => { p with sl := some a, awSnk := rest }
    | _, _, _ => p, mem)
  | .slaveW =>
    match p.up, p.sl, p.wSnk with
    | true, some a, x :: rest =>
      ({ p with sl := none, wSnk := rest, bSrc := p.bSrc ++ [(f (h.join a x) mem).1] }, (f (h.join a x) mem).2)
    | _, _, _ => (p, mem)
  | .resetM v => (p.resetM v, mem)
  | .resetS v => (p.resetS v, mem)
  | .resetBoth v => ((p.resetM v).resetS v, mem)

end SplitW

/-- The read side (axil_master.py 346-404, axil_slave.py 161-206). -/
structure SplitR (χ ρ : Type) where
  m : Lite χ ρ := {}
  arSrc : List χ := []
  arSnk : List χ := []
  rSrc : List ρ := []
  up : Bool := false

/-- Events of the read side (axil_master.py 406-580, axil_slave.py 208-248). -/
inductive SplitREv (χ ρ : Type)
  | master (e : Ev χ ρ)
  | sendAR
  | moveAR
  | moveR
  | slaveR
  | resetM (v : Bool)
  | resetS (v : Bool)
  | resetBoth (v : Bool)

namespace SplitR

variable {χ ρ σ : Type}

/-- `_handle_reset` of the master and of its channels (axil_master.py 462-505, stream.py 145-166). -/
def resetM (p : SplitR χ ρ) (v : Bool) : SplitR χ ρ :=
  if v then { p with m := p.m.step (.reset true), arSrc := [] } else { p with m := p.m.step (.reset false) }

/-- `_handle_reset` of the slave and of its channels (axil_slave.py 211-223, stream.py 145-166). -/
def resetS (p : SplitR χ ρ) (v : Bool) : SplitR χ ρ :=
  if v then { p with up := false, arSnk := [], rSrc := [] } else { p with up := true }

/-- One event (axil_master.py 406-580, axil_slave.py 208-248). -/
def step (g : χ → σ → ρ × σ) (p : SplitR χ ρ) (mem : σ) : SplitREv χ ρ → SplitR χ ρ × σ
  | .master e => (if own e then { p with m := p.m.step e } else p, mem)
  | .sendAR =>
    (match p.m.running, p.m.cur with
    | true, some (_, x :: _) => { p with m := p.m.step .send, arSrc := p.arSrc ++ [x] }
    | _, _ => p, mem)
  | .moveAR =>
    (match p.m.running, p.up, p.arSrc with
    | true, true, x :: rest => { p with arSrc := rest, arSnk := p.arSnk ++ [x] }
    | _, _, _ => p, mem)
  | .moveR =>
    (match p.m.running, p.up, p.rSrc with
    | true, true, r :: rest => { p with m := p.m.step (.resp r), rSrc := rest }
    | _, _, _ => p, mem)
  | .slaveR =>
    match p.up, p.arSnk with
    | true, x :: rest => ({ p with arSnk := rest, rSrc := p.rSrc ++ [(g x mem).1] }, (g x mem).2)
    | _, _ => (p, mem)
  | .resetM v => (p.resetM v, mem)
  | .resetS v => (p.resetS v, mem)
  | .resetBoth v => ((p.resetM v).resetS v, mem)

end SplitR

/-- The connected system: two sides on one target (axil_master.py 582-590, axil_slave.py 251-259). The sides are reset by separate events, in any order
(a reset of a whole component is one of each). -/
structure Split (χ α β ρ χ' ρ' σ : Type) where
  w : SplitW χ α β ρ := {}
  r : SplitR χ' ρ' := {}
  mem : σ

/-- Events of the connected system (axil_master.py 582-616, axil_slave.py 251-259). -/
inductive SplitEv (χ ρ χ' ρ' : Type)
  | w (e : SplitWEv χ ρ)
  | r (e : SplitREv χ' ρ')

namespace Split

variable {χ α β ρ χ' ρ' σ : Type}

/-- One event (axil_master.py 582-616, axil_slave.py 251-259). -/
def step (h : Halves χ α β) (f : χ → σ → ρ × σ) (g : χ' → σ → ρ' × σ) (s : Split χ α β ρ χ' ρ' σ) :
    SplitEv χ ρ χ' ρ' → Split χ α β ρ χ' ρ' σ
  | .w e => { s with w := (s.w.step h f s.mem e).1, mem := (s.w.step h f s.mem e).2 }
  | .r e => { s with r := (s.r.step g s.mem e).1, mem := (s.r.step g s.mem e).2 }

/-- A whole history, from a state (axil_master.py 583-590, axil_slave.py 252-259, then any events). -/
def run (h : Halves χ α β) (f : χ → σ → ρ × σ) (g : χ' → σ → ρ' × σ) (s : Split χ α β ρ χ' ρ' σ)
    (evs : List (SplitEv χ ρ χ' ρ')) : Split χ α β ρ χ' ρ' σ := evs.foldl (step h f g) s

end Split
end Verif.LiteOps
