import Verif.Model.AxiSystem

/-!
# An `AxiMaster` and an `AxiSlave` with separate resets

As `Model/AxiSystem.lean`, but the master and the slave are given different `reset` signals (axi_master.py 197, 211-216, 280, 639, 653-656, 715, axi_slave.py 36, 53-58, 93,
207, 224-227, 257), so either can be reset alone. A transaction in a channel is either still with the component that sent it (in
the queue of its source or on the bus, where `valid` is taken back by a reset) or in the queue of the component that receives it, and a
reset discards what is with the component that is reset. Queues are unbounded FIFOs; handshakes need both ends out of reset. What the
coroutines do with the transactions is taken from `Model/AxiSystem.lean`.
-/

namespace Verif.AxiSys

open Verif.Axi Verif.AxiOps

/-- The write side (axi_master.py 196-280, axi_slave.py 35-93). In `p`, `aw` and `w` are the transactions that the slave
has not taken from its channels, `b` those that the master has not taken, and `died` is about the coroutines of the master. -/
structure SplitW where
  p : WPort := {}
  /-- AW transactions that have not left the master -/
  awSrc : List ABeat := []
  wSrc : List WBeat := []
  /-- B transactions that have not left the slave -/
  bSrc : List BBeat := []
  /-- `_process_write` of the slave runs -/
  up : Bool := false
  /-- it has died of an exception -/
  slDied : Bool := false

/-- Steps of the master that send nothing (axi_master.py 282-503, 583-636). -/
def WEv.own : WEv → Bool
  | .write | .init | .runInit _ | .take | .start | .deliver | .workTake _ | .workGet _ | .workDone _ => true
  | _ => false

/-- Events of the write side (axi_master.py 282-636, axi_slave.py 95-203, stream.py 236-266, 303-330). -/
inductive SplitWEv
  /-- a step of the master that sends nothing -/
  | master (e : WEv)
  | sendAW
  | sendW
  /-- handshakes -/
  | moveAW
  | moveW
  | moveB
  | slaveAW
  | slaveW
  | slaveB
  /-- the reset of the master / of the slave / of both is asserted or deasserted -/
  | resetM (v : Bool)
  | resetS (v : Bool)
  | resetBoth (v : Bool)

namespace SplitW

variable {σ : Type} (c : Cfg) (args : Nat → WArgs) (t : Target σ)

/-- `_process_write` of the master sends an AW transaction (axi_master.py 534-549). -/
def sendAW (s : SplitW) : SplitW :=
  let q := ({ s.p with aw := s.awSrc } : WPort).sendAW c
  { s with p := { q with aw := s.p.aw }, awSrc := q.aw }

/-- `_process_write` of the master sends a W transaction (axi_master.py 560-573). -/
def sendW (s : SplitW) : SplitW :=
  let q := ({ s.p with w := s.wSrc } : WPort).sendW
  { s with p := { q with w := s.p.w }, wSrc := q.w }

/-- The slave gets an AW transaction (axi_slave.py 115-147). -/
def slaveAW (s : SplitW) : SplitW :=
  if s.up then
    let q := ({ s.p with died := s.slDied } : WPort).slaveAW c
    { s with p := { q with died := s.p.died }, slDied := q.died }
  else s

/-- The slave gets a W transaction and performs its writes (axi_slave.py 149-201). -/
def slaveW (s : SplitW) (st : σ) : SplitW × σ :=
  if s.up then
    let q := ({ s.p with died := s.slDied } : WPort).slaveW c t st
    ({ s with p := { q.1 with died := s.p.died }, slDied := q.1.died }, q.2)
  else (s, st)

/-- The slave sends the B transaction (axi_slave.py 145-147, 203). -/
def slaveB (s : SplitW) : SplitW :=
  if s.up then
    let q := ({ s.p with died := s.slDied, b := s.bSrc } : WPort).slaveB
    { s with p := { q with died := s.p.died, b := s.p.b }, bSrc := q.b }
  else s

/-- `_handle_reset` of the master and of its channels (axi_master.py 430-471, stream.py 145-166). -/
def resetM (s : SplitW) (v : Bool) : SplitW :=
  if v then
    { s with p := { s.p with m := s.p.m.step c.idCount (.reset true), todo := [], b := [], died := false }, awSrc := [], wSrc := [] }
  else { s with p := { s.p with m := s.p.m.step c.idCount (.reset false) } }

/-- `_handle_reset` of the slave and of its channels (axi_slave.py 98-112, stream.py 145-166). -/
def resetS (s : SplitW) (v : Bool) : SplitW :=
  if v then { s with p := { s.p with aw := [], w := [], sl := none }, bSrc := [], up := false, slDied := false }
  else { s with up := true }

/-- One event, and its effect on the target (axi_master.py 282-636, axi_slave.py 95-203). -/
def step (s : SplitW) (st : σ) : SplitWEv → SplitW × σ
  | .master e => (if e.own then { s with p := (s.p.step c args t st e).1 } else s, st)
  | .sendAW => (s.sendAW c, st)
  | .sendW => (s.sendW, st)
  | .moveAW =>
    (match s.p.m.running, s.up, s.awSrc with
    | true, true, x :: rest => { s with awSrc := rest, p := { s.p with aw := s.p.aw ++ [x] } }
    | _, _, _ => s, st)
  | .moveW =>
    (match s.p.m.running, s.up, s.wSrc with
    | true, true, x :: rest => { s with wSrc := rest, p := { s.p with w := s.p.w ++ [x] } }
    | _, _, _ => s, st)
  | .moveB =>
    (match s.p.m.running, s.up, s.bSrc with
    | true, true, x :: rest => { s with bSrc := rest, p := { s.p with b := s.p.b ++ [x] } }
    | _, _, _ => s, st)
  | .slaveAW => (s.slaveAW c, st)
  | .slaveW => s.slaveW c t st
  | .slaveB => (s.slaveB, st)
  | .resetM v => (s.resetM c v, st)
  | .resetS v => (s.resetS v, st)
  | .resetBoth v => ((s.resetM c v).resetS v, st)

end SplitW

/-- The read side (axi_master.py 638-715, axi_slave.py 206-257). In `p`, `ar` are the transactions that the slave has
not taken from its channel, `r` those that the master has not taken, and `died` is about the coroutines of the master. -/
structure SplitR where
  p : RPort := {}
  arSrc : List ABeat := []
  rSrc : List RBeat := []
  up : Bool := false
  slDied : Bool := false

/-- Steps of the master that send nothing (axi_master.py 717-907, 948-1035). -/
def REv.own : REv → Bool
  | .read | .init | .runInit _ | .take | .start | .deliver | .workTake _ | .workGet _ | .workDone _ => true
  | _ => false

/-- Events of the read side (axi_master.py 717-1035, axi_slave.py 259-336). -/
inductive SplitREv
  | master (e : REv)
  | sendAR
  | moveAR
  | moveR
  | slaveAR
  | slaveR
  | resetM (v : Bool)
  | resetS (v : Bool)
  | resetBoth (v : Bool)

namespace SplitR

variable {σ : Type} (c : Cfg) (args : Nat → Req) (t : Target σ)

/-- `_process_read` of the master sends an AR transaction (axi_master.py 920-936). -/
def sendAR (s : SplitR) : SplitR :=
  let q := ({ s.p with ar := s.arSrc } : RPort).sendAR c
  { s with p := { q with ar := s.p.ar }, arSrc := q.ar }

/-- The slave gets an AR transaction (axi_slave.py 279-306). -/
def slaveAR (s : SplitR) : SplitR :=
  if s.up then
    let q := ({ s.p with died := s.slDied } : RPort).slaveAR c
    { s with p := { q with died := s.p.died }, slDied := q.died }
  else s

/-- The slave reads a word and sends it (axi_slave.py 308-336). -/
def slaveR (s : SplitR) (st : σ) : SplitR × σ :=
  if s.up then
    let q := ({ s.p with died := s.slDied, r := s.rSrc } : RPort).slaveR c t st
    ({ s with p := { q.1 with died := s.p.died, r := s.p.r }, rSrc := q.1.r }, q.2)
  else (s, st)

/-- `_handle_reset` of the master and of its channels (axi_master.py 850-881, stream.py 145-166). -/
def resetM (s : SplitR) (v : Bool) : SplitR :=
  if v then
    { s with p := { s.p with m := s.p.m.step c.idCount (.reset true), todo := [], r := [], died := false }, arSrc := [] }
  else { s with p := { s.p with m := s.p.m.step c.idCount (.reset false) } }

/-- `_handle_reset` of the slave and of its channels (axi_slave.py 262-274, stream.py 145-166). -/
def resetS (s : SplitR) (v : Bool) : SplitR :=
  if v then { s with p := { s.p with ar := [], sl := none }, rSrc := [], up := false, slDied := false }
  else { s with up := true }

/-- One event, and its effect on the target (axi_master.py 717-1035, axi_slave.py 259-336). -/
def step (s : SplitR) (st : σ) : SplitREv → SplitR × σ
  | .master e => (if e.own then { s with p := (s.p.step c args t st e).1 } else s, st)
  | .sendAR => (s.sendAR c, st)
  | .moveAR =>
    (match s.p.m.running, s.up, s.arSrc with
    | true, true, x :: rest => { s with arSrc := rest, p := { s.p with ar := s.p.ar ++ [x] } }
    | _, _, _ => s, st)
  | .moveR =>
    (match s.p.m.running, s.up, s.rSrc with
    | true, true, x :: rest => { s with rSrc := rest, p := { s.p with r := s.p.r ++ [x] } }
    | _, _, _ => s, st)
  | .slaveAR => (s.slaveAR c, st)
  | .slaveR => s.slaveR c t st
  | .resetM v => (s.resetM c v, st)
  | .resetS v => (s.resetS v, st)
  | .resetBoth v => ((s.resetM c v).resetS v, st)

end SplitR

/-- Two sides on one target (axi_master.py 1032-1052, axi_slave.py 339-353). The sides are reset by separate events, in any order
(a reset of a whole component is one of each). -/
structure Split (σ : Type) where
  w : SplitW := {}
  r : SplitR := {}
  mem : σ

/-- Events of the connected system (axi_master.py 1038-1078, axi_slave.py 339-347). -/
inductive SplitEv
  | w (e : SplitWEv)
  | r (e : SplitREv)

namespace Split

variable {σ : Type}

/-- One event (axi_master.py 1038-1078, axi_slave.py 339-347). -/
def step (c : Cfg) (wa : Nat → WArgs) (ra : Nat → Req) (t : Target σ) (s : Split σ) : SplitEv → Split σ
  | .w e => { s with w := (s.w.step c wa t s.mem e).1, mem := (s.w.step c wa t s.mem e).2 }
  | .r e => { s with r := (s.r.step c ra t s.mem e).1, mem := (s.r.step c ra t s.mem e).2 }

/-- The system after the events `evs`, from construction with the target in state `st`
(axi_master.py 1039-1046, axi_slave.py 340-347, then any events). -/
def run (c : Cfg) (wa : Nat → WArgs) (ra : Nat → Req) (t : Target σ) (st : σ) (evs : List SplitEv) : Split σ :=
  evs.foldl (step c wa ra t) { mem := st }

end Split
end Verif.AxiSys
