import Verif.Model.Apb
import Verif.Model.PauseGen

/-!
# An `ApbMaster` connected to an `ApbSlave`, coroutine by coroutine

As `Sys` of `Model/Apb.lean`, but a clock edge is not one event: at an edge every coroutine that awaits it becomes due, the due coroutines have their turns one
after the other in any order, with calls and changes of `pause` in between, and the values that they write to signals take effect when all of them have run. An
access of the target that takes time returns at any moment, not at a clock edge. `pause` is a variable of each component.

Simplifications: as in `Model/Apb.lean`; the access takes effect when the slave begins it. The common reset changes when no coroutine is due (cocotb runs all
coroutines that await the clock edge before it looks at another signal).
-/

namespace Verif.Apb

/-- `_run` of the master awaits the clock edge (apb.py 337, 342, 403, 419, 422, 424); it does not when it is not running or awaits a command (341). -/
def MPc.awaits : MPc → Bool
  | .stopped | .get => false
  | _ => true

/-- `_run` of the slave awaits the clock edge (apb.py 544, 558, 617); it does not when it is not running or awaits the target (593, 602). -/
def SPc.awaits : SPc → Bool
  | .stopped | .busy => false
  | _ => true

/-- A master connected to a slave (apb.py 130-193, 465-516). In `y.m.bus`, `y.s.pready`, `y.s.prdata`, `y.s.pslverr` are the values written last; those that the
coroutines read from the signals are in the fields here. -/
structure CSys (σ : Type) where
  y : Sys σ
  /-- `pause` of the master and of the slave (apb.py 92-106) -/
  mpause : Bool := false
  spause : Bool := false
  /-- the coroutines that the clock edge has resumed and that have not had their turn -/
  mdue : Bool := false
  sdue : Bool := false
  /-- nothing has been written to the signals since they took their values -/
  settled : Bool := false
  bus : Bus := {}
  pready : Bool := false
  prdata : Nat := 0
  pslverr : Bool := false

/-- Events (calls: apb.py 195-301; coroutines: 334-462, 538-624; reset: 302-332, 524-536; `pause`: 103-106). -/
inductive CEv
  | call (op : Op)
  | init (op : Op)
  | runInit (i : Nat)
  /-- the master waiting for its queue wakes up -/
  | resume
  /-- a rising clock edge -/
  | tick
  /-- the master's coroutine goes on after the edge -/
  | mrun
  /-- the slave's coroutine goes on after the edge -/
  | srun
  /-- the target's `read()`/`write()` return -/
  | back
  /-- the signals take the values written -/
  | commit
  | mpause (v : Bool)
  | spause (v : Bool)
  | reset (v : Bool)

namespace CSys

variable {σ : Type} (slverr : Bool) (f : Access σ)

/-- An event of the master alone (apb.py 195-301, 341). -/
def side (c : CSys σ) (e : MEv) : CSys σ := { c with y := { c.y with m := c.y.m.step slverr e } }

/-- The target returns (apb.py 593, 602): `pready` is set (616). -/
def returned (s : Slave σ) : Slave σ :=
  match s.pc with
  | .busy => { s with pc := .ready, pready := true }
  | _ => s

/-- One event (apb.py 195-462, 518-624). -/
def step (c : CSys σ) : CEv → CSys σ
  | .call op => c.side slverr (.call op)
  | .init op => c.side slverr (.init op)
  | .runInit i => c.side slverr (.runInit i)
  | .resume => c.side slverr .resume
  | .tick =>
    if c.settled && !c.mdue && !c.sdue then
      { c with mdue := c.y.m.pc.awaits, sdue := c.y.s.pc.awaits, settled := false }
    else c
  | .mrun =>
    if c.mdue then
      { c with y := { c.y with m := c.y.m.edge slverr c.mpause c.pready c.prdata c.pslverr }, mdue := false, settled := false }
    else c
  | .srun =>
    if c.sdue then { c with y := { c.y with s := c.y.s.edge f c.spause true c.bus }, sdue := false, settled := false } else c
  | .back => { c with y := { c.y with s := returned c.y.s }, settled := c.settled && !decide (c.y.s.pc = .busy) }
  | .commit =>
    if !c.mdue && !c.sdue then
      { c with bus := c.y.m.bus, pready := c.y.s.pready, prdata := c.y.s.prdata, pslverr := c.y.s.pslverr, settled := true }
    else c
  | .mpause v => { c with mpause := v }
  | .spause v => { c with spause := v }
  | .reset v => if !c.mdue && !c.sdue then { c with y := c.y.step slverr f (.reset v), settled := false } else c

/-- A whole history from construction, on a target in state `st` (apb.py 131-193, 466-516, then any events). -/
def exec (st : σ) (evs : List CEv) : CSys σ := evs.foldl (step slverr f) { y := Sys.start st }

end CSys
end Verif.Apb
