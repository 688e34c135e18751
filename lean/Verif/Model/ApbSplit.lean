import Verif.Model.Apb

/-!
# An `ApbMaster` and an `ApbSlave` with separate resets

The system of `Model/Apb.lean`, but the two components are given different `reset` signals (apb.py 131, 193, 466, 516), so either can be
reset alone.
-/

namespace Verif.Apb

/-- Events: those of the system with a common reset, and resets of one component (apb.py 302-332, 524-536). -/
inductive SplitEv
  | both (e : Ev)
  | resetM (v : Bool)
  | resetS (v : Bool)

namespace Sys

variable {σ : Type}

/-- One event (apb.py 195-462, 518-624). The histories `log` and `base` are counted from the last reset of the master. -/
def splitStep (slverr : Bool) (f : Access σ) (y : Sys σ) : SplitEv → Sys σ
  | .both e => y.step slverr f e
  | .resetM v =>
    { y with m := y.m.step slverr (.reset v), s := if v then { y.s with log := [] } else y.s
             base := if v then (y.s.mem, y.s.prdata) else y.base }
  | .resetS v => { y with s := { y.s.reset v with log := y.s.log } }

/-- A whole history from construction, on a target in state `st` (apb.py 131-193, 466-516, then any events). -/
def splitExec (slverr : Bool) (f : Access σ) (st : σ) (evs : List SplitEv) : Sys σ :=
  evs.foldl (splitStep slverr f) (start st)

end Sys
end Verif.Apb
