import Verif.Model.AxiClockSplit
import Verif.Spec.AxiClock

/-!
# Vocabulary for separate resets of an AXI master and slave at clock-edge granularity (C141)
-/

namespace Verif.AxiSys

open Verif.Axi

variable {σ : Type}

/-- The system after the first `n` events of a history. -/
def CSplit.after (c : Cfg) (wa : Nat → WArgs) (ra : Nat → Req) (t : Target σ) (st : σ) (evs : List CSplitEv) (n : Nat) : CSplit σ :=
  CSplit.run c wa ra t st (evs.take n)

/-- Whenever the reset of one component alone is asserted, `idle()` of the master is true or the master is in reset already: on the write
side, and on the read side. -/
structure CSplit.Calm (c : Cfg) (wa : Nat → WArgs) (ra : Nat → Req) (t : Target σ) (st : σ) (evs : List CSplitEv) : Prop where
  w : ∀ n, evs[n]? = some (.masterW true) ∨ evs[n]? = some (.slaveW true) →
    (CSplit.after c wa ra t st evs n).c.w.m.idle = true ∨ (CSplit.after c wa ra t st evs n).c.w.m.running = false
  r : ∀ n, evs[n]? = some (.masterR true) ∨ evs[n]? = some (.slaveR true) →
    (CSplit.after c wa ra t st evs n).c.r.m.idle = true ∨ (CSplit.after c wa ra t st evs n).c.r.m.running = false

/-- Neither component is in reset. -/
structure CSplit.Up (s : CSplit σ) : Prop where
  masterW : s.c.w.m.running = true
  slaveW : s.upW = true
  masterR : s.c.r.m.running = true
  slaveR : s.upR = true

end Verif.AxiSys
