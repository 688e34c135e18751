import Verif.Model.AxiSplit
import Verif.Spec.AxiSystem

/-!
# Vocabulary for separate resets of an AXI master and slave
-/

namespace Verif.AxiSys

open Verif.Axi Verif.AxiOps

variable {σ : Type}

/-- The reset of one of the two components, and not of the other, is asserted. -/
def SplitWEv.alone : SplitWEv → Bool
  | .resetM v => v
  | .resetS v => v
  | _ => false

def SplitREv.alone : SplitREv → Bool
  | .resetM v => v
  | .resetS v => v
  | _ => false

/-- The write side as one system: each channel as one list, whichever end its transactions are at. -/
def SplitW.whole (s : SplitW) : WPort :=
  { s.p with aw := s.p.aw ++ s.awSrc, w := s.p.w ++ s.wSrc, b := s.p.b ++ s.bSrc, died := s.p.died || s.slDied }

def SplitR.whole (s : SplitR) : RPort :=
  { s.p with ar := s.p.ar ++ s.arSrc, r := s.p.r ++ s.rSrc, died := s.p.died || s.slDied }

def Split.whole (s : Split σ) : Sys σ := { w := s.w.whole, r := s.r.whole, mem := s.mem }

/-- The system after the first `n` events of a history. -/
def Split.after (c : Cfg) (wa : Nat → WArgs) (ra : Nat → Req) (t : Target σ) (st : σ) (evs : List SplitEv) (n : Nat) : Split σ :=
  Split.run c wa ra t st (evs.take n)

/-- Whenever one component alone has its reset asserted, `idle()` is true or the master is in reset already: on the write side
and on the read side. -/
def Split.Calm (c : Cfg) (wa : Nat → WArgs) (ra : Nat → Req) (t : Target σ) (st : σ) (evs : List SplitEv) : Prop :=
  (∀ n e, evs[n]? = some (.w e) → e.alone = true →
    (Split.after c wa ra t st evs n).w.p.m.idle = true ∨ (Split.after c wa ra t st evs n).w.p.m.running = false) ∧
  (∀ n e, evs[n]? = some (.r e) → e.alone = true →
    (Split.after c wa ra t st evs n).r.p.m.idle = true ∨ (Split.after c wa ra t st evs n).r.p.m.running = false)

/-- The pieces of the coroutines and the handshakes, as opposed to calls and resets. -/
def SplitWEv.progress : SplitWEv → Bool
  | .master e => e.progress
  | .resetM _ | .resetS _ | .resetBoth _ => false
  | _ => true

def SplitREv.progress : SplitREv → Bool
  | .master e => e.progress
  | .resetM _ | .resetS _ | .resetBoth _ => false
  | _ => true

def SplitEv.progress : SplitEv → Bool
  | .w e => e.progress
  | .r e => e.progress

/-- Neither component is in reset. -/
def Split.Up (s : Split σ) : Prop :=
  s.w.p.m.running = true ∧ s.w.up = true ∧ s.r.p.m.running = true ∧ s.r.up = true

/-- A schedule is fair if it does not ignore any piece of a coroutine or any handshake that is possible from some instant on: again and
again, it happens or would do nothing. -/
def Split.Fair (c : Cfg) (wa : Nat → WArgs) (ra : Nat → Req) (t : Target σ) (S : Nat → Split σ) (sched : Nat → SplitEv) : Prop :=
  ∀ e : SplitEv, e.progress = true → ∀ n, ∃ k, n ≤ k ∧ (sched k = e ∨ (S k).step c wa ra t e = S k)

end Verif.AxiSys
