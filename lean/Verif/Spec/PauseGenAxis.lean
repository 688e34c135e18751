import Verif.Model.PauseGenAxis
import Verif.Spec.AxisLive
import Verif.Spec.PauseGenTurn

/-!
# Schedules of an AXI stream source and sink with pause generators (C100, C101)
-/

namespace Verif.PauseGen

open Verif.Axis (Net NetCfg NetEv NetRoom)

/-- What goes on besides the generators: calls, pieces of the coroutines, clock edges and signal writes taking effect; not a reset or `clear()`, and not an assignment
to `pause`. The sink is not woken without a reason. -/
def axisPiece (e : NetEv) : Prop := e.clean = true ∧ (∀ v, e ≠ .srcPause v) ∧ (∀ v, e ≠ .snkPause v) ∧ e ≠ .snkSpurious

/-- In a history: neither an assertion of reset nor `clear()`. -/
def axisPast : GEv Bool NetEv → Prop
  | .ev e => e.clean = true
  | _ => True

/-- What is not withheld for ever: clock edges keep coming; the generators release the source and (on a bus with `tready`) the sink again and again; and (on such a
bus) again and again the sink's queue is not over a limit. -/
structure AxisReleased (c : NetCfg) (G : Nat → GSys Bool Net) (sched : Nat → GEv Bool NetEv) : Prop where
  edges : ∀ n, ∃ k, n ≤ k ∧ Edge [false, true] (axisBase c) G sched k
  src : TurnReleased (fun n => decide ((G n).s.src.pc = .due)) (fun n => (G n).due false) ((G 0).levels (axisBase c) false)
  snk : c.bus.hasReady = true → Frees ((G 0).levels (axisBase c) true)
  room : c.bus.hasReady = true → ∀ n, ∃ k, n ≤ k ∧ NetRoom c (G k).s

end Verif.PauseGen
