import Verif.Model.PauseGenBus
import Verif.Spec.StreamLive
import Verif.Spec.PauseGenTurn

/-!
# Schedules of a stream source and sink with pause generators (C101)
-/

namespace Verif.PauseGen

open Verif.Stream (Net NetCfg NetEv NetRoom)

variable {α : Type}

/-- What goes on besides the generators: calls, pieces of the coroutines, clock edges and signal writes taking effect; not a reset or `clear()`, and not an assignment
to `pause`. The sink is not woken without a reason. -/
def streamPiece (e : NetEv α) : Prop := e.clean = true ∧ (∀ v, e ≠ .srcPause v) ∧ (∀ v, e ≠ .snkPause v) ∧ e ≠ .snkSpurious

/-- In a history: neither an assertion of reset nor `clear()`. -/
def streamPast : GEv Bool (NetEv α) → Prop
  | .ev e => e.clean = true
  | _ => True

/-- What is not withheld for ever: clock edges keep coming; the generators release the source and (on a bus with `ready`) the sink again and again; and (on such a
bus) again and again the sink's queue is below its limit. -/
structure StreamReleased (c : NetCfg) (G : Nat → GSys Bool (Net α)) (sched : Nat → GEv Bool (NetEv α)) : Prop where
  edges : ∀ n, ∃ k, n ≤ k ∧ Edge [false, true] (netBase c) G sched k
  src : TurnReleased (fun n => decide ((G n).s.src.pc = .due)) (fun n => (G n).due false) ((G 0).levels (netBase c) false)
  snk : c.hasReady = true → Frees ((G 0).levels (netBase c) true)
  room : c.hasReady = true → ∀ n, ∃ k, n ≤ k ∧ NetRoom c (G k).s

end Verif.PauseGen
