import Verif.Model.PauseGenBus
import Verif.Spec.AxiClock
import Verif.Spec.LiteClock
import Verif.Spec.PauseGen

/-!
# Schedules of the AXI and AXI-lite systems with pause generators (C100, C101)
-/

namespace Verif.PauseGen

open Verif.AxiSys (Chan CSys CEv)
open Verif.LiteOps (Clk ClkEv)
open Verif.Stream (Net)

section

variable {ε S E : Type} [DecidableEq ε] (ends : List ε) (b : Base ε S E)

/-- The event is a clock edge. -/
def GSys.edge (g : GSys ε S) : GEv ε E → Bool
  | .ev e => b.isTick e && b.ready g.s && !g.anyDue ends
  | _ => false

/-- The number of clock edges in a history. -/
def edgesIn (g : GSys ε S) : List (GEv ε E) → Nat
  | [] => 0
  | e :: evs => (if g.edge ends b e then 1 else 0) + edgesIn (g.step ends b e) evs

/-- Neither a direct assignment to `pause` at `k` nor a call of `set_pause_generator` there. -/
def GEv.leaves (k : ε) : GEv ε E → Prop
  | .ev e => ∀ v, e ≠ b.setPause k v
  | .gen _ => True
  | .setGen j _ => j ≠ k

/-- A piece of a coroutine (also of a generator), a clock edge or signal writes taking effect; `ok` says which events of the system are. -/
def GEv.plays (ok : E → Prop) : GEv ε E → Prop
  | .ev e => ok e
  | .gen _ => True
  | .setGen _ _ => False

end

/-- What goes on by itself in the AXI system. Sinks are not woken without a reason. -/
def axiPiece (e : CEv) : Prop := e.progress = true ∧ ∀ k, e ≠ .chan k .snkSpurious

/-- What goes on by itself in the AXI-lite system. -/
def litePiece {χ ρ χ' ρ' : Type} (e : ClkEv χ ρ χ' ρ') : Prop := e.progress = true ∧ ∀ k, e ≠ .chan k .snkSpurious

/-- The generators at the two ends of the channel `k` (`net` is its state) release it again and again. -/
def ChanReleased {α S E : Type} (b : Base End S E) (G : Nat → GSys End S) (k : Chan) (net : S → Net α) : Prop :=
  Released (fun n => net (G n).s) (fun n => (G n).due ⟨k, false⟩) ((G 0).levels b ⟨k, false⟩) ((G 0).levels b ⟨k, true⟩)

end Verif.PauseGen
