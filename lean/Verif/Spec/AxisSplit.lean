import Verif.Model.AxisSplit
import Verif.Spec.AxisBus

/-!
# Specification of C134 and C135: resets of an AXI stream connection
-/

namespace Verif.Axis

/-- When one component may be reset alone. The source: while the sink has no unfinished frame and is not in the middle of a clock edge. The
sink: likewise, and the bus has a `tready`, or else the source is in reset too (and does not leave it before the sink). -/
def Tidy (c : NetCfg) (s : Net) : JointEv → Prop
  | .ev (.srcReset true) => s.snk.part = none ∧ s.snk.pc ≠ .due
  | .ev (.snkReset true) => s.snk.part = none ∧ s.snk.pc ≠ .due ∧ (c.bus.hasReady = true ∨ s.src.pc = .off)
  | .ev (.srcReset false) => c.bus.hasReady = true ∨ s.snk.pc ≠ .off
  | _ => True

/-- Every reset of one component alone is at such a time. -/
def TidyAll (c : NetCfg) (evs : List JointEv) : Prop := ∀ n e, evs[n]? = some e → Tidy c (Net.jexec c (evs.take n)) e

/-- No common reset is asserted in the middle of a clock edge: between the edge and the reaction of the sink to it. -/
def BetweenEdges (c : NetCfg) (evs : List JointEv) : Prop :=
  ∀ n, evs[n]? = some (.reset true) → (Net.jexec c (evs.take n)).snk.pc ≠ .due

/-- The assertions of a reset that the source sees. -/
def resets (evs : List JointEv) : Nat :=
  evs.countP fun e => match e with
    | .reset true => true
    | .ev (.srcReset true) => true
    | _ => false

/-- Events other than `clear()`. -/
def JointEv.noClear : JointEv → Bool
  | .ev .srcClear => false
  | .ev .snkClear => false
  | _ => true

/-- Events of a connection that has one common reset: no resets of one component alone. -/
def JointEv.common : JointEv → Bool
  | .ev (.srcReset _) => false
  | .ev (.snkReset _) => false
  | _ => true

end Verif.Axis
