import Verif.Model.AxisTap
import Verif.Spec.AxisBus

/-!
# Histories of a monitored AXI stream (C125)
-/

namespace Verif.Axis

/-- Not an assertion of the sink's or the monitor's reset. -/
def TapEv.noReset : TapEv → Bool
  | .net (.snkReset true) => false
  | .reset true => false
  | _ => true

/-- Nothing is discarded: no `clear()` of and no assertion of reset at the sink and the monitor. -/
def TapEv.keeps : TapEv → Bool
  | .net (.snkReset true) => false
  | .net .snkClear => false
  | .reset true => false
  | .clear => false
  | _ => true

/-- What happens at the source and the sink. -/
def TapEv.toNet : TapEv → Option NetEv
  | .net e => some e
  | _ => none

/-- All frames completed so far, in order: those taken out of the receiver, by any call, and those in its queue. -/
def Rx.frames (s : Rx) : List Frame := s.taken.map (·.2) ++ s.queue

end Verif.Axis
