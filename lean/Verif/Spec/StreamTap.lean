import Verif.Model.StreamTap
import Verif.Spec.Stream

/-!
# Histories of a monitored stream (C125)
-/

namespace Verif.Stream

variable {α : Type}

/-- Not an assertion of the sink's or the monitor's reset. -/
def TapEv.noReset : TapEv α → Bool
  | .net (.snkReset true) => false
  | .reset true => false
  | _ => true

/-- Nothing is discarded: no `clear()` of and no assertion of reset at the sink and the monitor. -/
def TapEv.keeps : TapEv α → Bool
  | .net (.snkReset true) => false
  | .net .snkClear => false
  | .reset true => false
  | .clear => false
  | _ => true

/-- What happens at the source and the sink. -/
def TapEv.toNet : TapEv α → Option (NetEv α)
  | .net e => some e
  | _ => none

end Verif.Stream
