import Verif.Model.Axis

/-!
# An AXI stream source connected to a sink, with resets of both or of one of them

The system `Net` of `Model/Axis.lean` has separate resets of the two components (axis.py 268-271). Here an event is added that resets both,
as a common reset signal does.
-/

namespace Verif.Axis

/-- Events: those of the pair, and a change of a reset signal that both components have (axis.py 368-382, 488-509, 766-771). -/
inductive JointEv
  | ev (e : NetEv)
  | reset (v : Bool)

namespace Net

/-- One event (axis.py 368-382, 447-594, 618-849). With a common reset signal both `_handle_reset` are called in the same time step; they act on
different components, so their order does not matter. -/
def jstep (c : NetCfg) (s : Net) : JointEv → Net
  | .ev e => s.step c e
  | .reset v => (s.step c (.srcReset v)).step c (.snkReset v)

/-- A whole history from construction (axis.py 268-349, 439-445, 750-756, then any events). -/
def jexec (c : NetCfg) (evs : List JointEv) : Net := evs.foldl (jstep c) {}

end Net
end Verif.Axis
