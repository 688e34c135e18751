import Verif.Model.Axis
import Verif.Model.PauseGen

/-!
# Pause generators of an AXI stream source and sink

`AxiStreamPause` (axis.py 388-428) has the same code as the pause class of the streams (stream.py 167-212), of which `Model/PauseGen.lean` is the model.
-/

namespace Verif.PauseGen

open Verif.Axis (Net NetCfg NetEv)

/-- A source connected to a sink (`Model/Axis.lean`); `false` is the source, `true` the sink, each with its own `pause` and generator (axis.py 388-428, 430, 741). A
clock edge comes when both coroutines have run and the signals have taken their values. `Net.step` stops when the source's `_run` has ended with an exception (the
simulation fails then); the `pause` setters still have their effect here, so that what is proved of the values of `pause` needs no hypothesis about the frames. -/
def axisBase (c : NetCfg) : Base Bool Net NetEv where
  step s
    | .srcPause v => { s with src := s.src.setPause v, settled := false }
    | .snkPause v => { s with snk := s.snk.setPause v, settled := false }
    | e => s.step c e
  isTick
    | .tick => true
    | _ => false
  ready s := s.settled && s.src.pc.still && s.snk.pc.still
  setPause k v := if k then .snkPause v else .srcPause v
  pause s k := if k then s.snk.pause else s.src.pause

end Verif.PauseGen
