import Verif.Model.Axis
import Verif.Model.StreamReaders

/-!
# An AXI stream monitor with any number of suspended `recv()` calls

The waiting list of `Model/StreamReaders.lean` with the monitor of `Model/Axis.lean`. Users call `recv()` and `recv_nowait()` only; `read()` and `read_nowait()` of a
monitor are not modelled here (see `Model/AxisReaders.lean` for those of a sink).
-/

namespace Verif.AxisMonReaders

open Verif.Axis

/-- A monitor (axis.py 597-739). The frame returned is recorded before `compact()`, which does not affect the monitor. -/
def monitor (c : Cfg) : StreamReaders.Comp MonSys MonEv Frame where
  start := {}
  step := MonSys.step c
  queue s := s.mon.queue
  got s := s.mon.taken.map (·.2)
  recv := .recv false
  isCall | .recv _ | .readNowait _ => true | _ => false

end Verif.AxisMonReaders
