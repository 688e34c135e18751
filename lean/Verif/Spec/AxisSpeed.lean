import Verif.Spec.AxisLive

/-!
# Throughput of AXI stream (C126)
-/

namespace Verif.Axis

/-- Nothing is discarded and neither side is paused. -/
def NetEv.steady : NetEv → Bool
  | .srcPause true => false
  | .snkPause true => false
  | e => e.clean

/-- The number of clock edges among some events: a scheduled edge comes when both coroutines have done what they had to do in this
cycle, and the signals have taken their values. -/
def Net.edges (c : NetCfg) : Net → List NetEv → Nat
  | _, [] => 0
  | s, e :: evs =>
    (match e with
      | .tick => if s.settled && s.src.pc.still && s.snk.pc.still then 1 else 0
      | _ => 0) + Net.edges c (s.step c e) evs

end Verif.Axis
