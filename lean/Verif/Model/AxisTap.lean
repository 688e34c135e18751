import Verif.Model.Axis

/-!
# An AXI stream monitor on the bus between a source and a sink

The monitor samples the same signals, at the same clock edges, as the sink. Its coroutines are scheduled like the others: after a
clock edge source, sink and monitor run in any order; signal writes take effect when no coroutine has anything left to do.
-/

namespace Verif.Axis

open Verif.Stream (Pc)

/-- Events: those of the source and the sink, the monitor's coroutine resuming after a clock edge or after `wake_event`
(`spurious`: without a reason, see `Stream.SnkEv`), and calls of the monitor (axis.py 597-739). -/
inductive TapEv
  | net (e : NetEv)
  | run
  | wake
  | spurious
  | recv (compact : Bool)
  | readNowait (count : Int)
  | clear
  | reset (v : Bool)

/-- A source, a sink and a monitor on the bus between them (axis.py 430-445, 597-616, 741-756). -/
structure Tap where
  net : Net := {}
  mon : Rx := {}

namespace Tap

/-- One event. A clock edge, and signal writes taking effect, concern the monitor too: rising edges of `tvalid` and `tready` set its
`wake_event` (axis.py 666-678). Other events of source and sink do not concern it. The limits of the monitor play no role. If the
source has raised, the test is over. -/
def step (c : NetCfg) (s : Tap) (e : TapEv) : Tap :=
  if s.net.src.crashed then s
  else match e with
  | .net .tick =>
    if s.net.settled && s.net.src.pc.still && s.net.snk.pc.still && s.mon.pc.still then
      { net := s.net.step c .tick, mon := { s.mon with pc := s.mon.pc.tick } }
    else s
  | .net .commit =>
    if s.net.src.pc.still && s.net.snk.pc.still && s.mon.pc.still then
      { net := s.net.step c .commit
        mon := if (s.net.src.nvalid && !s.net.src.valid) || (s.net.snk.nready && !s.net.snk.ready) then s.mon.setWake else s.mon }
    else s
  | .net e => { s with net := s.net.step c e }
  | .run => if s.mon.pc = .due then { s with mon := s.mon.runMon c.bus s.net.src.valid s.net.snk.ready s.net.src.beat } else s
  | .wake => if s.mon.pc = .woken then { s with mon := { s.mon with pc := .edge } } else s
  | .spurious => if s.mon.pc = .asleep then { s with mon := { s.mon with pc := .edge } } else s
  | .recv k => { s with mon := (s.mon.recv false k).2 }
  | .readNowait n => { s with mon := (s.mon.readNowait false n).2 }
  | .clear => { s with mon := s.mon.clear }
  | .reset v => { s with mon := s.mon.reset v }

/-- A whole history from construction (axis.py 268-349, 606-616, then any events). -/
def exec (c : NetCfg) (evs : List TapEv) : Tap := evs.foldl (step c) {}

end Tap

end Verif.Axis
