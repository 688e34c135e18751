import Verif.Model.Stream

/-!
# A stream monitor on the bus between a source and a sink

The monitor samples the same signals, at the same clock edges, as the sink. Its coroutines are scheduled like the others: after a
clock edge source, sink and monitor run in any order; signal writes take effect when no coroutine has anything left to do.
-/

namespace Verif.Stream

variable {α : Type}

/-- Events: those of the source and the sink, the monitor's coroutine resuming after a clock edge or after `wake_event`
(`spurious`: without a reason, see `SnkEv`), and calls of the monitor (stream.py 291-368). -/
inductive TapEv (α : Type)
  | net (e : NetEv α)
  | run
  | wake
  | spurious
  | recv
  | clear
  | reset (v : Bool)

/-- A source, a sink and a monitor on the bus between them (stream.py 214-224, 291-304, 370-380). -/
structure Tap (α : Type) where
  net : Net α := {}
  mon : Mon α := {}

namespace Tap

/-- One event. A clock edge, and signal writes taking effect, concern the monitor too: rising edges of `valid` and `ready` set its
`wake_event` (stream.py 331-343). Other events of source and sink do not concern it. -/
def step (c : NetCfg) (s : Tap α) : TapEv α → Tap α
  | .net .tick =>
    if s.net.settled && s.net.src.pc.still && s.net.snk.pc.still && s.mon.pc.still then
      { net := s.net.step c .tick, mon := { s.mon with pc := s.mon.pc.tick } }
    else s
  | .net .commit =>
    if s.net.src.pc.still && s.net.snk.pc.still && s.mon.pc.still then
      { net := s.net.step c .commit
        mon := if (s.net.src.nvalid && !s.net.src.valid) || (s.net.snk.nready && !s.net.snk.ready) then s.mon.setWake else s.mon }
    else s
  | .net e => { s with net := s.net.step c e }
  | .run => if s.mon.pc = .due then { s with mon := s.mon.run c.snk s.net.src.valid s.net.snk.ready s.net.src.data } else s
  | .wake => if s.mon.pc = .woken then { s with mon := { s.mon with pc := .edge } } else s
  | .spurious => if s.mon.pc = .asleep then { s with mon := { s.mon with pc := .edge } } else s
  | .recv => { s with mon := s.mon.recv.2 }
  | .clear => { s with mon := s.mon.clear }
  | .reset v => { s with mon := s.mon.reset v }

/-- A whole history from construction (stream.py 92-137, then any events). -/
def exec (c : NetCfg) (evs : List (TapEv α)) : Tap α := evs.foldl (step c) {}

end Tap

end Verif.Stream
