import Verif.Model.Axis

/-!
# The simulation times of AXI stream frames: `sim_time_start` and `sim_time_end`

A layer over the systems of `Model/Axis.lean`: a clock `now`, and the two times of every frame, kept in lists parallel to the lists of frames.
Simulated time passes only when nothing is left to run and all writes have taken effect (`sleep`), and two rising edges of the clock are never at the
same time. Time is a natural number of simulation steps (`get_sim_time()`).
-/

namespace Verif.Axis

/-- The times of a receiver's frames (axis.py 49-50, 709, 724, 810, 825). `start` is `sim_time_start` of the local variable `frame` of `_run`, `queue`
has the `(sim_time_start, sim_time_end)` of the frames in the queue. -/
structure Stamps where
  now : Nat := 0
  /-- the time of the last clock edge -/
  last : Option Nat := none
  start : Nat := 0
  queue : List (Nat × Nat) := []
  /-- history: the times of the frames taken out of the queue -/
  taken : List (Nat × Nat) := []
  /-- history: every beat captured from the bus, and when -/
  captured : List (Nat × Beat) := []
  /-- history: the bus at every clock edge, and when that was; `none` marks an assertion of reset -/
  seen : List (Option (Nat × Sample)) := []

namespace Stamps

/-- Whether the clock can have an edge now: two edges are at different times (models no line of /repo). -/
def fresh (t : Stamps) : Bool := t.last.elim true fun l => decide (l < t.now)

/-- A clock edge (models no line of /repo). -/
def edge (t : Stamps) (a : Sample) : Stamps := { t with last := some t.now, seen := t.seen ++ [some (t.now, a)] }

/-- The times set by the body of the `_run` loop after the clock edge (axis.py 703-710, 723-724; 804-811, 824-825); `s` is the receiver before. -/
def run (c : Cfg) (t : Stamps) (s : Rx) (valid ready : Bool) (b : Beat) : Stamps :=
  if (!c.hasReady || ready) && (!c.hasValid || valid) then
    let start := if !(s.part.elim false Frame.truthy) then t.now else t.start
    let t := { t with start := start, captured := t.captured ++ [(t.now, b)] }
    if !c.hasLast || b.tlast then { t with queue := t.queue ++ [(start, t.now)] } else t
  else t

/-- `n` frames are taken out of the queue (axis.py 631-637). -/
def took (t : Stamps) (n : Nat) : Stamps := { t with queue := t.queue.drop n, taken := t.taken ++ t.queue.take n }

/-- Time passes (models no line of /repo). -/
def sleep (t : Stamps) (d : Nat) : Stamps := { t with now := t.now + d }

/-- Assertion of reset (models no line of /repo). -/
def reset (t : Stamps) (v : Bool) : Stamps := { t with seen := if v then t.seen ++ [none] else t.seen }

end Stamps

/-- An event, or time passes (models no line of /repo). -/
inductive TEv (ε : Type)
  | ev (e : ε)
  | sleep (d : Nat)

/-- A sink with the times of its frames (axis.py 741-756). -/
structure TSnk where
  sys : SnkSys := {}
  t : Stamps := {}

namespace TSnk

/-- One event of a sink (axis.py 618-653, 741-849). -/
def step (c : Cfg) (s : TSnk) : TEv SnkEv → TSnk
  | .sleep d => if s.sys.settled && s.sys.snk.pc.still then { s with t := s.t.sleep d } else s
  | .ev .tick =>
    if s.sys.settled && s.sys.snk.pc.still && s.t.fresh then
      { sys := s.sys.step c .tick, t := s.t.edge ⟨s.sys.valid, s.sys.snk.ready, s.sys.beat⟩ }
    else s
  | .ev .run =>
    { sys := s.sys.step c .run
      t := if s.sys.snk.pc = .due then s.t.run c s.sys.snk s.sys.valid s.sys.snk.ready s.sys.beat else s.t }
  | .ev (.recv k) =>
    let u := s.sys.step c (.recv k)
    { sys := u, t := s.t.took (s.sys.snk.queue.length - u.snk.queue.length) }
  | .ev (.readNowait n) =>
    let u := s.sys.step c (.readNowait n)
    { sys := u, t := s.t.took (s.sys.snk.queue.length - u.snk.queue.length) }
  | .ev .clear => { sys := s.sys.step c .clear, t := { s.t with queue := [] } }
  | .ev (.reset v) => { sys := s.sys.step c (.reset v), t := s.t.reset v }
  | .ev e => { s with sys := s.sys.step c e }

/-- A whole history from construction (axis.py 750-756, then any events). -/
def exec (c : Cfg) (evs : List (TEv SnkEv)) : TSnk := evs.foldl (step c) {}

end TSnk

/-- A monitor with the times of its frames (axis.py 597-616). -/
structure TMon where
  sys : MonSys := {}
  t : Stamps := {}

namespace TMon

/-- One event of a monitor (axis.py 597-739). -/
def step (c : Cfg) (s : TMon) : TEv MonEv → TMon
  | .sleep d => if s.sys.mon.pc.still then { s with t := s.t.sleep d } else s
  | .ev .tick =>
    if s.sys.mon.pc.still && s.t.fresh then
      { sys := s.sys.step c .tick, t := s.t.edge ⟨s.sys.valid, s.sys.ready, s.sys.beat⟩ }
    else s
  | .ev .run =>
    { sys := s.sys.step c .run
      t := if s.sys.mon.pc = .due then s.t.run c s.sys.mon s.sys.valid s.sys.ready s.sys.beat else s.t }
  | .ev (.recv k) =>
    let u := s.sys.step c (.recv k)
    { sys := u, t := s.t.took (s.sys.mon.queue.length - u.mon.queue.length) }
  | .ev (.readNowait n) =>
    let u := s.sys.step c (.readNowait n)
    { sys := u, t := s.t.took (s.sys.mon.queue.length - u.mon.queue.length) }
  | .ev .clear => { sys := s.sys.step c .clear, t := { s.t with queue := [] } }
  | .ev (.reset v) => { sys := s.sys.step c (.reset v), t := s.t.reset v }
  | .ev e => { s with sys := s.sys.step c e }

/-- A whole history from construction (axis.py 606-616, then any events). -/
def exec (c : Cfg) (evs : List (TEv MonEv)) : TMon := evs.foldl (step c) {}

end TMon

/-! ## Sources -/

/-- A beat put on the bus: the number of its frame, the frame's `sim_time_start`, the time, and the beat (history; models no line of /repo). -/
structure Driven where
  num : Nat
  start : Nat
  time : Nat
  beat : Beat

/-- The times of a source's frames (axis.py 49-50, 540-541, 565); `start` is `sim_time_start` of the frame in transmission. Simplification: the frames
given to `send` have no times yet (a frame that was received before carries its old times into the queue until they are overwritten, axis.py 75-76). -/
structure SrcStamps where
  now : Nat := 0
  /-- the time of the last clock edge -/
  last : Option Nat := none
  start : Nat := 0
  /-- history: as `Src.done`, with the `sim_time_start` and `sim_time_end` of the frame when `tx_complete` is signalled -/
  done : List (Nat × Option Nat × Option Nat) := []
  /-- history: every beat put on the bus -/
  driven : List Driven := []
  /-- history: the bus at every clock edge, and when that was; `none` marks an assertion of reset -/
  seen : List (Option (Nat × Sample)) := []

namespace SrcStamps

/-- Whether the clock can have an edge now (models no line of /repo). -/
def fresh (t : SrcStamps) : Bool := t.last.elim true fun l => decide (l < t.now)

/-- A clock edge (models no line of /repo). -/
def edge (t : SrcStamps) (a : Sample) : SrcStamps := { t with last := some t.now, seen := t.seen ++ [some (t.now, a)] }

/-- The times set when a frame is taken from the queue (axis.py 534, 540-541); `s` is the source before. -/
def take (t : SrcStamps) (s : Src) : SrcStamps :=
  if !live s.frame && !s.queue.isEmpty then { t with start := t.now } else t

/-- The times set when a beat is driven (axis.py 547-569); `s` is the source after the frame was taken. -/
def drive (c : Cfg) (t : SrcStamps) (s : Src) : SrcStamps :=
  match s.frame with
  | some (i, f) =>
    if f.truthy && !s.pause then
      let b := (nextBeat c f s.off).1
      let t := { t with driven := t.driven ++ [⟨i, t.start, t.now, b⟩] }
      if b.tlast then { t with done := t.done ++ [(i, some t.start, some t.now)] } else t
    else t
  | none => t

/-- The times set by the body of the `_run` loop after the clock edge (axis.py 524-594); `s` is the source before. -/
def run (c : Cfg) (t : SrcStamps) (s : Src) (ready : Bool) : SrcStamps :=
  let readySample := !c.hasReady || ready
  let validSample := !c.hasValid || s.valid
  if (readySample && validSample) || !validSample then
    let u := if !live s.frame then s.take else s
    if u.crashed then t else (t.take s).drive c u
  else t

/-- `clear` (axis.py 357-361). -/
def clear (t : SrcStamps) (s : Src) : SrcStamps := { t with done := t.done ++ s.queue.map fun p => (p.1, none, none) }

/-- `_handle_reset` (axis.py 506-509): the frame in transmission has no `sim_time_end` (541). -/
def reset (t : SrcStamps) (s : Src) (v : Bool) : SrcStamps :=
  if v then
    let t := { t with seen := t.seen ++ [none] }
    match s.current with
    | some (i, f) => if f.truthy then { t with done := t.done ++ [(i, some t.start, none)] } else t
    | none => t
  else t

end SrcStamps

/-- A source with the times of its frames (axis.py 430-445). -/
structure TSrc where
  sys : SrcSys := {}
  t : SrcStamps := {}

namespace TSrc

/-- One event of a source (axis.py 357-382, 447-594). -/
def step (c : Cfg) (s : TSrc) (e : TEv SrcEv) : TSrc :=
  if s.sys.src.crashed then s
  else match e with
  | .sleep d => if s.sys.settled && s.sys.src.pc.still then { s with t := { s.t with now := s.t.now + d } } else s
  | .ev .tick =>
    if s.sys.settled && s.sys.src.pc.still && s.t.fresh then
      { sys := s.sys.step c .tick, t := s.t.edge ⟨s.sys.src.valid, s.sys.ready, s.sys.src.beat⟩ }
    else s
  | .ev .run => { sys := s.sys.step c .run, t := if s.sys.src.pc = .due then s.t.run c s.sys.src s.sys.ready else s.t }
  | .ev .clear => { sys := s.sys.step c .clear, t := s.t.clear s.sys.src }
  | .ev (.reset v) => { sys := s.sys.step c (.reset v), t := s.t.reset s.sys.src v }
  | .ev e => { s with sys := s.sys.step c e }

/-- A whole history from construction (axis.py 439-445, then any events). -/
def exec (c : Cfg) (evs : List (TEv SrcEv)) : TSrc := evs.foldl (step c) {}

end TSrc

end Verif.Axis
