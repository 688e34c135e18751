import Verif.Py

/-!
# Model of `cocotbext/axi/stream.py`: sources, sinks and monitors at clock-edge granularity

Scheduling. A component's `_run` coroutine has a program counter `Pc`. At a rising clock edge every
coroutine that awaits the edge becomes `due`; due coroutines, coroutines woken by an event, and user calls
run one at a time in an arbitrary order, each atomically up to its next `await`. They see the signal values
from before the edge; their own signal writes go to the `n...` fields and become visible at a `commit`,
which happens when no coroutine is due or woken. The next clock edge comes after that. A schedule is an
arbitrary list of events; an event that is not possible in the current state does nothing.

Simplifications: signals are two-valued (`'x'`/`'z'` do not occur on `valid`/`ready`), the payload signals are
one value of type `α` (`none` for the initial `'x'`). A blocked `recv()` is not a separate state: its resumption is a later
`recv`. Fields marked "history" are not in the code; they record what happened.
-/

namespace Verif.Stream

/-- Where the `_run` coroutine stands: killed or not started; awaiting the clock edge; edge seen but not yet
resumed; awaiting its event (`active_event`/`wake_event`); event set (or just started) but not yet resumed
(stream.py 152-170, 260-289, 401-435). -/
inductive Pc
  | off
  | edge
  | due
  | asleep
  | woken
  deriving DecidableEq, Repr

/-- Which handshake signals the bus has (stream.py 112-120), and `queue_occupancy_limit` (stream.py 224, 380). -/
structure Cfg where
  hasValid : Bool := true
  hasReady : Bool := true
  limit : Int := -1

/-- A coroutine awaiting an event that is set becomes scheduled (cocotb `Event.set`) (cocotb's scheduler; models no line of /repo). -/
def Pc.wakeUp : Pc → Pc
  | .asleep => .woken
  | pc => pc

/-- A rising clock edge (cocotb's scheduler; models no line of /repo). -/
def Pc.tick : Pc → Pc
  | .edge => .due
  | pc => pc

/-- `full()` (stream.py 241-245, 382-386). -/
def isFull (limit : Int) (count : Nat) : Bool := decide (limit > 0 ∧ (count : Int) ≥ limit)

/-! ## Source -/

/-- `StreamSource` (stream.py 100-110, 176-178, 214-224). `waiters` are the `send()` calls blocked on
`dequeue_event`, with a flag that says whether the event has fired for them. -/
structure Src (α : Type) where
  queue : List α := []
  pause : Bool := false
  active : Bool := false
  idleEv : Bool := true
  actEv : Bool := false
  deqEv : Bool := false
  waiters : List (α × Bool) := []
  pc : Pc := .off
  valid : Bool := false
  data : Option α := none
  nvalid : Bool := false
  ndata : Option α := none
  /-- history: every item put into the queue -/
  sent : List α := []

namespace Src

variable {α : Type}

/-- `dequeue_event.set()` (stream.py 148, 276). -/
def setDeq (s : Src α) : Src α := { s with deqEv := true, waiters := s.waiters.map fun w => (w.1, true) }

/-- `queue.put; idle_event.clear(); active_event.set()` (stream.py 230-232, 237-239). -/
def put (s : Src α) (x : α) : Src α :=
  { s with queue := s.queue ++ [x], idleEv := false, actEv := true, pc := s.pc.wakeUp, sent := s.sent ++ [x] }

/-- `send` called (stream.py 226-232): goes on at once or blocks. -/
def send (c : Cfg) (s : Src α) (x : α) : Src α :=
  if isFull c.limit s.queue.length then { s with deqEv := false, waiters := s.waiters ++ [(x, false)] }
  else s.put x

/-- A blocked `send` resumes at the test of its `while` loop (stream.py 227-232). -/
def resume (c : Cfg) (s : Src α) (i : Nat) : Src α :=
  match s.waiters[i]? with
  | some (x, true) =>
    if isFull c.limit s.queue.length then { s with deqEv := false, waiters := s.waiters.set i (x, false) }
    else { s with waiters := s.waiters.eraseIdx i }.put x
  | _ => s

/-- `send_nowait` (stream.py 234-239). -/
def sendNowait (c : Cfg) (s : Src α) (x : α) : Py Unit × Src α :=
  if isFull c.limit s.queue.length then (.error .queueFull, s) else (.ok (), s.put x)

/-- `idle` (stream.py 247-248). -/
def idle (s : Src α) : Bool := s.queue.isEmpty && !s.active

/-- The `pause` setter; `_pause_update` does nothing (stream.py 187-191, 180-181). -/
def setPause (s : Src α) (v : Bool) : Src α := { s with pause := v }

/-- `clear` (stream.py 145-150). -/
def clear (s : Src α) : Src α :=
  { s.setDeq with queue := [], idleEv := true, actEv := false }

/-- `_handle_reset` (stream.py 152-166, 253-258). -/
def reset (s : Src α) (state : Bool) : Src α :=
  if state then
    { s with pc := .off, active := false, idleEv := s.idleEv || s.queue.isEmpty, nvalid := false }
  else if s.pc = .off then { s with pc := .woken } else s

/-- The body of the `_run` loop after the clock edge (stream.py 269-288), with the sampled `ready`. -/
def run (c : Cfg) (s : Src α) (ready : Bool) : Src α :=
  let readySample := !c.hasReady || ready
  let validSample := !c.hasValid || s.valid
  if (readySample && validSample) || !validSample then
    match s.queue, s.pause with
    | x :: rest, false =>
      { s.setDeq with queue := rest, ndata := some x, nvalid := if c.hasValid then true else s.nvalid
                      active := true, pc := .edge }
    | _, _ =>
      let s := { s with nvalid := if c.hasValid then false else s.nvalid, active := !s.queue.isEmpty }
      if s.queue.isEmpty then { s with idleEv := true, actEv := false, pc := .asleep } else { s with pc := .edge }
  else { s with pc := .edge }

end Src

/-! ## Sink -/

/-- `StreamSink` (stream.py 100-110, 176-178, 370-380); `pauseSample` is the local variable of `_run`. -/
structure Snk (α : Type) where
  queue : List α := []
  pause : Bool := false
  pauseSample : Bool := false
  actEv : Bool := false
  wakeEv : Bool := false
  pc : Pc := .off
  ready : Bool := false
  nready : Bool := false
  /-- history: every item returned by `recv()`/`recv_nowait()` -/
  got : List α := []
  /-- history: every item captured from the bus -/
  captured : List α := []

namespace Snk

variable {α : Type}

/-- `wake_event.set()` (stream.py 336, 343, 396, 399). -/
def setWake (s : Snk α) : Snk α := { s with wakeEv := true, pc := s.pc.wakeUp }

/-- The `pause` setter (stream.py 187-191, 395-396). -/
def setPause (s : Snk α) (v : Bool) : Snk α :=
  let s := if s.pause ≠ v then s.setWake else s
  { s with pause := v }

/-- `recv_nowait`, and `recv` when it gets an item (stream.py 309-321, 398-399). -/
def recv (s : Snk α) : Py α × Snk α :=
  match s.queue with
  | [] => (.error .queueEmpty, s)
  | x :: rest =>
    (.ok x, { s with queue := rest, actEv := if rest.isEmpty then false else s.actEv, got := s.got ++ [x] }.setWake)

/-- Whether `wait()` returns without blocking (stream.py 323-329); it has no effect on the state. -/
def waitReturns (s : Snk α) : Bool := !s.queue.isEmpty || s.actEv

/-- `clear` (stream.py 145-150); it does not set `wake_event`. -/
def clear (s : Snk α) : Snk α := { s with queue := [], actEv := false }

/-- `_handle_reset` (stream.py 152-166, 388-393). -/
def reset (s : Snk α) (state : Bool) : Snk α :=
  if state then { s with pc := .off, nready := false }
  else if s.pc = .off then { s with pc := .woken } else s

/-- Top of the `_run` loop up to the clock edge (stream.py 410-412). -/
def top (s : Snk α) : Snk α := { s with pauseSample := s.pause, pc := .edge }

/-- Sampling the bus after the clock edge (stream.py 414-422). -/
def capture (c : Cfg) (s : Snk α) (valid : Bool) (data : Option α) : Snk α :=
  let readySample := !c.hasReady || s.ready
  let validSample := !c.hasValid || valid
  if readySample && validSample then
    { s with queue := s.queue ++ data.toList, actEv := true, captured := s.captured ++ data.toList }
  else s

/-- Driving `ready` and going to sleep or round the loop (stream.py 424-435). -/
def finish (c : Cfg) (s : Snk α) (valid : Bool) : Snk α :=
  let validSample := !c.hasValid || valid
  if c.hasReady then
    let paused := isFull c.limit s.queue.length || s.pauseSample
    let s := { s with nready := !paused }
    if (!validSample || paused) && decide (s.pauseSample = s.pause) then
      { s with wakeEv := false, pc := .asleep }
    else s.top
  else if !validSample then { s with wakeEv := false, pc := .asleep }
  else s.top

/-- The body of the `_run` loop after the clock edge (stream.py 414-435), with the sampled `valid` and payload. -/
def run (c : Cfg) (s : Snk α) (valid : Bool) (data : Option α) : Snk α :=
  (s.capture c valid data).finish c valid

end Snk

/-! ## Monitor -/

/-- `StreamMonitor` (stream.py 291-304). -/
structure Mon (α : Type) where
  queue : List α := []
  actEv : Bool := false
  wakeEv : Bool := false
  pc : Pc := .off
  /-- history: every item returned by `recv()`/`recv_nowait()` -/
  got : List α := []
  /-- history: every item captured from the bus -/
  captured : List α := []

namespace Mon

variable {α : Type}

/-- `wake_event.set()` (stream.py 336, 343). -/
def setWake (s : Mon α) : Mon α := { s with wakeEv := true, pc := s.pc.wakeUp }

/-- `recv_nowait`/`recv` (stream.py 306-321); `_dequeue` does nothing. -/
def recv (s : Mon α) : Py α × Mon α :=
  match s.queue with
  | [] => (.error .queueEmpty, s)
  | x :: rest => (.ok x, { s with queue := rest, actEv := if rest.isEmpty then false else s.actEv, got := s.got ++ [x] })

/-- Whether `wait()` returns without blocking (stream.py 323-329); it has no effect on the state. -/
def waitReturns (s : Mon α) : Bool := !s.queue.isEmpty || s.actEv

/-- `clear` (stream.py 145-150). -/
def clear (s : Mon α) : Mon α := { s with queue := [], actEv := false }

/-- `_handle_reset` (stream.py 152-166). -/
def reset (s : Mon α) (state : Bool) : Mon α :=
  if state then { s with pc := .off } else if s.pc = .off then { s with pc := .woken } else s

/-- The body of the `_run` loop after the clock edge (stream.py 356-367). -/
def run (c : Cfg) (s : Mon α) (valid ready : Bool) (data : Option α) : Mon α :=
  let readySample := !c.hasReady || ready
  let validSample := !c.hasValid || valid
  if readySample && validSample then
    { s with queue := s.queue ++ data.toList, actEv := true, captured := s.captured ++ data.toList, pc := .edge }
  else { s with wakeEv := false, pc := .asleep }

end Mon

/-! ## Systems: a component with an arbitrary environment, and a source connected to a sink

`settled` says that all signal writes have taken effect since the last activity; a clock edge needs it. -/

/-- No coroutine is scheduled to run (cocotb's scheduler; models no line of /repo). -/
def Pc.still : Pc → Bool
  | .due => false
  | .woken => false
  | _ => true

/-- What a clock edge sees on the bus (stream.py 270-271, 357-358, 415-416). -/
structure Sample (α : Type) where
  valid : Bool
  ready : Bool
  data : Option α
  deriving DecidableEq

/-- Events of a source: a clock edge, its coroutine resuming after the edge or after `active_event`, signal
writes taking effect, the environment changing `ready`, and user calls (stream.py 187-191, 226-289). -/
inductive SrcEv (α : Type)
  | tick
  | run
  | wake
  | commit
  | env (ready : Bool)
  | send (x : α)
  | resume (i : Nat)
  | sendNowait (x : α)
  | pause (v : Bool)
  | clear
  | reset (v : Bool)

/-- A source and the `ready` signal driven by an arbitrary environment (stream.py 214-224). -/
structure SrcSys (α : Type) where
  src : Src α := {}
  ready : Bool := false
  settled : Bool := false
  /-- history: the bus at every clock edge; `none` marks an assertion of the source's reset -/
  trace : List (Option (Sample α)) := []

namespace SrcSys

variable {α : Type}

/-- One event (see the scheduling notes above) (stream.py 187-191, 226-289). -/
def step (c : Cfg) (s : SrcSys α) : SrcEv α → SrcSys α
  | .tick =>
    if s.settled && s.src.pc.still then
      { s with src := { s.src with pc := s.src.pc.tick }, settled := false
               trace := s.trace ++ [some ⟨s.src.valid, s.ready, s.src.data⟩] }
    else s
  | .run => if s.src.pc = .due then { s with src := s.src.run c s.ready, settled := false } else s
  | .wake => if s.src.pc = .woken then { s with src := { s.src with pc := .edge }, settled := false } else s
  | .commit =>
    if s.src.pc.still then
      { s with src := { s.src with valid := s.src.nvalid, data := s.src.ndata }, settled := true }
    else s
  | .env r => if s.src.pc = .due then s else { s with ready := r }
  | .send x => { s with src := s.src.send c x, settled := false }
  | .resume i => { s with src := s.src.resume c i, settled := false }
  | .sendNowait x => { s with src := (s.src.sendNowait c x).2, settled := false }
  | .pause v => { s with src := s.src.setPause v, settled := false }
  | .clear => { s with src := s.src.clear, settled := false }
  | .reset v => { s with src := s.src.reset v, settled := false, trace := if v then s.trace ++ [none] else s.trace }

/-- A whole history from construction (stream.py 221-224, then any events). -/
def exec (c : Cfg) (evs : List (SrcEv α)) : SrcSys α := evs.foldl (step c) {}

end SrcSys

/-- Events of a sink; `env` is the environment changing `valid` and the payload. `spurious` is a return from
`await wake_event` without the event having been set since (it happens if the event was set when `_run` started,
stream.py 407). -/
inductive SnkEv (α : Type)
  | tick
  | run
  | wake
  | spurious
  | commit
  | env (valid : Bool) (data : α)
  | recv
  | pause (v : Bool)
  | clear
  | reset (v : Bool)

/-- A sink and the signals driven by an arbitrary environment (stream.py 370-380). -/
structure SnkSys (α : Type) where
  snk : Snk α := {}
  valid : Bool := false
  data : Option α := none
  settled : Bool := false
  /-- history: the bus at every clock edge; `none` marks an assertion of the sink's reset -/
  trace : List (Option (Sample α)) := []

namespace SnkSys

variable {α : Type}

/-- One event. Rising edges of `valid` and of the sink's own `ready` set `wake_event` (stream.py 331-343). -/
def step (c : Cfg) (s : SnkSys α) : SnkEv α → SnkSys α
  | .tick =>
    if s.settled && s.snk.pc.still then
      { s with snk := { s.snk with pc := s.snk.pc.tick }, settled := false
               trace := s.trace ++ [some ⟨s.valid, s.snk.ready, s.data⟩] }
    else s
  | .run => if s.snk.pc = .due then { s with snk := s.snk.run c s.valid s.data, settled := false } else s
  | .wake => if s.snk.pc = .woken then { s with snk := s.snk.top, settled := false } else s
  | .spurious => if s.snk.pc = .asleep then { s with snk := s.snk.top, settled := false } else s
  | .commit =>
    if s.snk.pc.still then
      let snk := { s.snk with ready := s.snk.nready }
      { s with snk := if s.snk.nready && !s.snk.ready then snk.setWake else snk, settled := true }
    else s
  | .env v d =>
    if s.snk.pc = .due then s
    else { s with snk := if v && !s.valid then s.snk.setWake else s.snk, valid := v, data := some d }
  | .recv => { s with snk := s.snk.recv.2, settled := false }
  | .pause v => { s with snk := s.snk.setPause v, settled := false }
  | .clear => { s with snk := s.snk.clear, settled := false }
  | .reset v => { s with snk := s.snk.reset v, settled := false, trace := if v then s.trace ++ [none] else s.trace }

/-- A whole history from construction (stream.py 377-380, then any events). -/
def exec (c : Cfg) (evs : List (SnkEv α)) : SnkSys α := evs.foldl (step c) {}

end SnkSys

/-- Events of a monitor; `env` is the environment changing the bus (stream.py 291-368). -/
inductive MonEv (α : Type)
  | tick
  | run
  | wake
  | spurious
  | env (valid ready : Bool) (data : α)
  | recv
  | clear
  | reset (v : Bool)

/-- A monitor and the signals driven by an arbitrary environment (stream.py 291-304). -/
structure MonSys (α : Type) where
  mon : Mon α := {}
  valid : Bool := false
  ready : Bool := false
  data : Option α := none
  /-- history: the bus at every clock edge; `none` marks an assertion of the monitor's reset -/
  trace : List (Option (Sample α)) := []

namespace MonSys

variable {α : Type}

/-- One event. Rising edges of `valid` and `ready` set `wake_event` (stream.py 331-343). -/
def step (c : Cfg) (s : MonSys α) : MonEv α → MonSys α
  | .tick =>
    if s.mon.pc.still then
      { s with mon := { s.mon with pc := s.mon.pc.tick }
               trace := s.trace ++ [some ⟨s.valid, s.ready, s.data⟩] }
    else s
  | .run => if s.mon.pc = .due then { s with mon := s.mon.run c s.valid s.ready s.data } else s
  | .wake => if s.mon.pc = .woken then { s with mon := { s.mon with pc := .edge } } else s
  | .spurious => if s.mon.pc = .asleep then { s with mon := { s.mon with pc := .edge } } else s
  | .env v r d =>
    if s.mon.pc = .due then s
    else { s with mon := if (v && !s.valid) || (r && !s.ready) then s.mon.setWake else s.mon
                  valid := v, ready := r, data := some d }
  | .recv => { s with mon := s.mon.recv.2 }
  | .clear => { s with mon := s.mon.clear }
  | .reset v => { s with mon := s.mon.reset v, trace := if v then s.trace ++ [none] else s.trace }

/-- A whole history from construction (stream.py 298-304, then any events). -/
def exec (c : Cfg) (evs : List (MonEv α)) : MonSys α := evs.foldl (step c) {}

end MonSys

/-- The bus and the limits of a source connected to a sink (stream.py 112-120, 224, 380). -/
structure NetCfg where
  hasReady : Bool := true
  srcLimit : Int := -1
  snkLimit : Int := -1

/-- The source's configuration (stream.py 112-120, 224). -/
def NetCfg.src (c : NetCfg) : Cfg := { hasReady := c.hasReady, limit := c.srcLimit }
/-- The sink's configuration (stream.py 112-120, 380). -/
def NetCfg.snk (c : NetCfg) : Cfg := { hasReady := c.hasReady, limit := c.snkLimit }

/-- Events of a source connected to a sink (stream.py 187-191, 226-289, 306-435). -/
inductive NetEv (α : Type)
  | tick
  | srcRun
  | srcWake
  | snkRun
  | snkWake
  | snkSpurious
  | commit
  | send (x : α)
  | resume (i : Nat)
  | sendNowait (x : α)
  | srcPause (v : Bool)
  | srcClear
  | srcReset (v : Bool)
  | recv
  | snkPause (v : Bool)
  | snkClear
  | snkReset (v : Bool)

/-- A source connected to a sink: the signals are the fields of the two components (stream.py 214-224, 370-380). -/
structure Net (α : Type) where
  src : Src α := {}
  snk : Snk α := {}
  settled : Bool := false

namespace Net

variable {α : Type}

/-- One event. At a `commit` the writes of both sides take effect together, and a rising `valid`
or `ready` sets the sink's `wake_event` (stream.py 187-191, 226-289, 306-435). -/
def step (c : NetCfg) (s : Net α) : NetEv α → Net α
  | .tick =>
    if s.settled && s.src.pc.still && s.snk.pc.still then
      { s with src := { s.src with pc := s.src.pc.tick }, snk := { s.snk with pc := s.snk.pc.tick }, settled := false }
    else s
  | .srcRun => if s.src.pc = .due then { s with src := s.src.run c.src s.snk.ready, settled := false } else s
  | .srcWake => if s.src.pc = .woken then { s with src := { s.src with pc := .edge }, settled := false } else s
  | .snkRun => if s.snk.pc = .due then { s with snk := s.snk.run c.snk s.src.valid s.src.data, settled := false } else s
  | .snkWake => if s.snk.pc = .woken then { s with snk := s.snk.top, settled := false } else s
  | .snkSpurious => if s.snk.pc = .asleep then { s with snk := s.snk.top, settled := false } else s
  | .commit =>
    if s.src.pc.still && s.snk.pc.still then
      let snk := { s.snk with ready := s.snk.nready }
      { src := { s.src with valid := s.src.nvalid, data := s.src.ndata }
        snk := if (s.src.nvalid && !s.src.valid) || (s.snk.nready && !s.snk.ready) then snk.setWake else snk
        settled := true }
    else s
  | .send x => { s with src := s.src.send c.src x, settled := false }
  | .resume i => { s with src := s.src.resume c.src i, settled := false }
  | .sendNowait x => { s with src := (s.src.sendNowait c.src x).2, settled := false }
  | .srcPause v => { s with src := s.src.setPause v, settled := false }
  | .srcClear => { s with src := s.src.clear, settled := false }
  | .srcReset v => { s with src := s.src.reset v, settled := false }
  | .recv => { s with snk := s.snk.recv.2, settled := false }
  | .snkPause v => { s with snk := s.snk.setPause v, settled := false }
  | .snkClear => { s with snk := s.snk.clear, settled := false }
  | .snkReset v => { s with snk := s.snk.reset v, settled := false }

/-- A whole history from construction (stream.py 92-137, 221-224, 377-380, then any events). -/
def exec (c : NetCfg) (evs : List (NetEv α)) : Net α := evs.foldl (step c) {}

end Net
end Verif.Stream
