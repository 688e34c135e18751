import Verif.Model.AxisFrame
import Verif.Model.Stream

/-!
# Model of `cocotbext/axi/axis.py`: sources, monitors and sinks at clock-edge granularity

Scheduling, program counters and signal writes are as in `Model/Stream.lean`. Simplifications: signals are two-valued;
`tid`, `tdest`, `tuser` values fit their signals; frames are values here (a source keeps its own copy, see `Model/Alias.lean`);
simulation times (see Model/AxisTime.lean) and logging are left out; a blocked `recv()` or `read()` is not a separate state: its resumption is a
later `recv` or `read_nowait`. If `_run` raises (a sideband given as an empty list), cocotb ends the test: the system then
stands still, and the state at that moment is not described. Fields marked "history" are not in the code.
-/

namespace Verif.Axis

open Verif.Stream (Pc)

/-- `AxiStreamFrame(frame)` for a frame (axis.py 53-76): `list()` of an integer `tkeep` raises. -/
def Frame.copy (f : Frame) : Py Frame :=
  match f.tkeep with
  | .scalar _ => .error .typeError
  | _ => .ok f

/-- `full()` (axis.py 474-480, 758-764), with the two occupancy counters. -/
def isFull (c : Cfg) (bytes frames : Int) : Bool :=
  decide (c.limitBytes > 0 ∧ bytes > c.limitBytes) || decide (c.limitFrames > 0 ∧ frames > c.limitFrames)

/-- `bool(frame)` of a variable that may be `None` (`if frame`, `if self.current_frame`, axis.py 506, 534, 547; `__len__`, 229-230). -/
def live (o : Option (Nat × Frame)) : Bool :=
  match o with
  | some (_, f) => f.truthy
  | none => false

/-! ## Source -/

/-- `AxiStreamSource` (axis.py 277-299, 388-395, 441-445). Frames carry the number of the `send` call that queued them
(history); `frame` and `off` are the local variables of `_run`. `waiters` are the `send()` calls blocked on
`dequeue_event`, with a flag that says whether the event has fired for them. -/
structure Src where
  queue : List (Nat × Frame) := []
  current : Option (Nat × Frame) := none
  frame : Option (Nat × Frame) := none
  off : Nat := 0
  occBytes : Int := 0
  occFrames : Int := 0
  pause : Bool := false
  active : Bool := false
  idleEv : Bool := true
  actEv : Bool := false
  deqEv : Bool := false
  waiters : List (Frame × Bool) := []
  pc : Pc := .off
  crashed : Bool := false
  valid : Bool := false
  beat : Beat := {}
  nvalid : Bool := false
  nbeat : Beat := {}
  /-- history: every frame put into the queue; `send` call `i` put frame number `i` -/
  sent : List Frame := []
  /-- history: the numbers of the frames whose `tx_complete` was signalled, in order -/
  done : List Nat := []

namespace Src

/-- `dequeue_event.set()` (axis.py 362, 531). -/
def setDeq (s : Src) : Src := { s with deqEv := true, waiters := s.waiters.map fun w => (w.1, true) }

/-- The end of `send` and `send_nowait` (axis.py 452-456, 462-466). -/
def put (s : Src) (f : Frame) : Src :=
  { s with queue := s.queue ++ [(s.sent.length, f)], idleEv := false, actEv := true, pc := s.pc.wakeUp
           occBytes := s.occBytes + f.tdata.length, occFrames := s.occFrames + 1, sent := s.sent ++ [f] }

/-- Copying the frame and queueing it (axis.py 451-456, 461-466). -/
def accept (s : Src) (f : Frame) : Py Unit × Src :=
  match f.copy with
  | .error e => (.error e, s)
  | .ok g => (.ok (), s.put g)

/-- `send` called (axis.py 447-456): goes on at once or blocks. -/
def send (c : Cfg) (s : Src) (f : Frame) : Src :=
  if isFull c s.occBytes s.occFrames then { s with deqEv := false, waiters := s.waiters ++ [(f, false)] }
  else (s.accept f).2

/-- A blocked `send` resumes at the test of its `while` loop (axis.py 448-456). -/
def resume (c : Cfg) (s : Src) (i : Nat) : Src :=
  match s.waiters[i]? with
  | some (f, true) =>
    if isFull c s.occBytes s.occFrames then { s with deqEv := false, waiters := s.waiters.set i (f, false) }
    else ({ s with waiters := s.waiters.eraseIdx i }.accept f).2
  | _ => s

/-- `send_nowait` (axis.py 458-466). -/
def sendNowait (c : Cfg) (s : Src) (f : Frame) : Py Unit × Src :=
  if isFull c s.occBytes s.occFrames then (.error .queueFull, s) else s.accept f

/-- `count` (axis.py 351-352). -/
def count (s : Src) : Nat := s.queue.length

/-- `idle` (axis.py 482-483). -/
def idle (s : Src) : Bool := s.queue.isEmpty && !s.active

/-- The `pause` setter; `_pause_update` does nothing (axis.py 396-407). -/
def setPause (s : Src) (v : Bool) : Src := { s with pause := v }

/-- `clear` (axis.py 357-366). -/
def clear (s : Src) : Src :=
  { s.setDeq with queue := [], done := s.done ++ s.queue.map (·.1), idleEv := true, actEv := false, occBytes := 0
                  occFrames := 0 }

/-- `_handle_reset` (axis.py 368-382, 488-509). Killing `_run` loses its local variables. -/
def reset (s : Src) (state : Bool) : Src :=
  if state then
    let s := { s with pc := .off, frame := none, off := 0, active := false, idleEv := s.idleEv || s.queue.isEmpty
                      nvalid := false, nbeat := {} }
    match s.current with
    | some (i, f) => if f.truthy then { s with done := s.done ++ [i], current := none } else s
    | none => s
  else if s.pc = .off then { s with pc := .woken } else s

/-- Getting a frame from the queue (axis.py 529-541). -/
def take (s : Src) : Src :=
  match s.queue with
  | [] => s
  | (i, f) :: rest =>
    match f.normalize with
    | (.error _, _) => { s with crashed := true }
    | (.ok _, g) =>
      { s.setDeq with queue := rest, occBytes := s.occBytes - f.tdata.length, occFrames := s.occFrames - 1
                      current := some (i, g), frame := some (i, g), off := 0, active := true }

/-- Driving the next beat (axis.py 544-582). -/
def drive (c : Cfg) (s : Src) (i : Nat) (f : Frame) : Src :=
  let (b, off) := nextBeat c f s.off
  let s := { s with nbeat := b, nvalid := if c.hasValid then true else s.nvalid, off := off, pc := .edge }
  if b.tlast then { s with done := s.done ++ [i], frame := none, current := none } else s

/-- Nothing to drive (axis.py 583-594). -/
def quiet (c : Cfg) (s : Src) : Src :=
  let s := { s with nvalid := if c.hasValid then false else s.nvalid, nbeat := { s.nbeat with tlast := false }
                    active := live s.frame }
  if !live s.frame && s.queue.isEmpty then { s with idleEv := true, actEv := false, pc := .asleep }
  else { s with pc := .edge }

/-- The body of the `_run` loop after the clock edge (axis.py 524-594), with the sampled `tready`. -/
def run (c : Cfg) (s : Src) (ready : Bool) : Src :=
  let readySample := !c.hasReady || ready
  let validSample := !c.hasValid || s.valid
  if (readySample && validSample) || !validSample then
    let s := if !live s.frame then s.take else s
    if s.crashed then s
    else
      match s.frame with
      | some (i, f) => if f.truthy && !s.pause then s.drive c i f else s.quiet c
      | none => s.quiet c
  else { s with pc := .edge }

end Src

/-! ## Monitor and sink -/

/-- `AxiStreamMonitor` and `AxiStreamSink` (axis.py 277-299, 388-395, 608-617, 751-756). `part` is the local variable
`frame` of `_run`, `pauseSample` a local variable of the sink's `_run`; a monitor does not use the `pause` and `ready`
fields. -/
structure Rx where
  queue : List Frame := []
  part : Option Frame := none
  occBytes : Int := 0
  occFrames : Int := 0
  pause : Bool := false
  pauseSample : Bool := false
  active : Bool := false
  actEv : Bool := false
  wakeEv : Bool := false
  readQueue : List Int := []
  pc : Pc := .off
  ready : Bool := false
  nready : Bool := false
  /-- history: every beat captured from the bus -/
  captured : List Beat := []
  /-- history: every frame taken out of the queue, with `true` if `read`/`read_nowait` took it and `false` if `recv`/
  `recv_nowait` did -/
  taken : List (Bool × Frame) := []
  /-- history: all elements returned by `read`/`read_nowait` -/
  out : List Int := []

namespace Rx

/-- `wake_event.set()` (axis.py 671, 678, 774, 777). -/
def setWake (s : Rx) : Rx := { s with wakeEv := true, pc := s.pc.wakeUp }

/-- `_dequeue`: a sink sets `wake_event`, a monitor does nothing (axis.py 618-619, 776-777). -/
def dequeue (sink : Bool) (s : Rx) : Rx := if sink then s.setWake else s

/-- `_recv` without the compaction (axis.py 621-626), with the frame `f` just taken from the queue. -/
def popped (sink : Bool) (s : Rx) (byRead : Bool) (f : Frame) (rest : List Frame) : Rx :=
  dequeue sink { s with queue := rest, actEv := if rest.isEmpty then false else s.actEv
                        occBytes := s.occBytes - f.tdata.length, occFrames := s.occFrames - 1
                        taken := s.taken ++ [(byRead, f)] }

/-- `recv_nowait`, and `recv` when it gets a frame (axis.py 621-637). -/
def recv (sink : Bool) (s : Rx) (compact : Bool) : Py Frame × Rx :=
  match s.queue with
  | [] => (.error .queueEmpty, s)
  | f :: rest => (if compact then f.compact else .ok f, s.popped sink false f rest)

/-- The loop of `read_nowait` (axis.py 646-648), `n` iterations. -/
def drain (sink : Bool) : (n : Nat) → Rx → Py Unit × Rx
  | 0, s => (.ok (), s)
  | n + 1, s =>
    match s.queue with
    | [] => (.ok (), s)
    | f :: rest =>
      let s := s.popped sink true f rest
      match f.compact with
      | .error e => (.error e, s)
      | .ok g => drain sink n { s with readQueue := s.readQueue ++ g.tdata }

/-- `read_nowait` (axis.py 645-653); the loop runs once for every frame in the queue. Also `read` once it has data
(axis.py 639-643): getting its first frames itself makes no difference, as `read_nowait` goes on with the others. -/
def readNowait (sink : Bool) (s : Rx) (count : Int) : Py (List Int) × Rx :=
  match s.drain sink s.queue.length with
  | (.error e, s) => (.error e, s)
  | (.ok _, s) =>
    let n := if count < 0 then s.readQueue.length else count.toNat
    (.ok (s.readQueue.take n), { s with readQueue := s.readQueue.drop n, out := s.out ++ s.readQueue.take n })

/-- `idle` (axis.py 655-656). -/
def idle (s : Rx) : Bool := !s.active

/-- Whether `wait()` returns without blocking (axis.py 658-664); it has no effect on the state. -/
def waitReturns (s : Rx) : Bool := !s.queue.isEmpty || s.actEv

/-- `clear` (axis.py 357-366). -/
def clear (s : Rx) : Rx := { s with queue := [], actEv := false, occBytes := 0, occFrames := 0 }

/-- The `pause` setter of a sink (axis.py 396-407, 773-774). -/
def setPause (s : Rx) (v : Bool) : Rx :=
  let s := if s.pause ≠ v then s.setWake else s
  { s with pause := v }

/-- `_handle_reset` (axis.py 368-382, 766-771); `ready` exists only for a sink. Killing `_run` loses the partial frame. -/
def reset (s : Rx) (state : Bool) : Rx :=
  if state then { s with pc := .off, part := none, active := false, nready := false }
  else if s.pc = .off then { s with pc := .woken } else s

/-- Capturing a beat (axis.py 703-734, 804-835). -/
def collect (c : Cfg) (s : Rx) (b : Beat) : Rx :=
  let fresh := !(s.part.elim false Frame.truthy)
  let f := (if fresh then emptyFrame c else s.part.getD (emptyFrame c)).pushBeat c b
  let s := { s with active := if fresh then true else s.active, captured := s.captured ++ [b] }
  if !c.hasLast || b.tlast then
    { s with queue := s.queue ++ [f], occBytes := s.occBytes + f.tdata.length, occFrames := s.occFrames + 1, actEv := true
             part := none }
  else { s with part := some f }

/-- The body of a monitor's `_run` loop after the clock edge (axis.py 699-738). -/
def runMon (c : Cfg) (s : Rx) (valid ready : Bool) (b : Beat) : Rx :=
  if (!c.hasReady || ready) && (!c.hasValid || valid) then { s.collect c b with pc := .edge }
  else { s with active := s.part.elim false Frame.truthy, wakeEv := false, pc := .asleep }

/-- The top of a sink's `_run` loop up to the clock edge (axis.py 795-797). -/
def top (s : Rx) : Rx := { s with pauseSample := s.pause, pc := .edge }

/-- Sampling the bus after the clock edge (axis.py 799-837). -/
def capture (c : Cfg) (s : Rx) (valid : Bool) (b : Beat) : Rx :=
  if (!c.hasReady || s.ready) && (!c.hasValid || valid) then s.collect c b
  else { s with active := s.part.elim false Frame.truthy }

/-- Driving `tready` and going to sleep or round the loop (axis.py 839-849). -/
def finish (c : Cfg) (s : Rx) (valid : Bool) : Rx :=
  let validSample := !c.hasValid || valid
  if c.hasReady then
    let paused := isFull c s.occBytes s.occFrames || s.pauseSample
    let s := { s with nready := !paused }
    if (!validSample || paused) && decide (s.pauseSample = s.pause) then { s with wakeEv := false, pc := .asleep }
    else s.top
  else if !validSample then { s with wakeEv := false, pc := .asleep }
  else s.top

/-- The body of a sink's `_run` loop after the clock edge (axis.py 799-849). -/
def runSnk (c : Cfg) (s : Rx) (valid : Bool) (b : Beat) : Rx := (s.capture c valid b).finish c valid

end Rx

/-! ## Systems: a component with an arbitrary environment, and a source connected to a sink -/

/-- What a clock edge sees on the bus (axis.py 530-531, 700-701, 801-802). -/
structure Sample where
  valid : Bool
  ready : Bool
  beat : Beat
  deriving DecidableEq

/-- Events of a source (as `Stream.SrcEv`) (axis.py 404-407, 447-511, 511-594). -/
inductive SrcEv
  | tick
  | run
  | wake
  | commit
  | env (ready : Bool)
  | send (f : Frame)
  | resume (i : Nat)
  | sendNowait (f : Frame)
  | pause (v : Bool)
  | clear
  | reset (v : Bool)

/-- A source and the `tready` signal driven by an arbitrary environment (axis.py 430-445). -/
structure SrcSys where
  src : Src := {}
  ready : Bool := false
  settled : Bool := false
  /-- history: the bus at every clock edge; `none` marks an assertion of the source's reset -/
  trace : List (Option Sample) := []

namespace SrcSys

/-- One event (axis.py 447-594). -/
def step (c : Cfg) (s : SrcSys) (e : SrcEv) : SrcSys :=
  if s.src.crashed then s
  else match e with
  | .tick =>
    if s.settled && s.src.pc.still then
      { s with src := { s.src with pc := s.src.pc.tick }, settled := false
               trace := s.trace ++ [some ⟨s.src.valid, s.ready, s.src.beat⟩] }
    else s
  | .run => if s.src.pc = .due then { s with src := s.src.run c s.ready, settled := false } else s
  | .wake => if s.src.pc = .woken then { s with src := { s.src with pc := .edge }, settled := false } else s
  | .commit =>
    if s.src.pc.still then
      { s with src := { s.src with valid := s.src.nvalid, beat := s.src.nbeat }, settled := true }
    else s
  | .env r => if s.src.pc = .due then s else { s with ready := r }
  | .send f => { s with src := s.src.send c f, settled := false }
  | .resume i => { s with src := s.src.resume c i, settled := false }
  | .sendNowait f => { s with src := (s.src.sendNowait c f).2, settled := false }
  | .pause v => { s with src := s.src.setPause v, settled := false }
  | .clear => { s with src := s.src.clear, settled := false }
  | .reset v => { s with src := s.src.reset v, settled := false, trace := if v then s.trace ++ [none] else s.trace }

/-- A whole history from construction (axis.py 439-445, then any events). -/
def exec (c : Cfg) (evs : List SrcEv) : SrcSys := evs.foldl (step c) {}

end SrcSys

/-- Events of a sink (as `Stream.SnkEv`) (axis.py 404-407, 618-656, 741-849). -/
inductive SnkEv
  | tick
  | run
  | wake
  | spurious
  | commit
  | env (valid : Bool) (b : Beat)
  | recv (compact : Bool)
  | readNowait (count : Int)
  | pause (v : Bool)
  | clear
  | reset (v : Bool)

/-- A sink and the signals driven by an arbitrary environment (axis.py 741-756). -/
structure SnkSys where
  snk : Rx := {}
  valid : Bool := false
  beat : Beat := {}
  settled : Bool := false
  /-- history: the bus at every clock edge; `none` marks an assertion of the sink's reset -/
  trace : List (Option Sample) := []

namespace SnkSys

/-- One event. Rising edges of `tvalid` and of the sink's own `tready` set `wake_event` (axis.py 666-678). -/
def step (c : Cfg) (s : SnkSys) : SnkEv → SnkSys
  | .tick =>
    if s.settled && s.snk.pc.still then
      { s with snk := { s.snk with pc := s.snk.pc.tick }, settled := false
               trace := s.trace ++ [some ⟨s.valid, s.snk.ready, s.beat⟩] }
    else s
  | .run => if s.snk.pc = .due then { s with snk := s.snk.runSnk c s.valid s.beat, settled := false } else s
  | .wake => if s.snk.pc = .woken then { s with snk := s.snk.top, settled := false } else s
  | .spurious => if s.snk.pc = .asleep then { s with snk := s.snk.top, settled := false } else s
  | .commit =>
    if s.snk.pc.still then
      let snk := { s.snk with ready := s.snk.nready }
      { s with snk := if s.snk.nready && !s.snk.ready then snk.setWake else snk, settled := true }
    else s
  | .env v b =>
    if s.snk.pc = .due then s
    else { s with snk := if v && !s.valid then s.snk.setWake else s.snk, valid := v, beat := b }
  | .recv k => { s with snk := (s.snk.recv true k).2, settled := false }
  | .readNowait n => { s with snk := (s.snk.readNowait true n).2, settled := false }
  | .pause v => { s with snk := s.snk.setPause v, settled := false }
  | .clear => { s with snk := s.snk.clear, settled := false }
  | .reset v => { s with snk := s.snk.reset v, settled := false, trace := if v then s.trace ++ [none] else s.trace }

/-- A whole history from construction (axis.py 750-756, then any events). -/
def exec (c : Cfg) (evs : List SnkEv) : SnkSys := evs.foldl (step c) {}

end SnkSys

/-- Events of a monitor (as `Stream.MonEv`) (axis.py 597-739). -/
inductive MonEv
  | tick
  | run
  | wake
  | spurious
  | env (valid ready : Bool) (b : Beat)
  | recv (compact : Bool)
  | readNowait (count : Int)
  | clear
  | reset (v : Bool)

/-- A monitor and the signals driven by an arbitrary environment (axis.py 597-616). -/
structure MonSys where
  mon : Rx := {}
  valid : Bool := false
  ready : Bool := false
  beat : Beat := {}
  /-- history: the bus at every clock edge; `none` marks an assertion of the monitor's reset -/
  trace : List (Option Sample) := []

namespace MonSys

/-- One event. Rising edges of `tvalid` and `tready` set `wake_event` (axis.py 666-678). -/
def step (c : Cfg) (s : MonSys) : MonEv → MonSys
  | .tick =>
    if s.mon.pc.still then
      { s with mon := { s.mon with pc := s.mon.pc.tick }
               trace := s.trace ++ [some ⟨s.valid, s.ready, s.beat⟩] }
    else s
  | .run => if s.mon.pc = .due then { s with mon := s.mon.runMon c s.valid s.ready s.beat } else s
  | .wake => if s.mon.pc = .woken then { s with mon := { s.mon with pc := .edge } } else s
  | .spurious => if s.mon.pc = .asleep then { s with mon := { s.mon with pc := .edge } } else s
  | .env v r b =>
    if s.mon.pc = .due then s
    else { s with mon := if (v && !s.valid) || (r && !s.ready) then s.mon.setWake else s.mon
                  valid := v, ready := r, beat := b }
  | .recv k => { s with mon := (s.mon.recv false k).2 }
  | .readNowait n => { s with mon := (s.mon.readNowait false n).2 }
  | .clear => { s with mon := s.mon.clear }
  | .reset v => { s with mon := s.mon.reset v, trace := if v then s.trace ++ [none] else s.trace }

/-- A whole history from construction (axis.py 606-616, then any events). -/
def exec (c : Cfg) (evs : List MonEv) : MonSys := evs.foldl (step c) {}

end MonSys

/-- A source connected to a sink: the bus with the source's limits, and the sink's limits (axis.py 268-349, 441-445, 752-756). -/
structure NetCfg where
  bus : Cfg
  snkBytes : Int := -1
  snkFrames : Int := -1

/-- The sink's configuration (axis.py 752-756). -/
def NetCfg.snk (c : NetCfg) : Cfg := { c.bus with limitBytes := c.snkBytes, limitFrames := c.snkFrames }

/-- Events of a source connected to a sink (axis.py 447-594, 618-849). -/
inductive NetEv
  | tick
  | srcRun
  | srcWake
  | snkRun
  | snkWake
  | snkSpurious
  | commit
  | send (f : Frame)
  | resume (i : Nat)
  | sendNowait (f : Frame)
  | srcPause (v : Bool)
  | srcClear
  | srcReset (v : Bool)
  | recv (compact : Bool)
  | readNowait (count : Int)
  | snkPause (v : Bool)
  | snkClear
  | snkReset (v : Bool)

/-- A source connected to a sink: the signals are the fields of the two components (axis.py 430-445, 741-756). -/
structure Net where
  src : Src := {}
  snk : Rx := {}
  settled : Bool := false

namespace Net

/-- One event. At a `commit` the writes of both sides take effect together, and a rising `tvalid`
or `tready` sets the sink's `wake_event` (axis.py 447-594, 618-849). -/
def step (c : NetCfg) (s : Net) (e : NetEv) : Net :=
  if s.src.crashed then s
  else match e with
  | .tick =>
    if s.settled && s.src.pc.still && s.snk.pc.still then
      { s with src := { s.src with pc := s.src.pc.tick }, snk := { s.snk with pc := s.snk.pc.tick }, settled := false }
    else s
  | .srcRun => if s.src.pc = .due then { s with src := s.src.run c.bus s.snk.ready, settled := false } else s
  | .srcWake => if s.src.pc = .woken then { s with src := { s.src with pc := .edge }, settled := false } else s
  | .snkRun => if s.snk.pc = .due then { s with snk := s.snk.runSnk c.snk s.src.valid s.src.beat, settled := false } else s
  | .snkWake => if s.snk.pc = .woken then { s with snk := s.snk.top, settled := false } else s
  | .snkSpurious => if s.snk.pc = .asleep then { s with snk := s.snk.top, settled := false } else s
  | .commit =>
    if s.src.pc.still && s.snk.pc.still then
      let snk := { s.snk with ready := s.snk.nready }
      { src := { s.src with valid := s.src.nvalid, beat := s.src.nbeat }
        snk := if (s.src.nvalid && !s.src.valid) || (s.snk.nready && !s.snk.ready) then snk.setWake else snk
        settled := true }
    else s
  | .send f => { s with src := s.src.send c.bus f, settled := false }
  | .resume i => { s with src := s.src.resume c.bus i, settled := false }
  | .sendNowait f => { s with src := (s.src.sendNowait c.bus f).2, settled := false }
  | .srcPause v => { s with src := s.src.setPause v, settled := false }
  | .srcClear => { s with src := s.src.clear, settled := false }
  | .srcReset v => { s with src := s.src.reset v, settled := false }
  | .recv k => { s with snk := (s.snk.recv true k).2, settled := false }
  | .readNowait n => { s with snk := (s.snk.readNowait true n).2, settled := false }
  | .snkPause v => { s with snk := s.snk.setPause v, settled := false }
  | .snkClear => { s with snk := s.snk.clear, settled := false }
  | .snkReset v => { s with snk := s.snk.reset v, settled := false }

/-- A whole history from construction (axis.py 268-349, 439-445, 750-756, then any events). -/
def exec (c : NetCfg) (evs : List NetEv) : Net := evs.foldl (step c) {}

end Net
end Verif.Axis
