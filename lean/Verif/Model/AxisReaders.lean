import Verif.Model.Axis

/-!
# An AXI stream sink with any number of suspended readers

In `Model/Axis.lean` a suspended `recv()` or `read()` is a call that happens later. Here such calls exist while they are suspended: they wait in the FIFO of
cocotb's `Queue` (see `Model/Readers.lean`), are woken by received frames, and go on when they get their turn.
-/

namespace Verif.AxisReaders

open Axis

/-- What a call wants (axis.py 631-654). -/
inductive Want
  | recv (compact : Bool)
  | read (count : Int)
  deriving DecidableEq, Repr

/-- A call; `id` tells calls apart (axis.py 631-654). -/
structure Call where
  id : Nat
  want : Want
  deriving DecidableEq, Repr

/-- The loop of `read(count)` from `await self.recv()` on, with at most `k` frames in the queue (axis.py 640-643); `none`: the call is suspended. -/
def readLoop (count : Int) : (k : Nat) → Rx → Option (Py (List Int)) × Rx
  | 0, s => (none, s)
  | k + 1, s =>
    match s.queue with
    | [] => (none, s)
    | f :: rest =>
      let s := s.popped true true f rest
      match f.compact with
      | .error e => (some (.error e), s)
      | .ok g =>
        let s := { s with readQueue := s.readQueue ++ g.tdata }
        if s.readQueue = [] then readLoop count k s
        else
          let r := s.readNowait true count
          (some r.1, r.2)

/-- `read(count)` up to its return or suspension (axis.py 639-643). -/
def readCall (s : Rx) (count : Int) : Option (Py (List Int)) × Rx :=
  if s.readQueue = [] then readLoop count s.queue.length s
  else
    let r := s.readNowait true count
    (some r.1, r.2)

/-- A sink and the calls of its users (axis.py 597-654, 741-849). -/
structure Sys where
  sys : SnkSys := {}
  /-- suspended in `queue.get()` -/
  getters : List Call := []
  /-- the event was set, the coroutine has not run since -/
  woken : List Call := []
  /-- history: the frames returned by `recv()` and `recv_nowait()` (before `compact()`) -/
  items : List (Nat × Frame) := []
  /-- history: the results of `read()` and `read_nowait()` -/
  outs : List (Nat × Py (List Int)) := []

/-- What can happen (axis.py 357-366, 631-654, 741-849). -/
inductive Ev
  /-- anything but a call: the clock, the bus, `pause`, `clear()`, reset -/
  | bus (e : SnkEv)
  | recv (id : Nat) (compact : Bool)
  | recvNowait (id : Nat) (compact : Bool)
  | read (id : Nat) (count : Int)
  | readNowait (id : Nat) (count : Int)
  /-- a suspended call whose event was set gets its turn -/
  | turn (i : Nat)
  /-- a suspended call is cancelled -/
  | cancel (i : Nat)

/-- The events of `Model/Axis.lean` that are calls (axis.py 631-654). -/
def isCall : SnkEv → Bool
  | .recv _ | .readNowait _ => true
  | _ => false

namespace Sys

/-- `queue.put_nowait` wakes the first suspended call (axis.py 831). -/
def wakeFirst (s : Sys) : Sys :=
  match s.getters with
  | [] => s
  | g :: rest => { s with getters := rest, woken := s.woken ++ [g] }

/-- `recv()` up to its return or suspension (axis.py 631-633). -/
def recv (c : Cfg) (s : Sys) (id : Nat) (compact : Bool) : Sys :=
  match s.sys.snk.queue with
  | [] => { s with getters := s.getters ++ [⟨id, .recv compact⟩] }
  | f :: _ => { s with sys := s.sys.step c (.recv compact), items := s.items ++ [(id, f)] }

/-- A call of `read()` returns or is suspended (axis.py 639-643). -/
def finishRead (s : Sys) (id : Nat) (count : Int) (r : Option (Py (List Int)) × Rx) : Sys :=
  let s := { s with sys := { s.sys with snk := r.2, settled := false } }
  match r.1 with
  | none => { s with getters := s.getters ++ [⟨id, .read count⟩] }
  | some d => { s with outs := s.outs ++ [(id, d)] }

/-- One event (axis.py 357-366, 631-654, 741-849). -/
def step (c : Cfg) (s : Sys) : Ev → Sys
  | .bus e =>
    if isCall e then s
    else
      let t := s.sys.step c e
      if s.sys.snk.queue.length < t.snk.queue.length then wakeFirst { s with sys := t } else { s with sys := t }
  | .recv id k => s.recv c id k
  | .recvNowait id k => if s.sys.snk.queue = [] then s else s.recv c id k
  | .read id n => s.finishRead id n (readCall s.sys.snk n)
  | .readNowait id n =>
    let r := s.sys.snk.readNowait true n
    { s with sys := { s.sys with snk := r.2, settled := false }, outs := s.outs ++ [(id, r.1)] }
  | .turn i =>
    match s.woken[i]? with
    | none => s
    | some ⟨id, w⟩ =>
      let s := { s with woken := s.woken.eraseIdx i }
      match w with
      | .recv k => s.recv c id k
      | .read n => s.finishRead id n (readLoop n s.sys.snk.queue.length s.sys.snk)
  | .cancel i => { s with getters := s.getters.eraseIdx i }

/-- A whole history (axis.py 750-756, then any events). -/
def exec (c : Cfg) (evs : List Ev) : Sys := evs.foldl (step c) {}

end Sys
end Verif.AxisReaders
