import Verif.Model.Stream

/-!
# A generic stream sink or monitor with any number of suspended readers

In `Model/Stream.lean` a suspended `recv()` is a call that happens later. Here such calls exist while they are suspended, as in `Model/AxisReaders.lean`. The
sink and the monitor share the code of `recv()`, so the calls are modelled once, for a component with a queue.
-/

namespace Verif.StreamReaders

open Verif.Stream

/-- What `StreamMonitor` and `StreamSink` have in common for their readers (stream.py 291-329, 370-399). -/
structure Comp (σ ε α : Type) where
  start : σ
  step : σ → ε → σ
  queue : σ → List α
  /-- history: the items returned -/
  got : σ → List α
  /-- the event of a call that returns -/
  recv : ε
  isCall : ε → Bool

/-- A sink (stream.py 370-435). -/
def sink (c : Cfg) (α : Type) : Comp (SnkSys α) (SnkEv α) α where
  start := {}
  step := SnkSys.step c
  queue s := s.snk.queue
  got s := s.snk.got
  recv := .recv
  isCall | .recv => true | _ => false

/-- A monitor (stream.py 291-368). -/
def monitor (c : Cfg) (α : Type) : Comp (MonSys α) (MonEv α) α where
  start := {}
  step := MonSys.step c
  queue s := s.mon.queue
  got s := s.mon.got
  recv := .recv
  isCall | .recv => true | _ => false

/-- A component and the calls of its users, known by numbers (stream.py 309-321). -/
structure Sys (σ α : Type) where
  sys : σ
  /-- suspended in `queue.get()` -/
  getters : List Nat := []
  /-- the event was set, the coroutine has not run since -/
  woken : List Nat := []
  /-- history: the items returned, each with its call -/
  items : List (Nat × α) := []

/-- What can happen (stream.py 145-166, 309-321, 345-435). -/
inductive Ev (ε : Type)
  /-- anything but a call: the clock, the bus, `pause`, `clear()`, reset -/
  | bus (e : ε)
  | recv (id : Nat)
  | recvNowait (id : Nat)
  /-- a suspended call whose event was set gets its turn -/
  | turn (i : Nat)
  /-- a suspended call is cancelled -/
  | cancel (i : Nat)

namespace Sys

variable {σ ε α : Type}

/-- `queue.put_nowait` wakes the first suspended call (stream.py 363, 421). -/
def wakeFirst (s : Sys σ α) : Sys σ α :=
  match s.getters with
  | [] => s
  | g :: rest => { s with getters := rest, woken := s.woken ++ [g] }

/-- `recv()` up to its return or suspension (stream.py 315-317). -/
def recv (C : Comp σ ε α) (s : Sys σ α) (id : Nat) : Sys σ α :=
  match C.queue s.sys with
  | [] => { s with getters := s.getters ++ [id] }
  | x :: _ => { s with sys := C.step s.sys C.recv, items := s.items ++ [(id, x)] }

/-- One event (stream.py 309-321). A call of `recv_nowait` on an empty queue raises and changes nothing. -/
def step (C : Comp σ ε α) (s : Sys σ α) : Ev ε → Sys σ α
  | .bus e =>
    if C.isCall e then s
    else
      let t : Sys σ α := { s with sys := C.step s.sys e }
      if (C.queue s.sys).length < (C.queue t.sys).length then t.wakeFirst else t
  | .recv id => s.recv C id
  | .recvNowait id => if C.queue s.sys = [] then s else s.recv C id
  | .turn i =>
    match s.woken[i]? with
    | none => s
    | some id => { s with woken := s.woken.eraseIdx i }.recv C id
  | .cancel i => { s with getters := s.getters.eraseIdx i }

/-- A whole history from construction (stream.py 298-304, 377-380, then any events). -/
def exec (C : Comp σ ε α) (evs : List (Ev ε)) : Sys σ α := evs.foldl (step C) { sys := C.start }

end Sys

end Verif.StreamReaders
