import Verif.Model.Stream

/-!
# Pause generators

`set_pause_generator(generator)` of a source or sink starts a coroutine that gives `pause` the values of the generator, one for every
clock cycle (stream.py 170-212; the same code is in axis.py 392-428 and apb.py 92-128). The coroutines are added here to an arbitrary
system with a clock, `Base`; `ε` are the places that have a `pause`.
-/

namespace Verif.PauseGen

open Verif.Stream (Pc)

/-- A system with one clock: its events, which of them is the clock edge, whether a clock edge can come now (nothing is left to do in
this cycle), the `pause` setters and the values of `pause` (the component that `StreamPause` is mixed into, stream.py 172-191). -/
structure Base (ε S E : Type) where
  step : S → E → S
  isTick : E → Bool
  ready : S → Bool
  setPause : ε → Bool → E
  pause : S → ε → Bool

/-- The coroutine `_run_pause` of one source or sink (stream.py 209-212). `vals n` is what the iterator yields when it is asked the
`n`-th time, `none` if it has ended. Simplification: the values are booleans (the setter compares the raw values, stream.py 188). -/
structure Gen where
  vals : Nat → Option Bool
  pos : Nat := 0
  /-- `start_soon` schedules the coroutine at once (stream.py 201) -/
  pc : Pc := .woken

/-- The coroutine is scheduled (stream.py 201, 206-212). -/
def Gen.due (g : Gen) : Bool := !g.pc.still

/-- The coroutine awaits the clock edge (stream.py 212). -/
def Gen.tick (g : Gen) : Gen := { g with pc := g.pc.tick }

/-- The system and the coroutines, `none` where there is no generator (`_pause_cr`, stream.py 175-178). -/
structure GSys (ε S : Type) where
  s : S
  gen : ε → Option Gen := fun _ => none

/-- Events: those of the system, a coroutine going on, and the calls `set_pause_generator` (`none`: with `None`, and
`clear_pause_generator`) (stream.py 193-212). -/
inductive GEv (ε E : Type)
  | ev (e : E)
  | gen (k : ε)
  | setGen (k : ε) (vals : Option (Nat → Option Bool))

namespace GSys

variable {ε S E : Type} [DecidableEq ε] (ends : List ε) (b : Base ε S E)

/-- The coroutine at `k` is scheduled (stream.py 206-212). -/
def due (g : GSys ε S) (k : ε) : Bool :=
  match g.gen k with
  | some x => x.due
  | none => false

/-- Some coroutine is scheduled (stream.py 206-212). -/
def anyDue (g : GSys ε S) : Bool := ends.any g.due

/-- A clock edge comes, and wakes the coroutines that await it (stream.py 206-212). -/
def tick (g : GSys ε S) (e : E) : GSys ε S := { s := b.step g.s e, gen := fun k => (g.gen k).map Gen.tick }

/-- Another coroutine at `k` (stream.py 193-204). -/
def put (g : GSys ε S) (k : ε) (x : Option Gen) : GSys ε S := { g with gen := fun j => if j = k then x else g.gen j }

/-- The coroutine at `k` goes on: it gets the next value, sets `pause` and awaits the clock edge, or it ends with the iterator
(stream.py 209-212). -/
def turn (g : GSys ε S) (k : ε) : GSys ε S :=
  match g.gen k with
  | some x =>
    if x.due then
      match x.vals x.pos with
      | some v => { g.put k (some { x with pos := x.pos + 1, pc := .edge }) with s := b.step g.s (b.setPause k v) }
      | none => g.put k (some { x with pc := .off })
    else g
  | none => g

/-- One event. The clock edge comes when nothing is left to do in this cycle, also for the coroutines here. `set_pause_generator`
kills the old coroutine and starts the new one; `pause` stays as it is (stream.py 193-207). -/
def step (g : GSys ε S) : GEv ε E → GSys ε S
  | .ev e =>
    if b.isTick e then if b.ready g.s && !g.anyDue ends then g.tick b e else g
    else { g with s := b.step g.s e }
  | .gen k => g.turn b k
  | .setGen k vals => g.put k (vals.map fun v => { vals := v })

/-- The system after the events `evs`, from the state `s` and without generators (stream.py 173-212, then any events). -/
def run (s : S) (evs : List (GEv ε E)) : GSys ε S := evs.foldl (step ends b) { s := s }

end GSys

end Verif.PauseGen
