import Verif.Spec.AxisBus

/-!
# Schedules of an AXI stream source connected to a sink (C123)
-/

namespace Verif.Axis

/-- A clock edge comes at instant `k`: it is scheduled, both coroutines have done what they had to do in this cycle, and the signals have taken their
values. -/
def NetEdge (S : Nat → Net) (sched : Nat → NetEv) (k : Nat) : Prop :=
  sched k = .tick ∧ (S k).settled = true ∧ (S k).src.pc.still = true ∧ (S k).snk.pc.still = true

/-- The sink's queue is not over a limit. -/
def NetRoom (c : NetCfg) (s : Net) : Prop :=
  (c.snkBytes > 0 → (bytes s.snk.queue : Int) ≤ c.snkBytes) ∧ (c.snkFrames > 0 → (s.snk.queue.length : Int) ≤ c.snkFrames)

/-- The source has nothing to send and sleeps, or it runs after a clock edge and is not paused. -/
def NetTurn (S : Nat → Net) (sched : Nat → NetEv) (k : Nat) : Prop :=
  (S k).src.pc = .asleep ∨ (sched k = .srcRun ∧ (S k).src.pc = .due ∧ (S k).src.pause = false)

/-- What a schedule must not withhold for ever: clock edges keep coming; again and again the source is not paused when it runs (or has nothing to
send); and, on a bus with `tready`, again and again, at a clock edge, `pause` of the sink was not set when the sink last looked, and again and again the
sink's queue is not over a limit. Nothing is said of the order in which the coroutines run, of what is called, and of when `pause` changes. -/
structure NetFlows (c : NetCfg) (S : Nat → Net) (sched : Nat → NetEv) : Prop where
  edges : ∀ n, ∃ k, n ≤ k ∧ NetEdge S sched k
  src : ∀ n, ∃ k, n ≤ k ∧ NetTurn S sched k
  snk : c.bus.hasReady = true → ∀ n, ∃ k, n ≤ k ∧ NetEdge S sched k ∧ (S k).snk.pauseSample = false
  room : c.bus.hasReady = true → ∀ n, ∃ k, n ≤ k ∧ NetRoom c (S k)

/-- The caller does not call `send` or `send_nowait`. -/
def NetEv.sends : NetEv → Bool
  | .send _ => true
  | .sendNowait _ => true
  | _ => false

/-- A blocked `send` whose event was set goes on, or there is none. -/
def NetResume (S : Nat → Net) (sched : Nat → NetEv) (k : Nat) : Prop :=
  (∀ w ∈ (S k).src.waiters, w.2 = false) ∨ ∃ i f, sched k = .resume i ∧ (S k).src.waiters[i]? = some (f, true)

/-- The frames of the blocked calls of `send`, as they will be queued: copies of the arguments. -/
def Src.blocked (s : Src) : List Frame := s.waiters.filterMap fun w => w.1.copy.toOption

end Verif.Axis
