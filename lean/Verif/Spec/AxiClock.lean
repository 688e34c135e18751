import Verif.Model.AxiClock
import Verif.Spec.AxiSystem

/-!
# What a schedule of the clock-level AXI system consists of (C95)
-/

namespace Verif.AxiSys

open Verif.Axi
open Verif.Stream (Net)

/-- The pieces of the coroutines inside a channel, as opposed to changes of `pause`. -/
def Inner.piece : Inner → Bool
  | .srcPause _ | .snkPause _ => false
  | _ => true

/-- The pieces of the coroutines, edges of the clock and signal writes taking effect, as opposed to calls, reset and changes of
`pause`. -/
def CEv.progress : CEv → Bool
  | .w e => e.progress
  | .r e => e.progress
  | .chan _ e => e.piece
  | .tick | .commit => true

/-- As `CEv.progress`, or a change of `pause`: everything except calls and reset. -/
def CEv.quiet : CEv → Bool
  | .chan _ _ => true
  | e => e.progress

/-- The source has nothing to send and sleeps, or it runs after a clock edge (it was due and then is not) and is not paused. -/
def SrcTurn {α : Type} (s s' : Net α) : Prop := s.src.pc = .asleep ∨ (s.src.pc = .due ∧ s'.src.pc ≠ .due ∧ s.src.pause = false)

/-- Neither end of a channel is paused for ever: again and again the source is not paused when it runs after a clock edge (or has nothing to
send), and again and again, at a clock edge, `pause` of the sink was not set when the sink last looked. -/
structure Open {α : Type} (edge : Nat → Prop) (s : Nat → Net α) : Prop where
  src : ∀ n, ∃ k, n ≤ k ∧ SrcTurn (s k) (s (k + 1))
  snk : ∀ n, ∃ k, n ≤ k ∧ edge k ∧ (s k).snk.pauseSample = false

/-- Again and again there is a clock cycle, from one clock edge to a later one, in which neither end of the channel is paused. -/
def Cycles {α : Type} (edge : Nat → Prop) (s : Nat → Net α) : Prop :=
  (∀ n, ∃ i j, n ≤ i ∧ i < j ∧ edge i ∧ edge j ∧ ∀ m, i < m → m ≤ j → (s m).src.pause = false) ∧
  (∀ n, ∃ i j, n ≤ i ∧ i < j ∧ edge i ∧ edge j ∧ ∀ m, i < m → m ≤ j → (s m).snk.pause = false)

/-- A clock edge comes at instant `k`. -/
def Edge {σ : Type} (S : Nat → CSys σ) (sched : Nat → CEv) (k : Nat) : Prop := sched k = .tick ∧ S (k + 1) ≠ S k

/-- Neither end of the channel is paused. -/
def Unp {α : Type} (s : Net α) : Prop := s.src.pause = false ∧ s.snk.pause = false

/-- No end of a channel is paused. -/
structure Unpaused {σ : Type} (s : CSys σ) : Prop where
  aw : Unp s.w.aw
  w : Unp s.w.w
  b : Unp s.w.b
  ar : Unp s.r.ar
  r : Unp s.r.r

/-- A schedule is fair if it does not ignore anything that can happen from some instant on (a piece of a coroutine, a clock edge, signal
writes taking effect): again and again, it happens or would do nothing. A sink need not look at its signals when it has not been
woken. -/
def CFair {σ : Type} (c : Cfg) (wa : Nat → WArgs) (ra : Nat → Req) (t : Target σ) (S : Nat → CSys σ) (sched : Nat → CEv) : Prop :=
  ∀ e : CEv, e.progress = true → (∀ k, e ≠ .chan k .snkSpurious) →
    ∀ n, ∃ k, n ≤ k ∧ (sched k = e ∨ (S k).step c wa ra t e = S k)

/-- The same for some of the things that can happen only: the schedule may ignore others for ever. -/
def CFairOn {σ : Type} (Q : CEv → Bool) (c : Cfg) (wa : Nat → WArgs) (ra : Nat → Req) (t : Target σ) (S : Nat → CSys σ)
    (sched : Nat → CEv) : Prop :=
  ∀ e : CEv, Q e = true → e.progress = true → (∀ k, e ≠ .chan k .snkSpurious) →
    ∀ n, ∃ k, n ≤ k ∧ (sched k = e ∨ (S k).step c wa ra t e = S k)

/-- What happens inside the channels, and the clock. -/
def CEv.clocked : CEv → Bool
  | .w _ | .r _ => false
  | _ => true

/-- What concerns reads: the pieces of the coroutines of the read side of master and slave, what happens in the two channels between them, and
the clock. -/
def CEv.reads : CEv → Bool
  | .w _ | .chan .aw _ | .chan .w _ | .chan .b _ => false
  | _ => true

/-- What concerns writes. -/
def CEv.writes : CEv → Bool
  | .r _ | .chan .ar _ | .chan .r _ => false
  | _ => true

end Verif.AxiSys
