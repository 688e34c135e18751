import Verif.Model.LiteClock
import Verif.Spec.AxiClock
import Verif.Spec.LiteProgress

/-!
# What a schedule of the clock-level AXI-lite system consists of (C98, C99)
-/

namespace Verif.LiteOps

open Verif.AxiSys (Inner Chan Unp)

variable {χ α β ρ χ' ρ' σ : Type}

/-- Pieces of coroutines: everything but calls and resets. -/
def ClkWEv.progress : ClkWEv χ ρ → Bool
  | .master (.write _) | .master (.init _) | .reset _ => false
  | _ => true

def ClkREv.progress : ClkREv χ ρ → Bool
  | .master (.write _) | .master (.init _) | .reset _ => false
  | _ => true

/-- The pieces of the coroutines, edges of the clock and signal writes taking effect, as opposed to calls, reset and changes of
`pause`. -/
def ClkEv.progress : ClkEv χ ρ χ' ρ' → Bool
  | .w e => e.progress
  | .r e => e.progress
  | .chan _ e => e.piece
  | .tick | .commit => true

/-- As `ClkEv.progress`, or a change of `pause`: everything except calls and reset. -/
def ClkEv.quiet : ClkEv χ ρ χ' ρ' → Bool
  | .chan _ _ => true
  | e => e.progress

/-- A clock edge comes at instant `k`. -/
def Edge (S : Nat → Clk χ α β ρ χ' ρ' σ) (sched : Nat → ClkEv χ ρ χ' ρ') (k : Nat) : Prop := sched k = .tick ∧ S (k + 1) ≠ S k

/-- No end of a channel is paused. -/
structure Unpaused (s : Clk χ α β ρ χ' ρ' σ) : Prop where
  aw : Unp s.w.aw
  w : Unp s.w.w
  b : Unp s.w.b
  ar : Unp s.r.ar
  r : Unp s.r.r

/-- A schedule is fair if it does not ignore anything that can happen from some instant on (a piece of a coroutine, a clock edge, signal
writes taking effect): again and again, it happens or would do nothing. A sink need not look at its signals when it has not been
woken. -/
def ClkFair (h : Halves χ α β) (f : χ → σ → ρ × σ) (g : χ' → σ → ρ' × σ) (S : Nat → Clk χ α β ρ χ' ρ' σ)
    (sched : Nat → ClkEv χ ρ χ' ρ') : Prop :=
  ∀ e : ClkEv χ ρ χ' ρ', e.progress = true → (∀ k, e ≠ .chan k .snkSpurious) →
    ∀ n, ∃ k, n ≤ k ∧ (sched k = e ∨ (S k).step h f g e = S k)

/-- The same for some of the things that can happen only: the schedule may ignore others for ever. -/
def ClkFairOn (Q : ClkEv χ ρ χ' ρ' → Bool) (h : Halves χ α β) (f : χ → σ → ρ × σ) (g : χ' → σ → ρ' × σ)
    (S : Nat → Clk χ α β ρ χ' ρ' σ) (sched : Nat → ClkEv χ ρ χ' ρ') : Prop :=
  ∀ e : ClkEv χ ρ χ' ρ', Q e = true → e.progress = true → (∀ k, e ≠ .chan k .snkSpurious) →
    ∀ n, ∃ k, n ≤ k ∧ (sched k = e ∨ (S k).step h f g e = S k)

/-- What happens inside the channels, and the clock. -/
def ClkEv.clocked : ClkEv χ ρ χ' ρ' → Bool
  | .w _ | .r _ => false
  | _ => true

/-- What concerns reads: the pieces of the coroutines of the read side of master and slave, what happens in the two channels between them, and
the clock. -/
def ClkEv.reads : ClkEv χ ρ χ' ρ' → Bool
  | .w _ | .chan .aw _ | .chan .w _ | .chan .b _ => false
  | _ => true

/-- What concerns writes. -/
def ClkEv.writes : ClkEv χ ρ χ' ρ' → Bool
  | .r _ | .chan .ar _ | .chan .r _ => false
  | _ => true

end Verif.LiteOps
