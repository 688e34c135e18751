import Verif.Model.ApbClock

/-!
# What a schedule of the APB system consists of (C121)
-/

namespace Verif.Apb

variable {σ : Type}

/-- The pieces of the coroutines, edges of the clock and signal writes taking effect, as opposed to calls, reset and changes of `pause`. -/
def CEv.progress : CEv → Bool
  | .runInit _ | .resume | .tick | .mrun | .srun | .back | .commit => true
  | _ => false

/-- A schedule is fair if it does not ignore anything that can happen from some instant on (a piece of a coroutine, a clock edge, signal
writes taking effect): again and again, it happens or would do nothing. -/
def CFair (slverr : Bool) (f : Access σ) (S : Nat → CSys σ) (sched : Nat → CEv) : Prop :=
  ∀ e : CEv, e.progress = true → ∀ n, ∃ k, n ≤ k ∧ (sched k = e ∨ (S k).step slverr f e = S k)

/-- The master waits because it is paused. -/
def MPc.held : MPc → Bool
  | .pause _ _ _ _ => true
  | _ => false

/-- The slave waits because it is paused. -/
def SPc.held : SPc → Bool
  | .paused _ => true
  | _ => false

/-- Neither side is held up by `pause` for ever: again and again it does not wait because of `pause`, or it finds `pause` released at its turn. -/
structure Unheld (S : Nat → CSys σ) (sched : Nat → CEv) : Prop where
  m : ∀ n, ∃ k, n ≤ k ∧ ((S k).y.m.pc.held = false ∨ (sched k = .mrun ∧ (S k).mdue = true ∧ (S k).mpause = false))
  s : ∀ n, ∃ k, n ≤ k ∧ ((S k).y.s.pc.held = false ∨ (sched k = .srun ∧ (S k).sdue = true ∧ (S k).spause = false))

end Verif.Apb
