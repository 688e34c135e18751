import Verif.Spec.LiteSystem

/-!
# Specification vocabulary for the progress of an AXI-lite system
-/

namespace Verif.LiteOps

variable {χ ρ χ' ρ' σ : Type}

/-- Pieces of coroutines of a port: everything but calls (`write`/`read` and `init_write`/`init_read`) and resets. -/
def PortEv.progress : PortEv χ ρ → Bool
  | .master (.write _) | .master (.init _) | .reset _ => false
  | .master e => own e
  | _ => true

def DuoEv.progress : DuoEv χ ρ χ' ρ' → Bool
  | .w e => e.progress
  | .r e => e.progress

/-- A schedule is fair if it does not ignore any piece of a coroutine that can be executed from some instant on: again and again,
the piece is executed or would do nothing. -/
def Fair (f : χ → σ → ρ × σ) (g : χ' → σ → ρ' × σ) (S : Nat → Duo χ ρ χ' ρ' σ) (sched : Nat → DuoEv χ ρ χ' ρ') : Prop :=
  ∀ e : DuoEv χ ρ χ' ρ', e.progress = true → ∀ n, ∃ k, n ≤ k ∧ (sched k = e ∨ (S k).step f g e = S k)

end Verif.LiteOps
