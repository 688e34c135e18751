import Verif.Model.LiteSplit
import Verif.Spec.LiteSystem

/-!
# Vocabulary for separate resets
-/

namespace Verif.LiteOps

variable {χ α β ρ χ' ρ' σ : Type}

/-- The reset of one of the two components, and not of the other, is asserted. -/
def SplitWEv.alone : SplitWEv χ ρ → Bool
  | .resetM v => v
  | .resetS v => v
  | _ => false

def SplitREv.alone : SplitREv χ ρ → Bool
  | .resetM v => v
  | .resetS v => v
  | _ => false

/-- The system after the first `n` events of a history. -/
def Split.after (h : Halves χ α β) (f : χ → σ → ρ × σ) (g : χ' → σ → ρ' × σ) (m0 : σ) (evs : List (SplitEv χ ρ χ' ρ'))
    (n : Nat) : Split χ α β ρ χ' ρ' σ := Split.run h f g { mem := m0 } (evs.take n)

/-- Whenever one component is reset alone, `idle()` is true: on the write side, on the read side. -/
def Split.CalmW (h : Halves χ α β) (f : χ → σ → ρ × σ) (g : χ' → σ → ρ' × σ) (m0 : σ) (evs : List (SplitEv χ ρ χ' ρ')) : Prop :=
  ∀ n e, evs[n]? = some (.w e) → e.alone = true → (Split.after h f g m0 evs n).w.m.idle = true

def Split.CalmR (h : Halves χ α β) (f : χ → σ → ρ × σ) (g : χ' → σ → ρ' × σ) (m0 : σ) (evs : List (SplitEv χ ρ χ' ρ')) : Prop :=
  ∀ n e, evs[n]? = some (.r e) → e.alone = true → (Split.after h f g m0 evs n).r.m.idle = true

/-- The pieces of the coroutines and the handshakes, as opposed to calls and resets. -/
def SplitWEv.progress : SplitWEv χ ρ → Bool
  | .master (.write _) | .master (.init _) | .resetM _ | .resetS _ | .resetBoth _ => false
  | .master e => own e
  | _ => true

def SplitREv.progress : SplitREv χ ρ → Bool
  | .master (.write _) | .master (.init _) | .resetM _ | .resetS _ | .resetBoth _ => false
  | .master e => own e
  | _ => true

def SplitEv.progress : SplitEv χ ρ χ' ρ' → Bool
  | .w e => e.progress
  | .r e => e.progress

/-- Neither component is in reset. -/
def Split.Up (s : Split χ α β ρ χ' ρ' σ) : Prop :=
  s.w.m.running = true ∧ s.w.up = true ∧ s.r.m.running = true ∧ s.r.up = true

/-- A schedule is fair if it does not ignore any piece of a coroutine or any handshake that is possible from some instant on: again and
again, it happens or would do nothing. -/
def Split.Fair (h : Halves χ α β) (f : χ → σ → ρ × σ) (g : χ' → σ → ρ' × σ) (S : Nat → Split χ α β ρ χ' ρ' σ)
    (sched : Nat → SplitEv χ ρ χ' ρ') : Prop :=
  ∀ e : SplitEv χ ρ χ' ρ', e.progress = true → ∀ n, ∃ k, n ≤ k ∧ (sched k = e ∨ (S k).step h f g e = S k)

end Verif.LiteOps
