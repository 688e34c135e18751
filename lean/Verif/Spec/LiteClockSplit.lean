import Verif.Model.LiteClockSplit
import Verif.Spec.LiteClock
import Verif.Spec.LiteSystem

/-!
# Vocabulary for separate resets at clock-edge granularity (C140)
-/

namespace Verif.LiteOps

variable {χ α β ρ χ' ρ' σ : Type}

/-- The system after the first `n` events of a history. -/
def ClkSplit.after (h : Halves χ α β) (f : χ → σ → ρ × σ) (g : χ' → σ → ρ' × σ) (m0 : σ) (evs : List (ClkSplitEv χ ρ χ' ρ'))
    (n : Nat) : ClkSplit χ α β ρ χ' ρ' σ := ClkSplit.run h f g m0 (evs.take n)

/-- Whenever the reset of one component alone is asserted, `idle()` of the master is true or the master is in reset already: on the write
side, on the read side. -/
def ClkSplit.CalmW (h : Halves χ α β) (f : χ → σ → ρ × σ) (g : χ' → σ → ρ' × σ) (m0 : σ) (evs : List (ClkSplitEv χ ρ χ' ρ')) : Prop :=
  ∀ n, evs[n]? = some (.masterW true) ∨ evs[n]? = some (.slaveW true) →
    (ClkSplit.after h f g m0 evs n).c.w.m.idle = true ∨ (ClkSplit.after h f g m0 evs n).c.w.m.running = false

def ClkSplit.CalmR (h : Halves χ α β) (f : χ → σ → ρ × σ) (g : χ' → σ → ρ' × σ) (m0 : σ) (evs : List (ClkSplitEv χ ρ χ' ρ')) : Prop :=
  ∀ n, evs[n]? = some (.masterR true) ∨ evs[n]? = some (.slaveR true) →
    (ClkSplit.after h f g m0 evs n).c.r.m.idle = true ∨ (ClkSplit.after h f g m0 evs n).c.r.m.running = false

/-- Neither component is in reset. -/
structure ClkSplit.Up (s : ClkSplit χ α β ρ χ' ρ' σ) : Prop where
  masterW : s.c.w.m.running = true
  slaveW : s.upW = true
  masterR : s.c.r.m.running = true
  slaveR : s.upR = true

end Verif.LiteOps
