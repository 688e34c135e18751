import Verif.Spec.LiteSystem
import Verif.Spec.Mapped

/-!
# Specification vocabulary for an AXI-lite master connected to a slave on any target
-/

namespace Verif.LiteOps

/-- The system after the first `n` events of a history that begins with the target in state `s0`: an `AxiLiteMaster` connected to an
`AxiLiteSlave` on the target. -/
def targetAt {σ : Type} (c : Word.Cfg) (t : Target σ) (s0 : σ) (evs : List RamEv) (n : Nat) :
    Duo Word.WXfer (Py Resp) Word.RXfer (Nat × Resp) σ :=
  Duo.run (Word.slaveWrite t c.lanes true) (Word.slaveRead t c.lanes) { mem := s0 } (evs.take n)

/-- All addresses of the write that are in the same bus word as the address `b` are mapped. -/
def XferMapped {κ : Type} (c : Word.Cfg) (f : Nat → Option κ) (a : WCall) (b : Nat) : Prop :=
  ∀ y, a.covers y → y / c.lanes = b / c.lanes → f y ≠ none

/-- All addresses of the bus word that contains the address `b` are mapped. -/
def WordMapped {κ : Type} (c : Word.Cfg) (f : Nat → Option κ) (b : Nat) : Prop := ∀ y, y / c.lanes = b / c.lanes → f y ≠ none

end Verif.LiteOps
