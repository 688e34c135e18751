import Verif.Model.PauseGenApb
import Verif.Spec.ApbClock
import Verif.Spec.PauseGenTurn

/-!
# Schedules of the APB system with pause generators (C100, C101)
-/

namespace Verif.PauseGen

open Verif.Apb (CSys CEv)

/-- What goes on besides the generators: calls, pieces of the coroutines, clock edges and signal writes taking effect; not a reset and not an assignment to
`pause`. -/
def apbPiece (e : CEv) : Prop := (∀ v, e ≠ .reset v) ∧ (∀ v, e ≠ .mpause v) ∧ ∀ v, e ≠ .spause v

end Verif.PauseGen
