import Verif.Model.ApbClock
import Verif.Model.PauseGen

/-!
# Pause generators of an `ApbMaster` and an `ApbSlave`

`ApbPause` (apb.py 88-127) has the same code as the pause class of the streams (stream.py 167-206), of which `Model/PauseGen.lean` is the model; `_pause_update`
(apb.py 108-109) does nothing.
-/

namespace Verif.PauseGen

open Verif.Apb (CSys CEv Access)

/-- An APB master connected to a slave (`Model/ApbClock.lean`); `false` is the master, `true` the slave, each with its own `pause` and generator (apb.py 88-127,
130, 465). A clock edge comes when the coroutines of both have run and the signals have taken their values. -/
def apbBase {σ : Type} (slverr : Bool) (f : Access σ) : Base Bool (CSys σ) CEv where
  step s e := s.step slverr f e
  isTick
    | .tick => true
    | _ => false
  ready s := s.settled && !s.mdue && !s.sdue
  setPause k v := if k then .spause v else .mpause v
  pause s k := if k then s.spause else s.mpause

end Verif.PauseGen
