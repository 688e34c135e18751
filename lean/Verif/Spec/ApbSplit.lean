import Verif.Model.ApbSplit

/-!
# Specification of C133: when one end of an APB connection may be reset alone
-/

namespace Verif.Apb

variable {σ : Type}

/-- When one component is reset alone, no access is in progress: `penable` is low, or the slave is in reset already. -/
def Calm (y : Sys σ) : SplitEv → Prop
  | .resetM true | .resetS true => y.m.bus.penable = false ∨ y.s.pc = .stopped
  | _ => True

/-- Every reset of one component alone finds no access in progress. -/
def CalmAll (slverr : Bool) (f : Access σ) (st : σ) (evs : List SplitEv) : Prop :=
  ∀ n e, evs[n]? = some e → Calm (Sys.splitExec slverr f st (evs.take n)) e

/-- Turns of coroutines and clock edges, as opposed to calls and resets. -/
def Ev.progress : Ev → Bool
  | .runInit _ | .resume | .edge _ _ _ => true
  | _ => false

/-- A schedule is fair if it ignores for ever neither an `init_` call that can begin, nor a master that can take a command from its
queue, nor that both sides can go on at a clock edge at which neither is paused and the target returns: again and again this happens, or would do
nothing. -/
def SplitFair (slverr : Bool) (f : Access σ) (S : Nat → Sys σ) (sched : Nat → Ev) : Prop :=
  ∀ e : Ev, (e = .resume ∨ e = .edge false false false ∨ ∃ i, e = .runInit i) →
    ∀ n, ∃ k, n ≤ k ∧ (sched k = e ∨ (S k).step slverr f e = S k)

end Verif.Apb
