import Verif.Model.AxisTime
import Verif.Spec.AxisBus

/-!
# When packets are transferred (C127, C128)
-/

namespace Verif.Axis

/-- The beats transferred according to a trace, each with the time of its clock edge. -/
def txfers (c : Cfg) (tr : List (Option (Nat × Sample))) : List (Nat × Beat) :=
  tr.flatMap fun o => match o with
    | some (t, a) => if (!c.hasValid || a.valid) && (!c.hasReady || a.ready) then [(t, a.beat)] else []
    | none => []

/-- Beats cut into packets behind every `tlast` (as `packets`): the complete packets, and the beats of the unfinished one. -/
def tpackets (c : Cfg) (bs : List (Nat × Beat)) : List (List (Nat × Beat)) × List (Nat × Beat) :=
  bs.foldl (fun p b => if !c.hasLast || b.2.tlast then (p.1 ++ [p.2 ++ [b]], []) else (p.1, p.2 ++ [b])) ([], [])

/-- The times of the first and the last beat of a packet. -/
def span (p : List (Nat × Beat)) : Nat × Nat := ((p.map (·.1)).headD 0, (p.map (·.1)).getLastD 0)

/-- Events that discard nothing. -/
def TEv.clean {ε : Type} (q : ε → Bool) : TEv ε → Bool
  | .ev e => q e
  | .sleep _ => true

end Verif.Axis
