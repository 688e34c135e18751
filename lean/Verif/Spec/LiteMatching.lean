import Verif.Model.LiteOps

/-!
# Specification vocabulary for AXI-lite operations
-/

namespace Verif.LiteOps

variable {χ ρ : Type}

/-- The operations whose responses have all arrived, each with its own block of the response stream: the first operation
gets one response for each of its transfers, the second the next ones, and so on. -/
def blocks : List (Op χ) → List ρ → List (Op χ × List ρ)
  | [], _ => []
  | o :: os, rs =>
    if o.xs.length ≤ rs.length then (o, rs.take o.xs.length) :: blocks os (rs.drop o.xs.length) else []

/-- The result a caller sees for an operation: what the last `event.set` for it delivered (`none`: not signalled yet). -/
def resultOf [DecidableEq χ] (log : List (Op χ × Option (List ρ))) (op : Op χ) : Option (Option (List ρ)) :=
  ((log.filter (fun x => x.1 = op)).getLast?).map (·.2)

/-- Steps the master makes by itself (as opposed to calls, arriving responses and reset). -/
def internal : Ev χ ρ → Bool
  | .take | .send | .respTake | .respGet | .respDone => true
  | _ => false

/-- The master has nothing left to do by itself: no internal step changes anything. -/
def Quiet (s : Lite χ ρ) : Prop := ∀ e : Ev χ ρ, internal e = true → s.step e = s

end Verif.LiteOps
