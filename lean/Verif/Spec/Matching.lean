import Verif.Model.AxiOps

/-!
# Specification: matching the responses of one ID to the commands of that ID
-/

namespace Verif.AxiOps

variable {ρ : Type}

/-- The entries of a log that belong to one ID. -/
def forId {β : Type} (t : Nat) (l : List (Nat × β)) : List β := (l.filter (fun x => x.1 = t)).map (·.2)

/-- The commands whose responses have all arrived, each with its own block of the response stream: the first command
gets the first `need` responses, the second the next, and so on. -/
def blocks : List Op → List ρ → List (Op × List ρ)
  | [], _ => []
  | c :: cs, rs => if c.need ≤ rs.length then (c, rs.take c.need) :: blocks cs (rs.drop c.need) else []

/-- The number of responses a slave owes for a list of bursts (a burst is given by its number of responses minus one). -/
def owedFor (bursts : List Nat) : Nat := (bursts.map (· + 1)).sum

/-- The result a caller sees for an operation: what the last `event.set` for it delivered (`none`: not signalled yet). -/
def resultOf (log : List (Op × Option (List ρ))) (op : Op) : Option (Option (List ρ)) :=
  ((log.filter (fun x => x.1 = op)).getLast?).map (·.2)

/-- Steps the master makes by itself (as opposed to calls, arriving responses and reset). -/
def internal : Ev ρ → Bool
  | .take | .burst | .start | .workTake _ | .workGet _ | .workDone _ => true
  | _ => false

/-- The master has nothing left to do by itself: no internal step changes anything. -/
def Quiet (idCount : Nat) (s : Master ρ) : Prop := ∀ e : Ev ρ, internal e = true → s.step idCount e = s

end Verif.AxiOps
