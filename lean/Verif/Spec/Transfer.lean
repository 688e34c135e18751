import Verif.Spec.Wiring
import Verif.Spec.AxiRules

/-!
# What arrives over a connection, and what a result has to report (C142)
-/

namespace Verif.Wiring

open DefineStream (Str)

/-- The values that a signal of the given width can carry: unsigned, or signed in two's complement (as a negative number). -/
def Carries (width : Nat) (v : Int) : Prop := -(2 ^ (width - 1) : Nat) ≤ v ∧ v < (2 ^ width : Nat)

instance (width : Nat) (v : Int) : Decidable (Carries width v) := inferInstanceAs (Decidable (_ ∧ _))

/-- What the receiver of a field sees: the (unsigned) value on the signal; zero if there is no signal. -/
def seen (width : Option Nat) (v : Int) : Int :=
  match width with
  | some k => v % (2 ^ k : Nat)
  | none => 0

/-- The unsigned values of a signal that may not exist. -/
def Unsigned (width : Option Nat) (v : Int) : Prop := ∀ k, width = some k → 0 ≤ v ∧ v < (2 ^ k : Nat)

/-- What a result reports as response: the last response that is not OKAY, if responses are connected. -/
def reported (connected : Bool) (l : List Resp) : Resp := if connected then Axi.lastNonOkay l else .okay

/-- What a result reports as user values: those of all responses, in order, if they are connected, and otherwise nothing. -/
def reportedUser (connected : Bool) (l : List Int) : Option (List Int) := if connected then some l else none

end Verif.Wiring
