import Verif.Model.SparseMemory

/-!
# Specification: the positions that a Python slice designates

From the Python documentation: negative bounds count from the end; bounds outside the object are replaced by its ends; with a positive step the
positions are `lo, lo + step, …` below `hi`, with a negative step they go down from `hi`.
-/

namespace Verif

/-- A bound for a slice that goes down, over an object of length `n`: between -1 (before the first byte) and `n - 1`. -/
def downBound (x : Option Int) (missing : Int) (n : Nat) : Int :=
  match x with
  | none => missing
  | some x => if x < 0 then max (x + n) (-1) else min x ((n : Int) - 1)

/-- `ps` are the positions that the slice designates in an object of length `n`, in order. -/
def Designates (n : Nat) (s : SparseMemory.Slice) (ps : List Nat) : Prop :=
  let step := s.step.getD 1
  if 0 < step then
    ps.Pairwise (· < ·) ∧
      ∀ p : Nat, p ∈ ps ↔ sliceBound s.start 0 n ≤ p ∧ p < sliceBound s.stop n n ∧ step ∣ (p : Int) - sliceBound s.start 0 n
  else
    ps.Pairwise (· > ·) ∧
      ∀ p : Nat, p ∈ ps ↔ downBound s.stop (-1) n < p ∧ (p : Int) ≤ downBound s.start ((n : Int) - 1) n ∧
        step ∣ downBound s.start ((n : Int) - 1) n - p

end Verif
