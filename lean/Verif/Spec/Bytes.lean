import Verif.Spec.FlatMem

/-!
# Specification: addressed bytes and strobed bus words

Independent of the models: what a sequence of (address, byte) assignments does to a memory, which assignments
a byte string at an address stands for, and which assignments a strobed bus word stands for.
-/

namespace Verif

/-- `(a, d[0]), (a+1, d[1]), ...` -/
def pairsAt : Nat → Bytes → List (Nat × UInt8)
  | _, [] => []
  | a, b :: d => (a, b) :: pairsAt (a + 1) d

/-- Assign one byte. -/
def FlatMem.put (m : FlatMem) (p : Nat × UInt8) : FlatMem := fun x => if x = p.1 then p.2 else m x

/-- Assign bytes one after the other. -/
def FlatMem.puts (m : FlatMem) (l : List (Nat × UInt8)) : FlatMem := l.foldl FlatMem.put m

/-- The assignments of a bus word of `lanes` bytes located at address `word`: lane `i` (bits `8i..8i+7` of the
word) goes to `word + i` iff strobe bit `i` is set. -/
def strobed (lanes word data strb : Nat) : List (Nat × UInt8) :=
  (List.range lanes).filterMap fun i =>
    if strb.testBit i then some (word + i, UInt8.ofNat (data / 256 ^ i)) else none

/-- Addresses reduced modulo the RAM size (the RAM aliases beyond its end). -/
def modPairs (size : Nat) (l : List (Nat × UInt8)) : List (Nat × UInt8) := l.map fun p => (p.1 % size, p.2)

/-- The assignments of a list of (address, bytes) writes. -/
def opPairs (ops : List (Nat × Bytes)) : List (Nat × UInt8) := ops.flatMap fun p => pairsAt p.1 p.2

/-- A list of (address, bytes) writes in `[word, top)` forms separate maximal runs: every write is non-empty,
and they are ascending with a gap of at least one address between consecutive ones. -/
def RunsOK (word top : Nat) (ops : List (Nat × Bytes)) : Prop :=
  (∀ p ∈ ops, word ≤ p.1 ∧ p.2 ≠ [] ∧ p.1 + p.2.length ≤ top) ∧
    ops.Pairwise fun p q => p.1 + p.2.length < q.1

end Verif
