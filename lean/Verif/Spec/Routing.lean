import Verif.Spec.FlatMem

/-!
# Specification: byte-by-byte routing

An address map says, for each address, which byte of which memory object it designates (or that it is
unmapped). Multi-byte accesses are specified one byte at a time, in ascending order, stopping at the
first unmapped address.
-/

namespace Verif

/-- All memory objects, by identity. -/
abbrev AHeap := Nat → FlatMem

/-- Set one byte of one memory object. -/
def AHeap.put (H : AHeap) (k j : Nat) (b : UInt8) : AHeap := fun k' j' =>
  if k' = k ∧ j' = j then b else H k' j'

/-- Where each address lives: (memory object, index). -/
abbrev ByteMap := Int → Option (Nat × Nat)

/-- Read `n` bytes from `a`; `none` if any of them is unmapped. -/
def routeRead (f : ByteMap) (H : AHeap) : Int → Nat → Option Bytes
  | _, 0 => some []
  | a, n + 1 =>
    match f a with
    | none => none
    | some (k, j) =>
      match routeRead f H (a + 1) n with
      | none => none
      | some d => some (H k j :: d)

/-- Write `d` at `a`, one byte at a time; `false` if an unmapped address is met, in which case the bytes
before it have been written. -/
def routeWrite (f : ByteMap) : Int → Bytes → AHeap → Bool × AHeap
  | _, [], H => (true, H)
  | a, b :: d, H =>
    match f a with
    | none => (false, H)
    | some (k, j) => routeWrite f (a + 1) d (H.put k j b)

end Verif
