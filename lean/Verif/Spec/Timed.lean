import Verif.Model.Timed

/-!
# Specification vocabulary for accesses that take time
-/

namespace Verif

/-- What is behind an interface object: the byte at each of its addresses, at each instant. -/
abbrev Contents := Nat → Int → UInt8

/-- `d` was found at address `a`: each byte at an instant from `i` on and before `j`, in ascending order. -/
def Found (V : Contents) (a : Int) (d : Bytes) (i j : Nat) : Prop :=
  ∃ t : Nat → Nat, (∀ k l, k ≤ l → l < d.length → t k ≤ t l) ∧
    ∀ k < d.length, i ≤ t k ∧ t k < j ∧ d[k]? = some (V (t k) (a + k))

/-- `d` was stored at address `a`: each byte is there after some event from `i` on and before `j`, in ascending order. -/
def Stored (V : Contents) (a : Int) (d : Bytes) (i j : Nat) : Prop :=
  ∃ t : Nat → Nat, (∀ k l, k ≤ l → l < d.length → t k ≤ t l) ∧
    ∀ k < d.length, i ≤ t k ∧ t k < j ∧ d[k]? = some (V (t k + 1) (a + k))

/-- A read that returns bytes returns as many as asked for, and what it found at its addresses in the meantime. -/
def Dev.ReadsWhatIsThere (D : Dev) (V : Contents) : Prop :=
  ∀ a n i j o d, D.Read a n i j (.ok o) → o.toBytes = .ok d → 0 ≤ n ∧ (d.length : Int) = n ∧ i ≤ j ∧ Found V a d i j

/-- A write that returns normally has stored its data in the meantime. -/
def Dev.WritesWhatItSays (D : Dev) (V : Contents) : Prop :=
  ∀ a d i j r, D.Write a d i j (.ok r) → i ≤ j ∧ Stored V a d i j

/-- What is seen through an address space: at each address of a registered region, the contents of the region, at the address translated
with `offset` (or not translated, if it is `None`). -/
def SeenThrough {σ : Type} (s : AddressSpace σ) (V : Entry σ → Contents) (W : Contents) : Prop :=
  ∀ e ∈ s.regions, ∀ x, e.base ≤ x → x < e.base + e.size → ∀ t,
    W t x = V e t (match e.offset with
      | none => x
      | some o => x - e.base + o)

/-- The object admits only accesses whose addresses satisfy `P`. -/
def Dev.only (D : Dev) (P : Int → Prop) : Dev where
  size := D.size
  Read a n i j r := (∀ x, a ≤ x → x < a + n → P x) ∧ D.Read a n i j r
  Write a d i j r := (∀ x, a ≤ x → x < a + d.length → P x) ∧ D.Write a d i j r

end Verif
