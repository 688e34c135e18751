import Verif.Model.ByteWrite

/-!
# Specification: an object that accepts lists of integers as data
-/

namespace Verif

/-- In the states `P` (which writes preserve), the object `p`, whose `write` does `w` with a list, treats a list of values of `range(256)` like the
same `bytes`. A list with one value outside of `range(256)` is rejected, without effect on the values `val`. -/
structure TakesLists {σ κ : Type} (P : σ → Prop) (val : σ → κ → UInt8) (p : Iface σ) (w : ListWrite σ) : Prop where
  like_bytes : ∀ st, P st → ∀ a (d : Bytes), w a (d.map fun b => (b.toNat : Int)) st = p.write a d st ∧ P (p.write a d st).2
  rejects : ∀ st, P st → ∀ a v, v < 0 ∨ 256 ≤ v →
    ∃ e st', w a [v] st = (.error e, st') ∧ P st' ∧ ∀ k, val st' k = val st k

end Verif
