import Verif.Model.Beats

/-!
# Specification: targets with an address map

Many targets are address maps: each address designates a cell (a byte of some memory) or nothing.
-/

namespace Verif

/-- The target `t`, in the states `good`, is an address map: the address `x` designates the cell `f x` (`none`: it is unmapped), no two
addresses the same one, and `val` is what the cells contain.
* A read of mapped addresses returns what the cells contain, any other read fails; neither changes the state.
* A write to mapped addresses stores the bytes in the cells, any other write fails; it may have stored some of the bytes then.
-/
structure Mapped {σ κ : Type} (t : Target σ) (good : σ → Prop) (f : Nat → Option κ) (val : σ → κ → UInt8) : Prop where
  inj : ∀ x y k, f x = some k → f y = some k → x = y
  read_ok : ∀ st a n, good st → 1 ≤ n → (∀ i < n, f (a + i) ≠ none) →
    ∃ d, t.read a n st = (.ok d, st) ∧ d.length = n ∧ ∀ i < n, ∀ k, f (a + i) = some k → d[i]? = some (val st k)
  read_fail : ∀ st a n, good st → 1 ≤ n → (∃ i < n, f (a + i) = none) → ∃ e, t.read a n st = (.error e, st)
  write_ok : ∀ st a d, good st → 1 ≤ d.length → (∀ i < d.length, f (a + i) ≠ none) →
    ∃ st', t.write a d st = (.ok (), st') ∧ good st' ∧
      (∀ i < d.length, ∀ k, f (a + i) = some k → some (val st' k) = d[i]?) ∧
      ∀ k, (∀ i < d.length, f (a + i) ≠ some k) → val st' k = val st k
  write_fail : ∀ st a d, good st → 1 ≤ d.length → (∃ i < d.length, f (a + i) = none) →
    ∃ e st', t.write a d st = (.error e, st') ∧ good st' ∧
      ∀ k, val st' k = val st k ∨ ∃ i < d.length, f (a + i) = some k ∧ some (val st' k) = d[i]?

end Verif
