import Verif.Py

/-!
# Specification: a flat byte array

Independent of the model: a memory is a function from addresses to bytes.
-/

namespace Verif

/-- A flat memory. -/
abbrev FlatMem := Nat → UInt8

namespace FlatMem

/-- All bytes zero. -/
def zero : FlatMem := fun _ => 0

/-- The memory after storing `d` at `[a, a + d.length)`; every other byte is kept. -/
def store (m : FlatMem) (a : Nat) (d : Bytes) : FlatMem := fun i =>
  if h : a ≤ i ∧ i < a + d.length then d[i - a]'(by omega) else m i

/-- The bytes at `[a, a + n)`. -/
def load (m : FlatMem) (a n : Nat) : Bytes := (List.range n).map fun i => m (a + i)

theorem load_length (m : FlatMem) (a n : Nat) : (m.load a n).length = n := by simp [load]

theorem load_getElem (m : FlatMem) (a n i : Nat) (h : i < (m.load a n).length) :
    (m.load a n)[i] = m (a + i) := by simp [load]

theorem load_add (m : FlatMem) (a n k : Nat) :
    m.load a (n + k) = m.load a n ++ m.load (a + n) k := by
  simp [load, List.range_add, Nat.add_assoc]

theorem load_zero (m : FlatMem) (a : Nat) : m.load a 0 = [] := rfl

theorem store_nil (m : FlatMem) (a : Nat) : m.store a [] = m := by
  funext i; simp only [store, List.length_nil]; split
  · omega
  · rfl

theorem store_append (m : FlatMem) (a : Nat) (d e : Bytes) :
    m.store a (d ++ e) = (m.store a d).store (a + d.length) e := by
  funext i
  simp only [store, List.length_append]
  split
  · split
    · rw [List.getElem_append_right (by omega)]; congr 1; omega
    · split
      · rw [List.getElem_append_left (by omega)]
      · omega
  · split
    · omega
    · split
      · omega
      · rfl

theorem store_other (m : FlatMem) (a i : Nat) (d : Bytes) (h : i < a ∨ a + d.length ≤ i) :
    m.store a d i = m i := by
  simp only [store]; split
  · omega
  · rfl

theorem store_at (m : FlatMem) (a k : Nat) (d : Bytes) (h : k < d.length) :
    m.store a d (a + k) = d[k] := by
  simp only [store]; split
  · congr 1; omega
  · omega

theorem load_store_same (m : FlatMem) (a : Nat) (d : Bytes) :
    (m.store a d).load a d.length = d := by
  apply List.ext_getElem
  · simp [load]
  · intro i h1 h2
    rw [load_getElem, store_at _ _ _ _ h2]

theorem load_store_disjoint (m : FlatMem) (a b n : Nat) (d : Bytes)
    (h : b + n ≤ a ∨ a + d.length ≤ b) : (m.store a d).load b n = m.load b n := by
  apply List.ext_getElem
  · simp [load]
  · intro i h1 h2
    rw [load_getElem, load_getElem, store_other]
    simp [load] at h1; omega

end FlatMem
end Verif
