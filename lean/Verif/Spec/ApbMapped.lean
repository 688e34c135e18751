import Verif.Spec.Apb
import Verif.Spec.Mapped

/-!
# Specification: what calls of an APB master should do on a target with an address map
-/

namespace Verif.Apb

variable {κ : Type}

/-- The byte that the call writes at the address `b`, if any. -/
def Call.stores : Call → Nat → Option UInt8
  | .write a d _, b => if a.toNat ≤ b then d[b - a.toNat]? else none
  | .read .., _ => none

/-- All addresses that the call writes and that are in the same bus word as the address `b` are mapped. -/
def Call.XferMapped (c : Word.Cfg) (f : Nat → Option κ) (a : Call) (b : Nat) : Prop :=
  ∀ y, a.stores y ≠ none → y / c.lanes = b / c.lanes → f y ≠ none

/-- All addresses of the bus word that contains the address `b` are mapped. -/
def WordMapped (c : Word.Cfg) (f : Nat → Option κ) (b : Nat) : Prop := ∀ y, y / c.lanes = b / c.lanes → f y ≠ none

/-- What the call should return: a write OKAY if all its addresses are mapped, a read OKAY and the contents `v` of the cells if its
bus words are entirely mapped. Otherwise it is SLVERR, provided that the bus has a `pslverr` signal (`slverr`); a read gets zeros for the
words that are not entirely mapped. -/
def Call.answers (c : Word.Cfg) (slverr : Bool) (f : Nat → Option κ) (v : κ → UInt8) : Call → Outcome → Prop
  | .write a d _, o => ∃ resp, o = .written resp ∧ (resp = .okay ∨ resp = .slverr) ∧
      (resp = .okay ↔ slverr = false ∨ ∀ i < d.length, f (a.toNat + i) ≠ none)
  | .read a n _, o => ∃ data resp, o = .data data resp ∧ data.length = n.toNat ∧ (resp = .okay ∨ resp = .slverr) ∧
      (0 < n → (resp = .okay ↔ slverr = false ∨ ∀ i < n.toNat, WordMapped c f (a.toNat + i))) ∧
      ∀ i < n.toNat, (WordMapped c f (a.toNat + i) → ∀ x, f (a.toNat + i) = some x → data[i]? = some (v x)) ∧
        (¬ WordMapped c f (a.toNat + i) → data[i]? = some 0)

/-- What the call should do to the cells (contents `v` before and `v'` after it): the bytes written to a bus word are stored if their
addresses are all mapped; no cell gets anything else than the byte written to it. -/
def Call.changes (c : Word.Cfg) (f : Nat → Option κ) (a : Call) (v v' : κ → UInt8) : Prop :=
  (∀ b x, f b = some x → a.stores b ≠ none → a.XferMapped c f b → a.stores b = some (v' x)) ∧
  ∀ x, v' x = v x ∨ ∃ b, f b = some x ∧ a.stores b = some (v' x)

/-- Calls with their results, one after the other, should lead from the contents `v` to the contents `v'`. -/
def Runs (c : Word.Cfg) (slverr : Bool) (f : Nat → Option κ) : List (Call × Outcome) → (κ → UInt8) → (κ → UInt8) → Prop
  | [], v, v' => v' = v
  | (a, o) :: l, v, v' => ∃ v1, a.answers c slverr f v o ∧ a.changes c f v v1 ∧ Runs c slverr f l v1 v'

end Verif.Apb
