import Verif.Spec.PauseGenApb
import Verif.Proof.PauseGenTurn
import Verif.Proof.ApbClockLive

/-!
# The APB system with pause generators
-/

namespace Verif.PauseGen

open Verif.Apb (CSys CEv Access)

/-! ## The system -/

section

variable {σ : Type} {slverr : Bool} {f : Access σ}

/-- Something that has no effect. -/
def apbIdle (s : CSys σ) : CEv := .mpause s.mpause

theorem apb_laws : Laws [false, true] (apbBase slverr f) (apbIdle (σ := σ)) where
  all k := by cases k <;> simp
  idle s := rfl
  set s k v j := by cases k <;> cases j <;> rfl
  notTick k v := by cases k <;> rfl
  early s e h1 h2 := by
    cases e <;> simp only [apbBase, Bool.false_eq_true] at h1
    simp only [apbBase] at h2
    simp only [apbBase, CSys.step, h2, Bool.false_eq_true, if_false]

/-- Only the setters change `pause`. -/
theorem apb_keeps (k : Bool) (e : CEv) (he : ∀ v, e ≠ (apbBase slverr f).setPause k v) (s : CSys σ) :
    (apbBase slverr f).pause (s.step slverr f e) k = (apbBase slverr f).pause s k := by
  cases e with
  | tick => simp only [CSys.step]; split <;> rfl
  | mrun => simp only [CSys.step]; split <;> rfl
  | srun => simp only [CSys.step]; split <;> rfl
  | commit => simp only [CSys.step]; split <;> rfl
  | reset v => simp only [CSys.step]; split <;> rfl
  | mpause v =>
    cases k
    · exact absurd rfl (he v)
    · rfl
  | spause v =>
    cases k
    · rfl
    · exact absurd rfl (he v)
  | _ => rfl

theorem both {a : Bool} {P : Prop} (h1 : a = true) (h2 : a = false) : P := by rw [h1] at h2; cases h2

/-- What a step does to the two coroutines that are about to run. -/
theorem apb_turns (s : CSys σ) (e : CEv) :
    (s.mdue = true → (s.step slverr f e).mdue = false → e = .mrun) ∧ (s.sdue = true → (s.step slverr f e).sdue = false → e = .srun) := by
  cases e with
  | tick =>
    simp only [CSys.step]
    split
    · rename_i h
      simp only [Bool.and_eq_true, Bool.not_eq_true'] at h
      exact ⟨fun h1 => both h1 h.1.2, fun h1 => both h1 h.2⟩
    · exact ⟨both, both⟩
  | mrun =>
    refine ⟨fun _ _ => rfl, ?_⟩
    simp only [CSys.step]
    split <;> exact both
  | srun =>
    refine ⟨?_, fun _ _ => rfl⟩
    simp only [CSys.step]
    split <;> exact both
  | commit =>
    simp only [CSys.step]
    split <;> exact ⟨both, both⟩
  | reset v =>
    simp only [CSys.step]
    split <;> exact ⟨both, both⟩
  | _ => exact ⟨both, both⟩

end

end Verif.PauseGen
