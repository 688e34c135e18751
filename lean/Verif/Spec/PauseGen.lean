import Verif.Model.PauseGen

/-!
# What a pause generator should do (C100, C101)
-/

namespace Verif.PauseGen

open Verif.Stream (Net)

/-- The values of `pause` at the clock edges: `p` now, and then the values of the generator one after the other; when it has ended, the last
value remains. -/
def level (vals : Nat → Option Bool) (p : Bool) : Nat → Bool
  | 0 => p
  | q + 1 => if (List.range (q + 1)).all (fun m => (vals m).isSome) then (vals q).getD p else level vals p q

/-- The values that are still to come; none without a generator or when it has ended. -/
def Gen.rest : Option Gen → Nat → Option Bool
  | some g, m => if g.pc = .off then none else g.vals (g.pos + m)
  | none, _ => none

section

variable {ε S E : Type} [DecidableEq ε] (ends : List ε) (b : Base ε S E)

/-- A clock edge comes at instant `n`. -/
def Edge (G : Nat → GSys ε S) (sched : Nat → GEv ε E) (n : Nat) : Prop :=
  ∃ e, sched n = .ev e ∧ b.isTick e = true ∧ b.ready (G n).s = true ∧ (G n).anyDue ends = false

/-- The values of `pause` at `k` from now on, at the clock edges (the next value may already be due). -/
def GSys.levels (g : GSys ε S) (k : ε) : Nat → Bool := level (Gen.rest (g.gen k)) (b.pause g.s k)

/-- Again and again `pause` is not set. -/
def Frees (f : Nat → Bool) : Prop := ∀ n, ∃ q, n ≤ q ∧ f q = false

/-- Again and again `pause` is not set in two consecutive cycles. -/
def FreesTwice (f : Nat → Bool) : Prop := ∀ n, ∃ q, n ≤ q ∧ f q = false ∧ f (q + 1) = false

/-- From instant `N` on the source has its turn after a clock edge only when the generator of its `pause` (`d`: it is scheduled) has had
its own. -/
def GenFirst {α : Type} (s : Nat → Net α) (d : Nat → Bool) (N : Nat) : Prop :=
  ∀ n, N ≤ n → (s n).src.pc = .due → (s (n + 1)).src.pc ≠ .due → d n = false

/-- From instant `N` on the generator has its turn only when the source is not about to run after the clock edge. -/
def SrcFirst {α : Type} (s : Nat → Net α) (d : Nat → Bool) (N : Nat) : Prop :=
  ∀ n, N ≤ n → d n = true → d (n + 1) = false → (s n).src.pc ≠ .due

/-- The generators release both ends of the channel again and again: the sink in one cycle; the source in two consecutive cycles, or in one
cycle if it and its generator always have their turns in the same order (cocotb resumes coroutines that await the same edge in
the order in which they began to wait, so that the order stays). -/
structure Released {α : Type} (s : Nat → Net α) (d : Nat → Bool) (lsrc lsnk : Nat → Bool) : Prop where
  src : FreesTwice lsrc ∨ (Frees lsrc ∧ ∃ N, GenFirst s d N ∨ SrcFirst s d N)
  snk : Frees lsnk

/-- A schedule is fair if it does not ignore, from some instant on, an event in `must` or a coroutine of a generator that can go on. -/
def Fair (must : E → Prop) (G : Nat → GSys ε S) (sched : Nat → GEv ε E) : Prop :=
  (∀ e, must e → ∀ n, ∃ k, n ≤ k ∧ (sched k = .ev e ∨ (G k).step ends b (.ev e) = G k)) ∧
  (∀ j : ε, ∀ n, ∃ k, n ≤ k ∧ (sched k = .gen j ∨ (G k).due j = false))

end

end Verif.PauseGen
