import Verif.Spec.PauseGenBus

/-!
# The turns of a coroutine and of the generator that pauses it (C101)
-/

namespace Verif.PauseGen

/-- A coroutine (`x`: it is about to run after the clock edge) has its turn only when the generator (`d`: it is scheduled) has had its own. -/
def TurnAfter (x d : Nat → Bool) (N : Nat) : Prop := ∀ n, N ≤ n → x n = true → x (n + 1) = false → d n = false

/-- The generator has its turn only when the coroutine is not about to run. -/
def TurnBefore (x d : Nat → Bool) (N : Nat) : Prop := ∀ n, N ≤ n → d n = true → d (n + 1) = false → x n = false

/-- The generator (its values at the clock edges are `l`) releases the coroutine again and again: in two consecutive cycles, or in one cycle if they always have
their turns in the same order. -/
def TurnReleased (x d l : Nat → Bool) : Prop := FreesTwice l ∨ (Frees l ∧ ∃ N, TurnAfter x d N ∨ TurnBefore x d N)

end Verif.PauseGen
