import Verif.Spec.PauseGenTurn
import Verif.Proof.PauseGenSeq

/-!
# The turn of a coroutine in a clock cycle
-/

namespace Verif.PauseGen

/-- A coroutine that the edge resumes has its turn before the next edge. -/
theorem first_turn {x : Nat → Bool} {i j : Nat} (hij : i < j) (h1 : x (i + 1) = true) (h2 : x j = false) :
    ∃ r, i < r ∧ r < j ∧ x (r + 1) = false ∧ ∀ m, i < m → m ≤ r → x m = true := by
  refine Classical.byContradiction fun hno => ?_
  have hdue : ∀ e, i + 1 + e ≤ j → ∀ m, i < m → m ≤ i + 1 + e → x m = true := by
    intro e
    induction e with
    | zero =>
      intro _ m h3 h4
      have : m = i + 1 := by omega
      rw [this]
      exact h1
    | succ e ih =>
      intro he m h3 h4
      by_cases hm : m ≤ i + 1 + e
      · exact ih (by omega) m h3 hm
      · have : m = i + 1 + e + 1 := by omega
        rw [this]
        cases hx : x (i + 1 + e + 1) with
        | true => rfl
        | false => exact absurd ⟨i + 1 + e, by omega, by omega, hx, fun m a c => ih (by omega) m a c⟩ hno
  have := hdue (j - (i + 1)) (by omega) j hij (by omega)
  rw [h2] at this
  cases this

/-- A coroutine that waits at every edge because of `pause` (`w`) finds it released again and again, or does not wait. -/
theorem turn_frees {edge : Nat → Prop} {x d p w : Nat → Bool} {l : Nat → Bool} (hd : Drives edge d p)
    (hx : ∀ i, edge i → x i = false ∧ (w i = true → x (i + 1) = true))
    (hs : ∀ n, ∃ Q, ∀ q, Q ≤ q → ∃ i j, n ≤ i ∧ Cyc edge i j ∧ p i = l q ∧ p j = l (q + 1))
    (hr : TurnReleased x d l) (n : Nat) :
    ∃ k, n ≤ k ∧ (w k = false ∨ (x k = true ∧ x (k + 1) = false ∧ p k = false)) := by
  have run : ∀ i j, Cyc edge i j → w i = false ∨ ∃ r, i < r ∧ r < j ∧ x (r + 1) = false ∧ ∀ m, i < m → m ≤ r → x m = true := by
    intro i j hc
    cases hw : w i with
    | false => exact .inl rfl
    | true => exact .inr (first_turn hc.lt ((hx i hc.start).2 hw) (hx j hc.stop).1)
  rcases hr with hr | ⟨hr, N, hN | hN⟩
  · obtain ⟨Q, hQ⟩ := hs n
    obtain ⟨q, h1, h2, h3⟩ := hr Q
    obtain ⟨i, j, h4, hc, h5, h6⟩ := hQ q h1
    rcases run i j hc with h | ⟨r, h7, h8, h9, h10⟩
    · exact ⟨i, h4, .inl h⟩
    · refine ⟨r, by omega, .inr ⟨h10 r h7 (Nat.le_refl r), h9, ?_⟩⟩
      rcases hd.either hc h7 (Nat.le_of_lt h8) with h | h
      · rw [h, h5, h2]
      · rw [h, h6, h3]
  · obtain ⟨Q, hQ⟩ := hs (max N n)
    obtain ⟨q, h1, h2⟩ := hr (Q + 1)
    obtain ⟨i, j, h4, hc, h5, h6⟩ := hQ (q - 1) (by omega)
    rw [show q - 1 + 1 = q by omega] at h6
    rcases run i j hc with h | ⟨r, h7, h8, h9, h10⟩
    · exact ⟨i, by omega, .inl h⟩
    · have hxr := h10 r h7 (Nat.le_refl r)
      refine ⟨r, by omega, .inr ⟨hxr, h9, ?_⟩⟩
      rw [hd.after hc h7 (Nat.le_of_lt h8) (hN r (by omega) hxr h9), h6, h2]
  · obtain ⟨Q, hQ⟩ := hs (max N n)
    obtain ⟨q, h1, h2⟩ := hr Q
    obtain ⟨i, j, h4, hc, h5, h6⟩ := hQ q h1
    rcases run i j hc with h | ⟨r, h7, h8, h9, h10⟩
    · exact ⟨i, by omega, .inl h⟩
    · refine ⟨r, by omega, .inr ⟨h10 r h7 (Nat.le_refl r), h9, ?_⟩⟩
      have key : ∀ e, i + e ≤ r → p (i + e) = false := by
        intro e
        induction e with
        | zero => intro _; rw [Nat.add_zero, h5, h2]
        | succ e ih =>
          intro he
          have hprev := ih (by omega)
          have step : p (i + e + 1) = p (i + e) := by
            cases hde : d (i + e) with
            | false => exact hd.same _ hde
            | true =>
              cases hde' : d (i + e + 1) with
              | true => exact hd.keep _ hde'
              | false =>
                have h5 := hN (i + e) (by omega) hde hde'
                by_cases he0 : e = 0
                · subst he0
                  have := hd.idle i hc.start
                  rw [Nat.add_zero, this] at hde
                  cases hde
                · rw [h10 (i + e) (by omega) (by omega)] at h5
                  cases h5
          rw [← Nat.add_assoc, step, hprev]
      have := key (r - i) (by omega)
      rw [show i + (r - i) = r by omega] at this
      exact this

end Verif.PauseGen
