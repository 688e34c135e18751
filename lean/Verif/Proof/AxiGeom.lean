import Verif.Proof.Beats
import Verif.Spec.AxiRules

/-!
# Arithmetic of beats: containers, words and byte ranges
-/

namespace Verif.Axi

theorem div_mul_le (a b : Nat) : a / b * b ≤ a := Nat.div_mul_le_self a b

theorem lt_div_mul_add (a b : Nat) (hb : 0 < b) : a < a / b * b + b := by
  have := Nat.div_add_mod a b
  have h2 := Nat.mod_lt a hb
  rw [Nat.mul_comm] at this
  omega

/-- A container of `nb` bytes (`nb ∣ lanes`) lies inside one word of `lanes` bytes. -/
theorem container_in_word (nb lanes x : Nat) (hnb : 0 < nb) (hl : 0 < lanes) (hd : nb ∣ lanes) (hx : nb ∣ x) :
    x + nb ≤ x / lanes * lanes + lanes := by
  obtain ⟨q, rfl⟩ := hd
  obtain ⟨y, rfl⟩ := hx
  have hq : 0 < q := Nat.pos_of_mul_pos_left hl
  rw [Nat.mul_div_mul_left _ _ hnb]
  have h2 : y + 1 ≤ y / q * q + q := lt_div_mul_add y q hq
  have h3 := Nat.mul_le_mul_left nb h2
  have e1 : nb * (y / q * q + q) = y / q * (nb * q) + nb * q := by
    rw [Nat.mul_add, ← Nat.mul_assoc, Nat.mul_comm nb (y / q), Nat.mul_assoc]
  rw [Nat.mul_add, Nat.mul_one, e1] at h3
  exact h3

theorem word_of_container (nb lanes x y : Nat) (hnb : 0 < nb) (hl : 0 < lanes) (hd : nb ∣ lanes) (hx : nb ∣ x)
    (h1 : x ≤ y) (h2 : y < x + nb) : y / lanes = x / lanes := by
  have h := container_in_word nb lanes x hnb hl hd hx
  have h3 := div_mul_le x lanes
  apply Nat.div_eq_of_lt_le
  · omega
  · rw [Nat.add_mul, Nat.one_mul]; omega

theorem mod_eq_sub_word (x lanes : Nat) : x % lanes = x - x / lanes * lanes := by
  have := Nat.div_add_mod x lanes
  rw [Nat.mul_comm] at this
  omega

/-- Geometry of a request: `A` address, `N` length, `nb` bytes per beat. -/
structure Geo (lanes nb A N : Nat) : Prop where
  nbPos : 0 < nb
  lanesPos : 0 < lanes
  dvd : nb ∣ lanes

/-- Aligned address. -/
def gAl (nb A : Nat) : Nat := A / nb * nb
/-- Container of beat `k`. -/
def gBox (nb A k : Nat) : Nat := A / nb * nb + k * nb
/-- Word carrying beat `k`. -/
def gWord (lanes nb A k : Nat) : Nat := gBox nb A k / lanes * lanes
/-- First byte of beat `k`. -/
def gLo (nb A k : Nat) : Nat := max A (gBox nb A k)
/-- End of the bytes of beat `k`. -/
def gHi (nb A N k : Nat) : Nat := min (A + N) (gBox nb A (k + 1))
/-- Number of beats. -/
def gCycles (nb A N : Nat) : Nat := (N + A % nb + nb - 1) / nb

theorem gBox_succ (nb A k : Nat) : gBox nb A (k + 1) = gBox nb A k + nb := by
  simp only [gBox, Nat.add_mul, Nat.one_mul]; omega

theorem gBox_zero (nb A : Nat) : gBox nb A 0 = gAl nb A := by simp [gBox, gAl]

theorem gBox_dvd (nb A k : Nat) : nb ∣ gBox nb A k := by
  unfold gBox
  rw [← Nat.add_mul]
  exact Nat.dvd_mul_left ..

theorem gBox_mono (nb A : Nat) {j k : Nat} (h : j ≤ k) : gBox nb A j ≤ gBox nb A k := by
  unfold gBox
  have := Nat.mul_le_mul_right nb h
  omega

theorem gAl_le (nb A : Nat) : gAl nb A ≤ A := div_mul_le A nb

theorem gAl_lt (nb A : Nat) (h : 0 < nb) : A < gAl nb A + nb := lt_div_mul_add A nb h

/-- The beats cover the request: the last byte lies in the last container. -/
theorem gCycles_cover (nb A N : Nat) (h : 0 < nb) : A + N ≤ gBox nb A (gCycles nb A N) := by
  have h1 := Nat.div_add_mod (N + A % nb + nb - 1) nb
  have h2 := Nat.mod_lt (N + A % nb + nb - 1) h
  have h3 := Nat.div_add_mod A nb
  rw [Nat.mul_comm] at h1 h3
  simp only [gBox, gCycles]
  omega

/-- Every beat's container starts before the end of the request (for an empty unaligned request too). -/
theorem gCycles_tight (nb A N k : Nat) (h : 0 < nb) (hk : k < gCycles nb A N) : gBox nb A k < A + N := by
  have h1 := Nat.div_add_mod (N + A % nb + nb - 1) nb
  have h3 := Nat.div_add_mod A nb
  rw [Nat.mul_comm] at h1 h3
  have h5 := Nat.mod_lt A h
  have hmul : (k + 1) * nb ≤ (N + A % nb + nb - 1) / nb * nb := Nat.mul_le_mul_right nb hk
  rw [Nat.add_mul, Nat.one_mul] at hmul
  simp only [gBox]
  omega

theorem gCycles_last (nb A N k : Nat) (h : 0 < nb) (hk : k < gCycles nb A N) (hne : k ≠ gCycles nb A N - 1) :
    gBox nb A (k + 1) < A + N := gCycles_tight nb A N (k + 1) h (by omega)

/-- The byte range of a beat. -/
theorem beat_bounds {lanes nb A N : Nat} (g : Geo lanes nb A N) {k : Nat} (hk : k < gCycles nb A N) :
    gWord lanes nb A k ≤ gBox nb A k ∧ gBox nb A k ≤ gLo nb A k ∧ A ≤ gLo nb A k ∧
      gLo nb A k ≤ gHi nb A N k ∧ gHi nb A N k ≤ A + N ∧ gHi nb A N k ≤ gBox nb A k + nb ∧
      gBox nb A k + nb ≤ gWord lanes nb A k + lanes := by
  have h1 := container_in_word nb lanes (gBox nb A k) g.nbPos g.lanesPos g.dvd (gBox_dvd nb A k)
  have h2 := div_mul_le (gBox nb A k) lanes
  have h3 := gCycles_tight nb A N k g.nbPos hk
  have h4 := gAl_lt nb A g.nbPos
  have h5 := gBox_succ nb A k
  have h6 := gBox_mono nb A (Nat.zero_le k)
  rw [gBox_zero] at h6
  simp only [gWord, gLo, gHi]
  omega

theorem gWord_eq {lanes nb A N : Nat} (g : Geo lanes nb A N) {x k : Nat} (h1 : gBox nb A k ≤ x)
    (h2 : x < gBox nb A k + nb) : x / lanes * lanes = gWord lanes nb A k := by
  rw [gWord, word_of_container nb lanes (gBox nb A k) x g.nbPos g.lanesPos g.dvd (gBox_dvd nb A k) h1 h2]

theorem beat_start {lanes nb A N : Nat} (g : Geo lanes nb A N) (k : Nat) :
    (if k = 0 then A % lanes else gBox nb A k % lanes) = gLo nb A k - gWord lanes nb A k := by
  have h4 := gAl_lt nb A g.nbPos
  have h5 := gAl_le nb A
  by_cases hk : k = 0
  · subst hk
    simp only [if_true]
    rw [mod_eq_sub_word, gWord_eq g (k := 0) (by rw [gBox_zero]; exact h5) (by rw [gBox_zero]; exact h4)]
    simp only [gLo, gBox_zero]
    omega
  · simp only [hk, if_false]
    rw [mod_eq_sub_word]
    have h6 := gBox_mono nb A (show 1 ≤ k by omega)
    rw [gBox_succ, gBox_zero] at h6
    simp only [gLo, gWord]
    omega

theorem beat_stop {lanes nb A N : Nat} (g : Geo lanes nb A N) {k : Nat} (hk : k < gCycles nb A N) :
    (if k = gCycles nb A N - 1 then (((A : Int) + N - 1) % lanes + 1).toNat
      else gBox nb A k % lanes + nb) = gHi nb A N k - gWord lanes nb A k := by
  obtain ⟨b1, b2, b3, b4, b5, b6, b7⟩ := beat_bounds g hk
  have ht := gCycles_tight nb A N k g.nbPos hk
  have hs := gBox_succ nb A k
  by_cases hl : k = gCycles nb A N - 1
  · rw [if_pos hl]
    have hc := gCycles_cover nb A N g.nbPos
    rw [show gCycles nb A N = k + 1 by omega, hs] at hc
    have e : ((A : Int) + N - 1) = ((A + N - 1 : Nat) : Int) := by omega
    rw [e, ← Int.natCast_emod, mod_eq_sub_word, gWord_eq g (k := k) (by omega) (by omega)]
    simp only [gHi]
    omega
  · rw [if_neg hl]
    have hc := gCycles_last nb A N k g.nbPos hk hl
    rw [mod_eq_sub_word]
    simp only [gHi, gWord] at *
    omega

theorem box_mod_step (lanes nb A k : Nat) : (gBox nb A k % lanes + nb) % lanes = gBox nb A (k + 1) % lanes := by
  rw [Nat.mod_add_mod, gBox_succ]

theorem al_sub_word {lanes nb A N : Nat} (g : Geo lanes nb A N) :
    A / nb * nb - A / lanes * lanes = gBox nb A 0 % lanes := by
  have h4 := gAl_lt nb A g.nbPos
  have h5 := gAl_le nb A
  rw [mod_eq_sub_word, gWord_eq g (k := 0) (x := A) (by rw [gBox_zero]; exact h5) (by rw [gBox_zero]; exact h4),
    gBox_zero, gWord, gBox_zero]
  rfl

/-- Consecutive beats are adjacent. -/
theorem gLo_succ {lanes nb A N : Nat} (g : Geo lanes nb A N) {k : Nat} (hk : k + 1 < gCycles nb A N) :
    gLo nb A (k + 1) = gHi nb A N k := by
  have h1 := gCycles_tight nb A N (k + 1) g.nbPos hk
  have h4 := gAl_lt nb A g.nbPos
  have h6 := gBox_mono nb A (show 1 ≤ k + 1 by omega)
  rw [gBox_succ, gBox_zero] at h6
  simp only [gLo, gHi]
  omega

theorem gLo_zero (nb A : Nat) : gLo nb A 0 = A := by
  have := gAl_le nb A
  simp only [gLo, gBox_zero]; omega

theorem gHi_last {lanes nb A N : Nat} (g : Geo lanes nb A N) {k : Nat} (hk : k + 1 = gCycles nb A N) :
    gHi nb A N k = A + N := by
  have hc := gCycles_cover nb A N g.nbPos
  rw [← hk] at hc
  simp only [gHi]; omega

theorem gCycles_zero {nb A N : Nat} (h : 0 < nb) (hz : gCycles nb A N = 0) : N = 0 := by
  have hc := gCycles_cover nb A N h
  rw [hz, gBox_zero] at hc
  have := gAl_le nb A
  omega

/-! ## Burst segmentation -/

/-- The bursts of a request: `(first beat, beats)`, given the burst length `bl k` chosen at beat `k`. -/
def segsFrom (bl : Nat → Nat) (cycles : Nat) : (fuel k : Nat) → List (Nat × Nat)
  | 0, _ => []
  | f + 1, k => if k < cycles then (k, bl k) :: segsFrom bl cycles f (k + bl k) else []

theorem segsFrom_done (bl : Nat → Nat) (cycles f k : Nat) (h : cycles ≤ k) : segsFrom bl cycles f k = [] := by
  cases f with
  | zero => rfl
  | succ f => simp [segsFrom, show ¬ k < cycles by omega]

theorem segsFrom_fuel (bl : Nat → Nat) (cycles : Nat) (hbl : ∀ k < cycles, 1 ≤ bl k) (f k : Nat)
    (h : cycles ≤ k + f) : segsFrom bl cycles (f + 1) k = segsFrom bl cycles f k := by
  induction f generalizing k with
  | zero => simp [segsFrom, show ¬ k < cycles by omega]
  | succ f ih =>
    have e : ∀ f k, segsFrom bl cycles (f + 1) k =
        if k < cycles then (k, bl k) :: segsFrom bl cycles f (k + bl k) else [] := fun _ _ => rfl
    rw [e (f + 1) k, e f k]
    by_cases hk : k < cycles
    · simp only [hk, if_true]
      rw [ih (k + bl k) (by have := hbl k hk; omega)]
    · simp [hk]

theorem segsFrom_fuel_le (bl : Nat → Nat) (cycles : Nat) (hbl : ∀ k < cycles, 1 ≤ bl k) (f g k : Nat)
    (h : cycles ≤ k + f) (hg : f ≤ g) : segsFrom bl cycles g k = segsFrom bl cycles f k := by
  induction g with
  | zero => rw [show f = 0 by omega]
  | succ g ih =>
    by_cases hfg : f = g + 1
    · rw [hfg]
    · rw [segsFrom_fuel bl cycles hbl g k (by omega)]
      exact ih (by omega)

theorem segsFrom_step (bl : Nat → Nat) (cycles : Nat) (hbl : ∀ k < cycles, 1 ≤ bl k) (k : Nat) (hk : k < cycles) :
    segsFrom bl cycles (cycles - k) k =
      (k, bl k) :: segsFrom bl cycles (cycles - (k + bl k)) (k + bl k) := by
  have : cycles - k = (cycles - k - 1) + 1 := by omega
  rw [this, segsFrom]
  simp only [hk, if_true]
  congr 1
  exact segsFrom_fuel_le bl cycles hbl _ _ _ (by omega) (by have := hbl k hk; omega)

/-- Induction over the bursts of a request. -/
theorem segs_induction {bl : Nat → Nat} {cycles : Nat} (hbl : ∀ k < cycles, 1 ≤ bl k ∧ bl k ≤ cycles - k)
    {P : Nat → Prop} (h0 : P cycles) (hs : ∀ k, k < cycles → P (k + bl k) → P k) : ∀ k ≤ cycles, P k := by
  intro k hk
  generalize hr : cycles - k = r
  induction r using Nat.strongRecOn generalizing k with
  | _ r ih =>
    by_cases hlt : k < cycles
    · have := hbl k hlt
      exact hs k hlt (ih (cycles - (k + bl k)) (by omega) (k + bl k) (by omega) rfl)
    · rw [show k = cycles by omega]; exact h0

end Verif.Axi
