import Verif.Model.AxisGeometry

/-!
# C130: how AXI stream components divide `tdata` into byte lanes
-/

namespace Verif.Axis

/-- Dividing `tdata` into a given number of lanes. -/
theorem geometry_eq (width : Nat) (keep byteSize byteLanes : Option Nat) (lanes : Nat)
    (hl : lanes = (keep.or (byteLanes.or (byteSize.map fun b => width / b))).getD (width / 8)) :
    geometry width keep byteSize byteLanes =
      if (keep ≠ none ∧ (byteSize ≠ none ∨ byteLanes ≠ none)) ∨ (byteSize ≠ none ∧ byteLanes ≠ none) then .error .valueError
      else if lanes = 0 then .error .exception else if lanes ∣ width then .ok (lanes, width / lanes) else .error .valueError := by
  have key : ∀ l : Nat, geometry width (some l) none none =
      if l = 0 then .error .exception else if l ∣ width then .ok (l, width / l) else .error .valueError := by
    intro l
    simp only [geometry, floorDiv, Option.isSome_none, Bool.or_self, Bool.false_eq_true, if_false]
    by_cases h0 : l = 0
    · simp only [if_pos h0]
    · simp only [if_neg h0]
      by_cases hd : l ∣ width
      · rw [if_pos hd, if_neg (by rw [Nat.mul_div_cancel' hd]; simp)]
      · rw [if_neg hd, if_pos (fun he => hd ⟨_, he.symm⟩)]
  subst hl
  rcases keep with _ | k <;> rcases byteLanes with _ | n <;> rcases byteSize with _ | b
  · exact key _
  · by_cases hb : b = 0
    · subst hb; simp [geometry, floorDiv]
    · rw [if_neg (by simp)]
      refine Eq.trans ?_ (key _)
      simp [geometry, floorDiv, hb]
  · exact key n
  · simp [geometry]
  · exact key k
  all_goals simp [geometry]

/-- **C130.** Which geometries the constructor of an AXI stream component accepts. The number of byte lanes is the width of `tkeep`, else
`byte_lanes`, else as many as have room at `byte_size` bits, or at 8. The constructor raises `ValueError` exactly if `byte_size` or `byte_lanes` is
given on a bus with `tkeep`, both are given, or the lanes do not divide `tdata` evenly; it divides by zero exactly if there is no lane. -/
theorem C130_accepts (width : Nat) (keep byteSize byteLanes : Option Nat) (lanes : Nat)
    (hl : lanes = (keep.or (byteLanes.or (byteSize.map fun b => width / b))).getD (width / 8)) :
    let Clash := (keep ≠ none ∧ (byteSize ≠ none ∨ byteLanes ≠ none)) ∨ (byteSize ≠ none ∧ byteLanes ≠ none)
    (geometry width keep byteSize byteLanes = .error .valueError ↔ Clash ∨ (lanes ≠ 0 ∧ ¬lanes ∣ width)) ∧
    (geometry width keep byteSize byteLanes = .error .exception ↔ ¬Clash ∧ lanes = 0) ∧
    (∀ l s, geometry width keep byteSize byteLanes = .ok (l, s) ↔ ¬Clash ∧ l = lanes ∧ lanes ≠ 0 ∧ lanes * s = width) := by
  rw [geometry_eq width keep byteSize byteLanes lanes hl]
  intro Clash
  have fin : lanes ∣ width → lanes ≠ 0 → ∀ s, (width / lanes = s ↔ lanes * s = width) := by
    rintro ⟨q, rfl⟩ h0 s
    rw [Nat.mul_div_cancel_left _ (Nat.pos_of_ne_zero h0)]
    exact ⟨fun h => by rw [h], fun h => (Nat.eq_of_mul_eq_mul_left (Nat.pos_of_ne_zero h0) h).symm⟩
  have hdiv : ∀ s, lanes * s = width → lanes ∣ width := fun s h => ⟨s, h.symm⟩
  by_cases hc : Clash
  · rw [if_pos hc]; simp [hc]
  · rw [if_neg hc]
    by_cases h0 : lanes = 0
    · rw [if_pos h0]; simp [hc, h0]
    · rw [if_neg h0]
      by_cases hd : lanes ∣ width
      · rw [if_pos hd]
        simp only [reduceCtorEq, hc, h0, hd, not_true_eq_false, and_false, or_false, not_false_eq_true, true_and, Except.ok.injEq,
          Prod.mk.injEq, ne_eq]
        intro l s
        rw [fin hd h0 s]
        exact ⟨fun h => ⟨h.1.symm, h.2⟩, fun h => ⟨h.1.symm, h.2⟩⟩
      · rw [if_neg hd]
        simp only [reduceCtorEq, hc, h0, hd, not_false_eq_true, and_self, or_true, and_false, false_iff, not_and, ne_eq, true_and]
        exact ⟨by simp, fun l s _ h => hd (hdiv s h)⟩

/-- **C130.** Nothing of `tdata` is left out and nothing reaches past it: the lanes make up the signal exactly, and every beat of every frame fits
into `tdata` and `tkeep`. -/
theorem C130_fits (width : Nat) (keep byteSize byteLanes : Option Nat) (lanes size : Nat)
    (h : geometry width keep byteSize byteLanes = .ok (lanes, size)) :
    lanes * size = width ∧ ∀ (c : Cfg), c.lanes = lanes → c.size = size → ∀ (f : Frame) (off : Nat),
      (nextBeat c f off).1.tdata < 2 ^ width ∧ (nextBeat c f off).1.tkeep < 2 ^ lanes := by
  have hfill : ∀ (c : Cfg) (f : Frame) (n lane off : Nat) (b : Beat), b.tdata < 2 ^ (lane * c.size) → b.tkeep < 2 ^ lane →
      (fill c f n lane off b).1.tdata < 2 ^ ((lane + n) * c.size) ∧ (fill c f n lane off b).1.tkeep < 2 ^ (lane + n) := by
    intro c f n
    induction n with
    | zero => intro lane off b h1 h2; exact ⟨h1, h2⟩
    | succ n ih =>
      intro lane off b h1 h2
      have m1 : ∀ s (x : Int), maskTo s x < 2 ^ s := by
        intro s x
        unfold maskTo
        have h0 := Int.emod_nonneg x (b := ((2 ^ s : Nat) : Int)) (by have := Nat.two_pow_pos s; omega)
        have h1 := Int.emod_lt_of_pos x (b := ((2 ^ s : Nat) : Int)) (by have := Nat.two_pow_pos s; omega)
        omega
      have s1 : ∀ s x l : Nat, x < 2 ^ s → x <<< l < 2 ^ (l + s) := by
        intro s x l hx
        rw [Nat.shiftLeft_eq, Nat.pow_add, Nat.mul_comm]
        exact Nat.mul_lt_mul_of_pos_left hx (Nat.two_pow_pos l)
      have t1 : b.tdata ||| (maskTo c.size (f.tdata.getD off 0) <<< (lane * c.size)) < 2 ^ ((lane + 1) * c.size) := by
        apply Nat.or_lt_two_pow
        · exact Nat.lt_of_lt_of_le h1 (Nat.pow_le_pow_right (by omega) (Nat.mul_le_mul_right _ (by omega)))
        · rw [Nat.add_mul, Nat.one_mul]; exact s1 _ _ _ (m1 _ _)
      have t2 : b.tkeep ||| (maskTo 1 (f.tkeep.at off) <<< lane) < 2 ^ (lane + 1) := by
        apply Nat.or_lt_two_pow
        · exact Nat.lt_of_lt_of_le h2 (Nat.pow_le_pow_right (by omega) (by omega))
        · exact s1 _ _ _ (m1 _ _)
      simp only [fill]
      split
      · exact ⟨Nat.lt_of_lt_of_le t1 (Nat.pow_le_pow_right (by omega) (Nat.mul_le_mul_right _ (by omega))),
          Nat.lt_of_lt_of_le t2 (Nat.pow_le_pow_right (by omega) (by omega))⟩
      · rw [show lane + (n + 1) = lane + 1 + n by omega]
        exact ih (lane + 1) (off + 1) _ t1 t2
  have hw : lanes * size = width := (((C130_accepts width keep byteSize byteLanes _ rfl).2.2 lanes size).1 h).2.1 ▸
    (((C130_accepts width keep byteSize byteLanes _ rfl).2.2 lanes size).1 h).2.2.2
  refine ⟨hw, fun c hl hs f off => ?_⟩
  have := hfill c f c.lanes 0 off {} (Nat.two_pow_pos _) (Nat.two_pow_pos _)
  simp only [Nat.zero_add, hl, hs, hw] at this
  simp only [nextBeat, hl]
  exact this

/-- **C130**, the part that holds: a byte size that divides the width of `tdata` is used. -/
theorem C130_byte_size_partial (width b : Nat) (hb : b ∣ width) (h0 : width ≠ 0) :
    geometry width none (some b) none = .ok (width / b, b) := by
  obtain ⟨q, rfl⟩ := hb
  have hb0 : b ≠ 0 := fun h => h0 (by simp [h])
  have hq0 : q ≠ 0 := fun h => h0 (by simp [h])
  have e : b * q / b = q := Nat.mul_div_cancel_left _ (Nat.pos_of_ne_zero hb0)
  refine ((C130_accepts (b * q) none (some b) none q (by simp [e])).2.2 _ _).2 ⟨by simp, e, hq0, Nat.mul_comm _ _⟩

/-- **C130 is false of the code**: 20 bits with `byte_size=8` get two byte lanes of 10 bits, and 12 bits without any arguments one of 12. -/
theorem C130_violated : geometry 20 none (some 8) none = .ok (2, 10) ∧ geometry 12 none none none = .ok (1, 12) := by decide

example : geometry 64 none none none = .ok (8, 8) ∧ geometry 64 none (some 16) none = .ok (4, 16) ∧ geometry 24 none none (some 4) = .ok (4, 6) ∧
    geometry 36 (some 4) none none = .ok (4, 9) ∧ geometry 64 (some 8) (some 8) none = .error .valueError ∧
    geometry 8 (some 16) none none = .error .valueError ∧ geometry 4 none none none = .error .exception := by decide

end Verif.Axis
