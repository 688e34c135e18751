import Verif.Spec.Mapped
import Verif.Spec.AxiRules
import Verif.Proof.Beats
import Verif.Proof.AxiSlave

/-!
# Beats on a target with an address map
-/

namespace Verif

variable {σ κ : Type} {t : Target σ} {good : σ → Prop} {f : Nat → Option κ} {val : σ → κ → UInt8}

theorem mem_pairsAt_iff {a : Nat} {d : Bytes} {p : Nat × UInt8} : p ∈ pairsAt a d ↔ ∃ i < d.length, p.1 = a + i ∧ some p.2 = d[i]? := by
  rw [List.mem_iff_getElem]
  constructor
  · rintro ⟨i, hi, rfl⟩
    rw [pairsAt_length] at hi
    refine ⟨i, hi, ?_, ?_⟩
    · rw [pairsAt_getElem]
    · rw [pairsAt_getElem, List.getElem?_eq_getElem hi]
  · rintro ⟨i, hi, h1, h2⟩
    refine ⟨i, by rw [pairsAt_length]; exact hi, ?_⟩
    rw [pairsAt_getElem]
    rw [List.getElem?_eq_getElem hi, Option.some.injEq] at h2
    exact Prod.ext h1.symm h2.symm

/-- Writes one after the other. -/
theorem Mapped.attempt (M : Mapped t good f val) (ops : List (Nat × Bytes)) (hne : ∀ o ∈ ops, o.2 ≠ [])
    (hnd : ((opPairs ops).map (·.1)).Nodup) {st st' : σ} {ok : Bool} (hg : good st)
    (h : Axi.attempt t.write ops st = (ok, st')) :
    good st' ∧ (ok = true ↔ ∀ p ∈ opPairs ops, f p.1 ≠ none) ∧
      (ok = true → ∀ p ∈ opPairs ops, ∀ k, f p.1 = some k → val st' k = p.2) ∧
      ∀ k, val st' k = val st k ∨ ∃ p ∈ opPairs ops, f p.1 = some k ∧ val st' k = p.2 := by
  induction ops generalizing st with
  | nil =>
    simp only [Axi.attempt, Prod.mk.injEq] at h
    obtain ⟨rfl, rfl⟩ := h
    exact ⟨hg, by simp [opPairs], by simp [opPairs], fun k => .inl rfl⟩
  | cons o ops ih =>
    obtain ⟨a, d⟩ := o
    have hd : 1 ≤ d.length := List.length_pos_iff.2 (hne (a, d) (by simp))
    rw [opPairs_cons] at hnd ⊢
    rw [List.map_append, List.nodup_append] at hnd
    obtain ⟨_, n2, n3⟩ := hnd
    simp only [Axi.attempt] at h
    by_cases hm : ∀ i < d.length, f (a + i) ≠ none
    · obtain ⟨s1, e1, e2, e3, e4⟩ := M.write_ok st a d hg hd hm
      rw [e1] at h
      simp only at h
      obtain ⟨i1, i2, i3, i4⟩ := ih (fun o ho => hne o (by simp [ho])) n2 e2 h
      refine ⟨i1, ?_, ?_, ?_⟩
      · rw [i2]
        constructor
        · intro h p hp
          rcases List.mem_append.1 hp with hp | hp
          · obtain ⟨i, hi, q1, _⟩ := mem_pairsAt_iff.1 hp
            rw [q1]; exact hm i hi
          · exact h p hp
        · exact fun h p hp => h p (List.mem_append_right _ hp)
      · intro hok p hp k hk
        rcases List.mem_append.1 hp with hp | hp
        · rcases i4 k with h | ⟨p', hp', g1, g2⟩
          · obtain ⟨i, hi, q1, q2⟩ := mem_pairsAt_iff.1 hp
            rw [q1] at hk
            have := e3 i hi k hk
            rw [← q2, Option.some.injEq] at this
            rw [h, this]
          · exfalso
            exact n3 p.1 (List.mem_map_of_mem hp) p'.1 (List.mem_map_of_mem hp') (M.inj _ _ _ hk g1)
        · exact i3 hok p hp k hk
      · intro k
        rcases i4 k with h | ⟨p, hp, g1, g2⟩
        · by_cases hk : ∃ i < d.length, f (a + i) = some k
          · obtain ⟨i, hi, hk⟩ := hk
            refine .inr ⟨(a + i, d[i]), List.mem_append_left _ (mem_pairsAt_iff.2 ⟨i, hi, rfl, by simp [hi]⟩), hk, ?_⟩
            have := e3 i hi k hk
            rw [List.getElem?_eq_getElem hi, Option.some.injEq] at this
            rw [h, this]
          · exact .inl (h.trans (e4 k fun i hi hk' => hk ⟨i, hi, hk'⟩))
        · exact .inr ⟨p, List.mem_append_right _ hp, g1, g2⟩
    · have hm' : ∃ i < d.length, f (a + i) = none := by
        apply Classical.byContradiction
        intro hn
        exact hm fun i hi h => hn ⟨i, hi, h⟩
      obtain ⟨e, s1, e1, e2, e3⟩ := M.write_fail st a d hg hd hm'
      rw [e1] at h
      simp only [Prod.mk.injEq] at h
      obtain ⟨rfl, rfl⟩ := h
      obtain ⟨i, hi, hn⟩ := hm'
      refine ⟨e2, ?_, by simp, ?_⟩
      · simp only [Bool.false_eq_true, false_iff]
        intro hall
        exact hall (a + i, d[i]) (List.mem_append_left _ (mem_pairsAt_iff.2 ⟨i, hi, rfl, by simp [hi]⟩)) hn
      · intro k
        rcases e3 k with h | ⟨j, hj, g1, g2⟩
        · exact .inl h
        · rw [List.getElem?_eq_getElem hj, Option.some.injEq] at g2
          exact .inr ⟨(a + j, d[j]), List.mem_append_left _ (mem_pairsAt_iff.2 ⟨j, hj, rfl, by simp [hj]⟩), g1, g2⟩

theorem nodup_pairsAt (a : Nat) (d : Bytes) : ((pairsAt a d).map (·.1)).Nodup := by
  induction d generalizing a with
  | nil => simp [pairsAt]
  | cons x d ih =>
    simp only [pairsAt, List.map_cons, List.nodup_cons]
    refine ⟨?_, ih (a + 1)⟩
    intro h
    obtain ⟨p, hp, hpa⟩ := List.mem_map.1 h
    have := mem_pairsAt hp
    omega

/-- The writes of a bus word whose strobed lanes are one run of bytes `d` at `lo`. -/
theorem Mapped.word (M : Mapped t good f val) {lanes word v strb lo : Nat} {d : Bytes}
    (hst : strobed lanes word v strb = pairsAt lo d) {st st' : σ} {ok : Bool} (hg : good st)
    (h : Axi.attempt t.write (writeOps lanes word (digitsLE lanes v) strb) st = (ok, st')) :
    good st' ∧ (ok = true ↔ ∀ i < d.length, f (lo + i) ≠ none) ∧
      (ok = true → ∀ i < d.length, ∀ k, f (lo + i) = some k → some (val st' k) = d[i]?) ∧
      ∀ k, val st' k = val st k ∨ ∃ i < d.length, f (lo + i) = some k ∧ some (val st' k) = d[i]? := by
  have hp : opPairs (writeOps lanes word (digitsLE lanes v) strb) = pairsAt lo d := (writeOps_pairs lanes word v strb).trans hst
  obtain ⟨h1, h2, h3, h4⟩ := M.attempt _
    (fun o ho => ((writeOps_runs lanes word (digitsLE lanes v) strb (digitsLE_length ..)).1 o ho).2.1)
    (by rw [hp]; exact nodup_pairsAt lo d) hg h
  rw [hp] at h2 h3 h4
  have hmem : ∀ i (hi : i < d.length), (lo + i, d[i]) ∈ pairsAt lo d := fun i hi => mem_pairsAt_iff.2 ⟨i, hi, rfl, by simp [hi]⟩
  refine ⟨h1, ?_, ?_, ?_⟩
  · rw [h2]
    constructor
    · exact fun h i hi => h _ (hmem i hi)
    · intro h p hp
      obtain ⟨i, hi, q1, _⟩ := mem_pairsAt_iff.1 hp
      rw [q1]; exact h i hi
  · intro hok i hi k hk
    rw [h3 hok _ (hmem i hi) k hk, List.getElem?_eq_getElem hi]
  · intro k
    rcases h4 k with h | ⟨p, hp, g1, g2⟩
    · exact .inl h
    · obtain ⟨i, hi, q1, q2⟩ := mem_pairsAt_iff.1 hp
      rw [q1] at g1
      exact .inr ⟨i, hi, g1, by rw [g2, q2]⟩

/-- Reading a bus word. -/
theorem Mapped.load (M : Mapped t good f val) {st : σ} (hg : good st) {lanes word : Nat} (hl : 0 < lanes) :
    ((∀ i < lanes, f (word + i) ≠ none) ∧ ∃ d, t.read word lanes st = (.ok d, st) ∧ d.length = lanes ∧
      ∀ i < lanes, ∀ k, f (word + i) = some k → UInt8.ofNat (fromBytesLE d / 256 ^ i) = val st k) ∨
    ((∃ i < lanes, f (word + i) = none) ∧ ∃ e, t.read word lanes st = (.error e, st)) := by
  by_cases hm : ∀ i < lanes, f (word + i) ≠ none
  · obtain ⟨d, e1, e2, e3⟩ := M.read_ok st word lanes hg hl hm
    refine .inl ⟨hm, d, e1, e2, ?_⟩
    intro i hi k hk
    have := e3 i hi k hk
    rw [digit_fromBytesLE]
    simp only [this]
    rfl
  · have hm' : ∃ i < lanes, f (word + i) = none := by
      apply Classical.byContradiction
      intro hn
      exact hm fun i hi h => hn ⟨i, hi, h⟩
    exact .inr ⟨hm', M.read_fail st word lanes hg hl hm'⟩

end Verif
