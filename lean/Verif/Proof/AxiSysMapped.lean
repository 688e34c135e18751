import Verif.Proof.Mapped
import Verif.Proof.AxiSysRam
import Verif.Props.AxiSystem

/-!
# A connected AXI system whose target has an address map
-/

namespace Verif.AxiSys

open Verif.Axi Verif.AxiOps Verif.AxiOps.Master

variable {σ κ : Type} {t : Target σ} {good : σ → Prop} {f : Nat → Option κ} {val : σ → κ → UInt8}

/-- The bytes of a beat. -/
theorem beat_bytes {c : Cfg} {cmd : Cmd} (h : CmdOK c cmd) {K : Nat} (hK : K < cyclesOf cmd) (y : Nat) :
    (loAt cmd K ≤ y ∧ y < hiAt cmd K) ↔
      (cmd.address ≤ y ∧ y < cmd.address + cmd.length ∧ y / 2 ^ cmd.size = cmd.address / 2 ^ cmd.size + K) := by
  obtain ⟨b1, b2, b3, b4, b5, b6, b7⟩ := beat_bounds h.geo hK
  constructor
  · rintro ⟨h1, h2⟩
    have b3' : cmd.address ≤ loAt cmd K := b3
    have hg := gBox_succ (2 ^ cmd.size) cmd.address K
    have hlt : y < cmd.address + cmd.length := by
      simp only [hiAt, gHi] at h2; omega
    have h3 : gBox (2 ^ cmd.size) cmd.address K ≤ y := by simp only [loAt, gLo] at h1; omega
    have h4 : y < gBox (2 ^ cmd.size) cmd.address K + 2 ^ cmd.size := by simp only [hiAt, gHi] at h2; omega
    have hn := beatNo_eq h3 h4
    have := (beatNo_spec h (x := y) (by omega) hlt).2.2.2
    rw [hn] at this
    exact ⟨by omega, hlt, this⟩
  · rintro ⟨h1, h2, h3⟩
    obtain ⟨c1, c2, c3, c4⟩ := beatNo_spec h h1 h2
    have : beatNo cmd y = K := by omega
    rw [this] at c2 c3
    exact ⟨c2, c3⟩

/-- Every beat of a non-empty request carries a byte. -/
theorem lo_lt_hi {c : Cfg} {cmd : Cmd} (h : CmdOK c cmd) (h0 : 0 < cmd.length) {K : Nat} (hK : K < cyclesOf cmd) :
    loAt cmd K < hiAt cmd K := by
  have h1 := gCycles_tight (2 ^ cmd.size) cmd.address cmd.length K h.geo.nbPos hK
  have h4 := gAl_lt (2 ^ cmd.size) cmd.address h.geo.nbPos
  have h5 := gBox_succ (2 ^ cmd.size) cmd.address K
  have h6 := gBox_mono (2 ^ cmd.size) cmd.address (Nat.zero_le K)
  have h7 := h.geo.nbPos
  rw [gBox_zero] at h6
  simp only [loAt, gLo, hiAt, gHi]
  omega

/-- A beat of a write on a target with an address map. -/
theorem wroteBeat_mapped (M : Mapped t good f val) {c : Cfg} {cmd : Cmd} {data : Bytes} {wuser : WUser} (h : CmdOK c cmd)
    (hlen : data.length = cmd.length) (hb : cmd.burst = .incr) {st st' : σ} (hg : good st)
    {u k0 j : Nat} (hk : k0 + j < cyclesOf cmd) {l ok : Bool}
    (hw : WroteBeat c t (aAt c cmd u k0) j (wAt c cmd data wuser (k0 + j) l) st ok st') :
    good st' ∧ (ok = true ↔ ∀ y, loAt cmd (k0 + j) ≤ y → y < hiAt cmd (k0 + j) → f y ≠ none) ∧
      (ok = true → ∀ y, loAt cmd (k0 + j) ≤ y → y < hiAt cmd (k0 + j) → ∀ x, f y = some x →
        some (val st' x) = data[y - cmd.address]?) ∧
      ∀ x, val st' x = val st x ∨ ∃ y, loAt cmd (k0 + j) ≤ y ∧ y < hiAt cmd (k0 + j) ∧ f y = some x ∧
        some (val st' x) = data[y - cmd.address]? := by
  have hbw : beatWord c.lanes (aAt c cmd u k0) j = wordAt c cmd (k0 + j) := by
    simp only [beatWord, beatAddr_aAt c cmd u hb]; rfl
  have hst := strobed_wAt c cmd data wuser h hlen hk l
  have hbl := bytesAt_length c cmd data h hlen hk
  obtain ⟨b1, b2, b3, b4, b5, b6, b7⟩ := beat_bounds h.geo hk
  have b3' : cmd.address ≤ loAt cmd (k0 + j) := b3
  have hget : ∀ i, i < (bytesAt cmd data (k0 + j)).length → (bytesAt cmd data (k0 + j))[i]? = data[loAt cmd (k0 + j) + i - cmd.address]? := by
    intro i hi
    rw [hbl] at hi
    simp only [bytesAt]
    rw [List.getElem?_take, if_pos (by omega), List.getElem?_drop]
    congr 1
    omega
  unfold WroteBeat at hw
  rw [hbw] at hw
  obtain ⟨h1, h2, h3, h4⟩ := M.word hst hg hw
  refine ⟨h1, ?_, ?_, ?_⟩
  · rw [h2]
    constructor
    · intro h y y1 y2
      have := h (y - loAt cmd (k0 + j)) (by omega)
      rwa [show loAt cmd (k0 + j) + (y - loAt cmd (k0 + j)) = y by omega] at this
    · intro h i hi
      exact h _ (by omega) (by omega)
  · intro hok y y1 y2 x hx
    have := h3 hok (y - loAt cmd (k0 + j)) (by omega) x (by
      rwa [show loAt cmd (k0 + j) + (y - loAt cmd (k0 + j)) = y by omega])
    rw [this, hget _ (by omega), show loAt cmd (k0 + j) + (y - loAt cmd (k0 + j)) = y by omega]
  · intro x
    rcases h4 x with h | ⟨i, hi, g1, g2⟩
    · exact .inl h
    · refine .inr ⟨_, by omega, by omega, g1, ?_⟩
      rw [g2, hget i hi]

/-- A beat of a read on a target with an address map. -/
theorem readBeat_mapped (M : Mapped t good f val) {c : Cfg} (hl : 0 < c.lanes) {a : ABeat} {k : Nat} {st st' : σ} {r : RBeat}
    (hg : good st) (h : ReadBeat c t a k st r st') :
    st' = st ∧
    (((∀ i < c.lanes, f (beatWord c.lanes a k + i) ≠ none) ∧ r.resp = .okay ∧
      ∀ i < c.lanes, ∀ x, f (beatWord c.lanes a k + i) = some x → UInt8.ofNat (r.data / 256 ^ i) = val st x) ∨
     ((∃ i < c.lanes, f (beatWord c.lanes a k + i) = none) ∧ r.resp = .slverr ∧ r.data = 0)) := by
  obtain ⟨_, _, h⟩ := h
  rcases M.load hg (word := beatWord c.lanes a k) hl with ⟨h1, d, h2, h3, h4⟩ | ⟨h1, e, h2⟩
  · rw [h2] at h
    obtain ⟨g1, g2, g3⟩ := h
    exact ⟨g3, .inl ⟨h1, g1, by rw [g2]; exact h4⟩⟩
  · rw [h2] at h
    obtain ⟨g1, g2, g3⟩ := h
    exact ⟨g3, .inr ⟨h1, g1, g2⟩⟩

/-- Responses OKAY and SLVERR combine to OKAY or SLVERR. -/
theorem lastNonOkay_two {l : List Resp} (h : ∀ r ∈ l, r = .okay ∨ r = .slverr) : lastNonOkay l = .okay ∨ lastNonOkay l = .slverr := by
  unfold lastNonOkay
  cases hl : (l.filter (· ≠ .okay)).getLast? with
  | none => exact .inl rfl
  | some x =>
    have hm := List.mem_of_getLast? hl
    rw [List.mem_filter] at hm
    rcases h x hm.1 with hx | hx
    · subst hx; simp at hm
    · exact .inr hx

theorem word_of_byte {lanes x y : Nat} (hl : 0 < lanes) : y / lanes = x / lanes ↔ ∃ i < lanes, y = x / lanes * lanes + i := by
  constructor
  · intro h
    refine ⟨y % lanes, Nat.mod_lt _ hl, ?_⟩
    rw [← h, Nat.mul_comm]
    exact (Nat.div_add_mod y lanes).symm
  · rintro ⟨i, hi, rfl⟩
    rw [Nat.mul_comm, Nat.mul_add_div hl, Nat.div_eq_of_lt hi]
    rfl

end Verif.AxiSys
