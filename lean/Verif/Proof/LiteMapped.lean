import Verif.Proof.Mapped
import Verif.Proof.WordBus
import Verif.Proof.AxiSysMapped

/-!
# Single transfers of the word buses on a target with an address map
-/

namespace Verif.Word

open Axi (gBox gLo gHi gWord gCycles)

variable (c : Cfg) (cmd : Cmd) (data : Bytes)

/-- The addresses of transfer `k`. -/
theorem xfer_bytes (h : 0 < c.lanes) (k : Nat) (hk : k < cycles c cmd) (y : Nat) :
    (loOf c cmd k ≤ y ∧ y < hiOf c cmd k) ↔
      (cmd.address ≤ y ∧ y < cmd.address + cmd.length ∧ y / c.lanes = cmd.address / c.lanes + k) := by
  have hb := bounds c cmd h k hk
  have hq : boxOf c cmd k = (cmd.address / c.lanes + k) * c.lanes := by
    simp only [boxOf, gBox, Nat.add_mul]
  constructor
  · rintro ⟨h1, h2⟩
    refine ⟨by omega, by omega, ?_⟩
    apply Nat.div_eq_of_lt_le
    · omega
    · rw [Nat.add_mul, Nat.one_mul]; omega
  · rintro ⟨h1, h2, h3⟩
    have h4 := Axi.gBox_succ c.lanes cmd.address k
    have h5 : boxOf c cmd k ≤ y := by
      rw [hq, ← h3]; exact Axi.div_mul_le y c.lanes
    have h6 : y < boxOf c cmd k + c.lanes := by
      rw [hq, ← h3]
      have := Nat.div_add_mod y c.lanes
      have := Nat.mod_lt y h
      rw [Nat.mul_comm]
      omega
    simp only [boxOf] at h5 h6
    simp only [loOf, hiOf, gLo, gHi]
    omega

theorem lo_lt_hi (h : 0 < c.lanes) (h0 : 0 < cmd.length) (k : Nat) (hk : k < cycles c cmd) : loOf c cmd k < hiOf c cmd k := by
  have h1 := Axi.gCycles_tight c.lanes cmd.address cmd.length k h hk
  have h4 := Axi.gAl_lt c.lanes cmd.address h
  have h5 := Axi.gBox_succ c.lanes cmd.address k
  have h6 := Axi.gBox_mono c.lanes cmd.address (Nat.zero_le k)
  rw [Axi.gBox_zero] at h6
  simp only [loOf, gLo, hiOf, gHi]
  omega

/-- The bytes extracted from responses with the data `rd`. -/
theorem collect_rd (h : 0 < c.lanes) (rd : Nat → Nat × Resp) (r k : Nat) (hk : k + r = cycles c cmd) (hr : 0 < r) :
    collect c cmd k ((List.range' k r).map rd) =
      (List.range' (loOf c cmd k) (cmd.address + cmd.length - loOf c cmd k)).map
        fun x => UInt8.ofNat ((rd (beatOf c cmd x)).1 / 256 ^ (x % c.lanes)) := by
  induction r generalizing k with
  | zero => omega
  | succ r ih =>
    have hb := bounds c cmd h k (by omega)
    have hst := startLane_eq c cmd h k
    have hsp := stopLane_eq c cmd h k (by omega)
    simp only [List.range'_succ, List.map_cons, collect]
    have e1 : unpackLanes (rd k).1 (startLane c cmd k) (stopLane c cmd k) =
        (List.range' (loOf c cmd k) (hiOf c cmd k - loOf c cmd k)).map
          fun x => UInt8.ofNat ((rd (beatOf c cmd x)).1 / 256 ^ (x % c.lanes)) := by
      rw [unpackLanes_eq, hst, hsp,
        show hiOf c cmd k - boxOf c cmd k - (loOf c cmd k - boxOf c cmd k) = hiOf c cmd k - loOf c cmd k by omega]
      apply List.ext_getElem
      · simp
      · intro i h1 h2
        simp only [List.length_map, List.length_range'] at h1
        simp only [List.getElem_map, List.getElem_range', Nat.one_mul]
        obtain ⟨hw, hbt⟩ := beatOf_eq c cmd h k (loOf c cmd k + i) (by omega) (by omega) (by omega)
        have hmod : (loOf c cmd k + i) % c.lanes = loOf c cmd k - boxOf c cmd k + i := by
          rw [Axi.mod_eq_sub_word, hw]; omega
        rw [hbt, hmod]
    rw [e1]
    by_cases h0 : r = 0
    · subst h0
      have hh : hiOf c cmd k = cmd.address + cmd.length := hi_last c cmd h k (by omega)
      rw [← hh]
      simp [collect]
    · have hlo : loOf c cmd (k + 1) = hiOf c cmd k := lo_succ c cmd h k (by omega)
      rw [ih (k + 1) (by omega) (by omega), hlo, ← List.map_append]
      congr 1
      have := List.range'_append_1 (s := loOf c cmd k) (m := hiOf c cmd k - loOf c cmd k)
        (n := cmd.address + cmd.length - hiOf c cmd k)
      rw [show loOf c cmd k + (hiOf c cmd k - loOf c cmd k) = hiOf c cmd k by omega] at this
      rw [this]
      congr 1
      omega

variable {σ κ : Type} {t : Target σ} {good : σ → Prop} {f : Nat → Option κ} {val : σ → κ → UInt8}

/-- A write transfer. -/
theorem slaveWrite_mapped (M : Mapped t good f val) (h : 0 < c.lanes) (hlen : data.length = cmd.length) (k : Nat)
    (hk : k < cycles c cmd) {st : σ} (hg : good st) :
    ∃ r st', slaveWrite t c.lanes true (xAt c cmd data k) st = (.ok r, st') ∧ good st' ∧ (r = .okay ∨ r = .slverr) ∧
      (r = .okay ↔ ∀ y, loOf c cmd k ≤ y → y < hiOf c cmd k → f y ≠ none) ∧
      (r = .okay → ∀ y, loOf c cmd k ≤ y → y < hiOf c cmd k → ∀ x, f y = some x → some (val st' x) = data[y - cmd.address]?) ∧
      ∀ x, val st' x = val st x ∨ ∃ y, loOf c cmd k ≤ y ∧ y < hiOf c cmd k ∧ f y = some x ∧
        some (val st' x) = data[y - cmd.address]? := by
  have hb := bounds c cmd h k hk
  have hbl := bytesOf_length c cmd data h hlen k hk
  have hget : ∀ i, i < (bytesOf c cmd data k).length → (bytesOf c cmd data k)[i]? = data[loOf c cmd k + i - cmd.address]? := by
    intro i hi
    rw [hbl] at hi
    simp only [bytesOf]
    rw [List.getElem?_take, if_pos (by omega), List.getElem?_drop]
    congr 1
    omega
  have hbox : (xAt c cmd data k).addr / c.lanes * c.lanes = boxOf c cmd k := beatAddr_word c cmd k
  have hst := strobed_xAt c cmd data h hlen k hk
  have htb := Axi.toBytes_little c.lanes _ (xAt_data_lt c cmd data h hlen k hk)
  have hp := Axi.performOps_attempt t (writeOps c.lanes (boxOf c cmd k) (digitsLE c.lanes (xAt c cmd data k).data)
    (xAt c cmd data k).strb) st
  rcases ha : Axi.attempt t.write (writeOps c.lanes (boxOf c cmd k) (digitsLE c.lanes (xAt c cmd data k).data)
    (xAt c cmd data k).strb) st with ⟨ok, st'⟩
  rw [ha] at hp
  obtain ⟨h1, h2, h3, h4⟩ := M.word hst hg ha
  have hsw : slaveWrite t c.lanes true (xAt c cmd data k) st = (.ok (if ok then .okay else .slverr), st') := by
    simp only [slaveWrite, if_true, htb, hbox]
    rcases hpe : performOps t (writeOps c.lanes (boxOf c cmd k) (digitsLE c.lanes (xAt c cmd data k).data)
      (xAt c cmd data k).strb) st with ⟨r, st''⟩
    rw [hpe] at hp
    obtain ⟨p1, p2⟩ := hp
    simp only at p1 p2
    cases r with
    | ok u =>
      cases u
      simp only [p2.2 rfl, p1, if_true]
    | error e =>
      have : ok = false := by
        cases ok with
        | true => have := p2.1 rfl; cases this
        | false => rfl
      subst this
      simp only [p1, Bool.false_eq_true, if_false]
  refine ⟨_, st', hsw, h1, by cases ok <;> simp, ?_, ?_, ?_⟩
  · rw [show ((if ok = true then Resp.okay else Resp.slverr) = .okay ↔ ok = true) by cases ok <;> simp, h2]
    constructor
    · intro h y y1 y2
      have := h (y - loOf c cmd k) (by omega)
      rwa [show loOf c cmd k + (y - loOf c cmd k) = y by omega] at this
    · intro h i hi
      exact h _ (by omega) (by omega)
  · intro hok y y1 y2 x hx
    have hok' : ok = true := by cases ok <;> simp_all
    have := h3 hok' (y - loOf c cmd k) (by omega) x (by
      rwa [show loOf c cmd k + (y - loOf c cmd k) = y by omega])
    rw [this, hget _ (by omega), show loOf c cmd k + (y - loOf c cmd k) = y by omega]
  · intro x
    rcases h4 x with h | ⟨i, hi, g1, g2⟩
    · exact .inl h
    · refine .inr ⟨_, by omega, by omega, g1, ?_⟩
      rw [g2, hget i hi]

theorem fromBytesLE_zeros (n : Nat) : fromBytesLE (List.replicate n 0) = 0 := by
  induction n with
  | zero => rfl
  | succ n ih => simp [List.replicate_succ, fromBytesLE, ih]

/-- A read transfer. -/
theorem slaveRead_mapped (M : Mapped t good f val) (h : 0 < c.lanes) (x : RXfer) {st : σ} (hg : good st) :
    ∃ r, slaveRead t c.lanes x st = (r, st) ∧
    (((∀ i < c.lanes, f (x.addr / c.lanes * c.lanes + i) ≠ none) ∧ r.2 = .okay ∧
      ∀ i < c.lanes, ∀ y, f (x.addr / c.lanes * c.lanes + i) = some y → UInt8.ofNat (r.1 / 256 ^ i) = val st y) ∨
     ((∃ i < c.lanes, f (x.addr / c.lanes * c.lanes + i) = none) ∧ r.2 = .slverr ∧ r.1 = 0)) := by
  rcases M.load hg (word := x.addr / c.lanes * c.lanes) h with ⟨h1, d, h2, h3, h4⟩ | ⟨h1, e, h2⟩
  · exact ⟨(fromBytesLE d, .okay), by simp only [slaveRead, h2], .inl ⟨h1, rfl, h4⟩⟩
  · exact ⟨(fromBytesLE (List.replicate c.lanes 0), .slverr), by simp only [slaveRead, h2], .inr ⟨h1, rfl, fromBytesLE_zeros _⟩⟩

end Verif.Word
