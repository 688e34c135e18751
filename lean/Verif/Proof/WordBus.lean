import Verif.Model.WordBus
import Verif.Proof.AxiE2E

/-!
# The word data path: closed forms
-/

namespace Verif.Word
open Verif.Axi (Geo gBox gWord gLo gHi gCycles beat_bounds gBox_succ gBox_dvd gLo_succ gLo_zero gHi_last beat_start
  beat_stop gCycles_zero ramWord ramWord_byte performOps_attempt attempt toBytes_little foldResp_okay strobeVal strobeVal_bit)

variable (c : Cfg) (cmd : Cmd) (data : Bytes)

theorem geo (h : 0 < c.lanes) : Geo c.lanes c.lanes cmd.address cmd.length := ⟨h, h, Nat.dvd_refl _⟩

/-- Word, first byte and end of the bytes of transfer `k`. -/
def boxOf (k : Nat) : Nat := gBox c.lanes cmd.address k
def loOf (k : Nat) : Nat := gLo c.lanes cmd.address k
def hiOf (k : Nat) : Nat := gHi c.lanes cmd.address cmd.length k
/-- The bytes of transfer `k`. -/
def bytesOf (k : Nat) : Bytes := (data.drop (loOf c cmd k - cmd.address)).take (hiOf c cmd k - loOf c cmd k)

theorem cycles_eq : cycles c cmd = gCycles c.lanes cmd.address cmd.length := rfl

theorem word_self (k : Nat) : gWord c.lanes c.lanes cmd.address k = boxOf c cmd k := by
  unfold gWord
  exact Nat.div_mul_cancel (gBox_dvd _ _ _)

theorem startLane_eq (h : 0 < c.lanes) (k : Nat) : startLane c cmd k = loOf c cmd k - boxOf c cmd k := by
  have := beat_start (geo c cmd h) k
  rw [Nat.mod_eq_zero_of_dvd (gBox_dvd c.lanes cmd.address k), word_self c cmd] at this
  exact this

theorem stopLane_eq (h : 0 < c.lanes) (k : Nat) (hk : k < cycles c cmd) :
    stopLane c cmd k = hiOf c cmd k - boxOf c cmd k := by
  have := beat_stop (geo c cmd h) (k := k) hk
  rw [Nat.mod_eq_zero_of_dvd (gBox_dvd c.lanes cmd.address k), word_self c cmd, Nat.zero_add] at this
  exact this

theorem bounds (h : 0 < c.lanes) (k : Nat) (hk : k < cycles c cmd) :
    boxOf c cmd k ≤ loOf c cmd k ∧ loOf c cmd k ≤ hiOf c cmd k ∧ hiOf c cmd k ≤ boxOf c cmd k + c.lanes ∧
      cmd.address ≤ loOf c cmd k ∧ hiOf c cmd k ≤ cmd.address + cmd.length := by
  have := beat_bounds (geo c cmd h) (k := k) hk
  rw [word_self c cmd] at this
  simp only [boxOf, loOf, hiOf] at this ⊢
  omega

theorem lo_succ (h : 0 < c.lanes) (k : Nat) (hk : k + 1 < cycles c cmd) : loOf c cmd (k + 1) = hiOf c cmd k :=
  gLo_succ (geo c cmd h) hk

theorem hi_last (h : 0 < c.lanes) (k : Nat) (hk : k + 1 = cycles c cmd) :
    hiOf c cmd k = cmd.address + cmd.length := gHi_last (geo c cmd h) hk

theorem lo_zero : loOf c cmd 0 = cmd.address := gLo_zero _ _

theorem box_dvd (k : Nat) : c.lanes ∣ boxOf c cmd k := gBox_dvd _ _ _

theorem endOffset_le (h : 0 < c.lanes) : endOffset c cmd ≤ c.lanes := by
  unfold endOffset
  have := Int.emod_lt_of_pos ((cmd.address : Int) + cmd.length - 1) (show (0 : Int) < c.lanes by omega)
  omega

theorem beatAddr_word (k : Nat) : beatAddr c cmd k / c.lanes * c.lanes = boxOf c cmd k := by
  unfold beatAddr
  by_cases hk : k = 0
  · subst hk; simp [boxOf, gBox]
  · rw [if_neg hk]
    exact Nat.div_mul_cancel (gBox_dvd c.lanes cmd.address k)

/-- The strobe mask of the last transfer. -/
def strbE : Nat := c.mask >>> (c.lanes - endOffset c cmd)

theorem strbEnd_ok (h : 0 < c.lanes) : strbEnd c cmd = .ok (strbE c cmd) := by
  unfold strbEnd
  rw [if_neg (by have := endOffset_le c cmd h; omega)]
  rfl

theorem strbLane_bit (h : 0 < c.lanes) (k i : Nat) :
    (strbLane c cmd k (strbE c cmd)).testBit i = decide (startLane c cmd k ≤ i ∧ i < stopLane c cmd k) := by
  have he := endOffset_le c cmd h
  have hs : startOffset c cmd < c.lanes := Nat.mod_lt _ h
  unfold strbLane strbE strbStart startLane stopLane Cfg.mask
  simp only
  rw [Bool.eq_iff_iff]
  by_cases h0 : k = 0
  · by_cases h1 : k = cycles c cmd - 1
    · simp only [if_pos h0, if_pos h1, Nat.testBit_and, Nat.testBit_shiftLeft, Nat.testBit_shiftRight, testBit_mask,
        Bool.and_eq_true, decide_eq_true_eq]
      omega
    · simp only [if_pos h0, if_neg h1, Nat.testBit_and, Nat.testBit_shiftLeft, testBit_mask,
        Bool.and_eq_true, decide_eq_true_eq]
      omega
  · by_cases h1 : k = cycles c cmd - 1
    · simp only [if_neg h0, if_pos h1, Nat.testBit_and, Nat.testBit_shiftRight, testBit_mask,
        Bool.and_eq_true, decide_eq_true_eq]
      omega
    · simp only [if_neg h0, if_neg h1, testBit_mask, decide_eq_true_eq]
      omega

theorem bytesOf_length (h : 0 < c.lanes) (hlen : data.length = cmd.length) (k : Nat) (hk : k < cycles c cmd) :
    (bytesOf c cmd data k).length = hiOf c cmd k - loOf c cmd k := by
  have := bounds c cmd h k hk
  simp only [bytesOf, List.length_take, List.length_drop]
  omega

/-- Transfer `k` of a write. -/
def xAt (k : Nat) : WXfer :=
  { addr := beatAddr c cmd k, prot := cmd.prot
    data := fromBytesLE (List.replicate (startLane c cmd k) 0 ++ bytesOf c cmd data k)
    strb := strbLane c cmd k (strbE c cmd) }

theorem writeLoop_spec (h : 0 < c.lanes) (hlen : data.length = cmd.length) (rem k off : Nat) (out : List WXfer)
    (hk : k + rem = cycles c cmd) (hoff : 0 < rem → off = loOf c cmd k - cmd.address) :
    writeLoop c cmd data (strbE c cmd) rem off out = .ok (out ++ (List.range' k rem).map (xAt c cmd data)) := by
  induction rem generalizing k off out with
  | zero => simp [writeLoop]
  | succ rem ih =>
    have hb := bounds c cmd h k (by omega)
    have hidx : cycles c cmd - (rem + 1) = k := by omega
    simp only [writeLoop, hidx]
    have e : stopLane c cmd k - startLane c cmd k = hiOf c cmd k - loOf c cmd k := by
      rw [startLane_eq c cmd h, stopLane_eq c cmd h k (by omega)]; omega
    rw [e, hoff (by omega), packLanes_lanes _ _ _ _ (by omega)]
    simp only
    rw [ih (k + 1) _ _ (by omega) (by
      intro hr
      have : loOf c cmd (k + 1) = hiOf c cmd k := lo_succ c cmd h k (by omega)
      rw [this]; omega)]
    simp only [List.range'_succ, List.map_cons, List.append_assoc, List.singleton_append]
    rfl

/-- **Closed form of the write transfers.** -/
theorem writeXfers_spec (h : 0 < c.lanes) (hlen : data.length = cmd.length) :
    writeXfers c cmd data = .ok ((List.range (cycles c cmd)).map (xAt c cmd data)) := by
  unfold writeXfers
  rw [strbEnd_ok c cmd h]
  simp only
  rw [writeLoop_spec c cmd data h hlen _ 0 0 [] (by omega) (by intro _; rw [lo_zero]; omega)]
  simp [List.range_eq_range']

theorem strobed_xAt (h : 0 < c.lanes) (hlen : data.length = cmd.length) (k : Nat) (hk : k < cycles c cmd) :
    strobed c.lanes (boxOf c cmd k) (xAt c cmd data k).data (xAt c cmd data k).strb =
      pairsAt (loOf c cmd k) (bytesOf c cmd data k) := by
  have hb := bounds c cmd h k hk
  have hl := bytesOf_length c cmd data h hlen k hk
  have hst := startLane_eq c cmd h k
  have hsp := stopLane_eq c cmd h k hk
  have := strobed_run c.lanes (boxOf c cmd k) (xAt c cmd data k).strb (startLane c cmd k) (bytesOf c cmd data k)
    (by omega) (by
      intro i hi
      simp only [xAt]
      rw [strbLane_bit c cmd h, decide_eq_decide]
      omega)
  simp only [xAt] at this ⊢
  rw [this]
  congr 1
  omega

theorem xAt_data_lt (h : 0 < c.lanes) (hlen : data.length = cmd.length) (k : Nat) (hk : k < cycles c cmd) :
    (xAt c cmd data k).data < 256 ^ c.lanes := by
  have hb := bounds c cmd h k hk
  have hl := bytesOf_length c cmd data h hlen k hk
  have hst := startLane_eq c cmd h k
  refine Nat.lt_of_lt_of_le (fromBytesLE_lt _) (Nat.pow_le_pow_right (by omega) ?_)
  rw [List.length_append, List.length_replicate, hl]
  omega

/-- The assignments of the transfers `k, ..., cycles - 1`. -/
theorem pairs_all (h : 0 < c.lanes) (hlen : data.length = cmd.length) (r k : Nat) (hk : k + r = cycles c cmd) (hr : 0 < r) :
    ((List.range' k r).flatMap fun j => pairsAt (loOf c cmd j) (bytesOf c cmd data j)) =
      pairsAt (loOf c cmd k) (data.drop (loOf c cmd k - cmd.address)) := by
  induction r generalizing k with
  | zero => omega
  | succ r ih =>
    have hl := bytesOf_length c cmd data h hlen k (by omega)
    have hb := bounds c cmd h k (by omega)
    have e : data.drop (loOf c cmd k - cmd.address) =
        bytesOf c cmd data k ++ data.drop (hiOf c cmd k - cmd.address) := by
      simp only [bytesOf]
      conv => lhs; rw [← List.take_append_drop (hiOf c cmd k - loOf c cmd k) (data.drop (loOf c cmd k - cmd.address))]
      rw [List.drop_drop]
      congr 2
      omega
    rw [e, pairsAt_append, hl]
    simp only [List.range'_succ, List.flatMap_cons]
    congr 1
    have hsum : loOf c cmd k + (hiOf c cmd k - loOf c cmd k) = hiOf c cmd k := by omega
    rw [hsum]
    by_cases h0 : r = 0
    · subst h0
      have hh : hiOf c cmd k = cmd.address + cmd.length := hi_last c cmd h k (by omega)
      rw [hh, List.drop_eq_nil_of_le (by omega)]
      rfl
    · have hlo : loOf c cmd (k + 1) = hiOf c cmd k := lo_succ c cmd h k (by omega)
      have := ih (k + 1) (by omega) (by omega)
      rw [hlo] at this
      exact this

theorem pairs_write (h : 0 < c.lanes) (hlen : data.length = cmd.length) :
    ((List.range (cycles c cmd)).flatMap fun j => pairsAt (loOf c cmd j) (bytesOf c cmd data j)) =
      pairsAt cmd.address data := by
  by_cases hz : cycles c cmd = 0
  · have hN := gCycles_zero (nb := c.lanes) (A := cmd.address) (N := cmd.length) h hz
    have : data = [] := List.length_eq_zero_iff.1 (by omega)
    subst this
    rw [hz]; rfl
  · rw [List.range_eq_range', pairs_all c cmd data h hlen _ 0 (by omega) (by omega)]
    simp only [lo_zero, Nat.sub_self, List.drop_zero]

/-! ## The slave -/

/-- The assignments that a write transfer stands for. -/
def xPairs (lanes : Nat) (sp : Bool) (x : WXfer) : List (Nat × UInt8) :=
  strobed lanes (x.addr / lanes * lanes) x.data (if sp then x.strb else 2 ^ lanes - 1)

/-- A RAM serving any write transfers performs exactly the assignments they stand for. -/
theorem slaveWrites_ram (lanes : Nat) (sp : Bool) (xs : List WXfer) (m : Memory) (hm : m.WF) (hs : 0 < m.size)
    (hd : ∀ x ∈ xs, x.data < 256 ^ lanes)
    (hfit : lanes ∣ m.size ∨ ∀ p ∈ xs.flatMap (xPairs lanes sp), p.1 < m.size) :
    ∃ m', slaveWrites ramTarget lanes sp xs m = (.ok (xs.map fun _ => .okay), m') ∧ m'.WF ∧ m'.size = m.size ∧
      m'.contents = m.contents.puts (modPairs m.size (xs.flatMap (xPairs lanes sp))) := by
  induction xs generalizing m with
  | nil => exact ⟨m, rfl, hm, rfl, by simp [modPairs, FlatMem.puts]⟩
  | cons x xs ih =>
    obtain ⟨m1, e1, e2, e3, e4⟩ := writeWord_ram lanes (x.addr / lanes) x.data
      (if sp then x.strb else 2 ^ lanes - 1) m hm hs (by
        rcases hfit with h | h
        · exact .inl h
        · exact .inr fun p hp => h p (by simp only [List.flatMap_cons, List.mem_append]; exact .inl hp))
    obtain ⟨m2, f1, f2, f3, f4⟩ := ih m1 e2 (by omega) (fun x hx => hd x (by simp [hx])) (by
      rw [e3]
      rcases hfit with h | h
      · exact .inl h
      · exact .inr fun p hp => h p (by simp only [List.flatMap_cons, List.mem_append]; exact .inr hp))
    refine ⟨m2, ?_, f2, by omega, ?_⟩
    · simp only [slaveWrites, slaveWrite, toBytes_little lanes x.data (hd x (by simp)), e1, f1, List.map_cons]
    · rw [f4, e4, e3, List.flatMap_cons, modPairs_append, puts_append]
      rfl

/-! ## Reads -/

/-- The bytes extracted from the responses of transfers `k, k+1, ...`. -/
def collect : Nat → List (Nat × Resp) → Bytes
  | _, [] => []
  | k, r :: rs => unpackLanes r.1 (startLane c cmd k) (stopLane c cmd k) ++ collect (k + 1) rs

theorem readLoop_spec (rem k : Nat) (rs rest : List (Nat × Resp)) (d : Bytes) (resp : Resp)
    (hk : k + rem = cycles c cmd) (hl : rs.length = rem) :
    readLoop c cmd rem (rs ++ rest) d resp =
      some (d ++ collect c cmd k rs, foldResp resp (rs.map (·.2)), rest) := by
  induction rem generalizing k rs d resp with
  | zero =>
    have : rs = [] := List.length_eq_zero_iff.1 hl
    subst this
    simp [readLoop, collect, foldResp]
  | succ rem ih =>
    cases rs with
    | nil => simp at hl
    | cons r rs =>
      have hidx : cycles c cmd - (rem + 1) = k := by omega
      simp only [List.cons_append, readLoop, hidx]
      rw [ih (k + 1) rs _ _ (by omega) (by simpa using hl)]
      simp only [collect, List.map_cons, foldResp, List.append_assoc]

theorem readLoop_none (rem : Nat) (rs : List (Nat × Resp)) (d : Bytes) (resp : Resp) (hl : rs.length < rem) :
    readLoop c cmd rem rs d resp = none := by
  induction rem generalizing rs d resp with
  | zero => omega
  | succ rem ih =>
    cases rs with
    | nil => rfl
    | cons r rs => simp only [readLoop]; exact ih _ _ _ (by simpa using hl)

theorem readResult_spec (rs rest : List (Nat × Resp)) (hl : rs.length = cycles c cmd) :
    readResult c cmd (rs ++ rest) = some (collect c cmd 0 rs, foldResp .okay (rs.map (·.2)), rest) := by
  unfold readResult
  rw [readLoop_spec c cmd (cycles c cmd) 0 rs rest [] .okay (by omega) hl]
  simp

theorem slaveReads_ram (lanes : Nat) (xs : List RXfer) (m : Memory) (hm : m.WF) (hs : 0 < m.size) :
    slaveReads ramTarget lanes xs m = (xs.map fun x => (ramWord lanes m (x.addr / lanes * lanes), .okay), m) := by
  induction xs with
  | nil => rfl
  | cons x xs ih =>
    obtain ⟨d, e1, e2, e3⟩ := ramTarget_read lanes (x.addr / lanes * lanes) m hm hs
    simp only [slaveReads, slaveRead, e1, ih, List.map_cons, ramWord]

/-- The number of the transfer that carries address `x`. -/
def beatOf (x : Nat) : Nat := x / c.lanes - cmd.address / c.lanes

theorem beatOf_eq (h : 0 < c.lanes) (k x : Nat) (hk : k < cycles c cmd) (h1 : loOf c cmd k ≤ x) (h2 : x < hiOf c cmd k) :
    x / c.lanes * c.lanes = boxOf c cmd k ∧ beatOf c cmd x = k := by
  have hb := bounds c cmd h k hk
  have hq : boxOf c cmd k = (cmd.address / c.lanes + k) * c.lanes := by
    simp only [boxOf, gBox, Nat.add_mul]
  have : x / c.lanes = cmd.address / c.lanes + k := by
    apply Nat.div_eq_of_lt_le
    · omega
    · rw [Nat.add_mul, Nat.one_mul]; omega
  refine ⟨by rw [this, hq], ?_⟩
  simp only [beatOf, this, Nat.add_sub_cancel_left]

/-- Reading with a memory `M j` for every transfer `j`. -/
theorem collect_vals (h : 0 < c.lanes) (M : Nat → Memory) (size : Nat) (hm : ∀ j < cycles c cmd, (M j).WF ∧ (M j).size = size)
    (hs : 0 < size) (hfit : c.lanes ∣ size ∨ cmd.address + cmd.length ≤ size) (r k : Nat) (hk : k + r = cycles c cmd)
    (hr : 0 < r) :
    collect c cmd k ((List.range' k r).map fun j => (ramWord c.lanes (M j) (boxOf c cmd j), Resp.okay)) =
      (List.range' (loOf c cmd k) (cmd.address + cmd.length - loOf c cmd k)).map
        fun x => (M (beatOf c cmd x)).contents (x % size) := by
  induction r generalizing k with
  | zero => omega
  | succ r ih =>
    have hb := bounds c cmd h k (by omega)
    have hst := startLane_eq c cmd h k
    have hsp := stopLane_eq c cmd h k (by omega)
    have hmk := hm k (by omega)
    simp only [List.range'_succ, List.map_cons, collect]
    have e1 : unpackLanes (ramWord c.lanes (M k) (boxOf c cmd k)) (startLane c cmd k) (stopLane c cmd k) =
        (List.range' (loOf c cmd k) (hiOf c cmd k - loOf c cmd k)).map
          fun x => (M (beatOf c cmd x)).contents (x % size) := by
      rw [unpackLanes_eq, hst, hsp,
        show hiOf c cmd k - boxOf c cmd k - (loOf c cmd k - boxOf c cmd k) = hiOf c cmd k - loOf c cmd k by omega]
      apply List.ext_getElem
      · simp
      · intro i h1 h2
        simp only [List.length_map, List.length_range'] at h1
        simp only [List.getElem_map, List.getElem_range', Nat.one_mul]
        have hx := ramWord_byte c.lanes (loOf c cmd k + i) (M k) hmk.1 (by omega) h (by
          rw [hmk.2]
          rcases hfit with hf | hf
          · exact .inl hf
          · exact .inr (by omega))
        obtain ⟨hw, hbt⟩ := beatOf_eq c cmd h k (loOf c cmd k + i) (by omega) (by omega) (by omega)
        have hmod : (loOf c cmd k + i) % c.lanes = loOf c cmd k - boxOf c cmd k + i := by
          rw [Axi.mod_eq_sub_word, hw]; omega
        rw [hw, hmod, hmk.2] at hx
        rw [hbt]
        exact hx
    rw [e1]
    by_cases h0 : r = 0
    · subst h0
      have hh : hiOf c cmd k = cmd.address + cmd.length := hi_last c cmd h k (by omega)
      rw [← hh]
      simp [collect]
    · have hlo : loOf c cmd (k + 1) = hiOf c cmd k := lo_succ c cmd h k (by omega)
      rw [ih (k + 1) (by omega) (by omega), hlo, ← List.map_append]
      congr 1
      have := List.range'_append_1 (s := loOf c cmd k) (m := hiOf c cmd k - loOf c cmd k)
        (n := cmd.address + cmd.length - hiOf c cmd k)
      rw [show loOf c cmd k + (hiOf c cmd k - loOf c cmd k) = hiOf c cmd k by omega] at this
      rw [this]
      congr 1
      omega

theorem collect_val (h : 0 < c.lanes) (m : Memory) (hm : m.WF) (hs : 0 < m.size)
    (hfit : c.lanes ∣ m.size ∨ cmd.address + cmd.length ≤ m.size) (r k : Nat) (hk : k + r = cycles c cmd) (hr : 0 < r) :
    collect c cmd k ((List.range' k r).map fun j => (ramWord c.lanes m (boxOf c cmd j), Resp.okay)) =
      (List.range' (loOf c cmd k) (cmd.address + cmd.length - loOf c cmd k)).map fun x => m.contents (x % m.size) :=
  collect_vals c cmd h (fun _ => m) m.size (fun _ _ => ⟨hm, rfl⟩) hs hfit r k hk hr

theorem read_ram (h : 0 < c.lanes) (m : Memory) (hm : m.WF) (hs : 0 < m.size)
    (hfit : c.lanes ∣ m.size ∨ cmd.address + cmd.length ≤ m.size) (rest : List (Nat × Resp)) :
    readResult c cmd ((slaveReads ramTarget c.lanes (readXfers c cmd) m).1 ++ rest) =
      some ((List.range cmd.length).map fun i => m.contents ((cmd.address + i) % m.size), .okay, rest) := by
  rw [slaveReads_ram _ _ _ hm hs]
  simp only
  have hl : ((readXfers c cmd).map fun x => (ramWord c.lanes m (x.addr / c.lanes * c.lanes), Resp.okay)).length =
      cycles c cmd := by simp [readXfers]
  rw [readResult_spec c cmd _ _ hl]
  have hmap : ((readXfers c cmd).map fun x => (ramWord c.lanes m (x.addr / c.lanes * c.lanes), Resp.okay)) =
      (List.range' 0 (cycles c cmd)).map fun j => (ramWord c.lanes m (boxOf c cmd j), Resp.okay) := by
    simp only [readXfers, List.map_map, List.range_eq_range']
    apply List.map_congr_left
    intro k _
    simp only [Function.comp, beatAddr_word c cmd k]
  rw [hmap]
  have hr : foldResp .okay (((List.range' 0 (cycles c cmd)).map
      fun j => (ramWord c.lanes m (boxOf c cmd j), Resp.okay)).map (·.2)) = .okay := by
    apply foldResp_okay
    intro r hr
    simp only [List.map_map, List.mem_map, Function.comp] at hr
    obtain ⟨_, _, rfl⟩ := hr
    rfl
  rw [hr]
  congr 2
  by_cases hz : cycles c cmd = 0
  · have hN := gCycles_zero (nb := c.lanes) (A := cmd.address) (N := cmd.length) h hz
    rw [hz, hN]; rfl
  · rw [collect_val c cmd h m hm hs hfit _ 0 (by omega) (by omega)]
    simp only [lo_zero, Nat.add_sub_cancel_left, List.range'_eq_map_range, List.map_map]
    rfl

end Verif.Word
