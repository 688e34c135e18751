import Verif.Proof.AxiGeom

/-!
# Closed form of the master's write and read loops
-/

namespace Verif.Axi

/-- `cur_addr` before beat `k`. -/
def curAt (cmd : Cmd) (k : Nat) : Nat :=
  if cmd.burst = .fixed ∨ k = 0 then cmd.address else gBox (2 ^ cmd.size) cmd.address k

theorem nextAddr_curAt (cmd : Cmd) (k : Nat) : nextAddr cmd k (curAt cmd k) = curAt cmd (k + 1) := by
  simp only [nextAddr, curAt]
  by_cases hf : cmd.burst = .fixed
  · simp [hf]
  · by_cases hk : k = 0
    · subst hk; simp [hf, gBox]
    · simp only [hf, hk, false_or, if_false, Nat.add_eq_zero_iff, Nat.one_ne_zero, and_false]
      rw [gBox_succ]

/-- Burst length chosen at beat `k`. -/
def blAt (c : Cfg) (cmd : Cmd) (k : Nat) : Nat :=
  burstLen c.maxBurstLen (2 ^ cmd.size) (cyclesOf cmd) k (curAt cmd k)

theorem maxBurstLen_bounds (c : Cfg) : 1 ≤ c.maxBurstLen ∧ c.maxBurstLen ≤ 256 := by
  simp only [Cfg.maxBurstLen]; omega

theorem ceil_mul_ge (x nb : Nat) (h : 0 < nb) : x ≤ (x + nb - 1) / nb * nb := by
  have h1 := Nat.div_add_mod (x + nb - 1) nb
  have h2 := Nat.mod_lt (x + nb - 1) h
  rw [Nat.mul_comm] at h1
  omega

theorem ceil_mul_lt (x nb : Nat) (hx : 0 < x) : (x + nb - 1) / nb * nb < x + nb := by
  have h1 := Nat.div_mul_le_self (x + nb - 1) nb
  omega

theorem burstLen_bounds (M nb cycles k cur : Nat) (h : 0 < nb) (hk : k < cycles) :
    1 ≤ burstLen M nb cycles k cur ∧ burstLen M nb cycles k cur ≤ cycles - k ∧
      burstLen M nb cycles k cur ≤ min (max M 1) 256 := by
  have hand : cur &&& 0xfff = cur % 4096 := Nat.and_two_pow_sub_one_eq_mod cur 12
  simp only [burstLen, hand]
  have hx : 0 < min (min (cycles - k) (min (max M 1) 256) * nb) (0x1000 - cur % 4096) := by
    have : 0 < min (cycles - k) (min (max M 1) 256) * nb := Nat.mul_pos (by omega) h
    have := Nat.mod_lt cur (show 4096 > 0 by omega)
    omega
  generalize hX : min (min (cycles - k) (min (max M 1) 256) * nb) (0x1000 - cur % 4096) = X at hx
  have hle : X ≤ min (cycles - k) (min (max M 1) 256) * nb := by omega
  have h1 := ceil_mul_ge X nb h
  have h2 := ceil_mul_lt X nb hx
  have h3 : 1 ≤ (X + nb - 1) / nb := by
    rcases Nat.eq_zero_or_pos ((X + nb - 1) / nb) with h0 | h0
    · rw [h0] at h1; omega
    · omega
  have h4 : (X + nb - 1) / nb < min (cycles - k) (min (max M 1) 256) + 1 := by
    apply Nat.lt_of_mul_lt_mul_right (a := nb)
    rw [Nat.add_mul, Nat.one_mul]
    omega
  omega

/-- A burst stays inside its 4 KiB page. -/
theorem burstLen_4k (M nb cycles k cur : Nat) (h : 0 < nb) (hk : k < cycles) (hd : nb ∣ 4096) :
    cur / nb * nb + burstLen M nb cycles k cur * nb ≤ cur / 4096 * 4096 + 4096 := by
  have hand : cur &&& 0xfff = cur % 4096 := Nat.and_two_pow_sub_one_eq_mod cur 12
  simp only [burstLen, hand]
  have hx : 0 < min (min (cycles - k) (min (max M 1) 256) * nb) (0x1000 - cur % 4096) := by
    have : 0 < min (cycles - k) (min (max M 1) 256) * nb := Nat.mul_pos (by omega) h
    have := Nat.mod_lt cur (show 4096 > 0 by omega)
    omega
  generalize hX : min (min (cycles - k) (min (max M 1) 256) * nb) (0x1000 - cur % 4096) = X at hx
  have hle : X ≤ 0x1000 - cur % 4096 := by omega
  have h2 := ceil_mul_lt X nb hx
  have h3 := Nat.div_mul_le_self cur nb
  have h4 := Nat.div_add_mod cur 4096
  obtain ⟨q, hq⟩ := hd
  have h5 : (cur / nb + (X + nb - 1) / nb) * nb < (cur / 4096 * q + q + 1) * nb := by
    have e : (cur / 4096 * q + q + 1) * nb = cur / 4096 * 4096 + 4096 + nb := by
      rw [Nat.add_mul, Nat.add_mul, Nat.one_mul, Nat.mul_assoc, Nat.mul_comm q nb, ← hq]
    rw [e, Nat.add_mul]
    omega
  have h6 := Nat.lt_of_mul_lt_mul_right h5
  have h7 : cur / nb + (X + nb - 1) / nb ≤ cur / 4096 * q + q := by omega
  have h8 := Nat.mul_le_mul_right nb h7
  have e : (cur / 4096 * q + q) * nb = cur / 4096 * 4096 + 4096 := by
    rw [Nat.add_mul, Nat.mul_assoc, Nat.mul_comm q nb, ← hq]
  rw [e, Nat.add_mul] at h8
  exact h8

/-- Geometry hypotheses of a command: power-of-two bus, size within the bus. -/
structure CmdOK (c : Cfg) (cmd : Cmd) : Prop where
  pow : ∃ w, c.lanes = 2 ^ w ∧ cmd.size ≤ w

theorem CmdOK.geo {c : Cfg} {cmd : Cmd} (h : CmdOK c cmd) : Geo c.lanes (2 ^ cmd.size) cmd.address cmd.length := by
  obtain ⟨w, hw, hs⟩ := h.pow
  refine ⟨Nat.two_pow_pos _, by rw [hw]; exact Nat.two_pow_pos _, ?_⟩
  rw [hw]; exact Nat.pow_dvd_pow 2 hs

theorem cyclesOf_eq (cmd : Cmd) : cyclesOf cmd = gCycles (2 ^ cmd.size) cmd.address cmd.length := rfl

theorem blAt_bounds (c : Cfg) (cmd : Cmd) : ∀ k < cyclesOf cmd, 1 ≤ blAt c cmd k ∧ blAt c cmd k ≤ cyclesOf cmd - k := by
  intro k hk
  have := burstLen_bounds c.maxBurstLen (2 ^ cmd.size) (cyclesOf cmd) k (curAt cmd k) (Nat.two_pow_pos _) hk
  exact ⟨this.1, this.2.1⟩

/-! ## Strobes -/

/-- Lanes of beat `k`: strobe value. -/
def strobeVal (lanes start stop : Nat) : Nat :=
  ((2 ^ lanes - 1) <<< start) &&& (2 ^ lanes - 1) &&& ((2 ^ lanes - 1) >>> (lanes - stop))

theorem strobeVal_bit (lanes start stop i : Nat) (h : stop ≤ lanes) :
    (strobeVal lanes start stop).testBit i = decide (start ≤ i ∧ i < stop) := by
  simp only [strobeVal, Nat.testBit_and, Nat.testBit_shiftLeft, Nat.testBit_shiftRight, testBit_mask]
  rw [Bool.eq_iff_iff]
  simp only [Bool.and_eq_true, decide_eq_true_eq]
  omega

theorem strobe_ok (lanes start stop : Nat) (h : stop ≤ lanes) :
    strobe lanes start stop = .ok (strobeVal lanes start stop) := by
  simp [strobe, show ¬ lanes < stop by omega, strobeVal]

/-! ## The write loop -/

variable (c : Cfg) (cmd : Cmd) (data : Bytes) (wuser : WUser) (awid : Nat)

/-- Word, lanes and bytes of beat `k`. -/
def wordAt (k : Nat) : Nat := gWord c.lanes (2 ^ cmd.size) cmd.address k
def loAt (k : Nat) : Nat := gLo (2 ^ cmd.size) cmd.address k
def hiAt (k : Nat) : Nat := gHi (2 ^ cmd.size) cmd.address cmd.length k
def bytesAt (k : Nat) : Bytes := (data.drop (loAt cmd k - cmd.address)).take (hiAt cmd k - loAt cmd k)

/-- The W transaction of beat `k`. -/
def wAt (k : Nat) (last : Bool) : WBeat :=
  { data := fromBytesLE (List.replicate (loAt cmd k - wordAt c cmd k) 0 ++ bytesAt cmd data k)
    strb := strobeVal c.lanes (loAt cmd k - wordAt c cmd k) (hiAt cmd k - wordAt c cmd k)
    last := last
    user := wuserAt wuser k }

/-- The AW (AR) transaction of a burst starting at beat `k`. -/
def aAt (k : Nat) : ABeat :=
  { id := awid, addr := curAt cmd k, len := blAt c cmd k - 1, size := cmd.size, burst := cmd.burst
    side := cmd.side }

structure WInv (k : Nat) (s : WLoop) : Prop where
  cur : s.curAddr = curAt cmd k
  co : s.cycleOffset = gBox (2 ^ cmd.size) cmd.address k % c.lanes
  off : k < cyclesOf cmd → s.offset = loAt cmd k - cmd.address

theorem writeBeat_spec (h : CmdOK c cmd) (hlen : data.length = cmd.length) (k : Nat) (hk : k < cyclesOf cmd)
    (s : WLoop) (hi : WInv c cmd k s) :
    ∃ s', writeBeat c cmd data wuser awid (cyclesOf cmd) k s = .ok s' ∧ WInv c cmd (k + 1) s' ∧
      s'.burstLength = (if s.n ≥ s.burstLength then blAt c cmd k else s.burstLength) ∧
      s'.n = (if s.n ≥ s.burstLength then 0 else s.n) + 1 ∧
      s'.burstList = (if s.n ≥ s.burstLength then s.burstList ++ [blAt c cmd k] else s.burstList) ∧
      s'.out = s.out ++ (if s.n ≥ s.burstLength then [.inl (aAt c cmd awid k)] else []) ++
        [.inr (wAt c cmd data wuser k (decide (s'.n ≥ s'.burstLength)))] := by
  have g := h.geo
  have hb := beat_bounds g hk
  have hst := beat_start g k
  have hsp := beat_stop g hk
  obtain ⟨b1, b2, b3, b4, b5, b6, b7⟩ := hb
  have hoff := hi.off hk
  unfold writeBeat
  simp only [hi.co, hi.cur, cyclesOf_eq, hlen]
  rw [hst, hsp, strobe_ok _ _ _ (by omega)]
  simp only
  rw [packLanes_lanes _ _ _ _ (by
    rw [hoff, hlen]; simp only [loAt]; omega)]
  simp only
  refine ⟨_, rfl, ⟨?_, ?_, ?_⟩, ?_, ?_, ?_, ?_⟩
  · exact nextAddr_curAt cmd k
  · exact box_mod_step _ _ _ _
  · intro hk1
    simp only [hoff, loAt]
    rw [gLo_succ g hk1]
    omega
  · simp only [decide_eq_true_eq]; rfl
  · simp
  · by_cases hn : s.n ≥ s.burstLength
    · simp only [hn, decide_true, if_true]; rfl
    · simp only [hn, decide_false, Bool.false_eq_true, if_false]
  · have e : gHi (2 ^ cmd.size) cmd.address cmd.length k - gWord c.lanes (2 ^ cmd.size) cmd.address k -
        (gLo (2 ^ cmd.size) cmd.address k - gWord c.lanes (2 ^ cmd.size) cmd.address k) =
        gHi (2 ^ cmd.size) cmd.address cmd.length k - gLo (2 ^ cmd.size) cmd.address k := by omega
    rw [e, hoff]
    by_cases hn : s.n ≥ s.burstLength
    · simp only [hn, decide_true, if_true]; rfl
    · simp only [hn, decide_false, Bool.false_eq_true, if_false]; rfl

/-- The rest of a burst. -/
theorem writeLoop_mid (h : CmdOK c cmd) (hlen : data.length = cmd.length) (r k : Nat) (hk : k + r ≤ cyclesOf cmd)
    (s : WLoop) (hi : WInv c cmd k s) (hn : s.n + r = s.burstLength) :
    ∃ s', writeLoop c cmd data wuser awid (cyclesOf cmd) (cyclesOf cmd - k) s =
        writeLoop c cmd data wuser awid (cyclesOf cmd) (cyclesOf cmd - (k + r)) s' ∧
      WInv c cmd (k + r) s' ∧ s'.n ≥ s'.burstLength ∧ s'.burstList = s.burstList ∧
      s'.out = s.out ++ (List.range' k r).map fun j => .inr (wAt c cmd data wuser j (decide (j + 1 = k + r))) := by
  induction r generalizing k s with
  | zero => exact ⟨s, rfl, hi, by omega, rfl, by simp⟩
  | succ r ih =>
    obtain ⟨s1, e1, e2, e3, e4, e5, e6⟩ := writeBeat_spec c cmd data wuser awid h hlen k (by omega) s hi
    simp only [show ¬ s.n ≥ s.burstLength by omega, if_false] at e3 e4 e5 e6
    obtain ⟨s2, f1, f2, f3, f4, f5⟩ := ih (k + 1) (by omega) s1 e2 (by omega)
    refine ⟨s2, ?_, ?_, f3, by rw [f4, e5], ?_⟩
    · have : cyclesOf cmd - k = (cyclesOf cmd - (k + 1)) + 1 := by omega
      rw [this, writeLoop]
      have hidx : cyclesOf cmd - (cyclesOf cmd - (k + 1) + 1) = k := by omega
      rw [hidx, e1]
      simp only
      rw [f1, show k + (r + 1) = k + 1 + r by omega]
    · rw [show k + (r + 1) = k + 1 + r by omega]; exact f2
    · rw [f5, e6, List.range'_succ, List.map_cons]
      have hd : decide (s1.n ≥ s1.burstLength) = decide (k + 1 = k + (r + 1)) := by
        rw [decide_eq_decide]; omega
      rw [hd]
      simp only [List.append_nil, List.append_assoc, List.singleton_append]
      have : k + 1 + r = k + (r + 1) := by omega
      rw [this]

/-- The transactions of the burst that starts at beat `k`. -/
def burstOut (p : Nat × Nat) : List (ABeat ⊕ WBeat) :=
  .inl (aAt c cmd awid p.1) ::
    (List.range' p.1 p.2).map fun j => .inr (wAt c cmd data wuser j (decide (j + 1 = p.1 + p.2)))

/-- The bursts of the request from beat `k`. -/
def segs (k : Nat) : List (Nat × Nat) := segsFrom (blAt c cmd) (cyclesOf cmd) (cyclesOf cmd - k) k

theorem segs_step (k : Nat) (hk : k < cyclesOf cmd) :
    segs c cmd k = (k, blAt c cmd k) :: segs c cmd (k + blAt c cmd k) :=
  segsFrom_step _ _ (fun k hk => (blAt_bounds c cmd k hk).1) k hk

theorem segs_done : segs c cmd (cyclesOf cmd) = [] := by
  unfold segs; exact segsFrom_done _ _ _ _ (Nat.le_refl _)

theorem writeLoop_spec (h : CmdOK c cmd) (hlen : data.length = cmd.length) :
    ∀ k ≤ cyclesOf cmd, ∀ s : WLoop, WInv c cmd k s → s.n ≥ s.burstLength →
      ∃ s', writeLoop c cmd data wuser awid (cyclesOf cmd) (cyclesOf cmd - k) s = .ok s' ∧
        s'.out = s.out ++ (segs c cmd k).flatMap (burstOut c cmd data wuser awid) ∧
        s'.burstList = s.burstList ++ (segs c cmd k).map (·.2) := by
  refine segs_induction (blAt_bounds c cmd) ?_ ?_
  · intro s hi hn
    refine ⟨s, by simp [writeLoop], ?_, ?_⟩ <;> simp [segs_done]
  · intro k hk ih s hi hn
    obtain ⟨s1, e1, e2, e3, e4, e5, e6⟩ := writeBeat_spec c cmd data wuser awid h hlen k hk s hi
    simp only [hn, if_true] at e3 e4 e5 e6
    have hb := blAt_bounds c cmd k hk
    obtain ⟨s2, f1, f2, f3, f4, f5⟩ := writeLoop_mid c cmd data wuser awid h hlen (blAt c cmd k - 1) (k + 1)
      (by omega) s1 e2 (by omega)
    rw [show k + 1 + (blAt c cmd k - 1) = k + blAt c cmd k by omega] at f1 f2 f5
    obtain ⟨s3, g1, g2, g3⟩ := ih s2 f2 f3
    refine ⟨s3, ?_, ?_, ?_⟩
    · have : cyclesOf cmd - k = (cyclesOf cmd - (k + 1)) + 1 := by omega
      rw [this, writeLoop]
      have hidx : cyclesOf cmd - (cyclesOf cmd - (k + 1) + 1) = k := by omega
      rw [hidx, e1]
      simp only
      rw [f1, g1]
    · rw [g2, f5, e6, segs_step c cmd k hk, List.flatMap_cons]
      have hd : decide (s1.n ≥ s1.burstLength) = decide (k + 1 = k + blAt c cmd k) := by
        rw [decide_eq_decide]; omega
      have hr : List.range' k (blAt c cmd k) = k :: List.range' (k + 1) (blAt c cmd k - 1) := by
        rw [← List.range'_succ]; congr 1; omega
      rw [hd]
      simp only [burstOut, hr, List.map_cons, List.append_assoc, List.cons_append,
        List.nil_append]
    · rw [g3, f4, e5, segs_step c cmd k hk]
      simp

/-- **Closed form of `_process_write`.** -/
theorem processWrite_spec (h : CmdOK c cmd) (hlen : data.length = cmd.length) (curId : Nat) :
    processWrite c curId cmd data wuser =
      .ok ((segs c cmd 0).flatMap (burstOut c cmd data wuser (chooseId c cmd curId).1),
        (chooseId c cmd curId).1, (segs c cmd 0).map (·.2), (chooseId c cmd curId).2) := by
  unfold processWrite
  have g := h.geo
  obtain ⟨s', e1, e2, e3⟩ := writeLoop_spec c cmd data wuser (chooseId c cmd curId).1 h hlen 0 (Nat.zero_le _)
    { curAddr := cmd.address, offset := 0
      cycleOffset := cmd.address / 2 ^ cmd.size * 2 ^ cmd.size - cmd.address / c.lanes * c.lanes
      n := 0, burstLength := 0, burstList := [], out := [] }
    ⟨by simp [curAt], by simp only; exact al_sub_word g, by
      intro _; simp only [loAt, gLo_zero]; omega⟩ (by simp)
  simp only [Nat.sub_zero] at e1
  simp only
  rw [e1]
  simp only
  rw [e2, e3]
  simp

/-! ## The read loop -/

theorem readLoop_mid (arid r k : Nat) (hk : k + r ≤ cyclesOf cmd) (s : RLoop) (hc : s.curAddr = curAt cmd k)
    (hn : s.n + 1 + r = s.burstLength) :
    ∃ s', readLoop c cmd arid (cyclesOf cmd) (cyclesOf cmd - k) s =
        readLoop c cmd arid (cyclesOf cmd) (cyclesOf cmd - (k + r)) s' ∧
      s'.curAddr = curAt cmd (k + r) ∧ s'.n + 1 ≥ s'.burstLength ∧ s'.burstList = s.burstList ∧ s'.out = s.out := by
  induction r generalizing k s with
  | zero => exact ⟨s, rfl, hc, by omega, rfl, rfl⟩
  | succ r ih =>
    have e : readBeat c cmd arid (cyclesOf cmd) k s =
        { s with curAddr := nextAddr cmd k s.curAddr, n := s.n + 1 } := by
      simp [readBeat, show ¬ s.n + 1 ≥ s.burstLength by omega]
    obtain ⟨s2, f1, f2, f3, f4, f5⟩ := ih (k + 1) (by omega)
      { s with curAddr := nextAddr cmd k s.curAddr, n := s.n + 1 }
      (by simp only [hc]; exact nextAddr_curAt cmd k) (by simp only; omega)
    refine ⟨s2, ?_, ?_, f3, f4, f5⟩
    · have : cyclesOf cmd - k = (cyclesOf cmd - (k + 1)) + 1 := by omega
      rw [this, readLoop]
      have hidx : cyclesOf cmd - (cyclesOf cmd - (k + 1) + 1) = k := by omega
      rw [hidx, e, f1, show k + (r + 1) = k + 1 + r by omega]
    · rw [show k + (r + 1) = k + 1 + r by omega]; exact f2

theorem readLoop_spec (arid : Nat) :
    ∀ k ≤ cyclesOf cmd, ∀ s : RLoop, s.curAddr = curAt cmd k → s.n + 1 ≥ s.burstLength →
      (readLoop c cmd arid (cyclesOf cmd) (cyclesOf cmd - k) s).out =
        s.out ++ (segs c cmd k).map (fun p => aAt c cmd arid p.1) ∧
      (readLoop c cmd arid (cyclesOf cmd) (cyclesOf cmd - k) s).burstList =
        s.burstList ++ (segs c cmd k).map (·.2) := by
  refine segs_induction (blAt_bounds c cmd) ?_ ?_
  · intro s hi hn
    simp [readLoop, segs_done]
  · intro k hk ih s hc hn
    have hb := blAt_bounds c cmd k hk
    have e : readBeat c cmd arid (cyclesOf cmd) k s =
        { curAddr := nextAddr cmd k s.curAddr, n := 0, burstLength := blAt c cmd k
          burstList := s.burstList ++ [blAt c cmd k], out := s.out ++ [aAt c cmd arid k] } := by
      simp [readBeat, hn, hc, blAt, aAt]
    obtain ⟨s2, f1, f2, f3, f4, f5⟩ := readLoop_mid c cmd arid (blAt c cmd k - 1) (k + 1) (by omega)
      { curAddr := nextAddr cmd k s.curAddr, n := 0, burstLength := blAt c cmd k
        burstList := s.burstList ++ [blAt c cmd k], out := s.out ++ [aAt c cmd arid k] }
      (by simp only [hc]; exact nextAddr_curAt cmd k) (by simp only; omega)
    rw [show k + 1 + (blAt c cmd k - 1) = k + blAt c cmd k by omega] at f1 f2
    have hstep : readLoop c cmd arid (cyclesOf cmd) (cyclesOf cmd - k) s =
        readLoop c cmd arid (cyclesOf cmd) (cyclesOf cmd - (k + blAt c cmd k)) s2 := by
      have : cyclesOf cmd - k = (cyclesOf cmd - (k + 1)) + 1 := by omega
      rw [this, readLoop]
      have hidx : cyclesOf cmd - (cyclesOf cmd - (k + 1) + 1) = k := by omega
      rw [hidx, e, f1]
    have g := ih s2 f2 f3
    rw [hstep, g.1, g.2, f4, f5, segs_step c cmd k hk]
    simp

/-- **Closed form of `_process_read`.** -/
theorem processRead_spec (curId : Nat) :
    processRead c curId cmd =
      ((segs c cmd 0).map (fun p => aAt c cmd (chooseId c cmd curId).1 p.1), (chooseId c cmd curId).1,
        (segs c cmd 0).map (·.2), (chooseId c cmd curId).2) := by
  unfold processRead
  have e := readLoop_spec c cmd (chooseId c cmd curId).1 0 (Nat.zero_le _)
    { curAddr := cmd.address, n := 0, burstLength := 0, burstList := [], out := [] } (by simp [curAt]) (by simp)
  simp only [Nat.sub_zero] at e
  simp only
  rw [e.1, e.2]
  simp

end Verif.Axi
