import Verif.Proof.AxiMaster
import Verif.Proof.AxiSlave

/-!
# Master, slave and RAM together
-/

namespace Verif.Axi

/-! ## Decoding what the master sends -/

section
variable (c : Cfg) (cmd : Cmd) (data : Bytes) (wuser : WUser) (awid : Nat)

theorem awsOf_append (a b : List (ABeat ⊕ WBeat)) : awsOf (a ++ b) = awsOf a ++ awsOf b := by simp [awsOf]
theorem wsOf_append (a b : List (ABeat ⊕ WBeat)) : wsOf (a ++ b) = wsOf a ++ wsOf b := by simp [wsOf]

theorem awsOf_burstOut (p : Nat × Nat) : awsOf (burstOut c cmd data wuser awid p) = [aAt c cmd awid p.1] := by
  simp only [awsOf, burstOut, List.filterMap_cons, List.cons.injEq, true_and]
  rw [List.filterMap_eq_nil_iff]
  simp only [List.mem_map]
  rintro x ⟨j, _, rfl⟩
  rfl

/-- The W beats of a burst. -/
def segW (p : Nat × Nat) : List WBeat :=
  (List.range' p.1 p.2).map fun j => wAt c cmd data wuser j (decide (j + 1 = p.1 + p.2))

theorem wsOf_burstOut (p : Nat × Nat) : wsOf (burstOut c cmd data wuser awid p) = segW c cmd data wuser p := by
  simp only [wsOf, burstOut, segW, List.filterMap_cons, List.filterMap_map]
  rw [← List.filterMap_eq_map]
  rfl

theorem awsOf_out (L : List (Nat × Nat)) :
    awsOf (L.flatMap (burstOut c cmd data wuser awid)) = L.map fun p => aAt c cmd awid p.1 := by
  induction L with
  | nil => rfl
  | cons p L ih => simp only [List.flatMap_cons, awsOf_append, awsOf_burstOut, ih, List.map_cons, List.singleton_append]

theorem wsOf_out (L : List (Nat × Nat)) :
    wsOf (L.flatMap (burstOut c cmd data wuser awid)) = L.flatMap (segW c cmd data wuser) := by
  induction L with
  | nil => rfl
  | cons p L ih => simp only [List.flatMap_cons, wsOf_append, wsOf_burstOut, ih]

theorem segW_length (p : Nat × Nat) : (segW c cmd data wuser p).length = p.2 := by simp [segW]

theorem beats_aAt {k : Nat} (hk : k < cyclesOf cmd) : (aAt c cmd awid k).beats = blAt c cmd k := by
  have := blAt_bounds c cmd k hk
  simp only [ABeat.beats, aAt]; omega

theorem aligned_curAt (hb : cmd.burst ≠ .fixed) (k : Nat) :
    (aAt c cmd awid k).aligned = gBox (2 ^ cmd.size) cmd.address k := by
  simp only [ABeat.aligned, ABeat.nbytes, aAt, curAt, hb, false_or]
  by_cases hk : k = 0
  · subst hk; simp [gBox]
  · simp only [hk, if_false]
    exact Nat.div_mul_cancel (gBox_dvd _ _ _)

theorem beatAddr_aAt (hb : cmd.burst = .incr) (k n : Nat) :
    beatAddr (aAt c cmd awid k) n = gBox (2 ^ cmd.size) cmd.address (k + n) := by
  have h1 : (aAt c cmd awid k).burst = .incr := hb
  simp only [beatAddr, h1]
  rw [aligned_curAt c cmd awid (by simp [hb])]
  simp only [ABeat.nbytes, aAt, gBox, Nat.add_mul]
  omega

theorem bytesAt_length (h : CmdOK c cmd) (hlen : data.length = cmd.length) {k : Nat} (hk : k < cyclesOf cmd) :
    (bytesAt cmd data k).length = hiAt cmd k - loAt cmd k := by
  obtain ⟨b1, b2, b3, b4, b5, b6, b7⟩ := beat_bounds h.geo hk
  simp only [bytesAt, List.length_take, List.length_drop, loAt, hiAt]
  omega

theorem strobed_wAt' (h : CmdOK c cmd) (hlen : data.length = cmd.length) {k : Nat} (hk : k < cyclesOf cmd) (l : Bool)
    (W : Nat) : strobed c.lanes W (wAt c cmd data wuser k l).data (wAt c cmd data wuser k l).strb =
      pairsAt (W + (loAt cmd k - wordAt c cmd k)) (bytesAt cmd data k) := by
  have hl := bytesAt_length c cmd data h hlen hk
  obtain ⟨b1, b2, b3, b4, b5, b6, b7⟩ := beat_bounds h.geo hk
  have := strobed_run c.lanes W (wAt c cmd data wuser k l).strb (loAt cmd k - wordAt c cmd k)
    (bytesAt cmd data k) (by rw [hl]; simp only [loAt, hiAt, wordAt]; omega) (by
      intro i hi
      simp only [wAt]
      rw [strobeVal_bit _ _ _ _ (by simp only [hiAt, wordAt]; omega), hl, decide_eq_decide]
      simp only [loAt, hiAt, wordAt]; omega)
  simp only [wAt] at this ⊢
  rw [this]

theorem strobed_wAt (h : CmdOK c cmd) (hlen : data.length = cmd.length) {k : Nat} (hk : k < cyclesOf cmd) (l : Bool) :
    strobed c.lanes (wordAt c cmd k) (wAt c cmd data wuser k l).data (wAt c cmd data wuser k l).strb =
      pairsAt (loAt cmd k) (bytesAt cmd data k) := by
  have hl := bytesAt_length c cmd data h hlen hk
  obtain ⟨b1, b2, b3, b4, b5, b6, b7⟩ := beat_bounds h.geo hk
  have := strobed_run c.lanes (wordAt c cmd k) (wAt c cmd data wuser k l).strb (loAt cmd k - wordAt c cmd k)
    (bytesAt cmd data k) (by rw [hl]; simp only [loAt, hiAt, wordAt]; omega) (by
      intro i hi
      simp only [wAt]
      rw [strobeVal_bit _ _ _ _ (by simp only [hiAt, wordAt]; omega), hl, decide_eq_decide]
      simp only [loAt, hiAt, wordAt]; omega)
  simp only [wAt] at this ⊢
  rw [this]
  congr 1
  simp only [loAt, wordAt]; omega

theorem wAt_data_lt (h : CmdOK c cmd) (hlen : data.length = cmd.length) {k : Nat} (hk : k < cyclesOf cmd) (l : Bool) :
    (wAt c cmd data wuser k l).data < 256 ^ c.lanes := by
  have hl := bytesAt_length c cmd data h hlen hk
  obtain ⟨b1, b2, b3, b4, b5, b6, b7⟩ := beat_bounds h.geo hk
  refine Nat.lt_of_lt_of_le (fromBytesLE_lt _) (Nat.pow_le_pow_right (by omega) ?_)
  rw [List.length_append, List.length_replicate, hl]
  simp only [loAt, hiAt, wordAt]; omega

/-- The assignments of beats `k, ..., k+r-1`. -/
def beatPairs (k r : Nat) : List (Nat × UInt8) :=
  (List.range' k r).flatMap fun j => pairsAt (loAt cmd j) (bytesAt cmd data j)

theorem decodeBeats_segW (h : CmdOK c cmd) (hlen : data.length = cmd.length) (hb : cmd.burst = .incr) (k0 : Nat)
    (f : Nat → Bool) (k n r : Nat) (hk : k + r ≤ cyclesOf cmd) (hkn : k0 + n = k) :
    decodeBeats c.lanes (aAt c cmd awid k0) n ((List.range' k r).map fun j => wAt c cmd data wuser j (f j)) =
      beatPairs cmd data k r := by
  induction r generalizing k n with
  | zero => rfl
  | succ r ih =>
    simp only [List.range'_succ, List.map_cons, decodeBeats, beatPairs, List.flatMap_cons]
    have hw : beatWord c.lanes (aAt c cmd awid k0) n = wordAt c cmd k := by
      simp only [beatWord, beatAddr_aAt c cmd awid hb, hkn]; rfl
    rw [hw, strobed_wAt c cmd data wuser h hlen (by omega), ih (k + 1) (n + 1) (by omega) (by omega)]
    rfl

theorem beatPairs_all (h : CmdOK c cmd) (hlen : data.length = cmd.length) (k r : Nat) (hk : k + r = cyclesOf cmd)
    (hr : 0 < r) : beatPairs cmd data k r = pairsAt (loAt cmd k) (data.drop (loAt cmd k - cmd.address)) := by
  induction r generalizing k with
  | zero => omega
  | succ r ih =>
    have hl := bytesAt_length c cmd data h hlen (k := k) (by omega)
    obtain ⟨b1, b2, b3, b4, b5, b6, b7⟩ := beat_bounds h.geo (k := k) (by rw [← cyclesOf_eq]; omega)
    have e : data.drop (loAt cmd k - cmd.address) = bytesAt cmd data k ++ data.drop (hiAt cmd k - cmd.address) := by
      simp only [bytesAt]
      conv => lhs; rw [← List.take_append_drop (hiAt cmd k - loAt cmd k) (data.drop (loAt cmd k - cmd.address))]
      rw [List.drop_drop]
      congr 2
      simp only [loAt, hiAt]; omega
    rw [e, pairsAt_append, hl]
    simp only [beatPairs, List.range'_succ, List.flatMap_cons]
    congr 1
    have hsum : loAt cmd k + (hiAt cmd k - loAt cmd k) = hiAt cmd k := by simp only [loAt, hiAt]; omega
    rw [hsum]
    by_cases h0 : r = 0
    · subst h0
      have hh : hiAt cmd k = cmd.address + cmd.length := gHi_last h.geo (by rw [← cyclesOf_eq]; omega)
      rw [hh, List.drop_eq_nil_of_le (by omega)]
      rfl
    · have hlo : loAt cmd (k + 1) = hiAt cmd k := gLo_succ h.geo (by rw [← cyclesOf_eq]; omega)
      have := ih (k + 1) (by omega) (by omega)
      rw [hlo] at this
      exact this

theorem decode_segs (h : CmdOK c cmd) (hlen : data.length = cmd.length) (hb : cmd.burst = .incr) :
    ∀ k ≤ cyclesOf cmd, decode c.lanes ((segs c cmd k).map fun p => aAt c cmd awid p.1)
      ((segs c cmd k).flatMap (segW c cmd data wuser)) = some (beatPairs cmd data k (cyclesOf cmd - k)) := by
  refine segs_induction (blAt_bounds c cmd) ?_ ?_
  · simp [segs_done, decode, beatPairs]
  · intro k hk ih
    have hbl := blAt_bounds c cmd k hk
    rw [segs_step c cmd k hk]
    simp only [List.map_cons, List.flatMap_cons, decode, beats_aAt c cmd awid hk]
    have hl := segW_length c cmd data wuser (k, blAt c cmd k)
    simp only at hl
    rw [if_neg (by rw [List.length_append, hl]; omega), List.take_left' hl, List.drop_left' hl, ih]
    simp only [Option.map_some, Option.some.injEq, segW]
    rw [decodeBeats_segW c cmd data wuser awid h hlen hb k _ k 0 _ (by omega) (by omega)]
    simp only [beatPairs, ← List.flatMap_append]
    rw [List.range'_append_1]
    congr 2
    omega

theorem decode_all (h : CmdOK c cmd) (hlen : data.length = cmd.length) (hb : cmd.burst = .incr) :
    decode c.lanes ((segs c cmd 0).map fun p => aAt c cmd awid p.1)
      ((segs c cmd 0).flatMap (segW c cmd data wuser)) = some (pairsAt cmd.address data) := by
  rw [decode_segs c cmd data wuser awid h hlen hb 0 (Nat.zero_le _)]
  congr 1
  by_cases hz : cyclesOf cmd = 0
  · have hN := gCycles_zero (nb := 2 ^ cmd.size) (A := cmd.address) (N := cmd.length) (Nat.two_pow_pos _) hz
    rw [hz]
    have : data = [] := List.length_eq_zero_iff.1 (by omega)
    subst this
    rfl
  · rw [beatPairs_all c cmd data h hlen 0 _ (by omega) (by omega)]
    simp only [loAt, gLo_zero, Nat.sub_self, List.drop_zero]

/-! ## Framing -/

theorem segW_last (k L : Nat) (hL : 0 < L) : (segW c cmd data wuser (k, L)).map (·.last) = lastFlags L := by
  apply List.ext_getElem
  · simp [segW, lastFlags_length L hL]
  · intro i h1 h2
    rw [lastFlags_getElem]
    simp only [segW, List.map_map, List.getElem_map, List.getElem_range', Function.comp, wAt, decide_eq_decide]
    simp only [List.length_map, segW, List.length_range'] at h1
    omega

theorem framed_segs : ∀ k ≤ cyclesOf cmd, Framed ((segs c cmd k).map fun p => aAt c cmd awid p.1)
      ((segs c cmd k).flatMap (segW c cmd data wuser)) := by
  refine segs_induction (blAt_bounds c cmd) ?_ ?_
  · simp [segs_done, Framed]
  · intro k hk ih
    have hbl := blAt_bounds c cmd k hk
    rw [segs_step c cmd k hk]
    have hl := segW_length c cmd data wuser (k, blAt c cmd k)
    simp only at hl
    simp only [List.map_cons, List.flatMap_cons, Framed, beats_aAt c cmd awid hk]
    rw [List.take_left' hl, List.drop_left' hl]
    exact ⟨segW_last c cmd data wuser k _ (by omega), ih⟩

theorem burstList_segs : ∀ k ≤ cyclesOf cmd,
    (segs c cmd k).map (·.2) = ((segs c cmd k).map fun p => aAt c cmd awid p.1).map (·.beats) := by
  refine segs_induction (blAt_bounds c cmd) ?_ ?_
  · simp [segs_done]
  · intro k hk ih
    rw [segs_step c cmd k hk]
    simp only [List.map_cons, beats_aAt c cmd awid hk, ih]

/-- Members of `segs`. -/
theorem mem_segs : ∀ k ≤ cyclesOf cmd, ∀ p ∈ segs c cmd k, p.1 < cyclesOf cmd ∧ p.2 = blAt c cmd p.1 := by
  refine segs_induction (blAt_bounds c cmd) ?_ ?_
  · simp [segs_done]
  · intro k hk ih p hp
    rw [segs_step c cmd k hk] at hp
    rcases List.mem_cons.1 hp with rfl | hp
    · exact ⟨hk, rfl⟩
    · exact ih p hp

theorem segs_ws_bound (h : CmdOK c cmd) (hlen : data.length = cmd.length) :
    ∀ w ∈ (segs c cmd 0).flatMap (segW c cmd data wuser), w.data < 256 ^ c.lanes := by
  intro w hw
  simp only [List.mem_flatMap, segW, List.mem_map, List.mem_range'_1] at hw
  obtain ⟨p, hp, j, hj, rfl⟩ := hw
  obtain ⟨h1, h2⟩ := mem_segs c cmd 0 (Nat.zero_le _) p hp
  have := blAt_bounds c cmd p.1 h1
  exact wAt_data_lt c cmd data wuser h hlen (by omega) _

/-- Every burst stays within its 4 KiB page. -/
theorem within4k_aAt (hs : cmd.size ≤ 12) {k : Nat} (hk : k < cyclesOf cmd) :
    Within4K (aAt c cmd awid k) := by
  have hbl := blAt_bounds c cmd k hk
  have hd : 2 ^ cmd.size ∣ 4096 := by rw [show (4096 : Nat) = 2 ^ 12 by rfl]; exact Nat.pow_dvd_pow 2 hs
  have h4 := burstLen_4k c.maxBurstLen (2 ^ cmd.size) (cyclesOf cmd) k (curAt cmd k) (Nat.two_pow_pos _) hk hd
  have hal : (aAt c cmd awid k).aligned = curAt cmd k / 2 ^ cmd.size * 2 ^ cmd.size := rfl
  have hle : curAt cmd k / 4096 * 4096 ≤ (aAt c cmd awid k).aligned := by
    obtain ⟨q, hq⟩ := hd
    have h1 := Nat.div_mul_le_self (curAt cmd k) 4096
    have h2 : curAt cmd k / 4096 * 4096 = (curAt cmd k / 4096 * q) * 2 ^ cmd.size := by
      rw [Nat.mul_assoc, Nat.mul_comm q, ← hq]
    rw [hal, h2]
    apply Nat.mul_le_mul_right
    rw [Nat.le_div_iff_mul_le (Nat.two_pow_pos _), ← h2]
    exact h1
  have hcur := Nat.div_mul_le_self (curAt cmd k) (2 ^ cmd.size)
  have hlt := lt_div_mul_add (curAt cmd k) 4096 (by omega)
  unfold Within4K
  rw [beats_aAt c cmd awid hk]
  have hn : (aAt c cmd awid k).nbytes = 2 ^ cmd.size := rfl
  have hpos : 0 < blAt c cmd k * 2 ^ cmd.size := Nat.mul_pos (by omega) (Nat.two_pow_pos _)
  rw [hn]
  have e1 : (aAt c cmd awid k).aligned / 4096 = curAt cmd k / 4096 := by
    apply Nat.div_eq_of_lt_le
    · exact hle
    · rw [Nat.add_mul, Nat.one_mul]; rw [hal]; omega
  rw [e1]
  symm
  apply Nat.div_eq_of_lt_le
  · omega
  · rw [Nat.add_mul, Nat.one_mul, hal]
    have : curAt cmd k / 2 ^ cmd.size * 2 ^ cmd.size + blAt c cmd k * 2 ^ cmd.size ≤
      curAt cmd k / 4096 * 4096 + 4096 := h4
    omega

end

/-! ## Serving bursts on a RAM -/

theorem attempt_ram (lanes : Nat) (a : ABeat) (n : Nat) (w : WBeat) (m : Memory) (hm : m.WF) (hs : 0 < m.size)
    (hfit : lanes ∣ m.size ∨ ∀ p ∈ strobed lanes (beatWord lanes a n) w.data w.strb, p.1 < m.size) :
    ∃ m', attempt ramTarget.write (writeOps lanes (beatWord lanes a n) (digitsLE lanes w.data) w.strb) m =
        (true, m') ∧ m'.WF ∧ m'.size = m.size ∧
      m'.contents = m.contents.puts (modPairs m.size (strobed lanes (beatWord lanes a n) w.data w.strb)) := by
  obtain ⟨m', e1, e2, e3, e4⟩ := writeWord_ram lanes (beatAddr a n / lanes) w.data w.strb m hm hs hfit
  have hp := performOps_attempt ramTarget (writeOps lanes (beatWord lanes a n) (digitsLE lanes w.data) w.strb) m
  have hbw : beatAddr a n / lanes * lanes = beatWord lanes a n := rfl
  rw [hbw] at e1 e4
  rw [e1] at hp
  simp only at hp
  refine ⟨m', ?_, e2, e3, e4⟩
  apply Prod.ext
  · simp only; exact hp.2.2 trivial
  · exact hp.1.symm

theorem serve_ram (lanes : Nat) (a : ABeat) (ws : List WBeat) (n : Nat) (m : Memory) (hm : m.WF)
    (hs : 0 < m.size) (hfit : lanes ∣ m.size ∨ ∀ p ∈ decodeBeats lanes a n ws, p.1 < m.size) :
    ∃ m', serve ramTarget.write (beatOps lanes true a n ws) m = (true, m') ∧ m'.WF ∧ m'.size = m.size ∧
      m'.contents = m.contents.puts (modPairs m.size (decodeBeats lanes a n ws)) := by
  induction ws generalizing n m with
  | nil => exact ⟨m, rfl, hm, rfl, by simp [decodeBeats, modPairs, FlatMem.puts]⟩
  | cons w ws ih =>
    simp only [beatOps, serve, if_true, decodeBeats] at hfit ⊢
    obtain ⟨m1, e1, e2, e3, e4⟩ := attempt_ram lanes a n w m hm hs (by
      rcases hfit with h | h
      · exact .inl h
      · exact .inr fun p hp => h p (by simp [hp]))
    obtain ⟨m2, f1, f2, f3, f4⟩ := ih (n + 1) m1 e2 (by omega) (by
      rw [e3]
      rcases hfit with h | h
      · exact .inl h
      · exact .inr fun p hp => h p (by simp [hp]))
    rw [e1]
    simp only
    rw [f1]
    refine ⟨m2, by simp, f2, by omega, ?_⟩
    rw [f4, e4, e3, modPairs_append, puts_append]

/-- A RAM serving any legal traffic on its write channels performs exactly the assignments that the traffic
stands for, and answers OKAY with the right IDs. -/
theorem slaveWrites_ram (lanes : Nat) (as : List ABeat) (ws : List WBeat) (m : Memory) (hm : m.WF)
    (hs : 0 < m.size) (pairs : List (Nat × UInt8)) (hdec : decode lanes as ws = some pairs) (hfr : Framed as ws)
    (hnb : ∀ a ∈ as, a.nbytes ≤ lanes) (h4 : ∀ a ∈ as, a.burst = .incr → Within4K a)
    (hd : ∀ w ∈ ws, w.data < 256 ^ lanes) (hfit : lanes ∣ m.size ∨ ∀ p ∈ pairs, p.1 < m.size) :
    ∃ m', slaveWrites ramTarget lanes true as ws m =
        (.done (as.map fun a => { id := a.id, resp := .okay }, []), m') ∧ m'.WF ∧ m'.size = m.size ∧
      m'.contents = m.contents.puts (modPairs m.size pairs) := by
  induction as generalizing ws m pairs with
  | nil =>
    cases ws with
    | nil =>
      simp only [decode, Option.some.injEq] at hdec
      subst hdec
      exact ⟨m, rfl, hm, rfl, by simp [modPairs, FlatMem.puts]⟩
    | cons w ws => simp [decode] at hdec
  | cons a as ih =>
    simp only [decode] at hdec
    split at hdec
    · cases hdec
    · rename_i hlen
      cases hrest : decode lanes as (ws.drop a.beats) with
      | none => rw [hrest] at hdec; cases hdec
      | some prest =>
        rw [hrest] at hdec
        simp only [Option.map_some, Option.some.injEq] at hdec
        subst hdec
        simp only [Framed] at hfr
        have hdt : ∀ w ∈ ws.take a.beats, w.data < 256 ^ lanes := fun w hw => hd w (List.mem_of_mem_take hw)
        have key := slaveWrite_spec ramTarget lanes true a (ws.take a.beats) (ws.drop a.beats) m
          (hnb a (by simp)) (h4 a (by simp)) hfr.1 hdt
        rw [List.take_append_drop] at key
        obtain ⟨m1, e1, e2, e3, e4⟩ := serve_ram lanes a (ws.take a.beats) 0 m hm hs (by
          rcases hfit with h | h
          · exact .inl h
          · exact .inr fun p hp => h p (by simp [hp]))
        obtain ⟨m2, f1, f2, f3, f4⟩ := ih (ws.drop a.beats) m1 e2 (by omega) prest hrest hfr.2
          (fun a ha => hnb a (by simp [ha])) (fun a ha => h4 a (by simp [ha]))
          (fun w hw => hd w (List.mem_of_mem_drop hw)) (by
            rw [e3]
            rcases hfit with h | h
            · exact .inl h
            · exact .inr fun p hp => h p (by simp [hp]))
        refine ⟨m2, ?_, f2, by omega, ?_⟩
        · simp only [slaveWrites, key, e1, f1, if_true, List.map_cons]
        · rw [f4, e4, e3, modPairs_append, puts_append]

/-! ## Reassembly of read data -/

section
variable (c : Cfg) (cmd : Cmd)

/-- The bytes the master extracts from the R beats `k, k+1, ...`. -/
def collect : Nat → List RBeat → Bytes
  | _, [] => []
  | k, r :: rs => unpackLanes r.data (loAt cmd k - wordAt c cmd k)
      (gBox (2 ^ cmd.size) cmd.address k + 2 ^ cmd.size - wordAt c cmd k) ++ collect (k + 1) rs

theorem collect_append (k : Nat) (a b : List RBeat) :
    collect c cmd k (a ++ b) = collect c cmd k a ++ collect c cmd (k + a.length) b := by
  induction a generalizing k with
  | nil => simp [collect]
  | cons r a ih => simp only [List.cons_append, collect, ih, List.length_cons, List.append_assoc]; congr 3; omega

theorem foldResp_append (r : Resp) (a b : List Resp) : foldResp r (a ++ b) = foldResp (foldResp r a) b := by
  induction a generalizing r with
  | nil => rfl
  | cons x a ih => simp only [List.cons_append, foldResp, ih]

theorem readRespBurst_spec (h : CmdOK c cmd) (bl : Nat) :
    ∀ (rem k : Nat) (rs rest : List RBeat) (data : Bytes) (resp : Resp) (user : List Int), rem ≤ bl →
      rs.length = rem → (∀ i r, rs[i]? = some r → r.last = decide (i + 1 = rem)) →
      readRespBurst c cmd bl rem (rs ++ rest) (gBox (2 ^ cmd.size) cmd.address k % c.lanes) (decide (k = 0)) data resp
          user =
        .ok (rest, gBox (2 ^ cmd.size) cmd.address (k + rem) % c.lanes, decide (k + rem = 0),
          data ++ collect c cmd k rs, foldResp resp (rs.map (·.resp)), user ++ rs.map (·.user)) := by
  intro rem
  induction rem with
  | zero =>
    intro k rs rest data resp user _ hl _
    have : rs = [] := List.length_eq_zero_iff.1 hl
    subst this
    simp [readRespBurst, collect, foldResp]
  | succ rem ih =>
    intro k rs rest data resp user hrem hl hlast
    cases rs with
    | nil => simp at hl
    | cons r rs =>
      have h0 := hlast 0 r (by simp)
      have hcond : r.last = decide (bl - (rem + 1) = bl - 1) := by
        rw [h0, decide_eq_decide]; omega
      simp only [List.cons_append, readRespBurst, hcond, ne_eq, not_true, if_false]
      have hst := beat_start h.geo k
      have h1 := div_mul_le (gBox (2 ^ cmd.size) cmd.address k) c.lanes
      have hstart : (if decide (k = 0) = true then cmd.address % c.lanes else
          gBox (2 ^ cmd.size) cmd.address k % c.lanes) = loAt cmd k - wordAt c cmd k := by
        simp only [decide_eq_true_eq]; exact hst
      have hstop : gBox (2 ^ cmd.size) cmd.address k % c.lanes + 2 ^ cmd.size =
          gBox (2 ^ cmd.size) cmd.address k + 2 ^ cmd.size - wordAt c cmd k := by
        have hw : wordAt c cmd k ≤ gBox (2 ^ cmd.size) cmd.address k := h1
        have e : gBox (2 ^ cmd.size) cmd.address k % c.lanes = gBox (2 ^ cmd.size) cmd.address k - wordAt c cmd k :=
          mod_eq_sub_word _ _
        have hp := Nat.two_pow_pos cmd.size
        rw [e]; omega
      rw [hstart, box_mod_step, hstop]
      have hf : false = decide (k + 1 = 0) := by simp
      rw [hf, ih (k + 1) rs rest _ _ _ (by omega) (by simpa using hl) (by
        intro i w hi
        rw [hlast (i + 1) w (by simpa using hi), decide_eq_decide]; omega)]
      simp only [collect, List.map_cons, foldResp, List.append_assoc, List.singleton_append]
      rw [show k + 1 + rem = k + (rem + 1) by omega]

theorem readRespBursts_spec (h : CmdOK c cmd) :
    ∀ (Ls : List Nat) (k : Nat) (rs rest : List RBeat) (data : Bytes) (resp : Resp) (user : List Int),
      (∀ L ∈ Ls, 0 < L) → FramedR Ls rs →
      readRespBursts c cmd Ls (rs ++ rest) (gBox (2 ^ cmd.size) cmd.address k % c.lanes) (decide (k = 0)) data resp
          user =
        .ok (data ++ collect c cmd k rs, foldResp resp (rs.map (·.resp)), user ++ rs.map (·.user), rest) := by
  intro Ls
  induction Ls with
  | nil =>
    intro k rs rest data resp user _ hf
    simp only [FramedR] at hf
    subst hf
    simp [readRespBursts, collect, foldResp]
  | cons L Ls ih =>
    intro k rs rest data resp user hpos hf
    simp only [FramedR] at hf
    have hL := hpos L (by simp)
    have hlen : (rs.take L).length = L := by
      have := congrArg List.length hf.1
      rwa [List.length_map, lastFlags_length L hL] at this
    have key := readRespBurst_spec c cmd h L L k (rs.take L) (rs.drop L ++ rest) data resp user (Nat.le_refl _) hlen
      (by
        intro i r hi
        obtain ⟨hi', hw⟩ := List.getElem?_eq_some_iff.1 hi
        have : ((rs.take L).map (·.last))[i]'(by simpa using hi') = r.last := by simp [← hw]
        rw [← this]
        simp only [hf.1]
        rw [lastFlags_getElem, decide_eq_decide]
        omega)
    rw [← List.append_assoc, List.take_append_drop] at key
    simp only [readRespBursts, key]
    rw [ih (k + L) (rs.drop L) rest _ _ _ (fun L hL => hpos L (by simp [hL])) hf.2]
    have e1 : collect c cmd k (rs.take L) ++ collect c cmd (k + L) (rs.drop L) = collect c cmd k rs := by
      have := collect_append c cmd k (rs.take L) (rs.drop L)
      rw [List.take_append_drop, hlen] at this
      exact this.symm
    rw [List.append_assoc, e1, ← foldResp_append, List.append_assoc, ← List.map_append, ← List.map_append,
      List.take_append_drop]

theorem readResult_spec (h : CmdOK c cmd) (Ls : List Nat) (rs rest : List RBeat) (hpos : ∀ L ∈ Ls, 0 < L)
    (hf : FramedR Ls rs) :
    readResult c cmd Ls (rs ++ rest) = .ok ((collect c cmd 0 rs).take cmd.length,
      foldResp .okay (rs.map (·.resp)), rs.map (·.user), rest) := by
  unfold readResult
  simp only
  rw [al_sub_word h.geo]
  have := readRespBursts_spec c cmd h Ls 0 rs rest [] .okay [] hpos hf
  simp only [decide_true] at this
  rw [this]
  simp

theorem writeRespLoop_spec (bl : List Nat) (bs rest : List BBeat) (resp : Resp) (user : List Int)
    (h : bs.length = bl.length) :
    writeRespLoop bl (bs ++ rest) resp user =
      .ok (foldResp resp (bs.map (·.resp)), user ++ bs.map (·.user), rest) := by
  induction bl generalizing bs resp user with
  | nil =>
    have : bs = [] := List.length_eq_zero_iff.1 h
    subst this
    simp [writeRespLoop, foldResp]
  | cons L bl ih =>
    cases bs with
    | nil => simp at h
    | cons b bs =>
      simp only [List.cons_append, writeRespLoop, List.map_cons, foldResp]
      rw [ih bs _ _ (by simpa using h)]
      simp

theorem writeRespLoop_waits (bl : List Nat) (bs : List BBeat) (resp : Resp) (user : List Int)
    (h : bs.length < bl.length) : writeRespLoop bl bs resp user = .error .queueEmpty := by
  induction bl generalizing bs resp user with
  | nil => simp at h
  | cons L bl ih =>
    cases bs with
    | nil => rfl
    | cons b bs => exact ih bs _ _ (by simpa using h)

/-- The extracted bytes are the bytes at the addresses `lo k, lo k + 1, ...` of the words read. -/
theorem collect_val (h : CmdOK c cmd) (rd : Nat → Nat) (rs : List RBeat) (k : Nat)
    (hr : ∀ i r, rs[i]? = some r → r.data = rd (wordAt c cmd (k + i))) :
    collect c cmd k rs = (List.range' (loAt cmd k) (gBox (2 ^ cmd.size) cmd.address (k + rs.length) - loAt cmd k)).map
      fun x => UInt8.ofNat (rd (x / c.lanes * c.lanes) / 256 ^ (x % c.lanes)) := by
  induction rs generalizing k with
  | nil =>
    have : gBox (2 ^ cmd.size) cmd.address k ≤ loAt cmd k := by simp only [loAt, gLo]; omega
    simp only [collect, List.length_nil, Nat.add_zero]
    rw [show gBox (2 ^ cmd.size) cmd.address k - loAt cmd k = 0 by omega]
    rfl
  | cons r rs ih =>
    have g := h.geo
    have hr0 := hr 0 r (by simp)
    simp only [Nat.add_zero] at hr0
    have h1 := div_mul_le (gBox (2 ^ cmd.size) cmd.address k) c.lanes
    have h2 := container_in_word (2 ^ cmd.size) c.lanes (gBox (2 ^ cmd.size) cmd.address k) g.nbPos g.lanesPos g.dvd
      (gBox_dvd _ _ k)
    have h4 := gAl_lt (2 ^ cmd.size) cmd.address g.nbPos
    have h0 := g.nbPos
    have h5 := gBox_succ (2 ^ cmd.size) cmd.address k
    have h6 := gBox_mono (2 ^ cmd.size) cmd.address (Nat.zero_le k)
    rw [gBox_zero] at h6
    have hlo : loAt cmd (k + 1) = gBox (2 ^ cmd.size) cmd.address (k + 1) := by
      simp only [loAt, gLo]; omega
    have hm := gBox_mono (2 ^ cmd.size) cmd.address (show k + 1 ≤ k + (rs.length + 1) by omega)
    have hlb : gBox (2 ^ cmd.size) cmd.address k ≤ loAt cmd k ∧ loAt cmd k ≤ gBox (2 ^ cmd.size) cmd.address (k + 1) := by
      simp only [loAt, gLo]; omega
    have hwd : wordAt c cmd k ≤ gBox (2 ^ cmd.size) cmd.address k := h1
    simp only [collect, List.length_cons]
    rw [ih (k + 1) (by intro i r' hi; rw [show k + 1 + i = k + (i + 1) by omega]; exact hr (i + 1) r' (by simpa using hi))]
    rw [hlo]
    have hsplit : List.range' (loAt cmd k) (gBox (2 ^ cmd.size) cmd.address (k + (rs.length + 1)) - loAt cmd k) =
        List.range' (loAt cmd k) (gBox (2 ^ cmd.size) cmd.address (k + 1) - loAt cmd k) ++
        List.range' (gBox (2 ^ cmd.size) cmd.address (k + 1))
          (gBox (2 ^ cmd.size) cmd.address (k + 1 + rs.length) - gBox (2 ^ cmd.size) cmd.address (k + 1)) := by
      have := List.range'_append_1 (s := loAt cmd k) (m := gBox (2 ^ cmd.size) cmd.address (k + 1) - loAt cmd k)
        (n := gBox (2 ^ cmd.size) cmd.address (k + 1 + rs.length) - gBox (2 ^ cmd.size) cmd.address (k + 1))
      rw [show loAt cmd k + (gBox (2 ^ cmd.size) cmd.address (k + 1) - loAt cmd k) =
        gBox (2 ^ cmd.size) cmd.address (k + 1) by omega] at this
      rw [this]
      congr 1
      rw [show k + 1 + rs.length = k + (rs.length + 1) by omega]
      omega
    rw [hsplit, List.map_append]
    congr 1
    rw [unpackLanes_eq, hr0]
    apply List.ext_getElem
    · simp only [List.length_map, List.length_range']; omega
    · intro i i1 i2
      simp only [List.length_map, List.length_range'] at i1 i2
      simp only [List.getElem_map, List.getElem_range', Nat.one_mul]
      have hx1 : gBox (2 ^ cmd.size) cmd.address k ≤ loAt cmd k + i := by omega
      have hx2 : loAt cmd k + i < gBox (2 ^ cmd.size) cmd.address k + 2 ^ cmd.size := by omega
      have hw : (loAt cmd k + i) / c.lanes * c.lanes = wordAt c cmd k := gWord_eq g hx1 hx2
      rw [mod_eq_sub_word, hw]
      congr 3
      omega

end

/-! ## Reads served by a RAM -/

/-- The word the RAM puts on the bus for the bus word at `word`. -/
def ramWord (lanes : Nat) (m : Memory) (word : Nat) : Nat :=
  match (ramTarget.read word lanes m).1 with
  | .ok d => fromBytesLE d
  | .error _ => 0

theorem ramWord_byte (lanes x : Nat) (m : Memory) (hm : m.WF) (hs : 0 < m.size) (hl : 0 < lanes)
    (hfit : lanes ∣ m.size ∨ x < m.size) :
    UInt8.ofNat (ramWord lanes m (x / lanes * lanes) / 256 ^ (x % lanes)) = m.contents (x % m.size) := by
  obtain ⟨d, e1, e2, e3⟩ := ramTarget_read lanes (x / lanes * lanes) m hm hs
  have hx : x / lanes * lanes + x % lanes = x := by
    have := Nat.div_add_mod x lanes; rw [Nat.mul_comm] at this; exact this
  have hlt := Nat.mod_lt x hl
  have hwm : x / lanes * lanes % m.size + x % lanes < m.size := by
    rcases hfit with ⟨q, hq⟩ | h
    · rw [hq, Nat.mul_comm lanes q, Nat.mul_mod_mul_right]
      have hq0 : 0 < q := by
        rcases Nat.eq_zero_or_pos q with h | h
        · subst h; omega
        · exact h
      have := Nat.mod_lt (x / lanes) hq0
      have h2 := Nat.mul_le_mul_right lanes (show x / lanes % q + 1 ≤ q from this)
      rw [Nat.add_mul, Nat.one_mul] at h2
      omega
    · rw [Nat.mod_eq_of_lt (by omega)]; omega
  simp only [ramWord, e1]
  rw [e3 _ hlt hwm]
  congr 1
  conv => rhs; rw [← hx]
  rw [mod_add_of_lt _ _ _ hwm]

theorem readBeats_ram (lanes : Nat) (a : ABeat) (m : Memory) (hm : m.WF) (hs : 0 < m.size) (rem n : Nat) :
    readBeats ramTarget lanes a rem n m = ((List.range' n rem).map fun j =>
      { id := a.id, data := ramWord lanes m (beatWord lanes a j), resp := .okay
        last := decide (j + 1 = n + rem) }, m) := by
  induction rem generalizing n with
  | zero => rfl
  | succ rem ih =>
    obtain ⟨d, e1, _, _⟩ := ramTarget_read lanes (beatWord lanes a n) m hm hs
    simp only [readBeats, e1, ih, List.range'_succ, List.map_cons, ramWord]
    refine Prod.ext ?_ rfl
    simp only [List.cons.injEq, RBeat.mk.injEq, true_and]
    refine ⟨⟨?_, trivial⟩, ?_⟩
    · rw [decide_eq_decide]; omega
    · apply List.map_congr_left
      intro j _
      rw [show n + 1 + rem = n + (rem + 1) by omega]

section
variable (c : Cfg) (cmd : Cmd) (arid : Nat)

/-- The R beats of a burst served by a RAM. -/
def segR (m : Memory) (p : Nat × Nat) : List RBeat :=
  (List.range' p.1 p.2).map fun j =>
    { id := arid, data := ramWord c.lanes m (wordAt c cmd j), resp := .okay, last := decide (j + 1 = p.1 + p.2) }

theorem slaveRead_ram (h : CmdOK c cmd) (hb : cmd.burst = .incr) (hs12 : cmd.size ≤ 12) (m : Memory) (hm : m.WF)
    (hs : 0 < m.size) {k : Nat} (hk : k < cyclesOf cmd) :
    slaveRead ramTarget c.lanes (aAt c cmd arid k) m = (.done (segR c cmd arid m (k, blAt c cmd k)), m) := by
  have hnb : (aAt c cmd arid k).nbytes ≤ c.lanes := Nat.le_of_dvd h.geo.lanesPos h.geo.dvd
  rw [slaveRead_spec ramTarget c.lanes _ m hnb (fun _ => within4k_aAt c cmd arid hs12 hk),
    readBeats_ram c.lanes _ m hm hs, beats_aAt c cmd arid hk]
  refine Prod.ext ?_ rfl
  simp only [segR]
  congr 1
  rw [List.range'_eq_map_range, List.range'_eq_map_range, List.map_map, List.map_map]
  apply List.map_congr_left
  intro j _
  simp only [Function.comp, RBeat.mk.injEq, true_and, and_true]
  refine ⟨rfl, ?_, ?_⟩
  · simp only [beatWord, beatAddr_aAt c cmd arid hb, Nat.zero_add]; rfl
  · rw [decide_eq_decide]; omega

theorem slaveReads_ram (h : CmdOK c cmd) (hb : cmd.burst = .incr) (hs12 : cmd.size ≤ 12) (m : Memory) (hm : m.WF)
    (hs : 0 < m.size) : ∀ k ≤ cyclesOf cmd,
    slaveReads ramTarget c.lanes ((segs c cmd k).map fun p => aAt c cmd arid p.1) m =
      (.done ((segs c cmd k).flatMap (segR c cmd arid m)), m) := by
  refine segs_induction (blAt_bounds c cmd) ?_ ?_
  · simp [segs_done, slaveReads]
  · intro k hk ih
    rw [segs_step c cmd k hk]
    simp only [List.map_cons, List.flatMap_cons, slaveReads, slaveRead_ram c cmd arid h hb hs12 m hm hs hk, ih]

theorem segR_length (m : Memory) (p : Nat × Nat) : (segR c cmd arid m p).length = p.2 := by simp [segR]

theorem framedR_segs (m : Memory) : ∀ k ≤ cyclesOf cmd,
    FramedR ((segs c cmd k).map (·.2)) ((segs c cmd k).flatMap (segR c cmd arid m)) := by
  refine segs_induction (blAt_bounds c cmd) ?_ ?_
  · simp [segs_done, FramedR]
  · intro k hk ih
    have hbl := blAt_bounds c cmd k hk
    rw [segs_step c cmd k hk]
    have hl := segR_length c cmd arid m (k, blAt c cmd k)
    simp only at hl
    simp only [List.map_cons, List.flatMap_cons, FramedR]
    rw [List.take_left' hl, List.drop_left' hl]
    refine ⟨?_, ih⟩
    apply List.ext_getElem
    · rw [List.length_map, hl, lastFlags_length _ (by omega)]
    · intro i h1 h2
      rw [lastFlags_getElem]
      simp only [segR, List.map_map, List.getElem_map, List.getElem_range', Function.comp, decide_eq_decide]
      omega

theorem segR_all (m : Memory) : ∀ k ≤ cyclesOf cmd,
    ((segs c cmd k).flatMap (segR c cmd arid m)).map (fun r => (r.data, r.resp)) =
      (List.range' k (cyclesOf cmd - k)).map fun j => (ramWord c.lanes m (wordAt c cmd j), Resp.okay) := by
  refine segs_induction (blAt_bounds c cmd) ?_ ?_
  · simp [segs_done]
  · intro k hk ih
    have hbl := blAt_bounds c cmd k hk
    rw [segs_step c cmd k hk]
    simp only [List.flatMap_cons, List.map_append, ih]
    have := List.range'_append_1 (s := k) (m := blAt c cmd k) (n := cyclesOf cmd - (k + blAt c cmd k))
    rw [show blAt c cmd k + (cyclesOf cmd - (k + blAt c cmd k)) = cyclesOf cmd - k by omega] at this
    rw [← this, List.map_append]
    congr 1
    simp only [segR, List.map_map]
    rfl

theorem foldResp_okay (l : List Resp) (h : ∀ r ∈ l, r = .okay) (r0 : Resp) : foldResp r0 l = r0 := by
  induction l with
  | nil => rfl
  | cons r l ih =>
    have := h r (by simp)
    subst this
    simp only [foldResp, ne_eq, not_true, if_false]
    exact ih fun r hr => h r (by simp [hr])

/-- Reads by the master from a RAM. -/
theorem read_ram (h : CmdOK c cmd) (m : Memory) (hm : m.WF)
    (hs : 0 < m.size) (hfit : c.lanes ∣ m.size ∨ cmd.address + cmd.length ≤ m.size) :
    readResult c cmd ((segs c cmd 0).map (·.2)) ((segs c cmd 0).flatMap (segR c cmd arid m)) =
      .ok ((List.range cmd.length).map (fun i => m.contents ((cmd.address + i) % m.size)), .okay,
        ((segs c cmd 0).flatMap (segR c cmd arid m)).map (·.user), []) := by
  have hpos : ∀ L ∈ (segs c cmd 0).map (·.2), 0 < L := by
    intro L hL
    obtain ⟨p, hp, rfl⟩ := List.mem_map.1 hL
    obtain ⟨h1, h2⟩ := mem_segs c cmd 0 (Nat.zero_le _) p hp
    have := blAt_bounds c cmd p.1 h1
    omega
  have hall := segR_all c cmd arid m 0 (Nat.zero_le _)
  simp only [Nat.sub_zero] at hall
  have hspec := readResult_spec c cmd h _ _ [] hpos (framedR_segs c cmd arid m 0 (Nat.zero_le _))
  rw [List.append_nil] at hspec
  rw [hspec]
  have hlen : ((segs c cmd 0).flatMap (segR c cmd arid m)).length = cyclesOf cmd := by
    have := congrArg List.length hall; simpa using this
  have hget : ∀ i r, ((segs c cmd 0).flatMap (segR c cmd arid m))[i]? = some r →
      r.data = ramWord c.lanes m (wordAt c cmd (0 + i)) ∧ r.resp = .okay := by
    intro i r hi
    have h1 : (((segs c cmd 0).flatMap (segR c cmd arid m)).map (fun r => (r.data, r.resp)))[i]? =
        some (r.data, r.resp) := by rw [List.getElem?_map, hi]; rfl
    rw [hall, List.getElem?_map] at h1
    obtain ⟨hi', _⟩ := List.getElem?_eq_some_iff.1 hi
    rw [List.getElem?_eq_getElem (by simp; omega)] at h1
    simp only [List.getElem_range', Nat.one_mul, Option.map_some, Option.some.injEq, Prod.mk.injEq] at h1
    exact ⟨h1.1.symm, h1.2.symm⟩
  rw [foldResp_okay _ (by
    intro r hr
    obtain ⟨x, hx, rfl⟩ := List.mem_map.1 hr
    obtain ⟨i, hi⟩ := List.mem_iff_getElem?.1 hx
    exact (hget i x hi).2)]
  rw [collect_val c cmd h (ramWord c.lanes m) _ 0 (fun i r hi => (hget i r hi).1), hlen]
  have hcov := gCycles_cover (2 ^ cmd.size) cmd.address cmd.length (Nat.two_pow_pos _)
  rw [← cyclesOf_eq] at hcov
  congr 2
  simp only [loAt, gLo_zero, Nat.zero_add]
  rw [← List.map_take, List.range'_eq_map_range, ← List.map_take, List.take_range, Nat.min_eq_left (by omega), List.map_map]
  apply List.map_congr_left
  intro i hi
  rw [List.mem_range] at hi
  simp only [Function.comp]
  exact ramWord_byte c.lanes (cmd.address + i) m hm hs h.geo.lanesPos (by
    rcases hfit with h | h
    · exact .inl h
    · exact .inr (by omega))

end

end Verif.Axi
