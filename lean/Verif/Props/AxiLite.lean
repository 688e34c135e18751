import Verif.Proof.WordBus
import Verif.Props.AxiSlave
import Verif.Props.Memory

/-!
# C36, C37, C73, C74: single-word transfers (AXI-lite and APB), alone and against a RAM

`Word` is the data path shared by the AXI-lite and the APB models (see `Model/WordBus.lean`): requests are cut into
word transfers, which the slave executes.
-/

namespace Verif.Word

/-! ## Acceptance -/

/-- **C36, acceptance of writes.** A write is accepted exactly if the data is bytes, the address is in range, the span
fits the address width and `prot` has its default value when it is not connected; the command carries the arguments. -/
theorem C36_accept_iff (c : Cfg) (address : Int) (data : DataArg) (prot : Int) (cmd : Cmd) (d : Bytes) :
    acceptWrite c address data prot = .ok (cmd, d) ↔
      data = .bytes d ∧ 0 ≤ address ∧ address < 2 ^ c.addrWidth ∧ address + d.length ≤ 2 ^ c.addrWidth ∧
      (c.prot = false → prot = 2) ∧ cmd = { address := address.toNat, length := d.length, prot := prot } := by
  unfold acceptWrite
  cases data with
  | int n => simp only; split <;> simp
  | bytes e =>
    simp only [DataArg.bytes.injEq]
    split
    · constructor
      · intro h; cases h
      · rintro ⟨rfl, h⟩; omega
    · split
      · constructor
        · intro h; cases h
        · rintro ⟨rfl, h⟩; omega
      · split
        · rename_i hp
          constructor
          · intro h; cases h
          · rintro ⟨rfl, _, _, _, h, _⟩
            simp only [Bool.not_eq_true'] at hp
            exact absurd (h hp.1) hp.2
        · rename_i h1 h2 h3
          simp only [Except.ok.injEq, Prod.mk.injEq]
          constructor
          · rintro ⟨rfl, rfl⟩
            refine ⟨rfl, by omega, by omega, by omega, ?_, rfl⟩
            intro hp
            simp only [hp, Bool.not_false, true_and, ne_eq, Classical.not_not] at h3
            exact h3
          · rintro ⟨rfl, _, _, _, _, rfl⟩
            exact ⟨rfl, rfl⟩

/-- Every other write raises `ValueError` and produces no command. -/
theorem C36_reject (c : Cfg) (address : Int) (data : DataArg) (prot : Int)
    (h : ∀ r, acceptWrite c address data prot ≠ .ok r) : acceptWrite c address data prot = .error .valueError := by
  unfold acceptWrite at h ⊢
  grind

/-- **C37, acceptance of reads.** -/
theorem C37_accept_iff (c : Cfg) (address length prot : Int) (cmd : Cmd) :
    acceptRead c address length prot = .ok cmd ↔
      0 ≤ address ∧ address < 2 ^ c.addrWidth ∧ 0 ≤ length ∧ address + length ≤ 2 ^ c.addrWidth ∧
      (c.prot = false → prot = 2) ∧ cmd = { address := address.toNat, length := length.toNat, prot := prot } := by
  unfold acceptRead
  split
  · constructor
    · intro h; cases h
    · intro h; omega
  · split
    · constructor
      · intro h; cases h
      · intro h; omega
    · split
      · constructor
        · intro h; cases h
        · intro h; omega
      · split
        · rename_i hp
          constructor
          · intro h; cases h
          · rintro ⟨_, _, _, _, h, _⟩
            simp only [Bool.not_eq_true'] at hp
            exact absurd (h hp.1) hp.2
        · rename_i h3
          simp only [Except.ok.injEq]
          constructor
          · rintro rfl
            refine ⟨by omega, by omega, by omega, by omega, ?_, rfl⟩
            intro hp
            simp only [hp, Bool.not_false, true_and, ne_eq, Classical.not_not] at h3
            exact h3
          · rintro ⟨_, _, _, _, _, rfl⟩
            rfl

/-- Every other read raises `ValueError`. -/
theorem C37_reject (c : Cfg) (address length prot : Int)
    (h : ∀ r, acceptRead c address length prot ≠ .ok r) : acceptRead c address length prot = .error .valueError := by
  unfold acceptRead at h ⊢
  grind

/-! ## The transfers of a write -/

/-- The number of bus words that the span `[a, a + n)` touches (an empty span inside a word counts as touching it). -/
def wordsTouched (lanes a n : Nat) : Nat := (a + n + lanes - 1) / lanes - a / lanes

theorem cycles_words (c : Cfg) (cmd : Cmd) (h : 0 < c.lanes) :
    cycles c cmd = wordsTouched c.lanes cmd.address cmd.length := by
  unfold cycles wordsTouched
  have h1 := Nat.div_add_mod cmd.address c.lanes
  have h2 : cmd.address + cmd.length + c.lanes - 1 =
      (cmd.length + cmd.address % c.lanes + c.lanes - 1) + cmd.address / c.lanes * c.lanes := by
    rw [Nat.mul_comm] at h1
    omega
  rw [h2, Nat.add_mul_div_right _ _ h, Nat.add_sub_cancel]

/-- **C36, transfers.** An accepted write becomes one transfer per touched bus word, in ascending order; the first one
carries the requested address, the others the word's address; all addresses fit the address signal and all data and
strobes the data bus; `prot` is passed on; lane `i` of a transfer is strobed exactly if its byte address lies in the
requested span, and then carries the requested byte. -/
theorem C36_transfers (c : Cfg) (hl : 0 < c.lanes) (address : Int) (data : DataArg) (prot : Int) (cmd : Cmd) (d : Bytes)
    (hacc : acceptWrite c address data prot = .ok (cmd, d)) :
    ∃ xs, writeXfers c cmd d = .ok xs ∧
      xs.map (fun x => x.addr / c.lanes) =
        (List.range (wordsTouched c.lanes address.toNat d.length)).map (address.toNat / c.lanes + ·) ∧
      (∀ k x, xs[k]? = some x → x.addr = (if k = 0 then address.toNat else (address.toNat / c.lanes + k) * c.lanes)) ∧
      ∀ x ∈ xs, x.addr < 2 ^ c.addrWidth ∧ x.prot = prot ∧ x.data < 256 ^ c.lanes ∧ x.strb < 2 ^ c.lanes ∧
        ∀ i < c.lanes, let b := x.addr / c.lanes * c.lanes + i
          (x.strb.testBit i = true ↔ address.toNat ≤ b ∧ b < address.toNat + d.length) ∧
          (x.strb.testBit i = true → d[b - address.toNat]? = some (UInt8.ofNat (x.data / 256 ^ i))) := by
  obtain ⟨rfl, h1, h2, h3, h4, rfl⟩ := (C36_accept_iff c address data prot cmd d).1 hacc
  generalize hcmd : ({ address := address.toNat, length := d.length, prot := prot } : Cmd) = cmd
  have hA : cmd.address = address.toNat := by rw [← hcmd]
  have hN : cmd.length = d.length := by rw [← hcmd]
  have hP : cmd.prot = prot := by rw [← hcmd]
  rw [← hA]
  refine ⟨_, writeXfers_spec c cmd d hl hN.symm, ?_, ?_, ?_⟩
  · rw [← hN, ← cycles_words c cmd hl, List.map_map]
    apply List.map_congr_left
    intro k _
    have := beatAddr_word c cmd k
    simp only [Function.comp, xAt]
    simp only [boxOf, Axi.gBox, ← Nat.add_mul] at this
    exact Nat.eq_of_mul_eq_mul_right hl this
  · intro k x hx
    rw [List.getElem?_map] at hx
    cases hk : (List.range (cycles c cmd))[k]? with
    | none => rw [hk] at hx; cases hx
    | some j =>
      rw [hk] at hx
      simp only [Option.map_some, Option.some.injEq] at hx
      rw [List.getElem?_eq_some_iff] at hk
      obtain ⟨hk1, hk2⟩ := hk
      simp only [List.getElem_range] at hk2
      subst hk2
      subst hx
      simp only [xAt, beatAddr, wordAddr, Nat.add_mul]
  · intro x hx
    obtain ⟨k, hk, rfl⟩ := List.mem_map.1 hx
    rw [List.mem_range] at hk
    have hb := bounds c cmd hl k hk
    have hst := startLane_eq c cmd hl k
    have hsp := stopLane_eq c cmd hl k hk
    have hlen := bytesOf_length c cmd d hl hN.symm k hk
    refine ⟨?_, hP, xAt_data_lt c cmd d hl hN.symm k hk, ?_, ?_⟩
    · have e1 : ((2 ^ c.addrWidth : Nat) : Int) = 2 ^ c.addrWidth := by simp
      simp only [xAt, beatAddr]
      split
      · omega
      · have := Axi.gCycles_tight c.lanes cmd.address cmd.length k hl hk
        simp only [Axi.gBox] at this
        simp only [wordAddr]
        omega
    · apply Nat.lt_pow_two_of_testBit
      intro i hi
      simp only [xAt]
      rw [strbLane_bit c cmd hl]
      simp only [decide_eq_false_iff_not]
      omega
    · intro i hi
      have hw : (xAt c cmd d k).addr / c.lanes * c.lanes = boxOf c cmd k := beatAddr_word c cmd k
      simp only [hw]
      have hiff : (xAt c cmd d k).strb.testBit i = true ↔
          cmd.address ≤ boxOf c cmd k + i ∧ boxOf c cmd k + i < cmd.address + d.length := by
        simp only [xAt]
        rw [strbLane_bit c cmd hl, decide_eq_true_eq, hst, hsp]
        have h5 : loOf c cmd k = max cmd.address (boxOf c cmd k) := rfl
        have h6 : hiOf c cmd k = min (cmd.address + cmd.length) (boxOf c cmd k + c.lanes) := by
          simp only [hiOf, Axi.gHi, boxOf, Axi.gBox_succ]
        omega
      refine ⟨hiff, ?_⟩
      intro hbit
      have hr := hiff.1 hbit
      have hlo : startLane c cmd k ≤ i ∧ i < stopLane c cmd k := by
        simp only [xAt] at hbit
        rwa [strbLane_bit c cmd hl, decide_eq_true_eq] at hbit
      simp only [xAt]
      have h7 : ∀ v : Bytes, ∀ i, i < v.length → v[i]? = some (UInt8.ofNat (fromBytesLE v / 256 ^ i)) := by
        intro v i hi
        have := unpackLanes_fromBytes v i (i + 1) (by omega)
        rw [unpackLanes_eq, show i + 1 - i = 1 by omega] at this
        simp only [List.range'_one, List.map_cons, List.map_nil] at this
        have h8 : (List.take 1 (List.drop i v)) = [v[i]] := by
          rw [List.drop_eq_getElem_cons hi]; rfl
        rw [h8] at this
        rw [List.getElem?_eq_getElem hi]
        simp only [List.cons.injEq, and_true] at this
        rw [this]
      rw [← h7 _ i (by simp only [List.length_append, List.length_replicate]; omega)]
      rw [List.getElem?_append_right (by simp; omega)]
      simp only [bytesOf, List.length_replicate]
      rw [List.getElem?_take, if_pos (by omega), List.getElem?_drop]
      congr 1
      omega

/-! ## C36 -/

/-- **C36, any RAM size and aliasing.** The transfers of an accepted write, served by a RAM of a whole number of bus
words (or one containing the span), assign `data[i]` to address `(address+i) mod size` and nothing else; all responses are OKAY,
and the master consumes exactly one response per transfer and reports OKAY. -/
theorem C36_write_aliased (c : Cfg) (hl : 0 < c.lanes) (address : Int) (data : DataArg) (prot : Int) (cmd : Cmd)
    (d : Bytes) (hacc : acceptWrite c address data prot = .ok (cmd, d)) (m : Memory) (hm : m.WF) (hs : 0 < m.size)
    (hfit : c.lanes ∣ m.size ∨ address.toNat + d.length ≤ m.size) (more : List Resp) :
    ∃ xs m', writeXfers c cmd d = .ok xs ∧
      slaveWrites ramTarget c.lanes true xs m = (.ok (xs.map fun _ => .okay), m') ∧ m'.WF ∧ m'.size = m.size ∧
      m'.contents = m.contents.puts (modPairs m.size (pairsAt address.toNat d)) ∧
      writeResult c cmd ((xs.map fun _ => .okay) ++ more) = some (.okay, more) := by
  obtain ⟨rfl, h1, h2, h3, h4, rfl⟩ := (C36_accept_iff c address data prot cmd d).1 hacc
  generalize hcmd : ({ address := address.toNat, length := d.length, prot := prot } : Cmd) = cmd
  have hA : cmd.address = address.toNat := by rw [← hcmd]
  have hN : cmd.length = d.length := by rw [← hcmd]
  rw [← hA] at hfit ⊢
  have hpairs : ((List.range (cycles c cmd)).map (xAt c cmd d)).flatMap (xPairs c.lanes true) =
      pairsAt cmd.address d := by
    rw [← pairs_write c cmd d hl hN.symm]
    rw [List.flatMap_map]
    simp only [List.flatMap_def]
    congr 1
    apply List.map_congr_left
    intro k hk
    rw [List.mem_range] at hk
    rw [← strobed_xAt c cmd d hl hN.symm k hk]
    simp only [xPairs, if_true]
    congr 1
    exact beatAddr_word c cmd k
  obtain ⟨m', e1, e2, e3, e4⟩ := slaveWrites_ram c.lanes true ((List.range (cycles c cmd)).map (xAt c cmd d)) m hm hs (by
      intro x hx
      obtain ⟨k, hk, rfl⟩ := List.mem_map.1 hx
      rw [List.mem_range] at hk
      exact xAt_data_lt c cmd d hl hN.symm k hk) (by
    rcases hfit with h | h
    · exact .inl h
    · right
      rw [hpairs]
      intro p hp
      have := mem_pairsAt hp
      omega)
  refine ⟨_, m', writeXfers_spec c cmd d hl hN.symm, e1, e2, e3, by rw [e4, hpairs], ?_⟩
  unfold writeResult
  rw [if_neg (by simp), List.take_left' (by simp), List.drop_left' (by simp), Axi.foldResp_okay]
  intro r hr
  obtain ⟨_, _, rfl⟩ := List.mem_map.1 hr
  rfl

/-- **C36.** An accepted write within the RAM stores exactly the data and reports OKAY. -/
theorem C36_write_stores (c : Cfg) (hl : 0 < c.lanes) (address : Int) (data : DataArg) (prot : Int) (cmd : Cmd)
    (d : Bytes) (hacc : acceptWrite c address data prot = .ok (cmd, d)) (m : Memory) (hm : m.WF)
    (hs : 0 < m.size) (hfit : address.toNat + d.length ≤ m.size) (more : List Resp) :
    ∃ xs m', writeXfers c cmd d = .ok xs ∧
      slaveWrites ramTarget c.lanes true xs m = (.ok (xs.map fun _ => .okay), m') ∧ m'.WF ∧ m'.size = m.size ∧
      m'.contents = m.contents.store address.toNat d ∧
      writeResult c cmd ((xs.map fun _ => .okay) ++ more) = some (.okay, more) := by
  obtain ⟨xs, m', h1, h2, h3, h4, h5, h6⟩ := C36_write_aliased c hl address data prot cmd d hacc m hm hs (.inr hfit) more
  refine ⟨xs, m', h1, h2, h3, h4, ?_, h6⟩
  rw [h5, modPairs_of_lt, puts_pairsAt]
  intro p hp
  have := mem_pairsAt hp
  omega

/-! ## C37 -/

/-- **C37, any RAM size and aliasing.** -/
theorem C37_read_aliased (c : Cfg) (hl : 0 < c.lanes) (address length prot : Int) (cmd : Cmd)
    (hacc : acceptRead c address length prot = .ok cmd) (m : Memory) (hm : m.WF) (hs : 0 < m.size)
    (hfit : c.lanes ∣ m.size ∨ address.toNat + length.toNat ≤ m.size) (more : List (Nat × Resp)) :
    ∃ rs, slaveReads ramTarget c.lanes (readXfers c cmd) m = (rs, m) ∧ rs.length = (readXfers c cmd).length ∧
      readResult c cmd (rs ++ more) =
        some ((List.range length.toNat).map (fun i => m.contents ((address.toNat + i) % m.size)), .okay, more) := by
  obtain ⟨h1, h2, h3, h4, h5, rfl⟩ := (C37_accept_iff c address length prot cmd).1 hacc
  have e := slaveReads_ram c.lanes (readXfers c { address := address.toNat, length := length.toNat, prot := prot }) m hm hs
  refine ⟨_, e, by simp, ?_⟩
  have := read_ram c { address := address.toNat, length := length.toNat, prot := prot } hl m hm hs hfit more
  rw [e] at this
  exact this

/-- **C37.** An accepted read within the RAM returns exactly the memory bytes, with OKAY. -/
theorem C37_read_exact (c : Cfg) (hl : 0 < c.lanes) (address length prot : Int) (cmd : Cmd)
    (hacc : acceptRead c address length prot = .ok cmd) (m : Memory) (hm : m.WF) (hs : 0 < m.size)
    (hfit : address.toNat + length.toNat ≤ m.size) (more : List (Nat × Resp)) :
    ∃ rs, slaveReads ramTarget c.lanes (readXfers c cmd) m = (rs, m) ∧ rs.length = (readXfers c cmd).length ∧
      readResult c cmd (rs ++ more) = some (m.contents.load address.toNat length.toNat, .okay, more) := by
  obtain ⟨rs, h1, h2, h3⟩ := C37_read_aliased c hl address length prot cmd hacc m hm hs (.inr hfit) more
  refine ⟨rs, h1, h2, ?_⟩
  rw [h3]
  congr 2
  apply List.map_congr_left
  intro i hi
  rw [List.mem_range] at hi
  rw [Nat.mod_eq_of_lt (by omega)]

/-- **C37, transfers.** An accepted read becomes one transfer per touched bus word, in ascending order, with addresses
that fit the address signal. -/
theorem C37_transfers (c : Cfg) (hl : 0 < c.lanes) (address length prot : Int) (cmd : Cmd)
    (hacc : acceptRead c address length prot = .ok cmd) :
    (readXfers c cmd).map (fun x => x.addr / c.lanes) =
        (List.range (wordsTouched c.lanes address.toNat length.toNat)).map (address.toNat / c.lanes + ·) ∧
      ∀ x ∈ readXfers c cmd, x.addr < 2 ^ c.addrWidth ∧ x.prot = prot := by
  obtain ⟨h1, h2, h3, h4, h5, rfl⟩ := (C37_accept_iff c address length prot cmd).1 hacc
  generalize hcmd : ({ address := address.toNat, length := length.toNat, prot := prot } : Cmd) = cmd
  have hA : cmd.address = address.toNat := by rw [← hcmd]
  have hN : cmd.length = length.toNat := by rw [← hcmd]
  have hP : cmd.prot = prot := by rw [← hcmd]
  rw [← hA, ← hN, ← cycles_words c cmd hl]
  constructor
  · rw [readXfers, List.map_map]
    apply List.map_congr_left
    intro k _
    have := beatAddr_word c cmd k
    simp only [Function.comp]
    simp only [boxOf, Axi.gBox, ← Nat.add_mul] at this
    exact Nat.eq_of_mul_eq_mul_right hl this
  · intro x hx
    obtain ⟨k, hk, rfl⟩ := List.mem_map.1 hx
    rw [List.mem_range] at hk
    have e1 : ((2 ^ c.addrWidth : Nat) : Int) = 2 ^ c.addrWidth := by simp
    refine ⟨?_, hP⟩
    simp only [beatAddr]
    split
    · omega
    · have := Axi.gCycles_tight c.lanes cmd.address cmd.length k hl hk
      simp only [Axi.gBox] at this
      simp only [wordAddr]
      omega

/-- **C37, read after write** over possibly different bus widths. -/
theorem C37_read_after_write (c c' : Cfg) (hl : 0 < c.lanes) (hl' : 0 < c'.lanes) (address : Int) (data : DataArg)
    (prot prot' : Int) (cmd cmd' : Cmd) (d : Bytes) (hacc : acceptWrite c address data prot = .ok (cmd, d))
    (hacc' : acceptRead c' address d.length prot' = .ok cmd') (m : Memory) (hm : m.WF) (hs : 0 < m.size)
    (hfit : address.toNat + d.length ≤ m.size) :
    ∃ xs bs m' rs, writeXfers c cmd d = .ok xs ∧ slaveWrites ramTarget c.lanes true xs m = (.ok bs, m') ∧
      slaveReads ramTarget c'.lanes (readXfers c' cmd') m' = (rs, m') ∧
      readResult c' cmd' rs = some (d, .okay, []) := by
  obtain ⟨xs, m', h1, h2, h3, h4, h5, h6⟩ := C36_write_stores c hl address data prot cmd d hacc m hm hs hfit []
  obtain ⟨rs, g1, g2, g3⟩ := C37_read_exact c' hl' address d.length prot' cmd' hacc' m' h3 (by omega) (by
    rw [h4]; simpa using hfit) []
  refine ⟨xs, _, m', rs, h1, h2, g1, ?_⟩
  rw [List.append_nil] at g3
  rw [g3, h5]
  simp only [Int.toNat_natCast]
  rw [FlatMem.load_store_same]

/-- A 32-bit bus, and an unaligned write of 7 bytes. -/
def exCfg : Cfg := { lanes := 4, addrWidth := 32 }
def exData : Bytes := [1, 2, 3, 4, 5, 6, 7]

example : ∃ cmd cmd', acceptWrite exCfg 0xffd (.bytes exData) 2 = .ok (cmd, exData) ∧
    acceptRead { lanes := 8, addrWidth := 16 } 0xffd exData.length 2 = .ok cmd' ∧
    (0xffd : Int).toNat + exData.length ≤ 8192 ∧ ∃ m, Memory.init 8192 = .ok m ∧ m.WF ∧ m.size = 8192 := by
  obtain ⟨m, h1, h2, h3, _⟩ := (Memory.C05_init_iff 8192).2 (by decide)
  exact ⟨_, _, (C36_accept_iff ..).2 ⟨rfl, by decide, by simp [exCfg], by simp [exCfg, exData], by simp, rfl⟩,
    (C37_accept_iff ..).2 ⟨by decide, by simp, by decide, by simp [exData], by simp, rfl⟩, by decide, m, h1, h2, h3⟩

example : writeXfers exCfg { address := 0xffd, length := 7, prot := 2 } exData =
    .ok [⟨0xffd, 2, 0x03020100, 14⟩, ⟨0x1000, 2, 0x07060504, 15⟩] := by decide +kernel

/-! ## C73: one transfer, any target -/

/-- **C73, writes.** A slave executing a write transfer performs a list of target writes that stands for exactly the
strobed bytes of the word (all bytes without a strobe signal), as separate maximal runs in ascending order, and
answers OKAY if none failed, SLVERR otherwise. -/
theorem C73_write {σ : Type} (t : Target σ) (lanes : Nat) (sp : Bool) (x : WXfer) (st : σ) (hd : x.data < 256 ^ lanes) :
    ∃ ops : List (Nat × Bytes),
      opPairs ops = strobed lanes (x.addr / lanes * lanes) x.data (if sp then x.strb else 2 ^ lanes - 1) ∧
      RunsOK (x.addr / lanes * lanes) (x.addr / lanes * lanes + lanes) ops ∧
      slaveWrite t lanes sp x st =
        (.ok (if (Axi.attempt t.write ops st).1 then .okay else .slverr), (Axi.attempt t.write ops st).2) := by
  refine ⟨_, writeOps_pairs lanes (x.addr / lanes * lanes) x.data _, writeOps_runs _ _ _ _ (digitsLE_length _ _), ?_⟩
  simp only [slaveWrite, Axi.toBytes_little lanes x.data hd]
  generalize writeOps lanes (x.addr / lanes * lanes) (digitsLE lanes x.data) (if sp then x.strb else 2 ^ lanes - 1) = ops
  obtain ⟨p1, p2⟩ := Axi.performOps_attempt t ops st
  rw [← p1]
  rcases h : performOps t ops st with ⟨r, st'⟩
  rw [h] at p2
  cases r with
  | ok u => rw [if_pos (p2.2 rfl)]
  | error e =>
    rw [if_neg]
    intro hh
    have := p2.1 hh
    cases this

/-- **C73, reads.** A slave executing a read transfer reads the aligned bus word once; it answers the bytes read, little
endian, with OKAY, or zero with SLVERR if the target raised. -/
theorem C73_read {σ : Type} (t : Target σ) (lanes : Nat) (x : RXfer) (st : σ) :
    slaveRead t lanes x st =
      ((Axi.busWord (t.read (x.addr / lanes * lanes) lanes st).1, Axi.busResp (t.read (x.addr / lanes * lanes) lanes st).1),
        (t.read (x.addr / lanes * lanes) lanes st).2) := by
  unfold slaveRead
  rcases h : t.read (x.addr / lanes * lanes) lanes st with ⟨r, st'⟩
  cases r with
  | ok d => rfl
  | error e => simp only [Axi.busWord, Axi.busResp, Axi.fromBytesLE_zeros]

/-- **C73, reported errors.** The response of an operation is OKAY exactly if all transfers answered OKAY (slaves only
answer OKAY or SLVERR, see above), and SLVERR as soon as one of them failed. -/
theorem C73_response (c : Cfg) (cmd : Cmd) (bs more : List Resp) (hb : bs.length = cycles c cmd)
    (hr : ∀ r ∈ bs, r = .okay ∨ r = .slverr) :
    writeResult c cmd (bs ++ more) = some (if .slverr ∈ bs then .slverr else .okay, more) := by
  have key : ∀ (l : List Resp) (r0 : Resp), (∀ r ∈ l, r = .okay ∨ r = .slverr) → r0 = .okay ∨ r0 = .slverr →
      foldResp r0 l = if r0 = .slverr ∨ .slverr ∈ l then .slverr else .okay := by
    intro l
    induction l with
    | nil => intro r0 _ h0; rcases h0 with rfl | rfl <;> simp [foldResp]
    | cons x l ih =>
      intro r0 hl h0
      simp only [foldResp]
      rw [ih _ (fun r hr => hl r (by simp [hr])) (by
        rcases hl x (by simp) with rfl | rfl
        · simpa using h0
        · simp)]
      rcases hl x (by simp) with rfl | rfl
      · simp
      · simp
  unfold writeResult
  rw [if_neg (by simp; omega), ← hb, List.take_left, List.drop_left, key bs .okay hr (.inl rfl)]
  simp

example : (∀ r ∈ [Resp.okay, .slverr], r = .okay ∨ r = .slverr) ∧
    [Resp.okay, .slverr].length = cycles exCfg { address := 0xffd, length := 7, prot := 2 } := by decide

/-! ## C74: no strobe signal -/

theorem full_strobed (lanes word : Nat) (d : Bytes) (hd : d.length ≤ lanes) :
    strobed lanes word (fromBytesLE d) (2 ^ lanes - 1) = pairsAt word (d ++ List.replicate (lanes - d.length) 0) := by
  have h0 : fromBytesLE d = fromBytesLE (d ++ List.replicate (lanes - d.length) 0) := by
    have key : ∀ (d : Bytes) n, fromBytesLE d = fromBytesLE (d ++ List.replicate n 0) := by
      intro d n
      induction d with
      | nil => rw [List.nil_append, Axi.fromBytesLE_zeros]; rfl
      | cons b d ih => simp only [List.cons_append, fromBytesLE, ← ih]
    exact key _ _
  have := strobed_run lanes word (2 ^ lanes - 1) 0 (d ++ List.replicate (lanes - d.length) 0) (by simp; omega) (by
    intro i hi
    rw [testBit_mask, decide_eq_decide]
    simp only [List.length_append, List.length_replicate]
    omega)
  rw [List.replicate_zero, List.nil_append, ← h0] at this
  exact this

/-- **C74.** On a bus without a strobe signal a write is padded with zeros to whole words: the memory afterwards has
`data` at the requested address, zero in the other bytes of the touched words, and is unchanged elsewhere. -/
theorem C74_zero_padded (c : Cfg) (hl : 0 < c.lanes) (address : Int) (data : DataArg) (prot : Int) (cmd : Cmd)
    (d : Bytes) (hacc : acceptWrite c address data prot = .ok (cmd, d)) (m : Memory) (hm : m.WF) (hs : 0 < m.size)
    (hfit : (address.toNat / c.lanes + wordsTouched c.lanes address.toNat d.length) * c.lanes ≤ m.size) :
    ∃ xs m', writeXfers c cmd d = .ok xs ∧
      slaveWrites ramTarget c.lanes false xs m = (.ok (xs.map fun _ => .okay), m') ∧ m'.WF ∧ m'.size = m.size ∧
      m'.contents = (m.contents.store (address.toNat / c.lanes * c.lanes)
        (List.replicate (wordsTouched c.lanes address.toNat d.length * c.lanes) 0)).store address.toNat d := by
  obtain ⟨rfl, h1, h2, h3, h4, rfl⟩ := (C36_accept_iff c address data prot cmd d).1 hacc
  generalize hcmd : ({ address := address.toNat, length := d.length, prot := prot } : Cmd) = cmd
  have hA : cmd.address = address.toNat := by rw [← hcmd]
  have hN : cmd.length = d.length := by rw [← hcmd]
  rw [← hA, ← hN, ← cycles_words c cmd hl] at hfit ⊢
  /- the assignments of transfer `k` are the zero-padded word -/
  let padded : Bytes := List.replicate (cmd.address % c.lanes) 0 ++ d ++
    List.replicate (cycles c cmd * c.lanes - cmd.address % c.lanes - cmd.length) 0
  have hcov : cmd.address % c.lanes + cmd.length ≤ cycles c cmd * c.lanes := by
    have := Axi.gCycles_cover c.lanes cmd.address cmd.length hl
    simp only [Axi.gBox, ← cycles_eq] at this
    have := Axi.mod_eq_sub_word cmd.address c.lanes
    have := Axi.div_mul_le cmd.address c.lanes
    omega
  have hpl : padded.length = cycles c cmd * c.lanes := by
    simp only [padded, List.length_append, List.length_replicate, ← hN]; omega
  have hword : ∀ k < cycles c cmd, xPairs c.lanes false (xAt c cmd d k) =
      pairsAt (boxOf c cmd k) ((padded.drop (k * c.lanes)).take c.lanes) := by
    intro k hk
    have hb := bounds c cmd hl k hk
    have hst := startLane_eq c cmd hl k
    have hlen := bytesOf_length c cmd d hl hN.symm k hk
    simp only [xPairs, Bool.false_eq_true, if_false]
    have hw : (xAt c cmd d k).addr / c.lanes * c.lanes = boxOf c cmd k := beatAddr_word c cmd k
    rw [hw]
    have : (xAt c cmd d k).data = fromBytesLE (List.replicate (startLane c cmd k) 0 ++ bytesOf c cmd d k) := rfl
    rw [this, full_strobed _ _ _ (by simp only [List.length_append, List.length_replicate]; omega)]
    congr 1
    have h5 : loOf c cmd k = max cmd.address (boxOf c cmd k) := rfl
    have h6 : hiOf c cmd k = min (cmd.address + cmd.length) (boxOf c cmd k + c.lanes) := by
      simp only [hiOf, Axi.gHi, boxOf, Axi.gBox_succ]
    have h7 : boxOf c cmd k = cmd.address / c.lanes * c.lanes + k * c.lanes := rfl
    have h8 := Axi.mod_eq_sub_word cmd.address c.lanes
    have h9 := Axi.div_mul_le cmd.address c.lanes
    have h10 : (k + 1) * c.lanes ≤ cycles c cmd * c.lanes := Nat.mul_le_mul_right _ hk
    have h11 : (k + 1) * c.lanes = k * c.lanes + c.lanes := by rw [Nat.add_mul, Nat.one_mul]
    apply List.ext_getElem?
    intro i
    by_cases hi : i < c.lanes
    · rw [List.getElem?_take, if_pos hi, List.getElem?_drop]
      simp only [padded, bytesOf, List.getElem?_append, List.length_append, List.length_replicate,
        List.getElem?_replicate, List.length_take, List.length_drop, List.getElem?_take, List.getElem?_drop]
      grind
    · rw [List.getElem?_eq_none (by simp only [List.length_append, List.length_replicate]; omega),
        List.getElem?_eq_none (by simp only [List.length_take, List.length_drop]; omega)]
  have hpairs : ((List.range (cycles c cmd)).map (xAt c cmd d)).flatMap (xPairs c.lanes false) =
      pairsAt (cmd.address / c.lanes * c.lanes) padded := by
    rw [List.flatMap_map]
    have key : ∀ r k, k + r = cycles c cmd → ((List.range' k r).flatMap fun j => xPairs c.lanes false (xAt c cmd d j)) =
        pairsAt (boxOf c cmd k) (padded.drop (k * c.lanes)) := by
      intro r
      induction r with
      | zero =>
        intro k hk
        rw [List.drop_eq_nil_of_le (by rw [hpl, show k = cycles c cmd by omega]; exact Nat.le_refl _)]
        rfl
      | succ r ih =>
        intro k hk
        have h10 : (k + 1) * c.lanes ≤ cycles c cmd * c.lanes := Nat.mul_le_mul_right _ (by omega)
        have h11 : (k + 1) * c.lanes = k * c.lanes + c.lanes := by rw [Nat.add_mul, Nat.one_mul]
        simp only [List.range'_succ, List.flatMap_cons]
        rw [ih (k + 1) (by omega), hword k (by omega)]
        conv => rhs; rw [← List.take_append_drop c.lanes (padded.drop (k * c.lanes))]
        rw [pairsAt_append, List.drop_drop]
        congr 2
        · simp only [List.length_take, List.length_drop, hpl]
          rw [Nat.min_eq_left (by omega)]
          exact Axi.gBox_succ _ _ _
        · rw [h11]
    have := key (cycles c cmd) 0 (by omega)
    rw [List.range_eq_range', this]
    simp [boxOf, Axi.gBox]
  have hb0 : (cmd.address / c.lanes + cycles c cmd) * c.lanes =
      cmd.address / c.lanes * c.lanes + cycles c cmd * c.lanes := Nat.add_mul _ _ _
  obtain ⟨m', e1, e2, e3, e4⟩ := slaveWrites_ram c.lanes false ((List.range (cycles c cmd)).map (xAt c cmd d)) m hm hs (by
      intro x hx
      obtain ⟨k, hk, rfl⟩ := List.mem_map.1 hx
      rw [List.mem_range] at hk
      exact xAt_data_lt c cmd d hl hN.symm k hk) (by
    right
    rw [hpairs]
    intro p hp
    have := mem_pairsAt hp
    omega)
  refine ⟨_, m', writeXfers_spec c cmd d hl hN.symm, e1, e2, e3, ?_⟩
  rw [e4, hpairs, modPairs_of_lt, puts_pairsAt]
  · have h8 := Axi.mod_eq_sub_word cmd.address c.lanes
    have h9 := Axi.div_mul_le cmd.address c.lanes
    funext a
    simp only [FlatMem.store, hpl, List.length_replicate]
    by_cases ha : cmd.address ≤ a ∧ a < cmd.address + d.length
    · rw [dif_pos (by omega), dif_pos ha]
      simp only [padded]
      rw [List.getElem_append_left (by simp only [List.length_append, List.length_replicate]; omega),
        List.getElem_append_right (by simp only [List.length_replicate]; omega)]
      congr 1
      simp only [List.length_replicate]
      omega
    · rw [dif_neg ha]
      split
      · rename_i hin
        simp only [List.getElem_replicate, padded]
        by_cases hlt : a < cmd.address
        · rw [List.getElem_append_left (by simp only [List.length_append, List.length_replicate]; omega),
            List.getElem_append_left (by simp only [List.length_replicate]; omega), List.getElem_replicate]
        · rw [List.getElem_append_right (by simp only [List.length_append, List.length_replicate]; omega),
            List.getElem_replicate]
      · rfl
  · intro p hp
    have := mem_pairsAt hp
    omega

example : ∃ cmd, acceptWrite exCfg 0xffd (.bytes exData) 2 = .ok (cmd, exData) ∧
    ((0xffd : Int).toNat / exCfg.lanes + wordsTouched exCfg.lanes (0xffd : Int).toNat exData.length) * exCfg.lanes ≤ 8192 :=
  ⟨_, (C36_accept_iff ..).2 ⟨rfl, by decide, by simp [exCfg], by simp [exCfg, exData], by simp, rfl⟩, by decide⟩

end Verif.Word
