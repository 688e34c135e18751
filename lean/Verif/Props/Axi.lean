import Verif.Proof.AxiE2E
import Verif.Props.Memory
import Verif.Props.Buddy

/-!
# C20-C24, C27, C29-C31: AXI master, alone and against a RAM
-/

namespace Verif.Axi

/-- A bus of a power-of-two number of byte lanes, at most 4096 (AXI allows 1 to 128). -/
structure Cfg.Std (c : Cfg) : Prop where
  lanes : ∃ w, c.lanes = 2 ^ w ∧ w ≤ 12

theorem bitLength_pow (w : Nat) : bitLength (2 ^ w - 1) = w := by
  have hp := Nat.two_pow_pos w
  apply Nat.le_antisymm
  · rw [Buddy.bitLength_le_iff]; omega
  · rcases Nat.eq_zero_or_pos w with h | h
    · omega
    · apply Nat.le_of_not_lt
      intro hlt
      have h1 : bitLength (2 ^ w - 1) ≤ w - 1 := by omega
      rw [Buddy.bitLength_le_iff] at h1
      have : 2 ^ w = 2 * 2 ^ (w - 1) := by
        conv => lhs; rw [show w = (w - 1) + 1 by omega, Nat.pow_succ]
        omega
      have := Nat.two_pow_pos (w - 1)
      omega

/-! ## C29 -/

/-- What the sideband arguments must satisfy. -/
def SideOK (p : Present) (s : Side) : Prop :=
  (s.lock = 0 ∨ s.lock = 1) ∧ (p.lock = false → s.lock = 0) ∧ (p.cache = false → s.cache = 3) ∧
    (p.prot = false → s.prot = 2) ∧ (p.qos = false → s.qos = 0) ∧ (p.region = false → s.region = 0) ∧
    (p.user = false → s.user = 0)

instance (p : Present) (s : Side) : Decidable (SideOK p s) := by unfold SideOK; infer_instance

/-- What the code accepts. -/
structure Accepts (c : Cfg) (r : Req) : Prop where
  addr : 0 ≤ r.address ∧ r.address < 2 ^ c.addrWidth
  length : 0 ≤ r.length
  span : r.burst ≠ 0 → r.address + r.length ≤ 2 ^ c.addrWidth
  id : ∀ i, r.id = some i → i ≤ 2 ^ c.idWidth
  burst : r.burst = 0 ∨ r.burst = 1 ∨ r.burst = 2
  size : ∀ s, r.size = some s → 0 ≤ s → 2 ^ s.toNat ≤ c.lanes
  side : SideOK c.present r.side

/-- The command that an accepted request becomes. -/
def cmdOf (c : Cfg) (r : Req) : Cmd where
  address := r.address.toNat
  length := r.length.toNat
  id := match r.id with | some i => if i < 0 then none else some i.toNat | none => none
  burst := if r.burst = 0 then .fixed else if r.burst = 1 then .incr else .wrap
  size := match r.size with | some s => if s < 0 then c.maxBurstSize else s.toNat | none => c.maxBurstSize
  side := r.side

theorem ite_err_iff {p : Prop} [Decidable p] {x : Py Unit} :
    (if p then (.error .valueError : Py Unit) else x) = .ok () ↔ ¬ p ∧ x = .ok () := by
  by_cases h : p <;> simp [h]

theorem flag_iff (b : Bool) (q : Prop) [Decidable q] : ¬ ((!b && decide ¬ q) = true) ↔ (b = false → q) := by
  cases b <;> simp

theorem checkSide_iff (p : Present) (s : Side) : checkSide p s = .ok () ↔ SideOK p s := by
  unfold checkSide SideOK
  simp only [ite_err_iff, flag_iff, ne_eq, Classical.not_not, and_true]

theorem checkSide_err (p : Present) (s : Side) (h : ¬ SideOK p s) : checkSide p s = .error .valueError := by
  have h2 : ∀ r, checkSide p s = r → r ≠ .ok () → r = .error .valueError := by
    intro r hr hne
    unfold checkSide at hr
    repeat' (split at hr; · exact hr.symm)
    exact absurd hr.symm hne
  exact h2 _ rfl (mt (checkSide_iff p s).1 h)

theorem size_iff (c : Cfg) (hc : c.Std) (s : Int) (h : 0 ≤ s) : s ≤ c.maxBurstSize ↔ 2 ^ s.toNat ≤ c.lanes := by
  obtain ⟨w, hw, _⟩ := hc.lanes
  rw [Cfg.maxBurstSize, hw, bitLength_pow]
  constructor
  · intro h1; exact Nat.pow_le_pow_right (by omega) (by omega)
  · intro h1
    have := (Nat.pow_le_pow_iff_right (show 1 < 2 by omega)).1 h1
    omega

theorem checkReq_ok (c : Cfg) (hc : c.Std) (r : Req) (h : Accepts c r) : checkReq c r = .ok (cmdOf c r) := by
  obtain ⟨h1, h2, h3, h4, h5, h6, h7⟩ := h
  unfold checkReq
  rw [if_neg (by omega), if_neg (by omega), if_neg (by
    rintro ⟨ha, hb⟩
    have := h3 ha
    omega)]
  have hid : checkId c r.id = .ok (cmdOf c r).id := by
    simp only [checkId, cmdOf]
    cases hi : r.id with
    | none => rfl
    | some i =>
      have := h4 i hi
      have e : ((c.idCount : Nat) : Int) = 2 ^ c.idWidth := by simp [Cfg.idCount]
      simp only
      split
      · rfl
      · rw [if_neg (by omega)]
  have hb : burstOf r.burst = .ok (cmdOf c r).burst := by
    simp only [burstOf, cmdOf]
    rcases h5 with h | h | h <;> simp [h]
  have hsz : checkSize c r.size = .ok (cmdOf c r).size := by
    simp only [checkSize, cmdOf]
    cases hs : r.size with
    | none => rfl
    | some s =>
      simp only
      by_cases hneg : s < 0
      · simp [hneg]
      · have := (size_iff c hc s (by omega)).2 (h6 s hs (by omega))
        rw [if_neg hneg, if_neg (by omega), if_neg hneg]
  have hsd : checkSide c.present r.side = .ok () := (checkSide_iff _ _).2 h7
  simp only [hid, hb, hsz, hsd]
  rfl

/-- **C29, acceptance.** A read or write request is accepted exactly under `Accepts`: the address span fits
the address width, the length is not negative, the transfer size fits the bus, the burst type is defined,
absent sidebands have their default value (and the ID is *at most* `2**id_width`, see `C29_violated`). The
command then carries the arguments unchanged. -/
theorem C29_accept_iff (c : Cfg) (hc : c.Std) (r : Req) (cmd : Cmd) :
    checkReq c r = .ok cmd ↔ Accepts c r ∧ cmd = cmdOf c r := by
  constructor
  · intro h
    suffices ha : Accepts c r by
      refine ⟨ha, ?_⟩
      rw [checkReq_ok c hc r ha] at h
      exact (Except.ok.inj h).symm
    unfold checkReq at h
    split at h
    · cases h
    · rename_i g1
      split at h
      · cases h
      · rename_i g2
        split at h
        · cases h
        · rename_i g3
          split at h
          · cases h
          · rename_i id hid
            split at h
            · cases h
            · rename_i b hb
              split at h
              · cases h
              · rename_i sz hsz
                split at h
                · cases h
                · rename_i hsd
                  refine ⟨by omega, by omega, ?_, ?_, ?_, ?_, (checkSide_iff _ _).1 hsd⟩
                  · intro hne
                    have : ¬ (r.address + r.length > 2 ^ c.addrWidth) := fun hh => g3 ⟨hne, hh⟩
                    omega
                  · intro i hi
                    rw [hi] at hid
                    simp only [checkId] at hid
                    have e : ((c.idCount : Nat) : Int) = 2 ^ c.idWidth := by simp [Cfg.idCount]
                    have : (0 : Int) < 2 ^ c.idWidth := by
                      rw [← e]; have : 0 < c.idCount := Nat.two_pow_pos _; omega
                    split at hid
                    · omega
                    · split at hid
                      · cases hid
                      · omega
                  · unfold burstOf at hb; grind
                  · intro s hs h0
                    rw [hs] at hsz
                    simp only [checkSize] at hsz
                    split at hsz
                    · omega
                    · split at hsz
                      · cases hsz
                      · exact (size_iff c hc s h0).1 (by omega)
  · rintro ⟨h, rfl⟩
    exact checkReq_ok c hc r h

/-- **C29, rejection.** Every other request raises `ValueError`; no command is produced. -/
theorem C29_reject (c : Cfg) (hc : c.Std) (r : Req) (h : ¬ Accepts c r) : checkReq c r = .error .valueError := by
  cases hr : checkReq c r with
  | ok cmd => exact absurd ((C29_accept_iff c hc r cmd).1 hr).1 h
  | error e =>
    unfold checkReq at hr
    have hs : ∀ e, checkSide c.present r.side = .error e → e = .valueError := by
      intro e he
      by_cases hh : SideOK c.present r.side
      · rw [(checkSide_iff _ _).2 hh] at he; cases he
      · rw [checkSide_err _ _ hh] at he; exact (Except.error.inj he).symm
    have hb : ∀ e, burstOf r.burst = .error e → e = .valueError := by
      intro e he; unfold burstOf at he; grind
    have hi : ∀ e, checkId c r.id = .error e → e = .valueError := by
      intro e he; unfold checkId at he; grind
    have hz : ∀ e, checkSize c r.size = .error e → e = .valueError := by
      intro e he; unfold checkSize at he; grind
    grind

/-- **C29 for writes.** `write` additionally requires `wuser = 0` when the signal is not connected. -/
theorem C29_write_iff (c : Cfg) (hc : c.Std) (r : Req) (data : Bytes) (wuser : WUser) (cmd : Cmd) :
    acceptWrite c r data wuser = .ok cmd ↔ Accepts c { r with length := data.length } ∧
      (c.present.wuser = false → wuser = .int 0) ∧ cmd = cmdOf c { r with length := data.length } := by
  unfold acceptWrite
  cases h : checkReq c { r with length := data.length } with
  | error e =>
    simp only [reduceCtorEq, false_iff]
    rintro ⟨ha, _⟩
    rw [checkReq_ok c hc _ ha] at h
    cases h
  | ok cmd' =>
    obtain ⟨ha, rfl⟩ := (C29_accept_iff c hc _ _).1 h
    simp only [checkWUser]
    grind

/-- Full claim of C29 about IDs: an accepted ID fits in the ID signal. It is false, see below. -/
def C29_full : Prop := ∀ (c : Cfg) (r : Req) (cmd : Cmd), c.Std → checkReq c r = .ok cmd →
  ∀ i, cmd.id = some i → i < 2 ^ c.idWidth

/-- **C29 violated.** With an 8-bit ID signal, a request with ID 256 is accepted (the check is `>` instead of
`>=`, axi_master.py 302, 371, 737, 794). -/
theorem C29_violated : ¬ C29_full := by
  intro h
  have := h { lanes := 4, addrWidth := 32, idWidth := 8 } { address := 0, length := 4, id := some 256 } _
    ⟨2, rfl, by omega⟩ (checkReq_ok _ ⟨2, rfl, by omega⟩ _ ⟨by decide, by decide, by decide, by
      intro i hi; cases hi; decide, by decide, by decide, by decide⟩) 256 rfl
  revert this
  decide

/-- **C29, what holds.** Apart from `id = 2**id_width`, an accepted command is representable on the bus: the ID
fits the ID signal, the last byte address fits the address signal (unless FIXED), the transfer size fits the
bus. -/
theorem C29_representable_partial (c : Cfg) (hc : c.Std) (r : Req) (cmd : Cmd) (h : checkReq c r = .ok cmd)
    (hid : r.id ≠ some (2 ^ c.idWidth)) :
    (∀ i, cmd.id = some i → i < 2 ^ c.idWidth) ∧ cmd.address < 2 ^ c.addrWidth ∧
      (cmd.burst ≠ .fixed → cmd.address + cmd.length ≤ 2 ^ c.addrWidth) ∧ 2 ^ cmd.size ≤ c.lanes := by
  obtain ⟨⟨h1, h2, h3, h4, h5, h6, h7⟩, rfl⟩ := (C29_accept_iff c hc r cmd).1 h
  have e1 : ((2 ^ c.addrWidth : Nat) : Int) = 2 ^ c.addrWidth := by simp
  have e2 : ((2 ^ c.idWidth : Nat) : Int) = 2 ^ c.idWidth := by simp
  refine ⟨?_, ?_, ?_, ?_⟩
  · intro i hi
    simp only [cmdOf] at hi
    cases hr : r.id with
    | none => rw [hr] at hi; cases hi
    | some j =>
      rw [hr] at hi
      simp only at hi
      have := h4 j hr
      have hj : j ≠ 2 ^ c.idWidth := fun hh => hid (by rw [hr, hh])
      split at hi
      · cases hi
      · cases hi; omega
  · simp only [cmdOf]; omega
  · intro hb
    simp only [cmdOf] at hb ⊢
    have := h3 (by intro h; simp [h] at hb)
    omega
  · obtain ⟨w, hw, _⟩ := hc.lanes
    have hm : 2 ^ c.maxBurstSize ≤ c.lanes := by
      rw [Cfg.maxBurstSize, hw, bitLength_pow]; exact Nat.le_refl _
    simp only [cmdOf]
    cases hs : r.size with
    | none => exact hm
    | some s =>
      simp only
      split
      · exact hm
      · exact h6 s hs (by omega)

/-- A 32-bit bus used in the examples. -/
def exCfg : Cfg := { lanes := 4, addrWidth := 32, idWidth := 8 }
theorem exCfg_std : exCfg.Std := ⟨2, rfl, by omega⟩

/-- An unaligned write request of 7 bytes at address `0xffd` with 2-byte transfers. -/
def exReq : Req := { address := 0xffd, length := 0, size := some 1, id := some 5 }
def exData : Bytes := [1, 2, 3, 4, 5, 6, 7]

example : ∃ cmd, acceptWrite exCfg exReq exData (.int 0) = .ok cmd := ⟨_, rfl⟩
example : ¬ Accepts exCfg { address := -1, length := 4 } := fun h => absurd h.addr.1 (by decide)

/-! ## What an accepted request satisfies -/

theorem cmdOf_ok {c : Cfg} (hc : c.Std) {r : Req} {cmd : Cmd} (h : checkReq c r = .ok cmd) :
    CmdOK c cmd ∧ cmd.size ≤ 12 := by
  obtain ⟨w, hw, hw12⟩ := hc.lanes
  have hs : 2 ^ cmd.size ≤ c.lanes := by
    obtain ⟨⟨h1, h2, h3, h4, h5, h6, h7⟩, rfl⟩ := (C29_accept_iff c hc r cmd).1 h
    have hm : 2 ^ c.maxBurstSize ≤ c.lanes := by
      rw [Cfg.maxBurstSize, hw, bitLength_pow]; exact Nat.le_refl _
    simp only [cmdOf]
    cases hs : r.size with
    | none => exact hm
    | some s =>
      simp only
      split
      · exact hm
      · exact h6 s hs (by omega)
  rw [hw] at hs
  have := (Nat.pow_le_pow_iff_right (show 1 < 2 by omega)).1 hs
  exact ⟨⟨w, hw, this⟩, by omega⟩

theorem acceptWrite_ok {c : Cfg} (hc : c.Std) {r : Req} {data : Bytes} {wuser : WUser} {cmd : Cmd}
    (h : acceptWrite c r data wuser = .ok cmd) :
    CmdOK c cmd ∧ cmd.size ≤ 12 ∧ data.length = cmd.length ∧ (cmd.address : Int) = r.address ∧
      (r.burst = 1 → cmd.burst = .incr) ∧ (r.burst = 0 → cmd.burst = .fixed) := by
  obtain ⟨ha, _, he⟩ := (C29_write_iff c hc r data wuser cmd).1 h
  obtain ⟨k1, k2⟩ := cmdOf_ok hc (checkReq_ok c hc _ ha)
  have := ha.addr
  subst he
  refine ⟨k1, k2, by simp [cmdOf], ?_, ?_, ?_⟩
  · simp only [cmdOf] at this ⊢; omega
  · intro hb; simp [cmdOf, hb]
  · intro hb; simp [cmdOf, hb]

theorem acceptRead_ok {c : Cfg} (hc : c.Std) {r : Req} {cmd : Cmd} (h : acceptRead c r = .ok cmd) :
    CmdOK c cmd ∧ cmd.size ≤ 12 ∧ (cmd.length : Int) = r.length ∧ (cmd.address : Int) = r.address ∧
      (r.burst = 1 → cmd.burst = .incr) ∧ (r.burst = 0 → cmd.burst = .fixed) := by
  obtain ⟨ha, he⟩ := (C29_accept_iff c hc r cmd).1 h
  obtain ⟨k1, k2⟩ := cmdOf_ok hc h
  have := ha.addr
  have := ha.length
  subst he
  refine ⟨k1, k2, ?_, ?_, ?_, ?_⟩
  · simp only [cmdOf]; omega
  · simp only [cmdOf]; omega
  · intro hb; simp [cmdOf, hb]
  · intro hb; simp [cmdOf, hb]

/-! ## C20 -/

theorem cycles_containers (cmd : Cmd) :
    (List.range (cyclesOf cmd)).map (gBox (2 ^ cmd.size) cmd.address) =
      containers (2 ^ cmd.size) cmd.address cmd.length := by
  have hp := Nat.two_pow_pos cmd.size
  have e : cyclesOf cmd = (cmd.address + cmd.length + 2 ^ cmd.size - 1) / 2 ^ cmd.size - cmd.address / 2 ^ cmd.size := by
    simp only [cyclesOf]
    have h1 := Nat.div_add_mod cmd.address (2 ^ cmd.size)
    have h2 : cmd.address + cmd.length + 2 ^ cmd.size - 1 =
        (cmd.length + cmd.address % 2 ^ cmd.size + 2 ^ cmd.size - 1) + cmd.address / 2 ^ cmd.size * 2 ^ cmd.size := by
      rw [Nat.mul_comm] at h1
      omega
    rw [h2, Nat.add_mul_div_right _ _ hp, Nat.add_sub_cancel]
  simp only [containers, ← e]
  apply List.map_congr_left
  intro k _
  simp only [gBox, Nat.add_mul]

theorem tile_segs (c : Cfg) (cmd : Cmd) (id : Nat) (hb : cmd.burst = .incr) : ∀ k ≤ cyclesOf cmd,
    (((segs c cmd k).map fun p => aAt c cmd id p.1).flatMap fun a => (List.range a.beats).map (beatAddr a)) =
      (List.range' k (cyclesOf cmd - k)).map (gBox (2 ^ cmd.size) cmd.address) := by
  refine segs_induction (blAt_bounds c cmd) ?_ ?_
  · simp [segs_done]
  · intro k hk ih
    have hbl := blAt_bounds c cmd k hk
    rw [segs_step c cmd k hk]
    simp only [List.map_cons, List.flatMap_cons, beats_aAt c cmd id hk]
    rw [ih]
    have := List.range'_append_1 (s := k) (m := blAt c cmd k) (n := cyclesOf cmd - (k + blAt c cmd k))
    rw [show blAt c cmd k + (cyclesOf cmd - (k + blAt c cmd k)) = cyclesOf cmd - k by omega] at this
    rw [← this, List.map_append]
    congr 1
    rw [List.range'_eq_map_range, List.map_map]
    apply List.map_congr_left
    intro n _
    exact beatAddr_aAt c cmd id hb k n

theorem segs_tail (c : Cfg) (cmd : Cmd) : ∀ k ≤ cyclesOf cmd, ∀ p ∈ segs c cmd k, k ≤ p.1 := by
  refine segs_induction (blAt_bounds c cmd) ?_ ?_
  · simp [segs_done]
  · intro k hk ih p hp
    have hbl := blAt_bounds c cmd k hk
    rw [segs_step c cmd k hk] at hp
    rcases List.mem_cons.1 hp with rfl | hp
    · exact Nat.le_refl _
    · have := ih p hp; omega

theorem legalTiling (c : Cfg) (cmd : Cmd) (id : Nat) (hb : cmd.burst = .incr) (hs : cmd.size ≤ 12) :
    LegalTiling c.maxBurstLen cmd.address cmd.length cmd.size ((segs c cmd 0).map fun p => aAt c cmd id p.1) := by
  have hmem : ∀ a ∈ (segs c cmd 0).map (fun p => aAt c cmd id p.1), ∃ k, k < cyclesOf cmd ∧ a = aAt c cmd id k := by
    intro a ha
    obtain ⟨p, hp, rfl⟩ := List.mem_map.1 ha
    exact ⟨p.1, (mem_segs c cmd 0 (Nat.zero_le _) p hp).1, rfl⟩
  refine ⟨?_, ?_, ?_, ?_, ?_, ?_⟩
  · intro a ha
    obtain ⟨k, hk, rfl⟩ := hmem a ha
    rw [beats_aAt c cmd id hk]
    have h1 := blAt_bounds c cmd k hk
    have h2 := burstLen_bounds c.maxBurstLen (2 ^ cmd.size) (cyclesOf cmd) k (curAt cmd k) (Nat.two_pow_pos _) hk
    have h3 := maxBurstLen_bounds c
    simp only [blAt] at *
    omega
  · intro a ha
    obtain ⟨k, hk, rfl⟩ := hmem a ha
    exact ⟨rfl, hb⟩
  · intro a ha
    obtain ⟨k, hk, rfl⟩ := hmem a ha
    exact within4k_aAt c cmd id hs hk
  · rw [tile_segs c cmd id hb 0 (Nat.zero_le _), ← cycles_containers]
    simp [List.range_eq_range']
  · intro a ha
    by_cases hz : 0 < cyclesOf cmd
    · rw [segs_step c cmd 0 hz] at ha
      simp only [List.map_cons, List.head?_cons, Option.some.injEq] at ha
      subst ha
      simp [aAt, curAt]
    · have : segs c cmd 0 = [] := by
        have := segs_done c cmd
        rwa [show cyclesOf cmd = 0 by omega] at this
      simp [this] at ha
  · intro a ha
    by_cases hz : 0 < cyclesOf cmd
    · rw [segs_step c cmd 0 hz] at ha
      simp only [List.map_cons, List.tail_cons] at ha
      obtain ⟨p, hp, rfl⟩ := List.mem_map.1 ha
      have hbl := blAt_bounds c cmd 0 hz
      have := segs_tail c cmd (0 + blAt c cmd 0) (by omega) p hp
      rw [aligned_curAt c cmd id (by simp [hb])]
      simp only [aAt, curAt, hb]
      rw [if_neg (by simp; omega)]
    · have : segs c cmd 0 = [] := by
        have := segs_done c cmd
        rwa [show cyclesOf cmd = 0 by omega] at this
      simp [this] at ha

/-- The effective maximum burst length: `max_burst_len` clamped to `[1, 256]`. -/
def effMaxLen (c : Cfg) : Nat := (max (min c.maxBurstLenArg 256) 1).toNat

theorem effMaxLen_spec (c : Cfg) : 1 ≤ effMaxLen c ∧ effMaxLen c ≤ 256 ∧
    (1 ≤ c.maxBurstLenArg → c.maxBurstLenArg ≤ 256 → (effMaxLen c : Int) = c.maxBurstLenArg) := by
  simp only [effMaxLen]; omega

/-- **C20, writes.** Every accepted INCR write request is issued as a legal tiling. -/
theorem C20_write (c : Cfg) (hc : c.Std) (r : Req) (data : Bytes) (wuser : WUser) (cmd : Cmd) (curId : Nat)
    (hacc : acceptWrite c r data wuser = .ok cmd) (hb : r.burst = 1) :
    ∃ out id bl nid, processWrite c curId cmd data wuser = .ok (out, id, bl, nid) ∧
      LegalTiling (effMaxLen c) r.address.toNat data.length cmd.size (awsOf out) := by
  obtain ⟨k1, k2, k3, k4, k5, k6⟩ := acceptWrite_ok hc hacc
  refine ⟨_, _, _, _, processWrite_spec c cmd data wuser k1 k3 curId, ?_⟩
  rw [awsOf_out, k3, show r.address.toNat = cmd.address by omega]
  exact legalTiling c cmd _ (k5 hb) k2

/-- **C20, reads.** Every accepted INCR read request is issued as a legal tiling. -/
theorem C20_read (c : Cfg) (hc : c.Std) (r : Req) (cmd : Cmd) (curId : Nat) (hacc : acceptRead c r = .ok cmd)
    (hb : r.burst = 1) :
    LegalTiling (effMaxLen c) r.address.toNat r.length.toNat cmd.size (processRead c curId cmd).1 := by
  obtain ⟨k1, k2, k3, k4, k5, k6⟩ := acceptRead_ok hc hacc
  rw [processRead_spec, show r.address.toNat = cmd.address by omega, show r.length.toNat = cmd.length by omega]
  exact legalTiling c cmd _ (k5 hb) k2

/-- Example: the request of `exReq` is split at the 4 KiB boundary into bursts of 2 and 2 beats. -/
example : ∃ cmd out id bl nid, acceptWrite exCfg exReq exData (.int 0) = .ok cmd ∧
    processWrite exCfg 0 cmd exData (.int 0) = .ok (out, id, bl, nid) ∧
    (awsOf out).map (fun a => (a.addr, a.beats)) = [(0xffd, 2), (0x1000, 2)] :=
  ⟨_, _, _, _, _, rfl, rfl, rfl⟩

/-! ## C21 -/

theorem strobesLegal_segs (c : Cfg) (cmd : Cmd) (data : Bytes) (wuser : WUser) (id : Nat) (h : CmdOK c cmd)
    (hb : cmd.burst = .incr) : ∀ k ≤ cyclesOf cmd,
    StrobesLegal c.lanes ((segs c cmd k).map fun p => aAt c cmd id p.1)
      ((segs c cmd k).flatMap (segW c cmd data wuser)) := by
  refine segs_induction (blAt_bounds c cmd) ?_ ?_
  · simp [segs_done, StrobesLegal]
  · intro k hk ih
    have hbl := blAt_bounds c cmd k hk
    rw [segs_step c cmd k hk]
    have hl := segW_length c cmd data wuser (k, blAt c cmd k)
    simp only at hl
    simp only [List.map_cons, List.flatMap_cons, StrobesLegal, beats_aAt c cmd id hk]
    rw [List.drop_left' hl]
    refine ⟨?_, ih⟩
    intro n w hn hw
    rw [List.getElem?_append_left (by omega)] at hw
    obtain ⟨hn', hw⟩ := List.getElem?_eq_some_iff.1 hw
    simp only [segW, List.getElem_map, List.getElem_range', Nat.one_mul] at hw
    subst hw
    have hkn : k + n < cyclesOf cmd := by omega
    obtain ⟨b1, b2, b3, b4, b5, b6, b7⟩ := beat_bounds h.geo (k := k + n) hkn
    intro i hi
    simp only [wAt] at hi
    rw [strobeVal_bit _ _ _ _ (by simp only [hiAt, wordAt]; omega)] at hi
    have hi := of_decide_eq_true hi
    simp only [beatWord, beatAddr_aAt c cmd id hb]
    have hw : gBox (2 ^ cmd.size) cmd.address (k + n) / c.lanes * c.lanes = wordAt c cmd (k + n) := rfl
    rw [hw]
    have hs := gBox_succ (2 ^ cmd.size) cmd.address (k + n)
    have hnb : (aAt c cmd id k).nbytes = 2 ^ cmd.size := rfl
    rw [hnb]
    simp only [loAt, hiAt, wordAt] at hi ⊢
    have hlo : gLo (2 ^ cmd.size) cmd.address (k + n) = max cmd.address (gBox (2 ^ cmd.size) cmd.address (k + n)) := rfl
    have hhi : gHi (2 ^ cmd.size) cmd.address cmd.length (k + n) =
      min (cmd.address + cmd.length) (gBox (2 ^ cmd.size) cmd.address (k + n + 1)) := rfl
    refine ⟨by omega, ?_, by omega⟩
    split
    · rename_i h0
      subst h0
      by_cases hk0 : k = 0
      · subst hk0
        simp only [aAt, curAt]
        simp only [or_true, if_true]
        omega
      · simp only [aAt, curAt, hb]
        rw [if_neg (by simp; omega)]
        simp only [Nat.add_zero] at *
        omega
    · omega

/-- **C21.** The AW/W traffic of an accepted INCR write, decoded by the AXI address rules, is exactly the
assignments `(address, data[0]), (address+1, data[1]), ...` in order; the strobes use only lanes of the
addressed containers; lanes that are not strobed carry zero. -/
theorem C21_lanes (c : Cfg) (hc : c.Std) (r : Req) (data : Bytes) (wuser : WUser) (cmd : Cmd) (curId : Nat)
    (hacc : acceptWrite c r data wuser = .ok cmd) (hb : r.burst = 1) :
    ∃ out id bl nid, processWrite c curId cmd data wuser = .ok (out, id, bl, nid) ∧
      decode c.lanes (awsOf out) (wsOf out) = some (pairsAt r.address.toNat data) ∧
      StrobesLegal c.lanes (awsOf out) (wsOf out) ∧
      ∀ w ∈ wsOf out, ∀ i, w.strb.testBit i = false → w.data / 256 ^ i % 256 = 0 := by
  obtain ⟨k1, k2, k3, k4, k5, k6⟩ := acceptWrite_ok hc hacc
  refine ⟨_, _, _, _, processWrite_spec c cmd data wuser k1 k3 curId, ?_, ?_, ?_⟩
  · rw [awsOf_out, wsOf_out, show r.address.toNat = cmd.address by omega]
    exact decode_all c cmd data wuser _ k1 k3 (k5 hb)
  · rw [awsOf_out, wsOf_out]
    exact strobesLegal_segs c cmd data wuser _ k1 (k5 hb) 0 (Nat.zero_le _)
  · rw [wsOf_out]
    intro w hw i hi
    simp only [List.mem_flatMap, segW, List.mem_map, List.mem_range'_1] at hw
    obtain ⟨p, hp, j, hj, rfl⟩ := hw
    obtain ⟨h1, h2⟩ := mem_segs c cmd 0 (Nat.zero_le _) p hp
    have hbl := blAt_bounds c cmd p.1 h1
    have hjc : j < cyclesOf cmd := by omega
    obtain ⟨b1, b2, b3, b4, b5, b6, b7⟩ := beat_bounds k1.geo (k := j) hjc
    have hl := bytesAt_length c cmd data k1 k3 hjc
    simp only [wAt] at hi ⊢
    rw [strobeVal_bit _ _ _ _ (by simp only [hiAt, wordAt]; omega)] at hi
    have hi := of_decide_eq_false hi
    have hd := digit_fromBytesLE (List.replicate (loAt cmd j - wordAt c cmd j) 0 ++ bytesAt cmd data j) i
    have hz : (List.replicate (loAt cmd j - wordAt c cmd j) 0 ++ bytesAt cmd data j)[i]?.getD 0 = (0 : UInt8) := by
      by_cases hlt : i < loAt cmd j - wordAt c cmd j
      · rw [List.getElem?_append_left (by simpa using hlt)]
        simp [hlt]
      · rw [List.getElem?_append_right (by simpa using hlt), List.getElem?_eq_none]
        · rfl
        · rw [hl, List.length_replicate]
          simp only [loAt, hiAt, wordAt] at *
          omega
    rw [hz] at hd
    have := congrArg UInt8.toNat hd
    simpa using this

example : ∃ cmd out id bl nid, acceptWrite exCfg exReq exData (.int 0) = .ok cmd ∧
    processWrite exCfg 0 cmd exData (.int 0) = .ok (out, id, bl, nid) ∧
    (wsOf out).map (fun w => (w.data, w.strb, w.last)) =
      [(0x100, 2, false), (0x03020000, 12, true), (0x0504, 3, false), (0x07060000, 12, true)] :=
  ⟨_, _, _, _, _, rfl, rfl, rfl⟩

/-! ## C22 -/

/-- **C22.** For every accepted write (any burst type), the W channel splits into one group of `awlen+1` beats
per AW transaction with `wlast` exactly on the last beat of each group. The operation completes with exactly
as many B responses as AW transactions were sent: with fewer it keeps waiting, and it takes no more. -/
theorem C22_wlast (c : Cfg) (hc : c.Std) (r : Req) (data : Bytes) (wuser : WUser) (cmd : Cmd) (curId : Nat)
    (hacc : acceptWrite c r data wuser = .ok cmd) :
    ∃ out id bl nid, processWrite c curId cmd data wuser = .ok (out, id, bl, nid) ∧
      Framed (awsOf out) (wsOf out) ∧ bl = (awsOf out).map (·.beats) ∧
      (∀ bs : List BBeat, bs.length < (awsOf out).length → writeResult bl bs = .error .queueEmpty) ∧
      (∀ bs rest : List BBeat, bs.length = (awsOf out).length →
        ∃ v : Resp × List Int, writeResult bl (bs ++ rest) = .ok (v.1, v.2, rest)) := by
  obtain ⟨k1, k2, k3, k4, k5, k6⟩ := acceptWrite_ok hc hacc
  have hbl := burstList_segs c cmd (chooseId c cmd curId).1 0 (Nat.zero_le _)
  have hlen : ((segs c cmd 0).map (·.2)).length =
      ((segs c cmd 0).map fun p => aAt c cmd (chooseId c cmd curId).1 p.1).length := by simp
  refine ⟨_, _, _, _, processWrite_spec c cmd data wuser k1 k3 curId, ?_, ?_, ?_, ?_⟩
  · rw [awsOf_out, wsOf_out]; exact framed_segs c cmd data wuser _ 0 (Nat.zero_le _)
  · rw [awsOf_out]; exact hbl
  · intro bs hbs
    rw [awsOf_out] at hbs
    exact writeRespLoop_waits _ _ _ _ (by omega)
  · intro bs rest hbs
    rw [awsOf_out] at hbs
    exact ⟨(foldResp .okay (bs.map (·.resp)), [] ++ bs.map (·.user)), writeRespLoop_spec _ _ _ _ _ (by omega)⟩

/-! ## C23, C24 -/

/-- **C23, any RAM size and aliasing.** An accepted INCR write executed by an `AxiRam` of a whole number of
bus words performs exactly the assignments `contents[(address+i) mod size] := data[i]` in order, answers one
OKAY response with the operation's ID per burst, and the operation returns OKAY. The same holds for a RAM of any
size that contains the whole span. -/
theorem C23_write_aliased (c : Cfg) (hc : c.Std) (r : Req) (data : Bytes) (wuser : WUser) (cmd : Cmd) (curId : Nat)
    (hacc : acceptWrite c r data wuser = .ok cmd) (hb : r.burst = 1) (m : Memory) (hm : m.WF) (hs : 0 < m.size)
    (hfit : c.lanes ∣ m.size ∨ r.address.toNat + data.length ≤ m.size) :
    ∃ out id bl nid bs m', processWrite c curId cmd data wuser = .ok (out, id, bl, nid) ∧
      slaveWrites ramTarget c.lanes true (awsOf out) (wsOf out) m = (.done (bs, []), m') ∧
      (∀ b ∈ bs, b.id = id ∧ b.resp = .okay) ∧ m'.WF ∧ m'.size = m.size ∧
      m'.contents = m.contents.puts (modPairs m.size (pairsAt r.address.toNat data)) ∧
      ∃ user, writeResult bl bs = .ok (.okay, user, []) := by
  obtain ⟨k1, k2, k3, k4, k5, k6⟩ := acceptWrite_ok hc hacc
  have haddr : r.address.toNat = cmd.address := by omega
  rw [haddr] at hfit ⊢
  have hbr := k5 hb
  obtain ⟨m', e1, e2, e3, e4⟩ := slaveWrites_ram c.lanes
    ((segs c cmd 0).map fun p => aAt c cmd (chooseId c cmd curId).1 p.1)
    ((segs c cmd 0).flatMap (segW c cmd data wuser)) m hm hs (pairsAt cmd.address data)
    (decode_all c cmd data wuser _ k1 k3 hbr) (framed_segs c cmd data wuser _ 0 (Nat.zero_le _)) (by
      intro a ha
      obtain ⟨p, hp, rfl⟩ := List.mem_map.1 ha
      exact Nat.le_of_dvd k1.geo.lanesPos k1.geo.dvd) (by
      intro a ha _
      obtain ⟨p, hp, rfl⟩ := List.mem_map.1 ha
      exact within4k_aAt c cmd _ k2 (mem_segs c cmd 0 (Nat.zero_le _) p hp).1)
    (segs_ws_bound c cmd data wuser k1 k3) (by
      rcases hfit with h | h
      · exact .inl h
      · refine .inr fun p hp => ?_
        have := mem_pairsAt hp
        omega)
  refine ⟨_, _, _, _, ((segs c cmd 0).map fun p => aAt c cmd (chooseId c cmd curId).1 p.1).map fun a =>
    ({ id := a.id, resp := .okay } : BBeat), m', processWrite_spec c cmd data wuser k1 k3 curId, ?_, ?_, e2, e3, e4, ?_⟩
  · rw [awsOf_out, wsOf_out]; exact e1
  · intro b hb
    simp only [List.map_map, List.mem_map, Function.comp] at hb
    obtain ⟨p, hp, rfl⟩ := hb
    exact ⟨rfl, rfl⟩
  · have := writeRespLoop_spec ((segs c cmd 0).map (·.2))
      (((segs c cmd 0).map fun p => aAt c cmd (chooseId c cmd curId).1 p.1).map fun a =>
        ({ id := a.id, resp := .okay } : BBeat)) [] .okay [] (by simp)
    rw [List.append_nil] at this
    rw [foldResp_okay _ (by
      intro r hr
      simp only [List.map_map, List.mem_map, Function.comp] at hr
      obtain ⟨p, hp, rfl⟩ := hr
      rfl)] at this
    exact ⟨_, this⟩

/-- **C23.** An accepted INCR write within the RAM stores exactly the data: the memory afterwards is the old
memory with `data` at `[address, address+len)` and nothing else changed; every response is OKAY. -/
theorem C23_write_stores (c : Cfg) (hc : c.Std) (r : Req) (data : Bytes) (wuser : WUser) (cmd : Cmd) (curId : Nat)
    (hacc : acceptWrite c r data wuser = .ok cmd) (hb : r.burst = 1) (m : Memory) (hm : m.WF) (hs : 0 < m.size)
    (hfit : r.address.toNat + data.length ≤ m.size) :
    ∃ out id bl nid bs m', processWrite c curId cmd data wuser = .ok (out, id, bl, nid) ∧
      slaveWrites ramTarget c.lanes true (awsOf out) (wsOf out) m = (.done (bs, []), m') ∧
      (∀ b ∈ bs, b.id = id ∧ b.resp = .okay) ∧ m'.WF ∧ m'.size = m.size ∧
      m'.contents = m.contents.store r.address.toNat data ∧
      ∃ user, writeResult bl bs = .ok (.okay, user, []) := by
  obtain ⟨out, id, bl, nid, bs, m', h1, h2, h3, h4, h5, h6, h7⟩ :=
    C23_write_aliased c hc r data wuser cmd curId hacc hb m hm hs (.inr hfit)
  refine ⟨out, id, bl, nid, bs, m', h1, h2, h3, h4, h5, ?_, h7⟩
  rw [h6, modPairs_of_lt, puts_pairsAt]
  intro p hp
  have := mem_pairsAt hp
  omega

/-- **C24, any RAM size and aliasing.** An accepted INCR read served by an `AxiRam` of a whole number of bus
words (or one containing the span) returns OKAY and the bytes `contents[(address+i) mod size]`. -/
theorem C24_read_aliased (c : Cfg) (hc : c.Std) (r : Req) (cmd : Cmd) (curId : Nat) (hacc : acceptRead c r = .ok cmd)
    (hb : r.burst = 1) (m : Memory) (hm : m.WF) (hs : 0 < m.size)
    (hfit : c.lanes ∣ m.size ∨ r.address.toNat + r.length.toNat ≤ m.size) :
    ∃ out id bl nid rs user, processRead c curId cmd = (out, id, bl, nid) ∧
      slaveReads ramTarget c.lanes out m = (.done rs, m) ∧ (∀ b ∈ rs, b.id = id) ∧
      readResult c cmd bl rs = .ok ((List.range r.length.toNat).map
        (fun i => m.contents ((r.address.toNat + i) % m.size)), .okay, user, []) := by
  obtain ⟨k1, k2, k3, k4, k5, k6⟩ := acceptRead_ok hc hacc
  have h1 : r.address.toNat = cmd.address := by omega
  have h2 : r.length.toNat = cmd.length := by omega
  rw [h1, h2] at hfit ⊢
  refine ⟨_, _, _, _, _, _, processRead_spec c cmd curId,
    slaveReads_ram c cmd _ k1 (k5 hb) k2 m hm hs 0 (Nat.zero_le _), ?_, read_ram c cmd _ k1 m hm hs hfit⟩
  intro b hb
  simp only [List.mem_flatMap, segR, List.mem_map] at hb
  obtain ⟨p, hp, j, hj, rfl⟩ := hb
  rfl

/-- **C24.** An accepted INCR read within the RAM returns exactly the memory bytes, with OKAY. -/
theorem C24_read_exact (c : Cfg) (hc : c.Std) (r : Req) (cmd : Cmd) (curId : Nat) (hacc : acceptRead c r = .ok cmd)
    (hb : r.burst = 1) (m : Memory) (hm : m.WF) (hs : 0 < m.size)
    (hfit : r.address.toNat + r.length.toNat ≤ m.size) :
    ∃ out id bl nid rs user, processRead c curId cmd = (out, id, bl, nid) ∧
      slaveReads ramTarget c.lanes out m = (.done rs, m) ∧ (∀ b ∈ rs, b.id = id) ∧
      readResult c cmd bl rs = .ok (m.contents.load r.address.toNat r.length.toNat, .okay, user, []) := by
  obtain ⟨out, id, bl, nid, rs, user, h1, h2, h3, h4⟩ :=
    C24_read_aliased c hc r cmd curId hacc hb m hm hs (.inr hfit)
  refine ⟨out, id, bl, nid, rs, user, h1, h2, h3, ?_⟩
  rw [h4]
  congr 2
  apply List.map_congr_left
  intro i hi
  rw [List.mem_range] at hi
  rw [Nat.mod_eq_of_lt (by omega)]

/-- **C24, read after write.** Writing `data` and reading the same span back, with possibly different masters
(bus widths, burst limits, transfer sizes, IDs), returns `data`. -/
theorem C24_read_after_write (c c' : Cfg) (hc : c.Std) (hc' : c'.Std) (r r' : Req) (data : Bytes) (wuser : WUser)
    (cmd cmd' : Cmd) (curId curId' : Nat) (hacc : acceptWrite c r data wuser = .ok cmd) (hb : r.burst = 1)
    (hacc' : acceptRead c' r' = .ok cmd') (hb' : r'.burst = 1) (haddr : r'.address = r.address)
    (hlen : r'.length = data.length) (m : Memory) (hm : m.WF) (hs : 0 < m.size)
    (hfit : r.address.toNat + data.length ≤ m.size) :
    ∃ out id bl nid bs m' rs user, processWrite c curId cmd data wuser = .ok (out, id, bl, nid) ∧
      slaveWrites ramTarget c.lanes true (awsOf out) (wsOf out) m = (.done (bs, []), m') ∧
      slaveReads ramTarget c'.lanes (processRead c' curId' cmd').1 m' = (.done rs, m') ∧
      readResult c' cmd' (processRead c' curId' cmd').2.2.1 rs = .ok (data, .okay, user, []) := by
  obtain ⟨out, id, bl, nid, bs, m', h1, h2, h3, h4, h5, h6, h7⟩ :=
    C23_write_stores c hc r data wuser cmd curId hacc hb m hm hs hfit
  obtain ⟨out', id', bl', nid', rs, user, g1, g2, g3, g4⟩ :=
    C24_read_exact c' hc' r' cmd' curId' hacc' hb' m' h4 (by omega) (by rw [haddr, hlen, h5]; simpa using hfit)
  refine ⟨out, id, bl, nid, bs, m', rs, user, h1, h2, ?_, ?_⟩
  · rw [g1]; exact g2
  · rw [g1]
    simp only
    rw [g4, h6, haddr, hlen]
    simp only [Int.toNat_natCast]
    rw [FlatMem.load_store_same]

/-- The hypotheses of C23/C24 are met by the 7-byte write at `0xffd`, crossing a 4 KiB boundary with 2-byte
transfers, on an 8 KiB RAM, read back over a 64-bit bus with 8-byte transfers. -/
example : ∃ cmd cmd', acceptWrite exCfg exReq exData (.int 0) = .ok cmd ∧ exReq.burst = 1 ∧
    acceptRead { lanes := 8, addrWidth := 32, idWidth := 4 } { address := 0xffd, length := 7 } = .ok cmd' ∧
    exReq.address.toNat + exData.length ≤ 8192 ∧ ∃ m, Memory.init 8192 = .ok m ∧ m.WF ∧ m.size = 8192 := by
  obtain ⟨m, h1, h2, h3, _⟩ := (Memory.C05_init_iff 8192).2 (by decide)
  exact ⟨_, _, rfl, rfl, rfl, by decide, m, h1, h2, h3⟩

/-! ## C27 -/

/-- Full claim of C27: a FIXED write strobes only lanes of the addressed container. It is false, see below. -/
def C27_full : Prop := ∀ (c : Cfg) (r : Req) (data : Bytes) (cmd : Cmd), c.Std →
  acceptWrite c r data (.int 0) = .ok cmd → r.burst = 0 →
  ∃ out id bl nid, processWrite c 0 cmd data (.int 0) = .ok (out, id, bl, nid) ∧
    ∀ w ∈ wsOf out, ∀ i, w.strb.testBit i →
      cmd.address / 2 ^ cmd.size * 2 ^ cmd.size ≤ cmd.address / c.lanes * c.lanes + i ∧
      cmd.address / c.lanes * c.lanes + i < cmd.address / 2 ^ cmd.size * 2 ^ cmd.size + 2 ^ cmd.size

/-- **C27 violated.** A FIXED write of 4 bytes with 2-byte transfers at address 0 of a 4-byte bus strobes
lanes 2 and 3 in its second beat, although every beat addresses bytes 0 and 1 (axi_master.py 575-581: the byte
lanes advance although the address does not). -/
theorem C27_violated : ¬ C27_full := by
  intro h
  obtain ⟨out, id, bl, nid, h1, h2⟩ := h exCfg { address := 0, length := 0, burst := 0, size := some 1 } [1, 2, 3, 4]
    _ exCfg_std rfl rfl
  have e := Except.ok.inj h1
  have e1 := congrArg (fun x => wsOf x.1) e
  have : (⟨0x04030000, 12, true, 0⟩ : WBeat) ∈ wsOf out := by
    rw [← e1]; decide
  have := h2 _ this 2 (by decide)
  revert this
  decide

theorem beatAddr_fixed (c : Cfg) (cmd : Cmd) (id k n : Nat) (hb : cmd.burst = .fixed) :
    beatAddr (aAt c cmd id k) n = cmd.address / 2 ^ cmd.size * 2 ^ cmd.size := by
  simp only [beatAddr, ABeat.aligned, ABeat.nbytes, aAt, curAt, hb, true_or, if_true]

/-- The `n`-byte chunks of a byte string. -/
def chunks (n : Nat) (d : Bytes) : List Bytes :=
  (List.range ((d.length + n - 1) / n)).map fun k => (d.drop (k * n)).take n

theorem flatMap_congr' {α β : Type} {l : List α} {f g : α → List β} (h : ∀ a ∈ l, f a = g a) :
    l.flatMap f = l.flatMap g := by
  induction l with
  | nil => rfl
  | cons a l ih =>
    simp only [List.flatMap_cons]
    rw [h a (by simp), ih fun b hb => h b (by simp [hb])]

theorem decodeBeats_fixed (c : Cfg) (cmd : Cmd) (data : Bytes) (wuser : WUser) (id : Nat) (h : CmdOK c cmd)
    (hlen : data.length = cmd.length) (hb : cmd.burst = .fixed) (hfull : 2 ^ cmd.size = c.lanes)
    (hal : c.lanes ∣ cmd.address) (k0 : Nat) (f : Nat → Bool) (k n r : Nat) (hk : k + r ≤ cyclesOf cmd) :
    decodeBeats c.lanes (aAt c cmd id k0) n ((List.range' k r).map fun j => wAt c cmd data wuser j (f j)) =
      (List.range' k r).flatMap fun j => pairsAt cmd.address (bytesAt cmd data j) := by
  have hpos := h.geo.lanesPos
  have hA : cmd.address / c.lanes * c.lanes = cmd.address := Nat.div_mul_cancel hal
  induction r generalizing k n with
  | zero => rfl
  | succ r ih =>
    simp only [List.range'_succ, List.map_cons, decodeBeats, List.flatMap_cons]
    have hw : beatWord c.lanes (aAt c cmd id k0) n = cmd.address := by
      simp only [beatWord, beatAddr_fixed c cmd id k0 n hb, hfull, hA]
    rw [hw, strobed_wAt' c cmd data wuser h hlen (by omega), ih (k + 1) (n + 1) (by omega)]
    congr 2
    have : loAt cmd k ≤ wordAt c cmd k := by
      simp only [loAt, gLo, wordAt, gWord, gBox, hfull, hA]
      rw [Nat.add_mul_div_right _ _ hpos, Nat.add_mul, hA]
      omega
    omega

/-- **C27, what holds.** A FIXED write with full-width transfers at an aligned address sends the data chunk by
chunk to the addressed container: decoded by the AXI rules, its traffic is the chunk-by-chunk assignments at
the same address. -/
theorem C27_fixed_partial (c : Cfg) (hc : c.Std) (r : Req) (data : Bytes) (wuser : WUser) (cmd : Cmd) (curId : Nat)
    (hacc : acceptWrite c r data wuser = .ok cmd) (hb : r.burst = 0) (hfull : 2 ^ cmd.size = c.lanes)
    (hal : c.lanes ∣ r.address.toNat) :
    ∃ out id bl nid, processWrite c curId cmd data wuser = .ok (out, id, bl, nid) ∧
      decode c.lanes (awsOf out) (wsOf out) =
        some ((chunks c.lanes data).flatMap (pairsAt r.address.toNat)) := by
  obtain ⟨k1, k2, k3, k4, k5, k6⟩ := acceptWrite_ok hc hacc
  have haddr : r.address.toNat = cmd.address := by omega
  rw [haddr] at hal ⊢
  refine ⟨_, _, _, _, processWrite_spec c cmd data wuser k1 k3 curId, ?_⟩
  rw [awsOf_out, wsOf_out]
  have hA : cmd.address / c.lanes * c.lanes = cmd.address := Nat.div_mul_cancel hal
  have main : ∀ k ≤ cyclesOf cmd, decode c.lanes
      ((segs c cmd k).map fun p => aAt c cmd (chooseId c cmd curId).1 p.1)
      ((segs c cmd k).flatMap (segW c cmd data wuser)) =
      some ((List.range' k (cyclesOf cmd - k)).flatMap fun j => pairsAt cmd.address (bytesAt cmd data j)) := by
    refine segs_induction (blAt_bounds c cmd) ?_ ?_
    · simp [segs_done, decode]
    · intro k hk ih
      have hbl := blAt_bounds c cmd k hk
      rw [segs_step c cmd k hk]
      simp only [List.map_cons, List.flatMap_cons, decode, beats_aAt c cmd _ hk]
      have hl := segW_length c cmd data wuser (k, blAt c cmd k)
      simp only at hl
      rw [if_neg (by rw [List.length_append, hl]; omega), List.take_left' hl, List.drop_left' hl, ih]
      simp only [Option.map_some, Option.some.injEq, segW]
      rw [decodeBeats_fixed c cmd data wuser _ k1 k3 (k6 hb) hfull hal k _ k 0 _ (by omega)]
      simp only [← List.flatMap_append]
      rw [List.range'_append_1]
      congr 2
      omega
  rw [main 0 (Nat.zero_le _)]
  have hmod : cmd.address % c.lanes = 0 := Nat.mod_eq_zero_of_dvd hal
  have hcyc : cyclesOf cmd = (data.length + c.lanes - 1) / c.lanes := by
    simp only [cyclesOf, hfull, hmod, k3, Nat.add_zero]
  simp only [chunks, Nat.sub_zero, ← hcyc, List.flatMap_map, List.range_eq_range']
  congr 1
  apply flatMap_congr'
  intro j hj
  rw [List.mem_range'_1] at hj
  congr 1
  have hjc : j < cyclesOf cmd := by omega
  have hlo : loAt cmd j - cmd.address = j * c.lanes := by
    simp only [loAt, gLo, gBox, hfull, hA]; omega
  have hhi : hiAt cmd j - loAt cmd j = min (data.length - j * c.lanes) c.lanes := by
    have : loAt cmd j = cmd.address + j * c.lanes := by simp only [loAt, gLo, gBox, hfull, hA]; omega
    rw [this]
    simp only [hiAt, gHi, gBox, hfull, hA, Nat.add_mul, Nat.one_mul]
    omega
  simp only [bytesAt, hlo, hhi]
  rw [List.take_eq_take_iff]
  simp only [List.length_drop]
  omega

example : ∃ cmd, acceptWrite exCfg { address := 8, length := 0, burst := 0 } [1, 2, 3, 4, 5] (.int 0) = .ok cmd ∧
    2 ^ cmd.size = exCfg.lanes := ⟨_, rfl, rfl⟩

/-! ## C30 -/

theorem foldResp_last (l : List Resp) (r0 : Resp) :
    foldResp r0 l = ((l.filter (· ≠ .okay)).getLast?).getD r0 := by
  induction l generalizing r0 with
  | nil => rfl
  | cons r l ih =>
    simp only [foldResp, ih]
    by_cases h : r = .okay
    · subst h; simp
    · simp only [ne_eq, h, not_false_eq_true, if_true, decide_true, List.filter_cons_of_pos]
      cases hl : List.filter (fun x => decide ¬x = .okay) l with
      | nil => rfl
      | cons a t =>
        rw [List.getLast?_cons_cons, List.getLast?_cons]
        rfl

/-- `lastNonOkay` is OKAY iff every response is OKAY. -/
theorem lastNonOkay_okay_iff (l : List Resp) : lastNonOkay l = .okay ↔ ∀ r ∈ l, r = .okay := by
  unfold lastNonOkay
  cases h : (l.filter (· ≠ .okay)).getLast? with
  | none =>
    rw [List.getLast?_eq_none_iff, List.filter_eq_nil_iff] at h
    simp only [Option.getD_none, true_iff]
    intro r hr
    have := h r hr
    simpa using this
  | some x =>
    have hm := List.mem_of_getLast? h
    rw [List.mem_filter] at hm
    simp only [Option.getD_some]
    constructor
    · intro hx; subst hx; simp at hm
    · intro hall; exact hall x hm.1

/-- **C30, writes.** With one B response per burst, the operation's response is the last one that is not OKAY
(so OKAY iff all are OKAY, `lastNonOkay_okay_iff`), and its `user` list is the `buser` values in order. -/
theorem C30_write (bl : List Nat) (bs rest : List BBeat) (h : bs.length = bl.length) :
    writeResult bl (bs ++ rest) = .ok (lastNonOkay (bs.map (·.resp)), bs.map (·.user), rest) := by
  rw [writeResult, writeRespLoop_spec bl bs rest _ _ h, foldResp_last]
  rfl

/-- **C30, reads.** With R beats framed by `rlast` according to the bursts, the operation's response is the
last one that is not OKAY over all beats of all bursts, and its `user` list is the `ruser` values in order. -/
theorem C30_read (c : Cfg) (hc : c.Std) (r : Req) (cmd : Cmd) (curId : Nat) (hacc : acceptRead c r = .ok cmd)
    (rs rest : List RBeat) (hf : FramedR ((processRead c curId cmd).1.map (·.beats)) rs) :
    ∃ data, readResult c cmd (processRead c curId cmd).2.2.1 (rs ++ rest) =
      .ok (data, lastNonOkay (rs.map (·.resp)), rs.map (·.user), rest) := by
  obtain ⟨k1, k2, k3, k4, k5, k6⟩ := acceptRead_ok hc hacc
  rw [processRead_spec] at hf ⊢
  simp only at hf ⊢
  rw [← burstList_segs c cmd _ 0 (Nat.zero_le _)] at hf
  have := readResult_spec c cmd k1 _ rs rest (by
    intro L hL
    obtain ⟨p, hp, rfl⟩ := List.mem_map.1 hL
    obtain ⟨h1, h2⟩ := mem_segs c cmd 0 (Nat.zero_le _) p hp
    have := blAt_bounds c cmd p.1 h1
    omega) hf
  rw [foldResp_last] at this
  exact ⟨_, this⟩

/-- Two bursts of 2 and 1 beats, correctly framed, with an error in the middle. -/
example : FramedR [2, 1] [⟨0, 1, .okay, false, 0⟩, ⟨0, 2, .slverr, true, 0⟩, ⟨0, 3, .okay, true, 0⟩] :=
  ⟨rfl, rfl, rfl⟩

/-- Full claim of C30: an error response is never hidden. It is false, see below. -/
def C30_full : Prop := ∀ (bl : List Nat) (bs : List BBeat), bs.length = bl.length →
  (∃ b ∈ bs, b.resp = .slverr ∨ b.resp = .decerr) →
  ∃ resp user, writeResult bl bs = .ok (resp, user, []) ∧ (resp = .slverr ∨ resp = .decerr)

/-- **C30 violated.** An EXOKAY after a SLVERR hides the error: the write reports EXOKAY. -/
theorem C30_violated : ¬ C30_full := by
  intro h
  obtain ⟨resp, user, h1, h2⟩ := h [1, 1] [{ id := 0, resp := .slverr }, { id := 0, resp := .exokay }] rfl
    ⟨{ id := 0, resp := .slverr }, List.mem_cons_self, .inl rfl⟩
  have e := congrArg Prod.fst (Except.ok.inj h1)
  rcases h2 with h2 | h2 <;> · rw [h2] at e; cases e

/-- **C30, what holds.** Without EXOKAY responses (no exclusive accesses), an error response is never hidden. -/
theorem C30_error_reported_partial (l : List Resp) (hne : ∀ r ∈ l, r ≠ .exokay) :
    (lastNonOkay l = .slverr ∨ lastNonOkay l = .decerr) ↔ ∃ r ∈ l, r = .slverr ∨ r = .decerr := by
  unfold lastNonOkay
  constructor
  · intro h
    cases hl : (l.filter (· ≠ .okay)).getLast? with
    | none => rw [hl] at h; simp at h
    | some x =>
      rw [hl] at h
      have hm := List.mem_of_getLast? hl
      rw [List.mem_filter] at hm
      exact ⟨x, hm.1, h⟩
  · rintro ⟨r, hr, he⟩
    cases hl : (l.filter (· ≠ .okay)).getLast? with
    | none =>
      rw [List.getLast?_eq_none_iff, List.filter_eq_nil_iff] at hl
      have := hl r hr
      rcases he with h | h <;> simp [h] at this
    | some x =>
      have hm := List.mem_of_getLast? hl
      rw [List.mem_filter] at hm
      have := hne x hm.1
      simp only [Option.getD_some]
      cases x <;> simp_all

example : lastNonOkay [.okay, .decerr, .slverr, .okay] = .slverr := rfl

/-! ## C31 -/

/-- The ID operation `i` of a sequence must use: its explicit ID, or the number of automatic-ID operations
before it modulo the number of IDs. -/
def expectedId (idWidth : Nat) (ids : List (Option Nat)) (i : Nat) : Option Nat :=
  ids[i]?.map fun o => o.getD (((ids.take i).filter (·.isNone)).length % 2 ^ idWidth)

/-- The `j`-th next ID when the counter stands at `cur`. -/
theorem processReads_ids (c : Cfg) (cmds : List Cmd) (cur n : Nat) (hcur : cur = n % 2 ^ c.idWidth) (i : Nat)
    (x : List ABeat × Nat × List Nat) (hx : (processReads c cur cmds)[i]? = some x) :
    (∃ o, (cmds.map (·.id))[i]? = some o ∧
      x.2.1 = o.getD ((n + (((cmds.map (·.id)).take i).filter (·.isNone)).length) % 2 ^ c.idWidth)) ∧
    ∀ a ∈ x.1, a.id = x.2.1 := by
  induction cmds generalizing cur n i with
  | nil => simp [processReads] at hx
  | cons cmd cmds ih =>
    simp only [processReads, processRead_spec] at hx
    cases i with
    | zero =>
      simp only [List.getElem?_cons_zero, Option.some.injEq] at hx
      subst hx
      refine ⟨⟨cmd.id, by simp, ?_⟩, ?_⟩
      · simp only [chooseId, List.take_zero, List.filter_nil, List.length_nil, Nat.add_zero]
        cases cmd.id <;> simp [hcur]
      · intro a ha
        obtain ⟨p, hp, rfl⟩ := List.mem_map.1 ha
        rfl
    | succ i =>
      simp only [List.getElem?_cons_succ] at hx
      cases hid : cmd.id with
      | some v =>
        have e : (chooseId c cmd cur).2 = cur := by simp [chooseId, hid]
        rw [e] at hx
        obtain ⟨⟨o, h1, h2⟩, h3⟩ := ih cur n hcur i hx
        exact ⟨⟨o, by simpa using h1, by simpa [hid] using h2⟩, h3⟩
      | none =>
        have e : (chooseId c cmd cur).2 = (n + 1) % 2 ^ c.idWidth := by
          simp [chooseId, hid, hcur, Cfg.idCount, Nat.add_mod]
        rw [e] at hx
        obtain ⟨⟨o, h1, h2⟩, h3⟩ := ih _ (n + 1) rfl i hx
        refine ⟨⟨o, by simpa using h1, ?_⟩, h3⟩
        rw [h2]
        simp only [List.map_cons, hid, List.take_succ_cons, Option.isNone_none, List.filter_cons_of_pos,
          List.length_cons]
        congr 2
        omega

/-- **C31, reads.** In the sequence of reads processed after reset, operation `i` uses the ID `expectedId`
for all its bursts. -/
theorem C31_read_ids (c : Cfg) (cmds : List Cmd) (i : Nat) (out : List ABeat) (id : Nat) (bl : List Nat)
    (hx : (processReads c 0 cmds)[i]? = some (out, id, bl)) :
    expectedId c.idWidth (cmds.map (·.id)) i = some id ∧ ∀ a ∈ out, a.id = id := by
  obtain ⟨⟨o, h1, h2⟩, h3⟩ := processReads_ids c cmds 0 0 (by simp) i _ hx
  refine ⟨?_, h3⟩
  simp only [expectedId, h1, Option.map_some, Option.some.injEq]
  simpa using h2.symm

theorem processWrites_ids (c : Cfg) (cmds : List (Cmd × Bytes × WUser))
    (hok : ∀ x ∈ cmds, CmdOK c x.1 ∧ x.2.1.length = x.1.length) (cur n : Nat) (hcur : cur = n % 2 ^ c.idWidth) :
    ∃ l, processWrites c cur cmds = .ok l ∧ l.length = cmds.length ∧
      ∀ (i : Nat) (x : List (ABeat ⊕ WBeat) × Nat × List Nat), l[i]? = some x →
      (∃ o, (cmds.map (·.1.id))[i]? = some o ∧
        x.2.1 = o.getD ((n + (((cmds.map (·.1.id)).take i).filter (·.isNone)).length) % 2 ^ c.idWidth)) ∧
      ∀ a ∈ awsOf x.1, a.id = x.2.1 := by
  induction cmds generalizing cur n with
  | nil => exact ⟨[], rfl, rfl, by simp⟩
  | cons w cmds ih =>
    obtain ⟨cmd, data, wuser⟩ := w
    obtain ⟨g1, g2⟩ := hok _ List.mem_cons_self
    have hnext : ∃ n', (chooseId c cmd cur).2 = n' % 2 ^ c.idWidth ∧
        n' = n + (if cmd.id = none then 1 else 0) := by
      refine ⟨_, ?_, rfl⟩
      cases hid : cmd.id with
      | some v => simp [chooseId, hid, hcur]
      | none => simp [chooseId, hid, hcur, Cfg.idCount, Nat.add_mod]
    obtain ⟨n', hn', hn''⟩ := hnext
    obtain ⟨l, e1, e2, e3⟩ := ih (fun x hx => hok x (List.mem_cons_of_mem _ hx)) _ n' hn'
    simp only at g1 g2
    refine ⟨((segs c cmd 0).flatMap (burstOut c cmd data wuser (chooseId c cmd cur).1), (chooseId c cmd cur).1,
      (segs c cmd 0).map (·.2)) :: l, by simp only [processWrites, processWrite_spec c cmd data wuser g1 g2 cur, e1], by simp [e2], ?_⟩
    intro i x hx
    cases i with
    | zero =>
      simp only [List.getElem?_cons_zero, Option.some.injEq] at hx
      subst hx
      refine ⟨⟨cmd.id, by simp, ?_⟩, ?_⟩
      · simp only [chooseId, List.take_zero, List.filter_nil, List.length_nil, Nat.add_zero]
        cases cmd.id <;> simp [hcur]
      · rw [awsOf_out]
        intro a ha
        obtain ⟨p, hp, rfl⟩ := List.mem_map.1 ha
        rfl
    | succ i =>
      simp only [List.getElem?_cons_succ] at hx
      obtain ⟨⟨o, h1, h2⟩, h3⟩ := e3 i x hx
      refine ⟨⟨o, by simpa using h1, ?_⟩, h3⟩
      rw [h2, hn'']
      cases hid : cmd.id with
      | some v => simp [hid]
      | none =>
        simp only [List.map_cons, hid, List.take_succ_cons, Option.isNone_none, List.filter_cons_of_pos,
          List.length_cons, if_true]
        congr 2
        omega

/-- **C31, writes.** In the sequence of accepted writes processed after reset, none fails, and operation `i`
uses the ID `expectedId` for all its bursts. -/
theorem C31_write_ids (c : Cfg) (hc : c.Std) (cmds : List (Cmd × Bytes × WUser))
    (hacc : ∀ x ∈ cmds, ∃ r, acceptWrite c r x.2.1 x.2.2 = .ok x.1) :
    ∃ l, processWrites c 0 cmds = .ok l ∧ l.length = cmds.length ∧
      ∀ (i : Nat) (out : List (ABeat ⊕ WBeat)) (id : Nat) (bl : List Nat), l[i]? = some (out, id, bl) →
      expectedId c.idWidth (cmds.map (·.1.id)) i = some id ∧ ∀ a ∈ awsOf out, a.id = id := by
  obtain ⟨l, h1, h2, h3⟩ := processWrites_ids c cmds (by
    intro x hx
    obtain ⟨r, hr⟩ := hacc x hx
    have := acceptWrite_ok hc hr
    exact ⟨this.1, this.2.2.1⟩) 0 0 (by simp)
  refine ⟨l, h1, h2, ?_⟩
  intro i out id bl hx
  obtain ⟨⟨o, g1, g2⟩, g3⟩ := h3 i _ hx
  refine ⟨?_, g3⟩
  simp only [expectedId, g1, Option.map_some, Option.some.injEq]
  simpa using g2.symm

/-- With 1-bit IDs: automatic, automatic, explicit 1, automatic → 0, 1, 1, 0. -/
example : (List.range 4).map (expectedId 1 [none, none, some 1, none]) = [some 0, some 1, some 1, some 0] := rfl

end Verif.Axi
