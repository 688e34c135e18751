import Verif.Props.AxiSysRam
import Verif.Props.AxiLite
import Verif.Props.Hexdump
import Verif.Proof.AddressSpace

/-!
# C119: optional arguments: sideband values, and what is used if they are left out
-/

namespace Verif.AxiSys

open Verif.Axi

theorem segsW_get (c : Cfg) (cmd : Cmd) (data : Bytes) (wuser : WUser) : ∀ k ≤ cyclesOf cmd, ∀ (i : Nat) (w : WBeat),
    ((segs c cmd k).flatMap (segW c cmd data wuser))[i]? = some w → w.user = wuserAt wuser (k + i) := by
  refine segs_induction (blAt_bounds c cmd) ?_ ?_
  · intro i w h
    rw [segs_done] at h
    simp at h
  · intro k hk ih i w h
    rw [segs_step c cmd k hk, List.flatMap_cons] at h
    by_cases hi : i < blAt c cmd k
    · rw [List.getElem?_append_left (by rw [segW_length]; exact hi), segW, List.getElem?_map,
        List.getElem?_range' (by exact hi)] at h
      simp only [Option.map_some, Option.some.injEq, Nat.one_mul] at h
      subst h
      rfl
    · rw [List.getElem?_append_right (by rw [segW_length]; omega), segW_length] at h
      rw [ih _ w h]
      congr 1
      omega

/-- What the `wuser` argument asks for in beat `k`: a number is for all beats, a list has one value for each beat and zeros after its end. -/
def wuserOf : WUser → Nat → Int
  | .int v, _ => v
  | .list l, k => l.getD k 0

/-- The burst type that the argument asks for. -/
def burstIs (r : Req) (b : Burst) : Prop := (r.burst = 0 ∧ b = .fixed) ∨ (r.burst = 1 ∧ b = .incr) ∨ (r.burst = 2 ∧ b = .wrap)

theorem maxBurstSize_pow {c : Cfg} (hc : c.Std) : 2 ^ c.maxBurstSize = c.lanes := by
  obtain ⟨w, hw, _⟩ := hc.lanes
  rw [Cfg.maxBurstSize, hw, bitLength_pow]

theorem cmdOf_side {c : Cfg} (hc : c.Std) {r : Req} (h : Accepts c r) :
    (cmdOf c r).side = r.side ∧ burstIs r (cmdOf c r).burst ∧ 2 ^ (cmdOf c r).size = beatBytes c r := by
  refine ⟨rfl, ?_, ?_⟩
  · have := h.burst
    unfold burstIs cmdOf
    simp only
    rcases this with h | h | h <;> simp [h]
  · unfold cmdOf beatBytes
    simp only
    cases r.size with
    | none => exact maxBurstSize_pow hc
    | some s =>
      simp only
      split
      · exact maxBurstSize_pow hc
      · rfl

/-- **C119, AXI writes.** All bursts of a write carry the sideband values, the burst type and the transfer size that the call asked for, and the beats the `wuser`
values. -/
theorem C119_axi_write (c : Cfg) (hc : c.Std) (r : Req) (data : Bytes) (wuser : WUser) (cmd : Cmd) (curId : Nat)
    (hacc : acceptWrite c r data wuser = .ok cmd) :
    ∃ out id bl nid, processWrite c curId cmd data wuser = .ok (out, id, bl, nid) ∧
      (∀ a ∈ awsOf out, a.side = r.side ∧ burstIs r a.burst ∧ 2 ^ a.size = beatBytes c r) ∧
      ∀ (k : Nat) (w : WBeat), (wsOf out)[k]? = some w → w.user = wuserOf wuser k := by
  obtain ⟨k1, k2, k3, k4, k5, k6⟩ := acceptWrite_ok hc hacc
  obtain ⟨ha, _, he⟩ := (C29_write_iff c hc r data wuser cmd).1 hacc
  refine ⟨_, _, _, _, processWrite_spec c cmd data wuser k1 k3 curId, ?_, ?_⟩
  · rw [awsOf_out]
    intro a ha'
    obtain ⟨p, _, rfl⟩ := List.mem_map.1 ha'
    have := cmdOf_side hc ha
    rw [← he] at this
    exact this
  · intro k w h
    rw [wsOf_out] at h
    rw [segsW_get c cmd data wuser 0 (Nat.zero_le _) k w h, Nat.zero_add]
    cases wuser with
    | int v => rfl
    | list l =>
      simp only [wuserAt, wuserOf, List.getD_eq_getElem?_getD]
      cases l[k]? <;> rfl

/-- **C119, AXI reads.** -/
theorem C119_axi_read (c : Cfg) (hc : c.Std) (r : Req) (cmd : Cmd) (curId : Nat) (hacc : acceptRead c r = .ok cmd) :
    ∀ a ∈ (processRead c curId cmd).1, a.side = r.side ∧ burstIs r a.burst ∧ 2 ^ a.size = beatBytes c r := by
  obtain ⟨ha, he⟩ := (C29_accept_iff c hc r cmd).1 hacc
  rw [processRead_spec]
  intro a ha'
  obtain ⟨p, _, rfl⟩ := List.mem_map.1 ha'
  have := cmdOf_side hc ha
  rw [← he] at this
  exact this

/-- **C119, AXI defaults.** `write(address, data)` and `read(address, length)` are accepted whatever optional signals the bus has, if the addresses are in range;
all bursts are INCR bursts as wide as the bus, NORMAL (0), with cache attributes 0b0011, NONSECURE (2), and zero QoS, region and user values. -/
theorem C119_axi_defaults (c : Cfg) (hc : c.Std) (curId : Nat) (address : Int) (h0 : 0 ≤ address) (h1 : address < 2 ^ c.addrWidth) :
    (∀ data : Bytes, address + data.length ≤ 2 ^ c.addrWidth →
      let a : WArgs := { req := { address := address, length := data.length }, data := data }
      ∃ cmd out id bl nid, acceptWrite c a.req a.data a.wuser = .ok cmd ∧ processWrite c curId cmd a.data a.wuser = .ok (out, id, bl, nid) ∧
        cmd.id = none ∧
        (∀ x ∈ awsOf out, 2 ^ x.size = c.lanes ∧ x.burst = .incr ∧
          x.side = { lock := 0, cache := 3, prot := 2, qos := 0, region := 0, user := 0 }) ∧
        ∀ w ∈ wsOf out, w.user = 0) ∧
    ∀ length : Int, 0 ≤ length → address + length ≤ 2 ^ c.addrWidth →
      ∃ cmd, acceptRead c { address := address, length := length } = .ok cmd ∧ cmd.id = none ∧
        ∀ x ∈ (processRead c curId cmd).1, 2 ^ x.size = c.lanes ∧ x.burst = .incr ∧
          x.side = { lock := 0, cache := 3, prot := 2, qos := 0, region := 0, user := 0 } := by
  have acc : ∀ length : Int, 0 ≤ length → address + length ≤ 2 ^ c.addrWidth → Accepts c { address := address, length := length } := by
    intro n g0 g1
    exact ⟨⟨h0, h1⟩, g0, fun _ => g1, by simp, by simp, by simp, by simp [SideOK]⟩
  refine ⟨fun data hd => ?_, fun length g0 g1 => ?_⟩
  · intro a
    have hacc : acceptWrite c a.req a.data a.wuser = .ok _ :=
      (C29_write_iff c hc a.req a.data a.wuser _).2 ⟨acc data.length (by omega) hd, fun _ => rfl, rfl⟩
    obtain ⟨out, id, bl, nid, e1, e2, e3⟩ := C119_axi_write c hc a.req a.data a.wuser _ curId hacc
    refine ⟨_, out, id, bl, nid, hacc, e1, rfl, fun x hx => ?_, fun w hw => ?_⟩
    · obtain ⟨f1, f2, f3⟩ := e2 x hx
      refine ⟨f3, ?_, f1⟩
      rcases f2 with ⟨h, _⟩ | ⟨_, h⟩ | ⟨h, _⟩
      · cases h
      · exact h
      · cases h
    · obtain ⟨k, hk⟩ := List.getElem?_of_mem hw
      exact e3 k w hk
  · have hacc := (C29_accept_iff c hc { address := address, length := length } _).2 ⟨acc length g0 g1, rfl⟩
    refine ⟨_, hacc, rfl, fun x hx => ?_⟩
    obtain ⟨f1, f2, f3⟩ := C119_axi_read c hc _ _ curId hacc x hx
    refine ⟨f3, ?_, f1⟩
    rcases f2 with ⟨h, _⟩ | ⟨_, h⟩ | ⟨h, _⟩
    · cases h
    · exact h
    · cases h

-- A write that is split into two bursts, with a `wuser` list that is too short.
example : ∃ cmd out id bl nid, acceptWrite exCfg { exReq with side := { qos := 5 } } exData (.list [7, 8, 9]) = .ok cmd ∧
    processWrite exCfg 0 cmd exData (.list [7, 8, 9]) = .ok (out, id, bl, nid) ∧
    (awsOf out).map (fun a => (a.beats, a.side.qos)) = [(2, 5), (2, 5)] ∧ (wsOf out).map (·.user) = [7, 8, 9, 0] :=
  ⟨_, _, _, _, _, rfl, rfl, rfl, rfl⟩

end Verif.AxiSys

namespace Verif.Word

/-- **C119, AXI-lite and APB.** All transfers carry the `prot` value that the call asked for; NONSECURE (2), the default, is accepted whether or not the bus has the
signal. -/
theorem C119_prot (c : Cfg) (hl : 0 < c.lanes) (address prot : Int) (h0 : 0 ≤ address) (h1 : address < 2 ^ c.addrWidth) (hp : c.prot = true ∨ prot = 2) :
    (∀ d : Bytes, address + d.length ≤ 2 ^ c.addrWidth → ∃ cmd xs, acceptWrite c address (.bytes d) prot = .ok (cmd, d) ∧
      writeXfers c cmd d = .ok xs ∧ ∀ x ∈ xs, x.prot = prot) ∧
    ∀ n : Int, 0 ≤ n → address + n ≤ 2 ^ c.addrWidth → ∃ cmd, acceptRead c address n prot = .ok cmd ∧ ∀ x ∈ readXfers c cmd, x.prot = prot := by
  have hp' : c.prot = false → prot = 2 := fun h => by
    rcases hp with h' | h'
    · rw [h] at h'; cases h'
    · exact h'
  constructor
  · intro d hd
    have hacc := (C36_accept_iff c address (.bytes d) prot _ d).2 ⟨rfl, h0, h1, hd, hp', rfl⟩
    obtain ⟨xs, e1, _, _, e2⟩ := C36_transfers c hl address (.bytes d) prot _ d hacc
    exact ⟨_, xs, hacc, e1, fun x hx => (e2 x hx).2.1⟩
  · intro n hn hs
    have hacc := (C37_accept_iff c address n prot _).2 ⟨h0, h1, hn, hs, hp', rfl⟩
    exact ⟨_, hacc, fun x hx => ((C37_transfers c hl address n prot _ hacc).2 x hx).2⟩

example : ∃ cmd xs, acceptWrite { lanes := 4, addrWidth := 16, prot := true } 5 (.bytes [1, 2, 3, 4]) 1 = .ok (cmd, [1, 2, 3, 4]) ∧
    writeXfers { lanes := 4, addrWidth := 16, prot := true } cmd [1, 2, 3, 4] = .ok xs ∧ xs.map (·.prot) = [1, 1] :=
  ⟨_, _, rfl, rfl, rfl⟩

end Verif.Word

namespace Verif.AddressSpace

/-- **C119, `find_regions(address)`** gives the regions that the address is in, and no others. -/
theorem C119_find_regions {σ : Type} (s : AddressSpace σ) (address : Int) (h0 : 0 ≤ address) (h1 : address < s.size) :
    ∃ L, s.findRegions address = .ok L ∧ ∀ e, e ∈ L ↔ e ∈ s.regions ∧ e.base ≤ address ∧ address < e.base + e.size := by
  refine ⟨sortEntries (s.regions.filter fun e => decide (address < e.base + e.size ∧ e.base < address + max 1 1)), ?_, fun e => ?_⟩
  · rw [findRegions, if_neg (by omega), if_neg (by omega)]
  · rw [mem_sortEntries, List.mem_filter, decide_eq_true_eq]
    exact ⟨fun h => ⟨h.1, by omega, by omega⟩, fun h => ⟨h.1, by omega, by omega⟩⟩

end Verif.AddressSpace

namespace Verif.Hexdump

/-- **C119, `hexdump_lines(data)` and `hexdump_str(data)`** show all of the data, 16 bytes in a row, from offset 0 on. -/
theorem C119_hexdump (data : Bytes) :
    (∃ ls, lines data = .ok ls ∧ Dumps ls [] 16 0 data) ∧ (data ≠ [] → ∃ s, str data = .ok s ∧ Dumps (splitNL s) [] 16 0 data) := by
  constructor
  · simpa [requested] using C60_lines data 0 none 16 [] 0 (by decide) (by simp)
  · intro h
    simpa [requested] using C60_str data 0 none 16 [] 0 (by decide) (by simp) (by simp) (by simpa [requested] using h)

end Verif.Hexdump
