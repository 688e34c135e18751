import Verif.Proof.LiteClockSplit
import Verif.Props.LiteClockProgress
import Verif.Props.LiteSplit

/-!
# C140: a reset of only one end of an AXI-lite connection, at clock-edge granularity

`ClkSplit` is a master and a slave (or RAM) with a reset signal each, connected by five channels with `valid`/`ready` handshakes, pauses and
bounded queues. C132 is about the same with FIFO channels. The statements about effects and results are those of C98, and about completion
those of C99, now for histories in which either end is also reset alone, while `idle()` of the master is true (or the master is in reset).
-/

namespace Verif.LiteOps

open Verif.AxiSys (chanCfg Inner Chan blocked avail content Open Cycles)

variable {χ α β ρ χ' ρ' σ : Type}

section

variable (h : Halves χ α β) (f : χ → σ → ρ × σ) (g : χ' → σ → ρ' × σ) (m0 : σ)

theorem ClkSplit.run_append (evs : List (ClkSplitEv χ ρ χ' ρ')) (e : ClkSplitEv χ ρ χ' ρ') :
    ClkSplit.run h f g m0 (evs ++ [e]) = (ClkSplit.run h f g m0 evs).step h f g e := by
  simp [ClkSplit.run, List.foldl_append]

theorem ClkSplit.after_succ (evs : List (ClkSplitEv χ ρ χ' ρ')) (n : Nat) (hn : n < evs.length) :
    ClkSplit.after h f g m0 evs (n + 1) = (ClkSplit.after h f g m0 evs n).step h f g evs[n] := by
  unfold ClkSplit.after
  rw [List.take_succ_eq_append_getElem hn, ClkSplit.run_append]

variable {h} (hl : ∀ x, h.join (h.aw x) (h.w x) = x) {evs : List (ClkSplitEv χ ρ χ' ρ')} (hw : ClkSplit.CalmW h f g m0 evs)
  (hr : ClkSplit.CalmR h f g m0 evs)

include hl hw hr

theorem ClkSplit.inv (n : Nat) : ClkSplitInv h (ClkSplit.after h f g m0 evs n) ∧ ClkHalf (ClkSplit.after h f g m0 evs n) ∧
    ∃ evs' : List (DuoEv χ ρ χ' ρ'), evs'.length = min n evs.length ∧
      ∀ k ≤ n, (ClkSplit.after h f g m0 evs k).c.view h = Duo.run f g { mem := m0 } (evs'.take k) := by
  induction n with
  | zero =>
    refine ⟨.init m0, .init m0, [], by simp, fun k hk => ?_⟩
    obtain rfl : k = 0 := by omega
    rfl
  | succ n ih =>
    obtain ⟨h1, h2, evs', h3, h4⟩ := ih
    by_cases hn : n < evs.length
    · have hx : evs[n]? = some evs[n] := List.getElem?_eq_getElem hn
      obtain ⟨s1, e', s2⟩ := h1.step hl (f := f) (g := g) evs[n] (fun he => hw n (by rw [hx]; exact he.imp (congrArg some) (congrArg some)))
        (fun he => hr n (by rw [hx]; exact he.imp (congrArg some) (congrArg some)))
      rw [← ClkSplit.after_succ h f g m0 evs n hn] at s1 s2
      refine ⟨s1, ?_, evs' ++ [e'], by simp [h3]; omega, fun k hk => ?_⟩
      · rw [ClkSplit.after_succ h f g m0 evs n hn]; exact h2.step _
      · by_cases hk' : k ≤ n
        · rw [List.take_append_of_le_length (by omega)]; exact h4 k hk'
        · obtain rfl : k = n + 1 := by omega
          rw [s2, h4 n (by omega), List.take_of_length_le (l := evs') (by omega), List.take_of_length_le (by simp; omega)]
          simp [Duo.run, List.foldl_append]
    · have heq : ClkSplit.after h f g m0 evs (n + 1) = ClkSplit.after h f g m0 evs n := by
        unfold ClkSplit.after
        rw [List.take_of_length_le (by omega), List.take_of_length_le (by omega)]
      refine ⟨by rw [heq]; exact h1, by rw [heq]; exact h2, evs', by omega, fun k hk => ?_⟩
      by_cases hk' : k ≤ n
      · exact h4 k hk'
      · obtain rfl : k = n + 1 := by omega
        rw [heq, h4 n (by omega), List.take_of_length_le (by omega), List.take_of_length_le (by omega)]

/-- The masters and the target are as in a history of the system with FIFO channels in which both ends are always reset together. -/
theorem ClkSplit.refine : ∃ evs' : List (DuoEv χ ρ χ' ρ'), ∀ k,
    (ClkSplit.after h f g m0 evs k).c.w.m = (Duo.run f g { mem := m0 } (evs'.take k)).w.m ∧
    (ClkSplit.after h f g m0 evs k).c.r.m = (Duo.run f g { mem := m0 } (evs'.take k)).r.m ∧
    (ClkSplit.after h f g m0 evs k).c.mem = (Duo.run f g { mem := m0 } (evs'.take k)).mem := by
  obtain ⟨_, _, evs', h3, h4⟩ := ClkSplit.inv f g m0 hl hw hr evs.length
  refine ⟨evs', fun k => ?_⟩
  have key : (ClkSplit.after h f g m0 evs k).c.view h = Duo.run f g { mem := m0 } (evs'.take k) := by
    by_cases hk : k ≤ evs.length
    · exact h4 k hk
    · have heq : ClkSplit.after h f g m0 evs k = ClkSplit.after h f g m0 evs evs.length := by
        unfold ClkSplit.after
        rw [List.take_of_length_le (by omega), List.take_of_length_le (by omega)]
      rw [heq, h4 _ (Nat.le_refl _), List.take_of_length_le (by omega), List.take_of_length_le (by omega)]
  exact ⟨congrArg (fun s => s.w.m) key, congrArg (fun s => s.r.m) key, congrArg (fun s => s.mem) key⟩

/-- **C140, writes.** In every history in which the master or the slave is reset alone only while `idle()` of the master is true or the
master is in reset (both together at any time), every completed write was executed exactly: each of its transfers once, while it was outstanding, with the
response that the master got; and writes were executed one after the other in the order in which they were issued. Missing (and false,
`C140_violated`): a reset of one end at another time. -/
theorem C140_writes_partial (n : Nat) :
    let S := ClkSplit.after h f g m0 evs
    (S n).c.w.m.issued.Nodup → ∃ ex : Op χ → List ρ → List Nat,
      (∀ op got, (op, some got) ∈ (S n).c.w.m.results →
        Executed f (fun k => (S k).c.w.m) (fun k => (S k).c.mem) n op got (ex op got)) ∧
      ∀ op1 got1 op2 got2, (op1, some got1) ∈ (S n).c.w.m.results → (op2, some got2) ∈ (S n).c.w.m.results →
        Before (S n).c.w.m op1 op2 → ∀ t1 ∈ ex op1 got1, ∀ t2 ∈ ex op2 got2, t1 < t2 := by
  obtain ⟨evs', he⟩ := ClkSplit.refine f g m0 hl hw hr
  simp only [he]
  exact C96_write_order f g m0 evs' n

/-- **C140, reads.** -/
theorem C140_reads_partial (n : Nat) :
    let S := ClkSplit.after h f g m0 evs
    (S n).c.r.m.issued.Nodup → ∃ ex : Op χ' → List ρ' → List Nat,
      (∀ op got, (op, some got) ∈ (S n).c.r.m.results →
        Executed g (fun k => (S k).c.r.m) (fun k => (S k).c.mem) n op got (ex op got)) ∧
      ∀ op1 got1 op2 got2, (op1, some got1) ∈ (S n).c.r.m.results → (op2, some got2) ∈ (S n).c.r.m.results →
        Before (S n).c.r.m op1 op2 → ∀ t1 ∈ ex op1 got1, ∀ t2 ∈ ex op2 got2, t1 < t2 := by
  obtain ⟨evs', he⟩ := ClkSplit.refine f g m0 hl hw hr
  simp only [he]
  exact C96_read_order f g m0 evs' n

/-- **C140, nothing else.** In such a history the target only changes when a transfer of an outstanding operation is served. -/
theorem C140_nothing_else_partial (n : Nat) :
    let S := ClkSplit.after h f g m0 evs
    (S n).c.w.m.issued.Nodup → (S n).c.r.m.issued.Nodup →
      (S (n + 1)).c.mem = (S n).c.mem ∨
      (∃ op x, Outstanding (S n).c.w.m op ∧ x ∈ op.xs ∧ (S (n + 1)).c.mem = (f x (S n).c.mem).2) ∨
      (∃ op x, Outstanding (S n).c.r.m op ∧ x ∈ op.xs ∧ (S (n + 1)).c.mem = (g x (S n).c.mem).2) := by
  obtain ⟨evs', he⟩ := ClkSplit.refine f g m0 hl hw hr
  simp only [he]
  exact C75_nothing_else f g m0 evs' n

/-- **C140, idle.** In such a history, when `idle()` of the master is true, or the master is in reset, no transaction is in a channel, and the slave is
not at work. -/
theorem C140_idle_partial (n : Nat) :
    let s := (ClkSplit.after h f g m0 evs n).c
    (s.w.m.idle = true ∨ s.w.m.running = false → s.w.sl = none ∧ s.w.held = none ∧ s.w.got = none ∧
      content s.w.aw = [] ∧ content s.w.w = [] ∧ content s.w.b = []) ∧
    (s.r.m.idle = true ∨ s.r.m.running = false → s.r.held = none ∧ s.r.got = none ∧ content s.r.ar = [] ∧ content s.r.r = []) := by
  obtain ⟨hi, _, _⟩ := ClkSplit.inv f g m0 hl hw hr n
  exact ⟨fun h0 => (hi.inv.w.nothing hl (hi.w.empty h0)).2, fun h0 => ClkRInv.nothing (hi.r.empty h0).2⟩

theorem ClkSplit.from (hu : (ClkSplit.run h f g m0 evs).Up) (sched : Nat → ClkEv χ ρ χ' ρ') (hq : ∀ n, (sched n).quiet = true) :
    ClkFrom h f g m0 (fun n => (ClkSplit.run h f g m0 (evs ++ (List.range n).map (.both ∘ sched))).c) sched := by
  obtain ⟨h1, h2, evs', _, h4⟩ := ClkSplit.inv f g m0 hl hw hr evs.length
  have h5 := h4 _ (Nat.le_refl _)
  simp only [ClkSplit.after, List.take_length] at h1 h2 h5
  refine ⟨fun n => ?_, hq, ?_, ?_, ⟨evs'.take evs.length, ?_⟩⟩
  · rw [List.range_succ, List.map_append, ← List.append_assoc]
    exact congrArg ClkSplit.c (ClkSplit.run_append h f g m0 _ _)
  · simpa using h1.inv
  · simpa using h2.fine hu
  · simpa using h5

/-- **C140, completion with pauses.** After any such history `evs` at whose end both components are out of reset, if no more calls are made and no
reset is asserted, then under any fair schedule in which ends of the channels are paused and released at any instants but none is paused for
ever (`Open`), all operations complete (from `N` on): both masters are idle and every operation that was called and had no result at the
end of `evs` has completed with responses. -/
theorem C140_completes_with_pauses_partial (hu : (ClkSplit.run h f g m0 evs).Up) (sched : Nat → ClkEv χ ρ χ' ρ') :
    let S : Nat → Clk χ α β ρ χ' ρ' σ := fun n => (ClkSplit.run h f g m0 (evs ++ (List.range n).map (.both ∘ sched))).c
    (∀ n, (sched n).quiet = true) → ClkFair h f g S sched →
    Open (Edge S sched) (fun n => (S n).w.aw) → Open (Edge S sched) (fun n => (S n).w.w) → Open (Edge S sched) (fun n => (S n).w.b) →
    Open (Edge S sched) (fun n => (S n).r.ar) → Open (Edge S sched) (fun n => (S n).r.r) →
    ∃ N, ∀ n, N ≤ n →
      (S n).w.m.idle = true ∧ (S n).r.m.idle = true ∧
      (∀ op ∈ (S 0).w.m.issued ++ (S 0).w.m.wrappers, (∀ r, (op, r) ∉ (S 0).w.m.results) →
        ∃ got, (op, some got) ∈ (S n).w.m.results) ∧
      (∀ op ∈ (S 0).r.m.issued ++ (S 0).r.m.wrappers, (∀ r, (op, r) ∉ (S 0).r.m.results) →
        ∃ got, (op, some got) ∈ (S n).r.m.results) :=
  fun hq hf o1 o2 o3 o4 o5 => (ClkSplit.from f g m0 hl hw hr hu sched hq).completes hl hf o1 o2 o3 o4 o5
    (by simpa using hu.masterW) (by simpa using hu.masterR)

/-- **C140, completion.** The same when no source or sink is paused. -/
theorem C140_completes_partial (hu : (ClkSplit.run h f g m0 evs).Up) (sched : Nat → ClkEv χ ρ χ' ρ') :
    let S : Nat → Clk χ α β ρ χ' ρ' σ := fun n => (ClkSplit.run h f g m0 (evs ++ (List.range n).map (.both ∘ sched))).c
    (∀ n, (sched n).progress = true) → ClkFair h f g S sched → Unpaused (S 0) →
    ∃ N, ∀ n, N ≤ n →
      (S n).w.m.idle = true ∧ (S n).r.m.idle = true ∧
      (∀ op ∈ (S 0).w.m.issued ++ (S 0).w.m.wrappers, (∀ r, (op, r) ∉ (S 0).w.m.results) →
        ∃ got, (op, some got) ∈ (S n).w.m.results) ∧
      (∀ op ∈ (S 0).r.m.issued ++ (S 0).r.m.wrappers, (∀ r, (op, r) ∉ (S 0).r.m.results) →
        ∃ got, (op, some got) ∈ (S n).r.m.results) :=
  fun hp hf hun => (ClkSplit.from f g m0 hl hw hr hu sched (fun n => ClkEv.quiet_of (hp n))).completes_unpaused hl hp hf hun
    (by simpa using hu.masterW) (by simpa using hu.masterR)

end

/-! ## A RAM -/

section ram

open Word

abbrev RamClkSplitEv := ClkSplitEv WXfer (Py Resp) RXfer (Nat × Resp)

/-- An `AxiLiteMaster` and an `AxiLiteRam` with separate resets, after the first `n` events of a history that begins with a RAM `m0`. -/
def clkSplitRam (c : Cfg) (m0 : Memory) (evs : List RamClkSplitEv) (n : Nat) : ClkSplit WXfer (Nat × Int) (Nat × Nat) (Py Resp) RXfer (Nat × Resp) Memory :=
  ClkSplit.after xferHalves (slaveWrite ramTarget c.lanes true) (slaveRead ramTarget c.lanes) m0 evs n

/-- The hypotheses on a history: one end is only reset alone as above; all operations come from accepted calls, with spans inside the RAM, and no two calls
are the same one. -/
structure ClkSplitCalls (c : Cfg) (m0 : Memory) (evs : List RamClkSplitEv) (wc : Nat → WCall) (rc : Nat → RCall) (n : Nat) : Prop where
  calmW : ClkSplit.CalmW xferHalves (slaveWrite ramTarget c.lanes true) (slaveRead ramTarget c.lanes) m0 evs
  calmR : ClkSplit.CalmR xferHalves (slaveWrite ramTarget c.lanes true) (slaveRead ramTarget c.lanes) m0 evs
  lanes : 0 < c.lanes
  wf : m0.WF
  size : 0 < m0.size
  w : ∀ op ∈ (clkSplitRam c m0 evs n).c.w.m.issued, (wc op.key).makes c op ∧
    (wc op.key).address.toNat + (wc op.key).data.length ≤ m0.size
  r : ∀ op ∈ (clkSplitRam c m0 evs n).c.r.m.issued, (rc op.key).makes c op ∧
    (rc op.key).address.toNat + (rc op.key).length.toNat ≤ m0.size
  wNodup : (clkSplitRam c m0 evs n).c.w.m.issued.Nodup
  rNodup : (clkSplitRam c m0 evs n).c.r.m.issued.Nodup

variable {c : Cfg} {m0 : Memory} {evs : List RamClkSplitEv} {wc : Nat → WCall} {rc : Nat → RCall} {n : Nat}

theorem ClkSplitCalls.refine (H : ClkSplitCalls c m0 evs wc rc n) : ∃ evs' : List RamEv, Calls c m0 evs' wc rc n ∧
    ∀ k, (clkSplitRam c m0 evs k).c.w.m = (ramAt c m0 evs' k).w.m ∧ (clkSplitRam c m0 evs k).c.r.m = (ramAt c m0 evs' k).r.m ∧
      (clkSplitRam c m0 evs k).c.mem = (ramAt c m0 evs' k).mem := by
  obtain ⟨evs', he⟩ := ClkSplit.refine (slaveWrite ramTarget c.lanes true) (slaveRead ramTarget c.lanes) m0 xferHalves_join H.calmW H.calmR
  have key : ∀ k, (clkSplitRam c m0 evs k).c.w.m = (ramAt c m0 evs' k).w.m ∧ (clkSplitRam c m0 evs k).c.r.m = (ramAt c m0 evs' k).r.m ∧
      (clkSplitRam c m0 evs k).c.mem = (ramAt c m0 evs' k).mem := he
  refine ⟨evs', ⟨H.lanes, H.wf, H.size, ?_, ?_, ?_, ?_⟩, key⟩
  · rw [← (key n).1]; exact H.w
  · rw [← (key n).2.1]; exact H.r
  · rw [← (key n).1]; exact H.wNodup
  · rw [← (key n).2.1]; exact H.rNodup

/-- **C140, reads return what was written** (see C77). -/
theorem C140_read_your_writes_partial (H : ClkSplitCalls c m0 evs wc rc n)
    (wop : Op WXfer) (wgot : List (Py Resp)) (k : Nat) (hk : k ≤ n)
    (hw : (wop, some wgot) ∈ (clkSplitRam c m0 evs k).c.w.m.results)
    (rop : Op RXfer) (rgot : List (Nat × Resp)) (hlate : rop ∉ (clkSplitRam c m0 evs k).c.r.m.issued)
    (hr : (rop, some rgot) ∈ (clkSplitRam c m0 evs n).c.r.m.results) (b : Nat) (hb : (wc wop.key).covers b)
    (hb3 : (rc rop.key).address.toNat ≤ b) (hb4 : b < (rc rop.key).address.toNat + (rc rop.key).length.toNat)
    (hlast : ∀ op ∈ (clkSplitRam c m0 evs n).c.w.m.issued, (wc op.key).covers b →
      op = wop ∨ Before (clkSplitRam c m0 evs n).c.w.m op wop) :
    ∃ data, (rc rop.key).returns c rgot data .okay ∧
      data[b - (rc rop.key).address.toNat]? = (wc wop.key).data[b - (wc wop.key).address.toNat]? := by
  obtain ⟨evs', H', he⟩ := H.refine
  simp only [he] at hw hlate hr hlast
  exact C77_read_your_writes H' wop wgot k hk hw rop rgot hlate hr b hb hb3 hb4 hlast

/-- **C140, contents** (see C96): when the writes covering a byte have all completed, the RAM contains there what performing all issued
writes one after the other, in the order of the calls, leaves. -/
theorem C140_sequential_partial (H : ClkSplitCalls c m0 evs wc rc n) (b : Nat)
    (hdone : ∀ op ∈ (clkSplitRam c m0 evs n).c.w.m.issued, (wc op.key).covers b →
      ∃ got, (op, some got) ∈ (clkSplitRam c m0 evs n).c.w.m.results) :
    (clkSplitRam c m0 evs n).c.mem.contents b = ((clkSplitRam c m0 evs n).c.w.m.issued.foldl
      (fun f op => f.store (wc op.key).address.toNat (wc op.key).data) m0.contents) b := by
  obtain ⟨evs', H', he⟩ := H.refine
  simp only [he] at hdone ⊢
  exact C96_sequential H' b hdone

/-! ### A RAM of 8 bytes, 4 bytes wide -/

def csC : Cfg := { lanes := 4, addrWidth := 16 }
def csM : Memory := ⟨8, .buf (List.replicate 8 0)⟩

def csUp : List RamClkSplitEv := [.both (.w (.reset false)), .both (.r (.reset false))]
def csCycles (k : Nat) : List RamClkSplitEv := (exCycles k).map .both
def csWrite (op : Op WXfer) : RamClkSplitEv := .both (.w (.master (.write op)))
def csRead (op : Op RXfer) : RamClkSplitEv := .both (.r (.master (.write op)))
def csPause (k : Chan) (v : Bool) : RamClkSplitEv := .both (.chan k (.snkPause v))

/-- The slave pauses the W channel, so that the AW transaction of the first write reaches it, but not the W transaction. Then the master is
reset alone. The second write completes with OKAY. -/
def csMaster : List RamClkSplitEv :=
  csUp ++ csPause .w true :: csWrite spW0 :: csCycles 4 ++ [.masterW true, .masterW false, csPause .w false, csWrite spW1] ++ csCycles 6

/-- The same, but the slave is reset alone. -/
def csSlave : List RamClkSplitEv :=
  csUp ++ csPause .w true :: csWrite spW0 :: csCycles 4 ++ [.slaveW true, .slaveW false, csPause .w false, csWrite spW1] ++ csCycles 6

/-- Address 4 is written; then the master pauses the R channel, and is reset alone when the slave has executed a read of address 4. The later
read of address 0 completes with OKAY. -/
def csReadM : List RamClkSplitEv :=
  csUp ++ csWrite spW1 :: csCycles 6 ++ csPause .r true :: csRead spR1 :: csCycles 4 ++
    [.masterR true, .masterR false, csPause .r false, csRead spR0] ++ csCycles 6

/-- **C140, violated.** (1) Reset of the master alone: a later write to address 4 is reported complete with OKAY, but its data is at address 0,
and address 4 is unchanged. (2) Reset of the slave alone: the data of the first write is at the address of the second, and the
first write is reported complete with OKAY although its address is unchanged. (3) Reset of the master alone: a later read of address
0 is reported complete with OKAY, and with the data at address 4. -/
theorem C140_violated :
    ((clkSplitRam csC csM csMaster csMaster.length).c.w.m.results = [(spW0, none), (spW1, some [.ok .okay])] ∧
      (clkSplitRam csC csM csMaster csMaster.length).c.mem.read 0 8 = .ok [0x22, 0x22, 0x22, 0x22, 0, 0, 0, 0]) ∧
    ((clkSplitRam csC csM csSlave csSlave.length).c.w.m.results = [(spW0, some [.ok .okay])] ∧
      (clkSplitRam csC csM csSlave csSlave.length).c.mem.read 0 8 = .ok [0, 0, 0, 0, 0x11, 0x11, 0x11, 0x11]) ∧
    ((clkSplitRam csC csM csReadM csReadM.length).c.r.m.results = [(spR1, none), (spR0, some [(0x22222222, .okay)])] ∧
      (clkSplitRam csC csM csReadM csReadM.length).c.mem.read 0 8 = .ok [0, 0, 0, 0, 0x22, 0x22, 0x22, 0x22]) := by
  refine ⟨⟨by decide +kernel, by decide +kernel⟩, ⟨by decide +kernel, by decide +kernel⟩, by decide +kernel, by decide +kernel⟩

/-- A history that satisfies the hypotheses: a write completes; the master alone is reset, and a write is called during this reset; then the slave is
reset too, and released before the master; then the second write and a read complete; then the slave is reset alone and released. -/
def csCalm : List RamClkSplitEv :=
  csUp ++ csWrite spW0 :: csCycles 6 ++ [.masterW true, .slaveR true, csWrite spW1] ++ csCycles 1 ++ [.slaveW true, .slaveW false] ++ csCycles 1 ++
    [.masterW false, .slaveR false] ++ csCycles 6 ++ csRead spR1 :: csCycles 5 ++ [.slaveW true, .slaveR true] ++ csCycles 2 ++
    [.slaveW false, .slaveR false]

/-- No reset of one end alone from `s` on but when the master is idle or in reset. -/
def csCalmFrom : ClkSplit WXfer (Nat × Int) (Nat × Nat) (Py Resp) RXfer (Nat × Resp) Memory → List RamClkSplitEv → Bool
  | _, [] => true
  | s, e :: evs =>
    (match e with
    | .masterW true | .slaveW true => s.c.w.m.idle || !s.c.w.m.running
    | .masterR true | .slaveR true => s.c.r.m.idle || !s.c.r.m.running
    | _ => true) && csCalmFrom (s.step xferHalves (slaveWrite ramTarget csC.lanes true) (slaveRead ramTarget csC.lanes) e) evs

theorem csCalmFrom_spec (evs : List RamClkSplitEv) : ∀ s, csCalmFrom s evs = true →
    ∀ n, ((evs[n]? = some (.masterW true) ∨ evs[n]? = some (.slaveW true)) →
        ((evs.take n).foldl (ClkSplit.step xferHalves (slaveWrite ramTarget csC.lanes true) (slaveRead ramTarget csC.lanes)) s).c.w.m.idle = true ∨
        ((evs.take n).foldl (ClkSplit.step xferHalves (slaveWrite ramTarget csC.lanes true) (slaveRead ramTarget csC.lanes)) s).c.w.m.running = false) ∧
      ((evs[n]? = some (.masterR true) ∨ evs[n]? = some (.slaveR true)) →
        ((evs.take n).foldl (ClkSplit.step xferHalves (slaveWrite ramTarget csC.lanes true) (slaveRead ramTarget csC.lanes)) s).c.r.m.idle = true ∨
        ((evs.take n).foldl (ClkSplit.step xferHalves (slaveWrite ramTarget csC.lanes true) (slaveRead ramTarget csC.lanes)) s).c.r.m.running = false) := by
  induction evs with
  | nil => exact fun s _ n => ⟨fun h => by simp at h, fun h => by simp at h⟩
  | cons e evs ih =>
    intro s hs n
    simp only [csCalmFrom, Bool.and_eq_true] at hs
    cases n with
    | zero =>
      simp only [List.getElem?_cons_zero, List.take_zero, List.foldl_nil, Option.some.injEq]
      constructor
      all_goals
        rintro (rfl | rfl)
        all_goals simpa using hs.1
    | succ n => exact ih _ hs.2 n

/-- `csCalmFrom` checks what C140 needs. -/
theorem csCalm_of {evs : List RamClkSplitEv} (hc : csCalmFrom { c := { mem := csM } } evs = true) :
    ClkSplit.CalmW xferHalves (slaveWrite ramTarget csC.lanes true) (slaveRead ramTarget csC.lanes) csM evs ∧
    ClkSplit.CalmR xferHalves (slaveWrite ramTarget csC.lanes true) (slaveRead ramTarget csC.lanes) csM evs :=
  ⟨fun n => (csCalmFrom_spec evs _ hc n).1, fun n => (csCalmFrom_spec evs _ hc n).2⟩

theorem csCalm_calm : csCalmFrom { c := { mem := csM } } csCalm = true := by decide +kernel

example : csCalmFrom { c := { mem := csM } } csMaster = false ∧ csCalmFrom { c := { mem := csM } } csSlave = false ∧
    csCalmFrom { c := { mem := csM } } csReadM = false := ⟨by decide +kernel, by decide +kernel, by decide +kernel⟩

theorem csCalm_state :
    (clkSplitRam csC csM csCalm csCalm.length).c.w.m.results = [(spW0, some [.ok .okay]), (spW1, some [.ok .okay])] ∧
    (clkSplitRam csC csM csCalm csCalm.length).c.w.m.issued = [spW0, spW1] ∧
    (clkSplitRam csC csM csCalm csCalm.length).c.r.m.results = [(spR1, some [(0x22222222, .okay)])] ∧
    (clkSplitRam csC csM csCalm csCalm.length).c.r.m.issued = [spR1] := by decide +kernel

theorem csWrites {evs : List RamClkSplitEv} {n : Nat} (hc : csCalmFrom { c := { mem := csM } } evs = true)
    (hn : (clkSplitRam csC csM evs n).c.w.m.issued.Nodup) {op : Op WXfer} {got : List (Py Resp)}
    (hr : (op, some got) ∈ (clkSplitRam csC csM evs n).c.w.m.results) :
    ∃ ts, Executed (slaveWrite ramTarget csC.lanes true) (fun k => (clkSplitRam csC csM evs k).c.w.m)
      (fun k => (clkSplitRam csC csM evs k).c.mem) n op got ts := by
  obtain ⟨ex, he, _⟩ := C140_writes_partial (slaveWrite ramTarget csC.lanes true) (slaveRead ramTarget csC.lanes) csM xferHalves_join
    (csCalm_of hc).1 (csCalm_of hc).2 n hn
  exact ⟨_, he op got hr⟩

/-- C140 applies to this history. -/
example : ∃ ts, Executed (slaveWrite ramTarget csC.lanes true) (fun k => (clkSplitRam csC csM csCalm k).c.w.m)
    (fun k => (clkSplitRam csC csM csCalm k).c.mem) csCalm.length spW1 [.ok .okay] ts :=
  csWrites csCalm_calm (by rw [csCalm_state.2.1]; decide) (by rw [csCalm_state.1]; simp)

/-- The system after `evs` and then `evs'`. -/
abbrev csAfter (evs evs' : List RamClkSplitEv) : ClkSplit WXfer (Nat × Int) (Nat × Nat) (Py Resp) RXfer (Nat × Resp) Memory :=
  ClkSplit.run xferHalves (slaveWrite ramTarget csC.lanes true) (slaveRead ramTarget csC.lanes) csM (evs ++ evs')

theorem csReads {evs : List RamClkSplitEv} (hc : csCalmFrom { c := { mem := csM } } evs = true) (hu : (csAfter evs []).Up)
    (hp : Unpaused (csAfter evs []).c) {op : Op RXfer} (hi : op ∈ (csAfter evs []).c.r.m.issued)
    (hn : ∀ r, (op, r) ∉ (csAfter evs []).c.r.m.results) :
    ∃ N, ∀ n, N ≤ n → ∃ got, (op, some got) ∈ (csAfter evs ((List.range n).map (.both ∘ clkRobin))).c.r.m.results := by
  have h0 : (List.range 0).map (ClkSplitEv.both ∘ clkRobin : Nat → RamClkSplitEv) = [] := by simp
  have := C140_completes_partial (slaveWrite ramTarget csC.lanes true) (slaveRead ramTarget csC.lanes) csM xferHalves_join
    (csCalm_of hc).1 (csCalm_of hc).2 (by rwa [csAfter, List.append_nil] at hu) clkRobin clkRobin_progress (clkRobin_fair _ _ _ _)
    (by simp only [h0]; exact hp)
  simp only [h0] at this
  obtain ⟨N, hN⟩ := this
  exact ⟨N, fun n hn' => (hN n hn').2.2.2 op (List.mem_append_left _ hi) hn⟩

/-- Then a read is called: it completes. -/
def csCalmRead : List RamClkSplitEv := csCalm ++ [csRead spR0]

theorem csCalmRead_calm : csCalmFrom { c := { mem := csM } } csCalmRead = true := by decide +kernel

theorem csCalmRead_up : (csAfter csCalmRead []).Up := ⟨by decide +kernel, by decide +kernel, by decide +kernel, by decide +kernel⟩

theorem csCalmRead_unpaused : Unpaused (csAfter csCalmRead []).c :=
  ⟨⟨by decide +kernel, by decide +kernel⟩, ⟨by decide +kernel, by decide +kernel⟩, ⟨by decide +kernel, by decide +kernel⟩,
    ⟨by decide +kernel, by decide +kernel⟩, ⟨by decide +kernel, by decide +kernel⟩⟩

theorem csCalmRead_state : (csAfter csCalmRead []).c.r.m.issued = [spR1, spR0] ∧
    (csAfter csCalmRead []).c.r.m.results = [(spR1, some [(0x22222222, .okay)])] := by
  decide +kernel

example : ∃ N, ∀ n, N ≤ n → ∃ got, (spR0, some got) ∈ (csAfter csCalmRead ((List.range n).map (.both ∘ clkRobin))).c.r.m.results :=
  csReads csCalmRead_calm csCalmRead_up csCalmRead_unpaused (by rw [csCalmRead_state.1]; simp)
    (by rw [csCalmRead_state.2]; simp [spR0, spR1])

end ram

end Verif.LiteOps
