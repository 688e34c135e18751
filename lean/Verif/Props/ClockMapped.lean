import Verif.Props.AxiSysMapped
import Verif.Props.AxiClock
import Verif.Props.LiteMapped
import Verif.Props.LiteClock

/-!
# C108: targets with an address map, at clock level

C102, C103, C105 and C106 for the systems in which the channels are the modelled coroutines and signals with one transfer per clock
cycle at most (`Model/AxiClock.lean`, `Model/LiteClock.lean`), under any schedule and any pauses.
-/

namespace Verif.AxiSys

open Verif.Axi Verif.AxiOps Verif.AxiOps.Master

section

variable {σ κ : Type} (c : Cfg) (wa : Nat → WArgs) (ra : Nat → Req) (t : Target σ) (s0 : σ) (evs : List CEv)
  (good : σ → Prop) (f : Nat → Option κ) (val : σ → κ → UInt8)

/-- The hypotheses on a history: the target has the address map `f`, and the operations issued use incrementing bursts. -/
structure ClkMapCalls (n : Nat) : Prop where
  std : c.Std
  ids : IdsFit c wa ra
  map : Mapped t good f val
  init : good s0
  w : ∀ op ∈ (CSys.run c wa ra t s0 (evs.take n)).w.m.issued, (wa op.key).req.burst = 1
  r : ∀ op ∈ (CSys.run c wa ra t s0 (evs.take n)).r.m.issued, (ra op.key).burst = 1

variable {c wa ra t s0 evs good f val} {n : Nat}

theorem ClkMapCalls.refine (H : ClkMapCalls c wa ra t s0 evs good f val n) : ∃ evs' : List Ev,
    MapCalls c wa ra t s0 evs' good f val n ∧
      ∀ k, (CSys.run c wa ra t s0 (evs.take k)).w.m = (Sys.at c wa ra t s0 evs' k).w.m ∧
        (CSys.run c wa ra t s0 (evs.take k)).r.m = (Sys.at c wa ra t s0 evs' k).r.m ∧
        (CSys.run c wa ra t s0 (evs.take k)).mem = (Sys.at c wa ra t s0 evs' k).mem := by
  obtain ⟨evs', _, he⟩ := C94_refines c wa ra t s0 evs
  have key : ∀ k, (CSys.run c wa ra t s0 (evs.take k)).w.m = (Sys.at c wa ra t s0 evs' k).w.m ∧
        (CSys.run c wa ra t s0 (evs.take k)).r.m = (Sys.at c wa ra t s0 evs' k).r.m ∧
        (CSys.run c wa ra t s0 (evs.take k)).mem = (Sys.at c wa ra t s0 evs' k).mem := fun k => by
    have := he k
    exact ⟨congrArg (fun s => s.w.m) this, congrArg (fun s => s.r.m) this, congrArg (fun s => s.mem) this⟩
  refine ⟨evs', ⟨H.std, H.ids, H.map, H.init, ?_, ?_⟩, key⟩
  · rw [← (key n).1]; exact H.w
  · rw [← (key n).2.1]; exact H.r

/-- **C108, AXI writes** (see C102). -/
theorem C108_write (H : ClkMapCalls c wa ra t s0 evs good f val n) (op : Op) (got : List BBeat)
    (hr : (op, some got) ∈ (CSys.run c wa ra t s0 (evs.take n)).w.m.results) :
    let S := fun k => CSys.run c wa ra t s0 (evs.take k)
    let A := (wa op.key).req.address.toNat
    let d := (wa op.key).data
    let nb := beatBytes c (wa op.key).req
    (∃ resp, (wa op.key).returns c got resp ∧ (resp = .okay ∨ resp = .slverr) ∧
      (resp = .okay ↔ ∀ i < d.length, f (A + i) ≠ none)) ∧
    ∃ τ : Nat → Nat, ∀ i < d.length,
      τ i < n ∧ Outstanding (S (τ i)).w.m op ∧
      (BeatMapped c wa f op (A + i) → ∀ x, f (A + i) = some x → some (val (S (τ i + 1)).mem x) = d[i]?) ∧
      ∀ j < d.length, (τ i < τ j ↔ (A + i) / nb < (A + j) / nb) := by
  obtain ⟨evs', H', he⟩ := H.refine
  simp only [he] at hr ⊢
  exact C102_write H' op got hr

/-- **C108, AXI reads** (see C102). -/
theorem C108_read (H : ClkMapCalls c wa ra t s0 evs good f val n) (op : Op) (got : List RBeat)
    (hr : (op, some got) ∈ (CSys.run c wa ra t s0 (evs.take n)).r.m.results) :
    let S := fun k => CSys.run c wa ra t s0 (evs.take k)
    let A := (ra op.key).address.toNat
    let N := (ra op.key).length.toNat
    let nb := beatBytes c (ra op.key)
    ∃ (data : Bytes) (resp : Resp), returnsR c (ra op.key) got data resp ∧ data.length = N ∧ (resp = .okay ∨ resp = .slverr) ∧
      (0 < N → (resp = .okay ↔ ∀ i < N, WordMapped c f (A + i))) ∧ ∃ τ : Nat → Nat, ∀ i < N,
      τ i < n ∧ Outstanding (S (τ i)).r.m op ∧
      (WordMapped c f (A + i) → ∀ x, f (A + i) = some x → data[i]? = some (val (S (τ i)).mem x)) ∧
      (¬ WordMapped c f (A + i) → data[i]? = some 0) ∧
      ∀ j < N, (τ i < τ j ↔ (A + i) / nb < (A + j) / nb) := by
  obtain ⟨evs', H', he⟩ := H.refine
  simp only [he] at hr ⊢
  exact C102_read H' op got hr

/-- **C108, AXI, nothing else** (see C102). -/
theorem C108_changes (H : ClkMapCalls c wa ra t s0 evs good f val n) (τ : Nat) (x : κ) (hτ : τ < n)
    (hne : val (CSys.run c wa ra t s0 (evs.take (τ + 1))).mem x ≠ val (CSys.run c wa ra t s0 (evs.take τ)).mem x) :
    ∃ op, Outstanding (CSys.run c wa ra t s0 (evs.take τ)).w.m op ∧ ∃ b, Covers wa op b ∧ f b = some x ∧
      (wa op.key).data[b - (wa op.key).req.address.toNat]? = some (val (CSys.run c wa ra t s0 (evs.take (τ + 1))).mem x) := by
  obtain ⟨evs', H', he⟩ := H.refine
  simp only [he] at hne ⊢
  exact C102_changes H' τ x hτ hne

/-- **C108, AXI: a read returns what was written** (see C103). -/
theorem C108_read_your_writes (H : ClkMapCalls c wa ra t s0 evs good f val n) (wop : Op) (wgot : List BBeat) (k : Nat) (hk : k ≤ n)
    (hw : (wop, some wgot) ∈ (CSys.run c wa ra t s0 (evs.take k)).w.m.results)
    (rop : Op) (rgot : List RBeat) (hlate : rop ∉ (CSys.run c wa ra t s0 (evs.take k)).r.m.issued)
    (hr : (rop, some rgot) ∈ (CSys.run c wa ra t s0 (evs.take n)).r.m.results)
    (b : Nat) (hb : Covers wa wop b) (hm : BeatMapped c wa f wop b) (hwm : WordMapped c f b)
    (hb3 : (ra rop.key).address.toNat ≤ b) (hb4 : b < (ra rop.key).address.toNat + (ra rop.key).length.toNat)
    (hlast : ∀ op ∈ (CSys.run c wa ra t s0 (evs.take n)).w.m.issued, Covers wa op b →
      op = wop ∨ Before (CSys.run c wa ra t s0 (evs.take n)).w.m op wop) :
    ∃ data resp, returnsR c (ra rop.key) rgot data resp ∧
      data[b - (ra rop.key).address.toNat]? = (wa wop.key).data[b - (wa wop.key).req.address.toNat]? := by
  obtain ⟨evs', H', he⟩ := H.refine
  simp only [he] at hw hlate hr hlast
  exact C103_read_your_writes H' wop wgot k hk hw rop rgot hlate hr b hb hm hwm hb3 hb4 hlast

/-- **C108, AXI: the last write prevails** (see C103). -/
theorem C108_last_write (H : ClkMapCalls c wa ra t s0 evs good f val n) (b : Nat) (x : κ) (hx : f b = some x)
    (l1 l2 : List Op) (w : Op) (he : (CSys.run c wa ra t s0 (evs.take n)).w.m.issued = l1 ++ w :: l2) (h1 : Covers wa w b)
    (h2 : ∀ op ∈ l2, ¬ Covers wa op b)
    (got : List BBeat) (hgot : (w, some got) ∈ (CSys.run c wa ra t s0 (evs.take n)).w.m.results) (hm : BeatMapped c wa f w b) :
    some (val (CSys.run c wa ra t s0 (evs.take n)).mem x) = (wa w.key).data[b - (wa w.key).req.address.toNat]? := by
  obtain ⟨evs', H', hk⟩ := H.refine
  simp only [hk] at he hgot ⊢
  exact C103_last_write H' b x hx l1 l2 w he h1 h2 got hgot hm

end

/-! The history `exClk` of `Props/AxiClock.lean` (the W channel is paused for some time) on the address space `exSpace`. -/

section example_

open Verif.AddressSpace (exSpace exHeap exMap exS)

theorem exClkM : (CSys.run exC exW exR exT exHeap (exClk.take exClk1.length)).w.m.results =
      [(exW0, some [⟨0, .okay, 0⟩, ⟨0, .slverr, 0⟩]), (exW1, some [⟨0, .okay, 0⟩])] ∧
    (CSys.run exC exW exR exT exHeap (exClk.take exClk1.length)).r.m.issued = [] ∧
    (CSys.run exC exW exR exT exHeap (exClk.take exClk.length)).w.m.issued = [exW0, exW1] ∧
    (CSys.run exC exW exR exT exHeap (exClk.take exClk.length)).r.m.issued = [exR0] ∧
    (CSys.run exC exW exR exT exHeap (exClk.take exClk.length)).r.m.results = [(exR0, some exRGotM)] := by
  decide +kernel

theorem exClkMapCalls : ClkMapCalls exC exW exR exT exHeap exClk (Good exS) exMap cell exClk.length where
  std := exC_std
  ids := exIds
  map := AddressSpace.exMapped
  init := AddressSpace.exGood
  w := by
    rw [exClkM.2.2.1]
    intro op hop
    rw [List.mem_cons, List.mem_singleton] at hop
    rcases hop with rfl | rfl <;> decide
  r := by
    rw [exClkM.2.2.2.1]
    intro op hop
    rw [List.mem_singleton] at hop
    subst hop; decide

/-- C108 applies to address 3 (the first write failed, since it runs into the hole from 8 on). -/
example : ∃ data resp, returnsR exC (exR 0) exRGotM data resp ∧ data[2]? = some 2 :=
  C108_read_your_writes exClkMapCalls exW0 [⟨0, .okay, 0⟩, ⟨0, .slverr, 0⟩] exClk1.length (by simp [exClk])
    (by rw [exClkM.1]; simp) exR0 exRGotM (by rw [exClkM.2.1]; simp) (by rw [exClkM.2.2.2.2]; simp) 3 ⟨by decide, by decide⟩
    (fun y _ hy => exWord0 3 (by omega) y hy) (exWord0 3 (by omega)) (by decide) (by decide) (by
      rw [exClkM.2.2.1]
      intro op hop h
      rw [List.mem_cons, List.mem_singleton] at hop
      rcases hop with rfl | rfl
      · exact .inl rfl
      · exact absurd h.1 (by decide))

end example_

end Verif.AxiSys

namespace Verif.LiteOps

open Verif.Word

section

/-- The clock-level system on any target, after the first `n` events: an `AxiLiteMaster` connected to an `AxiLiteSlave`. -/
def clkTarget {σ : Type} (c : Cfg) (t : Target σ) (s0 : σ) (evs : List RamClkEv) (n : Nat) :
    Clk WXfer (Nat × Int) (Nat × Nat) (Py Resp) RXfer (Nat × Resp) σ :=
  Clk.run xferHalves (slaveWrite t c.lanes true) (slaveRead t c.lanes) s0 (evs.take n)

variable {σ κ : Type} (c : Cfg) (t : Target σ) (s0 : σ) (evs : List RamClkEv) (good : σ → Prop) (f : Nat → Option κ)
  (val : σ → κ → UInt8)

/-- The hypotheses on a history: the target has the address map `f`, all operations come from accepted calls, and no two calls are the
same one. -/
structure ClkMapCalls (wc : Nat → WCall) (rc : Nat → RCall) (n : Nat) : Prop where
  lanes : 0 < c.lanes
  map : Mapped t good f val
  init : good s0
  w : ∀ op ∈ (clkTarget c t s0 evs n).w.m.issued, (wc op.key).makes c op
  r : ∀ op ∈ (clkTarget c t s0 evs n).r.m.issued, (rc op.key).makes c op
  wNodup : (clkTarget c t s0 evs n).w.m.issued.Nodup
  rNodup : (clkTarget c t s0 evs n).r.m.issued.Nodup

variable {c t s0 evs good f val} {wc : Nat → WCall} {rc : Nat → RCall} {n : Nat}

local notation "S" => clkTarget c t s0 evs

theorem ClkMapCalls.refine (H : ClkMapCalls c t s0 evs good f val wc rc n) : ∃ evs' : List RamEv,
    MapCalls c t s0 evs' good f val wc rc n ∧
      ∀ k, (S k).w.m = (targetAt c t s0 evs' k).w.m ∧ (S k).r.m = (targetAt c t s0 evs' k).r.m ∧
        (S k).mem = (targetAt c t s0 evs' k).mem := by
  obtain ⟨evs', he⟩ := Clk.refine (slaveWrite t c.lanes true) (slaveRead t c.lanes) s0 xferHalves_join evs
  have key : ∀ k, (S k).w.m = (targetAt c t s0 evs' k).w.m ∧ (S k).r.m = (targetAt c t s0 evs' k).r.m ∧
      (S k).mem = (targetAt c t s0 evs' k).mem := he
  refine ⟨evs', ⟨H.lanes, H.map, H.init, ?_, ?_, ?_, ?_⟩, key⟩
  · rw [← (key n).1]; exact H.w
  · rw [← (key n).2.1]; exact H.r
  · rw [← (key n).1]; exact H.wNodup
  · rw [← (key n).2.1]; exact H.rNodup

/-- **C108, AXI-lite writes** (see C105). -/
theorem C108_write (H : ClkMapCalls c t s0 evs good f val wc rc n) (op : Op WXfer) (got : List (Py Resp))
    (hr : (op, some got) ∈ (S n).w.m.results) :
    let A := (wc op.key).address.toNat
    let d := (wc op.key).data
    (∃ resp, (wc op.key).returns c got resp ∧ (resp = .okay ∨ resp = .slverr) ∧ (resp = .okay ↔ ∀ i < d.length, f (A + i) ≠ none)) ∧
    ∃ τ : Nat → Nat, ∀ i < d.length,
      τ i < n ∧ Outstanding (S (τ i)).w.m op ∧
      (XferMapped c f (wc op.key) (A + i) → ∀ x, f (A + i) = some x → some (val (S (τ i + 1)).mem x) = d[i]?) ∧
      ∀ j < d.length, (τ i < τ j ↔ (A + i) / c.lanes < (A + j) / c.lanes) := by
  obtain ⟨evs', H', he⟩ := H.refine
  simp only [he] at hr ⊢
  exact C105_write H' op got hr

/-- **C108, AXI-lite reads** (see C105). -/
theorem C108_read (H : ClkMapCalls c t s0 evs good f val wc rc n) (op : Op RXfer) (got : List (Nat × Resp))
    (hr : (op, some got) ∈ (S n).r.m.results) :
    let A := (rc op.key).address.toNat
    let N := (rc op.key).length.toNat
    ∃ (data : Bytes) (resp : Resp), (rc op.key).returns c got data resp ∧ data.length = N ∧ (resp = .okay ∨ resp = .slverr) ∧
      (0 < N → (resp = .okay ↔ ∀ i < N, WordMapped c f (A + i))) ∧ ∃ τ : Nat → Nat, ∀ i < N,
      τ i < n ∧ Outstanding (S (τ i)).r.m op ∧
      (WordMapped c f (A + i) → ∀ x, f (A + i) = some x → data[i]? = some (val (S (τ i)).mem x)) ∧
      (¬ WordMapped c f (A + i) → data[i]? = some 0) ∧
      ∀ j < N, (τ i < τ j ↔ (A + i) / c.lanes < (A + j) / c.lanes) := by
  obtain ⟨evs', H', he⟩ := H.refine
  simp only [he] at hr ⊢
  exact C105_read H' op got hr

/-- **C108, AXI-lite, nothing else** (see C105). -/
theorem C108_changes (H : ClkMapCalls c t s0 evs good f val wc rc n) (τ : Nat) (x : κ) (hτ : τ < n)
    (hne : val (S (τ + 1)).mem x ≠ val (S τ).mem x) :
    ∃ op, Outstanding (S τ).w.m op ∧ ∃ b, (wc op.key).covers b ∧ f b = some x ∧
      (wc op.key).data[b - (wc op.key).address.toNat]? = some (val (S (τ + 1)).mem x) := by
  obtain ⟨evs', H', he⟩ := H.refine
  simp only [he] at hne ⊢
  exact C105_changes H' τ x hτ hne

/-- **C108, AXI-lite: a read returns what was written** (see C106). -/
theorem C108_read_your_writes (H : ClkMapCalls c t s0 evs good f val wc rc n) (wop : Op WXfer) (wgot : List (Py Resp)) (k : Nat)
    (hk : k ≤ n) (hw : (wop, some wgot) ∈ (S k).w.m.results)
    (rop : Op RXfer) (rgot : List (Nat × Resp)) (hlate : rop ∉ (S k).r.m.issued) (hr : (rop, some rgot) ∈ (S n).r.m.results)
    (b : Nat) (hb : (wc wop.key).covers b) (hm : XferMapped c f (wc wop.key) b) (hwm : WordMapped c f b)
    (hb3 : (rc rop.key).address.toNat ≤ b) (hb4 : b < (rc rop.key).address.toNat + (rc rop.key).length.toNat)
    (hlast : ∀ op ∈ (S n).w.m.issued, (wc op.key).covers b → op = wop ∨ Before (S n).w.m op wop) :
    ∃ data resp, (rc rop.key).returns c rgot data resp ∧
      data[b - (rc rop.key).address.toNat]? = (wc wop.key).data[b - (wc wop.key).address.toNat]? := by
  obtain ⟨evs', H', he⟩ := H.refine
  simp only [he] at hw hlate hr hlast
  exact C106_read_your_writes H' wop wgot k hk hw rop rgot hlate hr b hb hm hwm hb3 hb4 hlast

/-- **C108, AXI-lite: the last write prevails** (see C106). -/
theorem C108_last_write (H : ClkMapCalls c t s0 evs good f val wc rc n) (b : Nat) (x : κ) (hx : f b = some x)
    (l1 l2 : List (Op WXfer)) (w : Op WXfer) (he : (S n).w.m.issued = l1 ++ w :: l2) (h1 : (wc w.key).covers b)
    (h2 : ∀ op ∈ l2, ¬ (wc op.key).covers b) (got : List (Py Resp)) (hgot : (w, some got) ∈ (S n).w.m.results)
    (hm : XferMapped c f (wc w.key) b) :
    some (val (S n).mem x) = (wc w.key).data[b - (wc w.key).address.toNat]? := by
  obtain ⟨evs', H', hk⟩ := H.refine
  simp only [hk] at he hgot ⊢
  exact C106_last_write H' b x hx l1 l2 w he h1 h2 got hgot hm

end

/-! The writes and the read of `Props/LiteMapped.lean` on the address space `exSpace`, with the clock of `Props/LiteClock.lean`. -/

section example_

open Verif.AddressSpace (exSpace exHeap exMap exS)

def exClkM1 : List RamClkEv :=
  [.w (.reset false), .r (.reset false), .w (.master (.write exWm0)), .w (.master (.write exWm1)), .chan .w (.snkPause true)] ++
  exCycles 3 ++ .chan .w (.snkPause false) :: exCycles 6
def exClkM : List RamClkEv := exClkM1 ++ .r (.master (.write exRm0)) :: exCycles 6

theorem exClkM_runs : (clkTarget exC exT exHeap exClkM exClkM1.length).w.m.results =
      [(exWm0, some [.ok .okay, .ok .slverr]), (exWm1, some [.ok .okay])] ∧
    (clkTarget exC exT exHeap exClkM exClkM1.length).r.m.issued = [] ∧
    (clkTarget exC exT exHeap exClkM exClkM.length).w.m.issued = [exWm0, exWm1] ∧
    (clkTarget exC exT exHeap exClkM exClkM.length).r.m.issued = [exRm0] ∧
    (clkTarget exC exT exHeap exClkM exClkM.length).r.m.results = [(exRm0, some [(0x02010705, .okay), (0, .slverr)])] := by
  refine ⟨?_, ?_, ?_, ?_, ?_⟩ <;> decide +kernel

theorem exClkMapCalls : ClkMapCalls exC exT exHeap exClkM (Good exS) exMap cell exWm exRm exClkM.length := by
  obtain ⟨_, _, hW, hR, _⟩ := exClkM_runs
  refine ⟨by decide, AddressSpace.exMapped, AddressSpace.exGood, ?_, ?_, ?_, ?_⟩
  · rw [hW, ← exIssuedM.1]; exact exMapCalls.w
  · rw [hR, ← exIssuedM.2]; exact exMapCalls.r
  · rw [hW]; decide
  · rw [hR]; decide

/-- C108 applies to address 7. -/
example : ∃ data resp, (exRm 0).returns exC [(0x02010705, .okay), (0, .slverr)] data resp ∧ data[2]? = some 2 :=
  C108_read_your_writes exClkMapCalls exWm0 [.ok .okay, .ok .slverr] exClkM1.length (by simp [exClkM])
    (by rw [exClkM_runs.1]; simp) exRm0 _
    (by rw [exClkM_runs.2.1]; simp) (by rw [exClkM_runs.2.2.2.2]; simp) 7 ⟨by decide, by decide⟩
    (fun y _ hy => exWord0 7 (by omega) y hy) (exWord0 7 (by omega)) (by decide) (by decide) (by
      rw [exClkM_runs.2.2.1]
      intro op hop h
      rw [List.mem_cons, List.mem_singleton] at hop
      rcases hop with rfl | rfl
      · exact .inl rfl
      · exact absurd h.2 (by decide))

end example_

end Verif.LiteOps
