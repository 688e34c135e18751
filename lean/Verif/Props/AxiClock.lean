import Verif.Proof.AxiClock
import Verif.Props.AxiSysRam

/-!
# C94: an AXI master connected to a slave, at clock-edge granularity

`CSys` is a master and a slave (or RAM) connected by five channels with `valid`/`ready` handshakes, pauses and bounded queues.
Here: its operations have the effects and results of C89 - C92, for which the channels were FIFOs.
-/

namespace Verif.AxiSys

open Verif.Axi Verif.AxiOps

/-- The clock-level system after the first `n` of the events, with the transactions in each channel as a list. The masters, the slaves
and the target are as they are. -/
def clkAt {σ : Type} (c : Cfg) (wa : Nat → WArgs) (ra : Nat → Req) (t : Target σ) (st : σ) (evs : List CEv) (n : Nat) : Sys σ :=
  (CSys.run c wa ra t st (evs.take n)).view

variable {σ : Type} (c : Cfg) (wa : Nat → WArgs) (ra : Nat → Req) (t : Target σ) (st : σ)

theorem crun_append (evs : List CEv) (e : CEv) :
    CSys.run c wa ra t st (evs ++ [e]) = (CSys.run c wa ra t st evs).step c wa ra t e := by
  simp [CSys.run, List.foldl_append]

theorem csim (evs : List CEv) : ∀ s : CSys σ, CInv s → ∃ evs' : List Ev, evs'.length = evs.length ∧
    ∀ n, CInv ((evs.take n).foldl (CSys.step c wa ra t) s) ∧
      ((evs.take n).foldl (CSys.step c wa ra t) s).view = (evs'.take n).foldl (Sys.step c wa ra t) s.view := by
  induction evs with
  | nil => exact fun s h => ⟨[], rfl, fun n => by simp only [List.take_nil, List.foldl_nil]; exact ⟨h, trivial⟩⟩
  | cons e evs ih =>
    intro s h
    obtain ⟨h1, e', h2⟩ := h.step (c := c) (wa := wa) (ra := ra) (t := t) e
    obtain ⟨evs', hl, he⟩ := ih _ h1
    refine ⟨e' :: evs', by simp [hl], fun n => ?_⟩
    cases n with
    | zero => simp only [List.take_zero, List.foldl_nil]; exact ⟨h, trivial⟩
    | succ n =>
      simp only [List.take_succ_cons, List.foldl_cons]
      rw [← h2]
      exact he n

theorem cinit : CInv ({ mem := st } : CSys σ) := ⟨⟨.init, .init, .init⟩, ⟨.init, .init⟩⟩

/-- **C94, refinement.** Whatever the clock-level system does, seen with its channels as lists of transactions, the system with FIFO
channels can do, event by event. In particular every transaction sent on a channel is received exactly once, unchanged and in
order, unless a reset comes in between. -/
theorem C94_refines (evs : List CEv) : ∃ evs' : List Ev, evs'.length = evs.length ∧
    ∀ n, clkAt c wa ra t st evs n = Sys.at c wa ra t st evs' n := by
  obtain ⟨evs', hl, he⟩ := csim c wa ra t evs _ (cinit st)
  exact ⟨evs', hl, fun n => (he n).2⟩

section

variable {c wa ra} (hc : c.Std) (hi : IdsFit c wa ra) (evs : List CEv)

include hc hi

/-- **C94, writes.** Every write that completed was executed exactly, and writes were executed in the order in which they were issued
(see C89, C92). -/
theorem C94_writes (n : Nat) :
    let S := clkAt c wa ra t st evs
    ∃ ex : Op → List BBeat → List ((ABeat × List WBeat) × List (Nat × Bool)),
      (∀ op got, (op, some got) ∈ (S n).w.m.results → WriteDone c wa t S n op got (ex op got)) ∧
      ∀ op1 got1 op2 got2, (op1, some got1) ∈ (S n).w.m.results → (op2, some got2) ∈ (S n).w.m.results →
        Before (S n).w.m op1 op2 → ∀ x1 ∈ (ex op1 got1).flatMap (·.2), ∀ x2 ∈ (ex op2 got2).flatMap (·.2), x1.1 < x2.1 := by
  obtain ⟨evs', _, he⟩ := C94_refines c wa ra t st evs
  rw [show clkAt c wa ra t st evs = Sys.at c wa ra t st evs' from funext he]
  exact C92_write_order c hc wa ra hi t st evs' n

/-- **C94, reads.** Every read that completed was executed exactly, and reads were executed in the order in which they were issued. -/
theorem C94_reads (n : Nat) :
    let S := clkAt c wa ra t st evs
    ∃ ex : Op → List RBeat → List Nat,
      (∀ op got, (op, some got) ∈ (S n).r.m.results → ReadDone c ra t S n op got (ex op got)) ∧
      ∀ op1 got1 op2 got2, (op1, some got1) ∈ (S n).r.m.results → (op2, some got2) ∈ (S n).r.m.results →
        Before (S n).r.m op1 op2 → ∀ x1 ∈ ex op1 got1, ∀ x2 ∈ ex op2 got2, x1 < x2 := by
  obtain ⟨evs', _, he⟩ := C94_refines c wa ra t st evs
  rw [show clkAt c wa ra t st evs = Sys.at c wa ra t st evs' from funext he]
  exact C92_read_order c hc wa ra hi t st evs' n

/-- **C94, nothing else.** The target only changes when a beat of a burst of an outstanding operation is executed. -/
theorem C94_nothing_else (n : Nat) :
    let S := clkAt c wa ra t st evs
    (S (n + 1)).mem = (S n).mem ∨
    (∃ op l b k w ok, Outstanding (S n).w.m op ∧ (wa op.key).sends c l ∧ b ∈ l ∧ b.2[k]? = some w ∧
      WroteBeat c t b.1 k w (S n).mem ok (S (n + 1)).mem) ∨
    (∃ op l a k r, Outstanding (S n).r.m op ∧ sendsR c (ra op.key) l ∧ (a, k) ∈ rBeats l ∧
      ReadBeat c t a k (S n).mem r (S (n + 1)).mem) := by
  obtain ⟨evs', _, he⟩ := C94_refines c wa ra t st evs
  rw [show clkAt c wa ra t st evs = Sys.at c wa ra t st evs' from funext he]
  exact C89_nothing_else c hc wa ra hi t st evs' n

/-- **C94, no failure.** No assertion of the master or the slave fails, and no coroutine dies. -/
theorem C94_no_failure (n : Nat) :
    let S := clkAt c wa ra t st evs
    (S n).w.died = false ∧ (S n).w.m.respFailed = false ∧ (S n).w.m.workFailed = false ∧
    (S n).r.died = false ∧ (S n).r.m.respFailed = false ∧ (S n).r.m.workFailed = false := by
  obtain ⟨evs', _, he⟩ := C94_refines c wa ra t st evs
  rw [show clkAt c wa ra t st evs = Sys.at c wa ra t st evs' from funext he]
  exact C89_no_failure c hc wa ra hi t st evs' n

end

/-! ## A RAM -/

/-- An AXI master connected to a RAM at clock level, after the first `n` of the events. -/
def clkRam (c : Cfg) (wa : Nat → WArgs) (ra : Nat → Req) (m0 : Memory) (evs : List CEv) (n : Nat) : CSys Memory :=
  CSys.run c wa ra ramTarget m0 (evs.take n)

/-- The hypotheses on a history: the operations issued in it use incrementing bursts and have spans inside the RAM. -/
structure ClkRamCalls (c : Cfg) (wa : Nat → WArgs) (ra : Nat → Req) (m0 : Memory) (evs : List CEv) (n : Nat) : Prop where
  std : c.Std
  ids : IdsFit c wa ra
  wf : m0.WF
  size : 0 < m0.size
  w : ∀ op ∈ (clkRam c wa ra m0 evs n).w.m.issued, (wa op.key).req.burst = 1 ∧
    (wa op.key).req.address.toNat + (wa op.key).data.length ≤ m0.size
  r : ∀ op ∈ (clkRam c wa ra m0 evs n).r.m.issued, (ra op.key).burst = 1 ∧
    (ra op.key).address.toNat + (ra op.key).length.toNat ≤ m0.size

theorem ClkRamCalls.refine {c : Cfg} {wa : Nat → WArgs} {ra : Nat → Req} {m0 : Memory} {evs : List CEv} {n : Nat}
    (H : ClkRamCalls c wa ra m0 evs n) : ∃ evs' : List Ev, RamCalls c wa ra m0 evs' n ∧
      ∀ k, (clkRam c wa ra m0 evs k).w.m = (ramAt c wa ra m0 evs' k).w.m ∧
        (clkRam c wa ra m0 evs k).r.m = (ramAt c wa ra m0 evs' k).r.m ∧
        (clkRam c wa ra m0 evs k).mem = (ramAt c wa ra m0 evs' k).mem := by
  obtain ⟨evs', _, he⟩ := C94_refines c wa ra ramTarget m0 evs
  have key : ∀ k, (clkRam c wa ra m0 evs k).w.m = (ramAt c wa ra m0 evs' k).w.m ∧
        (clkRam c wa ra m0 evs k).r.m = (ramAt c wa ra m0 evs' k).r.m ∧
        (clkRam c wa ra m0 evs k).mem = (ramAt c wa ra m0 evs' k).mem := fun k => by
    have := he k
    exact ⟨congrArg (fun s => s.w.m) this, congrArg (fun s => s.r.m) this, congrArg (fun s => s.mem) this⟩
  refine ⟨evs', ⟨H.std, H.ids, H.wf, H.size, ?_, ?_⟩, key⟩
  · rw [← (key n).1]; exact H.w
  · rw [← (key n).2.1]; exact H.r

section

variable {c : Cfg} {wa : Nat → WArgs} {ra : Nat → Req} {m0 : Memory} {evs : List CEv} {n : Nat}

/-- **C94, RAM writes** (see C90). -/
theorem C94_ram_write (H : ClkRamCalls c wa ra m0 evs n) (op : Op) (got : List BBeat)
    (hr : (op, some got) ∈ (clkRam c wa ra m0 evs n).w.m.results) :
    let A := (wa op.key).req.address.toNat
    let d := (wa op.key).data
    let nb := beatBytes c (wa op.key).req
    (wa op.key).returns c got .okay ∧ ∃ t : Nat → Nat, ∀ i < d.length,
      t i < n ∧ Outstanding (clkRam c wa ra m0 evs (t i)).w.m op ∧
      some ((clkRam c wa ra m0 evs (t i + 1)).mem.contents (A + i)) = d[i]? ∧
      ∀ j < d.length, (t i < t j ↔ (A + i) / nb < (A + j) / nb) := by
  obtain ⟨evs', H', he⟩ := H.refine
  simp only [he] at hr ⊢
  exact C90_write H' op got hr

/-- **C94, RAM reads** (see C90). -/
theorem C94_ram_read (H : ClkRamCalls c wa ra m0 evs n) (op : Op) (got : List RBeat)
    (hr : (op, some got) ∈ (clkRam c wa ra m0 evs n).r.m.results) :
    let A := (ra op.key).address.toNat
    let N := (ra op.key).length.toNat
    let nb := beatBytes c (ra op.key)
    ∃ data : Bytes, returnsR c (ra op.key) got data .okay ∧ data.length = N ∧ ∃ t : Nat → Nat, ∀ i < N,
      t i < n ∧ Outstanding (clkRam c wa ra m0 evs (t i)).r.m op ∧
      data[i]? = some ((clkRam c wa ra m0 evs (t i)).mem.contents (A + i)) ∧
      ∀ j < N, (t i < t j ↔ (A + i) / nb < (A + j) / nb) := by
  obtain ⟨evs', H', he⟩ := H.refine
  simp only [he] at hr ⊢
  exact C90_read H' op got hr

/-- **C94, reads return what was written** (see C91). -/
theorem C94_read_your_writes (H : ClkRamCalls c wa ra m0 evs n) (wop : Op) (wgot : List BBeat) (k : Nat) (hk : k ≤ n)
    (hw : (wop, some wgot) ∈ (clkRam c wa ra m0 evs k).w.m.results)
    (rop : Op) (rgot : List RBeat) (hlate : rop ∉ (clkRam c wa ra m0 evs k).r.m.issued)
    (hr : (rop, some rgot) ∈ (clkRam c wa ra m0 evs n).r.m.results) (b : Nat) (hb : Covers wa wop b)
    (hb3 : (ra rop.key).address.toNat ≤ b) (hb4 : b < (ra rop.key).address.toNat + (ra rop.key).length.toNat)
    (hlast : ∀ op ∈ (clkRam c wa ra m0 evs n).w.m.issued, Covers wa op b →
      op = wop ∨ Before (clkRam c wa ra m0 evs n).w.m op wop) :
    ∃ data, returnsR c (ra rop.key) rgot data .okay ∧
      data[b - (ra rop.key).address.toNat]? = (wa wop.key).data[b - (wa wop.key).req.address.toNat]? := by
  obtain ⟨evs', H', he⟩ := H.refine
  simp only [he] at hw hlate hr hlast
  exact C91_read_your_writes H' wop wgot k hk hw rop rgot hlate hr b hb hb3 hb4 hlast

/-- **C94, contents** (see C92): when the writes covering a byte have all completed, the RAM contains there what performing
all issued writes one after the other, in the order of the calls, leaves. -/
theorem C94_sequential (H : ClkRamCalls c wa ra m0 evs n) (b : Nat)
    (hdone : ∀ op ∈ (clkRam c wa ra m0 evs n).w.m.issued, Covers wa op b →
      ∃ got, (op, some got) ∈ (clkRam c wa ra m0 evs n).w.m.results) :
    (clkRam c wa ra m0 evs n).mem.contents b = ((clkRam c wa ra m0 evs n).w.m.issued.foldl
      (fun f op => f.store (wa op.key).req.address.toNat (wa op.key).data) m0.contents) b := by
  obtain ⟨evs', H', he⟩ := H.refine
  simp only [he] at hdone ⊢
  exact C92_sequential H' b hdone

end

/-! A concrete history: the two writes of `Props/AxiSystem.lean`, issued while the W channel is paused by the slave, so that its
source fills up and blocks the master; then the pause ends; the read is issued when both writes have completed. -/

def exChans : List Chan := [.aw, .w, .b, .ar, .r]
def exPieces : List CEv :=
  [.w .take, .w .sendAW, .w .sendW, .w .start, .w .slaveAW, .w .slaveW, .w .slaveW, .w .slaveW, .w .slaveB, .w .deliver, .w (.workTake 0),
   .w (.workGet 0), .w (.workDone 0), .r .take, .r .sendAR, .r .start, .r .slaveAR, .r .slaveR, .r .slaveR, .r .deliver,
   .r (.workTake 0), .r (.workGet 0), .r (.workDone 0)]
/-- One clock cycle. -/
def exCycle : List CEv :=
  exChans.map (.chan · .srcWake) ++ exChans.map (.chan · .snkWake) ++ [.commit] ++ exChans.map (.chan · .snkWake) ++
  [.commit, .tick] ++ exChans.map (.chan · .srcRun) ++ exChans.map (.chan · .snkRun) ++ exPieces ++
  exChans.map (.chan · .resume) ++ exPieces
def exCycles (k : Nat) : List CEv := (List.replicate k exCycle).flatten
def exStall : List CEv :=
  [.w (.reset false), .r (.reset false), .w .write, .w .write, .chan .w (.snkPause true)] ++ exCycles 3
def exClk1 : List CEv := exStall ++ .chan .w (.snkPause false) :: exCycles 7
def exClk : List CEv := exClk1 ++ .r .read :: exCycles 7

/-- After three cycles the master is blocked: four W transactions are on their way. -/
example : blocked (CSys.run exC exW exR ramTarget exM exStall).w.w = true ∧
    (content (CSys.run exC exW exR ramTarget exM exStall).w.w).length = 4 := by decide +kernel

theorem exClkWrites : (clkRam exC exW exR exM exClk exClk1.length).w.m.results =
      [(exW0, some [⟨0, .okay, 0⟩, ⟨0, .okay, 0⟩]), (exW1, some [⟨0, .okay, 0⟩])] ∧
    (clkRam exC exW exR exM exClk exClk1.length).r.m.issued = [] := by decide +kernel

theorem exClkIssued : (clkRam exC exW exR exM exClk exClk.length).w.m.issued = [exW0, exW1] ∧
    (clkRam exC exW exR exM exClk exClk.length).r.m.issued = [exR0] := by decide +kernel

theorem exClkResults : (clkRam exC exW exR exM exClk exClk.length).w.m.results =
      [(exW0, some [⟨0, .okay, 0⟩, ⟨0, .okay, 0⟩]), (exW1, some [⟨0, .okay, 0⟩])] ∧
    (clkRam exC exW exR exM exClk exClk.length).r.m.results =
      [(exR0, some [⟨0, 33621767, .okay, false, 0⟩, ⟨0, 102176277, .okay, true, 0⟩, ⟨0, 118032391, .okay, true, 0⟩])] := by
  decide +kernel

theorem exClkCalls : ClkRamCalls exC exW exR exM exClk exClk.length where
  std := exC_std
  ids := exIds
  wf := ⟨rfl, trivial⟩
  size := by decide
  w := by
    rw [exClkIssued.1]
    intro op hop
    rw [List.mem_cons, List.mem_singleton] at hop
    rcases hop with rfl | rfl <;> decide
  r := by
    rw [exClkIssued.2]
    intro op hop
    rw [List.mem_singleton] at hop
    subst hop; decide

/-- C94 applies to all bytes; byte 5 was written twice. -/
example (b : Nat) : (clkRam exC exW exR exM exClk exClk.length).mem.contents b = ([exW0, exW1].foldl
      (fun f op => f.store (exW op.key).req.address.toNat (exW op.key).data) exM.contents) b := by
  rw [← exClkIssued.1]
  refine C94_sequential exClkCalls b ?_
  rw [exClkIssued.1, exClkResults.1]
  intro op hop _
  rw [List.mem_cons, List.mem_singleton] at hop
  rcases hop with rfl | rfl
  · exact ⟨[⟨0, .okay, 0⟩, ⟨0, .okay, 0⟩], by simp⟩
  · exact ⟨[⟨0, .okay, 0⟩], by simp⟩

/-- The read returns byte 5 of the second write. -/
example : ∃ data, returnsR exC (exR 0) [⟨0, 33621767, .okay, false, 0⟩, ⟨0, 102176277, .okay, true, 0⟩,
    ⟨0, 118032391, .okay, true, 0⟩] data .okay ∧ data[4]? = some 22 := by
  obtain ⟨data, d1, d2⟩ := C94_read_your_writes exClkCalls exW1 [⟨0, .okay, 0⟩] exClk1.length (by decide +kernel)
    (by rw [exClkWrites.1]; simp) exR0 _ (by rw [exClkWrites.2]; simp) (by rw [exClkResults.2]; exact List.mem_singleton.2 rfl) 5
    ⟨by decide, by decide⟩ (by decide) (by decide) (by
      unfold Before
      rw [exClkIssued.1]
      intro op hop _
      rw [List.mem_cons, List.mem_singleton] at hop
      rcases hop with rfl | rfl
      · exact .inr (List.Sublist.refl _)
      · exact .inl rfl)
  exact ⟨data, d1, d2⟩

end Verif.AxiSys
