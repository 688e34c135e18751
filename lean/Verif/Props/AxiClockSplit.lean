import Verif.Proof.AxiClockSplit
import Verif.Props.AxiClockProgress
import Verif.Props.AxiSplit

/-!
# C141: a reset of only one end of an AXI connection, at clock-edge granularity

`CSplit` is a master and a slave (or RAM) with a reset signal each, connected by five channels with `valid`/`ready` handshakes, pauses and
bounded queues. C136 is about the same with FIFO channels. The statements about effects and results are those of C94, and about completion
those of C95, now for histories in which either end is also reset alone, while `idle()` of the master is true (or the master is in reset).
-/

namespace Verif.AxiSys

open Verif.Axi Verif.AxiOps

/-- The system after the first `n` of the events, with the transactions in each channel as a list. The masters, the slaves and the target are as
they are. -/
def csplitAt {σ : Type} (c : Cfg) (wa : Nat → WArgs) (ra : Nat → Req) (t : Target σ) (st : σ) (evs : List CSplitEv) (n : Nat) : Sys σ :=
  (CSplit.after c wa ra t st evs n).c.view

variable {σ : Type}

theorem CSplit.run_append (c : Cfg) (wa : Nat → WArgs) (ra : Nat → Req) (t : Target σ) (st : σ) (evs : List CSplitEv) (e : CSplitEv) :
    CSplit.run c wa ra t st (evs ++ [e]) = (CSplit.run c wa ra t st evs).step c wa ra t e := by
  simp [CSplit.run, List.foldl_append]

theorem CSplit.after_succ (c : Cfg) (wa : Nat → WArgs) (ra : Nat → Req) (t : Target σ) (st : σ) (evs : List CSplitEv) (n : Nat)
    (hn : n < evs.length) : CSplit.after c wa ra t st evs (n + 1) = (CSplit.after c wa ra t st evs n).step c wa ra t evs[n] := by
  unfold CSplit.after
  rw [List.take_succ_eq_append_getElem hn, CSplit.run_append]

section

variable {c : Cfg} {wa : Nat → WArgs} {ra : Nat → Req} (hc : c.Std) (hi : IdsFit c wa ra) (t : Target σ) (st : σ) {evs : List CSplitEv}
  (hcalm : CSplit.Calm c wa ra t st evs)

include hc hi hcalm

theorem CSplit.inv (n : Nat) : CInv (CSplit.after c wa ra t st evs n).c ∧ CHalf (CSplit.after c wa ra t st evs n) ∧
    ∃ evs' : List Ev, evs'.length = min n evs.length ∧ ∀ k ≤ n, csplitAt c wa ra t st evs k = Sys.at c wa ra t st evs' k := by
  induction n with
  | zero =>
    refine ⟨cinit st, .init st, [], by simp, fun k hk => ?_⟩
    obtain rfl : k = 0 := by omega
    rfl
  | succ n ih =>
    obtain ⟨h1, h2, evs', h3, h4⟩ := ih
    by_cases hn : n < evs.length
    · have hx : evs[n]? = some evs[n] := List.getElem?_eq_getElem hn
      have hv : (CSplit.after c wa ra t st evs n).c.view = Sys.run c wa ra t st (evs'.take n) := h4 n (Nat.le_refl _)
      obtain ⟨ww, hww⟩ := run_winv c hc wa ra hi t st (evs'.take n)
      obtain ⟨wr, hwr⟩ := run_rinv c hc wa ra hi t st (evs'.take n)
      rw [← hv] at hww hwr
      obtain ⟨s1, e', s2⟩ := h1.split (t := t) evs[n] hc hww hwr
        (fun he => hcalm.w n (by rw [hx]; exact he.imp (congrArg some) (congrArg some)))
        (fun he => hcalm.r n (by rw [hx]; exact he.imp (congrArg some) (congrArg some)))
      rw [← CSplit.after_succ c wa ra t st evs n hn] at s1 s2
      refine ⟨s1, ?_, evs' ++ [e'], by simp [h3]; omega, fun k hk => ?_⟩
      · rw [CSplit.after_succ c wa ra t st evs n hn]; exact h2.step _
      · by_cases hk' : k ≤ n
        · unfold Sys.at
          rw [List.take_append_of_le_length (by omega)]; exact h4 k hk'
        · obtain rfl : k = n + 1 := by omega
          unfold csplitAt Sys.at
          rw [s2, hv, List.take_of_length_le (l := evs') (by omega), List.take_of_length_le (by simp; omega)]
          simp [Sys.run, List.foldl_append]
    · have heq : CSplit.after c wa ra t st evs (n + 1) = CSplit.after c wa ra t st evs n := by
        unfold CSplit.after
        rw [List.take_of_length_le (by omega), List.take_of_length_le (by omega)]
      refine ⟨by rw [heq]; exact h1, by rw [heq]; exact h2, evs', by omega, fun k hk => ?_⟩
      by_cases hk' : k ≤ n
      · exact h4 k hk'
      · obtain rfl : k = n + 1 := by omega
        have h5 := h4 n (Nat.le_refl _)
        unfold csplitAt Sys.at at h5 ⊢
        rw [heq, h5, List.take_of_length_le (by omega), List.take_of_length_le (by omega)]

/-- Seen with its channels as lists of transactions, the system is as in a history of the system with FIFO channels in which both ends are always
reset together. -/
theorem CSplit.refine : ∃ evs' : List Ev, csplitAt c wa ra t st evs = Sys.at c wa ra t st evs' := by
  obtain ⟨_, _, evs', h3, h4⟩ := CSplit.inv hc hi t st hcalm evs.length
  refine ⟨evs', funext fun k => ?_⟩
  by_cases hk : k ≤ evs.length
  · exact h4 k hk
  · have h5 := h4 _ (Nat.le_refl _)
    have heq : CSplit.after c wa ra t st evs k = CSplit.after c wa ra t st evs evs.length := by
      unfold CSplit.after
      rw [List.take_of_length_le (by omega), List.take_of_length_le (by omega)]
    unfold csplitAt Sys.at at h5 ⊢
    rw [heq, h5, List.take_of_length_le (by omega), List.take_of_length_le (by omega)]

/-- **C141, writes.** In every history in which the master or the slave is reset alone only while `idle()` of the master is true or the
master is in reset (both together at any time), every write that completed was executed exactly, and writes were executed in the order in which they
were issued (see C89, C92). Missing (and false, `C141_violated`): a reset of one end at another time. -/
theorem C141_writes_partial (n : Nat) :
    let S := csplitAt c wa ra t st evs
    ∃ ex : Op → List BBeat → List ((ABeat × List WBeat) × List (Nat × Bool)),
      (∀ op got, (op, some got) ∈ (S n).w.m.results → WriteDone c wa t S n op got (ex op got)) ∧
      ∀ op1 got1 op2 got2, (op1, some got1) ∈ (S n).w.m.results → (op2, some got2) ∈ (S n).w.m.results →
        Before (S n).w.m op1 op2 → ∀ x1 ∈ (ex op1 got1).flatMap (·.2), ∀ x2 ∈ (ex op2 got2).flatMap (·.2), x1.1 < x2.1 := by
  obtain ⟨evs', he⟩ := CSplit.refine hc hi t st hcalm
  rw [he]
  exact C92_write_order c hc wa ra hi t st evs' n

/-- **C141, reads.** In such a history, every read that completed was executed exactly, and reads were executed in the order in which they were issued. -/
theorem C141_reads_partial (n : Nat) :
    let S := csplitAt c wa ra t st evs
    ∃ ex : Op → List RBeat → List Nat,
      (∀ op got, (op, some got) ∈ (S n).r.m.results → ReadDone c ra t S n op got (ex op got)) ∧
      ∀ op1 got1 op2 got2, (op1, some got1) ∈ (S n).r.m.results → (op2, some got2) ∈ (S n).r.m.results →
        Before (S n).r.m op1 op2 → ∀ x1 ∈ ex op1 got1, ∀ x2 ∈ ex op2 got2, x1 < x2 := by
  obtain ⟨evs', he⟩ := CSplit.refine hc hi t st hcalm
  rw [he]
  exact C92_read_order c hc wa ra hi t st evs' n

/-- **C141, nothing else.** In such a history the target only changes when a beat of a burst of an outstanding operation is executed. -/
theorem C141_nothing_else_partial (n : Nat) :
    let S := csplitAt c wa ra t st evs
    (S (n + 1)).mem = (S n).mem ∨
    (∃ op l b k w ok, Outstanding (S n).w.m op ∧ (wa op.key).sends c l ∧ b ∈ l ∧ b.2[k]? = some w ∧
      WroteBeat c t b.1 k w (S n).mem ok (S (n + 1)).mem) ∨
    (∃ op l a k r, Outstanding (S n).r.m op ∧ sendsR c (ra op.key) l ∧ (a, k) ∈ rBeats l ∧
      ReadBeat c t a k (S n).mem r (S (n + 1)).mem) := by
  obtain ⟨evs', he⟩ := CSplit.refine hc hi t st hcalm
  rw [he]
  exact C89_nothing_else c hc wa ra hi t st evs' n

/-- **C141, no failure.** In such a history no assertion of the master or the slave fails, and no coroutine dies. -/
theorem C141_no_failure_partial (n : Nat) :
    let s := (CSplit.after c wa ra t st evs n).c
    s.w.died = false ∧ s.w.m.respFailed = false ∧ s.w.m.workFailed = false ∧
    s.r.died = false ∧ s.r.m.respFailed = false ∧ s.r.m.workFailed = false := by
  obtain ⟨evs', he⟩ := CSplit.refine hc hi t st hcalm
  have h := C89_no_failure c hc wa ra hi t st evs' n
  rw [← he] at h
  exact h

/-- **C141, idle.** In such a history, when `idle()` of the master is true, or the master is in reset, no transaction is in a channel or waits to be
sent, and the slave is not at work on a burst. -/
theorem C141_idle_partial (n : Nat) :
    let s := (CSplit.after c wa ra t st evs n).c
    (s.w.m.idle = true ∨ s.w.m.running = false → s.w.todo = [] ∧ content s.w.aw = [] ∧ content s.w.w = [] ∧ content s.w.b = [] ∧
      s.w.sl = none ∧ s.w.acc.beat = []) ∧
    (s.r.m.idle = true ∨ s.r.m.running = false → s.r.todo = [] ∧ content s.r.ar = [] ∧ content s.r.r = [] ∧ s.r.sl = none ∧
      s.r.got = none) := by
  obtain ⟨_, _, evs', _, h4⟩ := CSplit.inv hc hi t st hcalm n
  have hv : (CSplit.after c wa ra t st evs n).c.view = Sys.run c wa ra t st (evs'.take n) := h4 n (Nat.le_refl _)
  obtain ⟨ww, hww⟩ := run_winv c hc wa ra hi t st (evs'.take n)
  obtain ⟨wr, hwr⟩ := run_rinv c hc wa ra hi t st (evs'.take n)
  rw [← hv] at hww hwr
  refine ⟨fun h0 => ?_, fun h0 => ?_⟩
  · obtain ⟨h1, h2, h3, h4, h5, h6, _⟩ := CWPort.nothing hc hww h0
    exact ⟨h1, h2, h4, h5, h6, h3⟩
  · obtain ⟨h1, h2, h3, h4, h5, _⟩ := CRPort.nothing hc hwr h0
    exact ⟨h1, h2, h3, h5, h4⟩

theorem CSplit.from (hu : (CSplit.run c wa ra t st evs).Up) (sched : Nat → CEv) (hq : ∀ n, (sched n).quiet = true) :
    CFrom c wa ra t st (fun n => (CSplit.run c wa ra t st (evs ++ (List.range n).map (.both ∘ sched))).c) sched := by
  obtain ⟨h1, h2, evs', _, h4⟩ := CSplit.inv hc hi t st hcalm evs.length
  have h5 := h4 _ (Nat.le_refl _)
  simp only [csplitAt, Sys.at, CSplit.after, List.take_length] at h1 h2 h5
  refine ⟨fun n => ?_, hq, ?_, ?_, ⟨evs'.take evs.length, ?_⟩⟩
  · rw [List.range_succ, List.map_append, ← List.append_assoc]
    exact congrArg CSplit.c (CSplit.run_append c wa ra t st _ _)
  · simpa using h1
  · simpa using h2.fine hu
  · simpa using h5

/-- **C141, completion with pauses.** After any such history `evs` at whose end both components are out of reset, if no more calls are made and no
reset is asserted, then under any fair schedule in which ends of the channels are paused and released at any instants but none is paused for
ever (`Open`), all operations complete (from `N` on): both masters are idle and every operation that was called and had no result at the
end of `evs` has completed with responses. -/
theorem C141_completes_with_pauses_partial (hu : (CSplit.run c wa ra t st evs).Up) (sched : Nat → CEv) :
    let S : Nat → CSys σ := fun n => (CSplit.run c wa ra t st (evs ++ (List.range n).map (.both ∘ sched))).c
    (∀ n, (sched n).quiet = true) → CFair c wa ra t S sched →
    Open (Edge S sched) (fun n => (S n).w.aw) → Open (Edge S sched) (fun n => (S n).w.w) → Open (Edge S sched) (fun n => (S n).w.b) →
    Open (Edge S sched) (fun n => (S n).r.ar) → Open (Edge S sched) (fun n => (S n).r.r) →
    ∃ N, ∀ n, N ≤ n →
      (S n).w.m.idle = true ∧ (S n).r.m.idle = true ∧
      (∀ op ∈ (S 0).w.m.issued ++ (S 0).w.m.wrappers, (∀ r, (op, r) ∉ (S 0).w.m.results) →
        ∃ got, (op, some got) ∈ (S n).w.m.results) ∧
      (∀ op ∈ (S 0).r.m.issued ++ (S 0).r.m.wrappers, (∀ r, (op, r) ∉ (S 0).r.m.results) →
        ∃ got, (op, some got) ∈ (S n).r.m.results) :=
  fun hq hf o1 o2 o3 o4 o5 => (CSplit.from hc hi t st hcalm hu sched hq).completes hc hi hf o1 o2 o3 o4 o5
    (by simpa using hu.masterW) (by simpa using hu.masterR)

/-- **C141, completion.** The same when no source or sink is paused. -/
theorem C141_completes_partial (hu : (CSplit.run c wa ra t st evs).Up) (sched : Nat → CEv) :
    let S : Nat → CSys σ := fun n => (CSplit.run c wa ra t st (evs ++ (List.range n).map (.both ∘ sched))).c
    (∀ n, (sched n).progress = true) → CFair c wa ra t S sched → Unpaused (S 0) →
    ∃ N, ∀ n, N ≤ n →
      (S n).w.m.idle = true ∧ (S n).r.m.idle = true ∧
      (∀ op ∈ (S 0).w.m.issued ++ (S 0).w.m.wrappers, (∀ r, (op, r) ∉ (S 0).w.m.results) →
        ∃ got, (op, some got) ∈ (S n).w.m.results) ∧
      (∀ op ∈ (S 0).r.m.issued ++ (S 0).r.m.wrappers, (∀ r, (op, r) ∉ (S 0).r.m.results) →
        ∃ got, (op, some got) ∈ (S n).r.m.results) :=
  fun hp hf hun => (CSplit.from hc hi t st hcalm hu sched (fun n => CEv.quiet_of (hp n))).completes_unpaused hc hi hp hf hun
    (by simpa using hu.masterW) (by simpa using hu.masterR)

end

/-! ## A RAM -/

/-- An AXI master and a RAM with separate resets at clock level, after the first `n` of the events. -/
def csplitRam (c : Cfg) (wa : Nat → WArgs) (ra : Nat → Req) (m0 : Memory) (evs : List CSplitEv) (n : Nat) : CSys Memory :=
  (CSplit.after c wa ra ramTarget m0 evs n).c

/-- The hypotheses on a history: one end is only reset alone as above; the operations issued in it use incrementing bursts and have spans inside the
RAM. -/
structure CSplitCalls (c : Cfg) (wa : Nat → WArgs) (ra : Nat → Req) (m0 : Memory) (evs : List CSplitEv) (n : Nat) : Prop where
  calm : CSplit.Calm c wa ra ramTarget m0 evs
  std : c.Std
  ids : IdsFit c wa ra
  wf : m0.WF
  size : 0 < m0.size
  w : ∀ op ∈ (csplitRam c wa ra m0 evs n).w.m.issued, (wa op.key).req.burst = 1 ∧
    (wa op.key).req.address.toNat + (wa op.key).data.length ≤ m0.size
  r : ∀ op ∈ (csplitRam c wa ra m0 evs n).r.m.issued, (ra op.key).burst = 1 ∧
    (ra op.key).address.toNat + (ra op.key).length.toNat ≤ m0.size

section

variable {c : Cfg} {wa : Nat → WArgs} {ra : Nat → Req} {m0 : Memory} {evs : List CSplitEv} {n : Nat}

theorem CSplitCalls.refine (H : CSplitCalls c wa ra m0 evs n) : ∃ evs' : List Ev, RamCalls c wa ra m0 evs' n ∧
      ∀ k, (csplitRam c wa ra m0 evs k).w.m = (ramAt c wa ra m0 evs' k).w.m ∧
        (csplitRam c wa ra m0 evs k).r.m = (ramAt c wa ra m0 evs' k).r.m ∧
        (csplitRam c wa ra m0 evs k).mem = (ramAt c wa ra m0 evs' k).mem := by
  obtain ⟨evs', he⟩ := CSplit.refine H.std H.ids ramTarget m0 H.calm
  have key : ∀ k, (csplitRam c wa ra m0 evs k).w.m = (ramAt c wa ra m0 evs' k).w.m ∧
        (csplitRam c wa ra m0 evs k).r.m = (ramAt c wa ra m0 evs' k).r.m ∧
        (csplitRam c wa ra m0 evs k).mem = (ramAt c wa ra m0 evs' k).mem := fun k => by
    have := congrFun he k
    exact ⟨congrArg (fun s => s.w.m) this, congrArg (fun s => s.r.m) this, congrArg (fun s => s.mem) this⟩
  refine ⟨evs', ⟨H.std, H.ids, H.wf, H.size, ?_, ?_⟩, key⟩
  · rw [← (key n).1]; exact H.w
  · rw [← (key n).2.1]; exact H.r

/-- **C141, reads return what was written** (see C91). -/
theorem C141_read_your_writes_partial (H : CSplitCalls c wa ra m0 evs n) (wop : Op) (wgot : List BBeat) (k : Nat) (hk : k ≤ n)
    (hw : (wop, some wgot) ∈ (csplitRam c wa ra m0 evs k).w.m.results)
    (rop : Op) (rgot : List RBeat) (hlate : rop ∉ (csplitRam c wa ra m0 evs k).r.m.issued)
    (hr : (rop, some rgot) ∈ (csplitRam c wa ra m0 evs n).r.m.results) (b : Nat) (hb : Covers wa wop b)
    (hb3 : (ra rop.key).address.toNat ≤ b) (hb4 : b < (ra rop.key).address.toNat + (ra rop.key).length.toNat)
    (hlast : ∀ op ∈ (csplitRam c wa ra m0 evs n).w.m.issued, Covers wa op b →
      op = wop ∨ Before (csplitRam c wa ra m0 evs n).w.m op wop) :
    ∃ data, returnsR c (ra rop.key) rgot data .okay ∧
      data[b - (ra rop.key).address.toNat]? = (wa wop.key).data[b - (wa wop.key).req.address.toNat]? := by
  obtain ⟨evs', H', he⟩ := H.refine
  simp only [he] at hw hlate hr hlast
  exact C91_read_your_writes H' wop wgot k hk hw rop rgot hlate hr b hb hb3 hb4 hlast

/-- **C141, contents** (see C92): when the writes covering a byte have all completed, the RAM contains there what performing
all issued writes one after the other, in the order of the calls, leaves. -/
theorem C141_sequential_partial (H : CSplitCalls c wa ra m0 evs n) (b : Nat)
    (hdone : ∀ op ∈ (csplitRam c wa ra m0 evs n).w.m.issued, Covers wa op b →
      ∃ got, (op, some got) ∈ (csplitRam c wa ra m0 evs n).w.m.results) :
    (csplitRam c wa ra m0 evs n).mem.contents b = ((csplitRam c wa ra m0 evs n).w.m.issued.foldl
      (fun f op => f.store (wa op.key).req.address.toNat (wa op.key).data) m0.contents) b := by
  obtain ⟨evs', H', he⟩ := H.refine
  simp only [he] at hdone ⊢
  exact C92_sequential H' b hdone

end

/-! ### A RAM of 16 bytes, 4 bytes wide -/

/-- All events of `evs`. -/
def cspRam (evs : List CSplitEv) : CSys Memory := (CSplit.run exC spWa spRa ramTarget spM evs).c

def cspUp : List CSplitEv := [.both (.w (.reset false)), .both (.r (.reset false))]
def cspCycles (k : Nat) : List CSplitEv := (exCycles k).map .both
def cspPause (k : Chan) (v : Bool) : CSplitEv := .both (.chan k (.snkPause v))

/-- The slave pauses the W channel, so that the AW transaction of the first write reaches it, but not the W transaction. Then the master is
reset alone. The second write completes with OKAY. -/
def cspMaster : List CSplitEv :=
  cspUp ++ cspPause .w true :: .both (.w .write) :: cspCycles 4 ++ [.masterW true, .masterW false, cspPause .w false, .both (.w .write)] ++
    cspCycles 6

/-- The same, but the slave is reset alone. -/
def cspSlave : List CSplitEv :=
  cspUp ++ cspPause .w true :: .both (.w .write) :: cspCycles 4 ++ [.slaveW true, .slaveW false, cspPause .w false, .both (.w .write)] ++
    cspCycles 6 ++ [.both (.w (.workTake 1)), .both (.w (.workGet 1)), .both (.w (.workDone 1))]

/-- Addresses 0 and 4 are written; then the master pauses the R channel, and is reset alone when the slave has executed a read of address 4. The
later read of address 0 completes with OKAY. -/
def cspReadM : List CSplitEv :=
  cspUp ++ .both (.w .write) :: .both (.w .write) :: cspCycles 7 ++ cspPause .r true :: .both (.r .read) :: cspCycles 4 ++
    [.masterR true, .masterR false, cspPause .r false, .both (.r .read)] ++ cspCycles 6

/-- **C141, violated.** (1) Reset of the master alone: a later write to address 4 is reported complete with OKAY, but its data is at address 0,
and address 4 is unchanged. (2) Reset of the slave alone: a later write is reported complete with OKAY, but the data of the earlier one is at
its address. (3) Reset of the master alone: a later read of address 0 is reported complete with OKAY, and with the data at address 4. -/
theorem C141_violated :
    ((cspRam cspMaster).w.m.results = [(spW 0, none), (spW 1, some [⟨0, .okay, 0⟩])] ∧
      (cspRam cspMaster).mem.read 0 8 = .ok [0x22, 0x22, 0x22, 0x22, 0, 0, 0, 0]) ∧
    ((cspRam cspSlave).w.m.results = [(spW 1, some [⟨1, .okay, 0⟩])] ∧
      (cspRam cspSlave).mem.read 0 8 = .ok [0, 0, 0, 0, 0x11, 0x11, 0x11, 0x11]) ∧
    ((cspRam cspReadM).r.m.results = [(spR 0, none), (spR 1, some [⟨0, 0x22222222, .okay, true, 0⟩])] ∧
      (cspRam cspReadM).mem.read 0 8 = .ok [0x11, 0x11, 0x11, 0x11, 0x22, 0x22, 0x22, 0x22]) := by
  refine ⟨⟨by decide +kernel, by decide +kernel⟩, ⟨by decide +kernel, by decide +kernel⟩, by decide +kernel, by decide +kernel⟩

/-- No coroutine has died in these histories. -/
example : (cspRam cspMaster).w.died = false ∧ (cspRam cspSlave).w.died = false ∧ (cspRam cspReadM).r.died = false :=
  ⟨by decide +kernel, by decide +kernel, by decide +kernel⟩

/-- A history that satisfies the hypotheses: a write completes; the write side of the master and the read side of the slave are reset alone, and a
write is called during this reset; then the write side of the slave is reset too, and released before the master; then the second write and a
read complete; then the slave is reset alone and released. -/
def cspCalm : List CSplitEv :=
  cspUp ++ .both (.w .write) :: cspCycles 6 ++ [.masterW true, .slaveR true, .both (.w .write)] ++ cspCycles 1 ++ [.slaveW true, .slaveW false] ++
    cspCycles 1 ++ [.masterW false, .slaveR false] ++ cspCycles 6 ++ .both (.r .read) :: cspCycles 5 ++ [.slaveW true, .slaveR true] ++
    cspCycles 2 ++ [.slaveW false, .slaveR false]

/-- No reset of one end alone from `s` on but when the master is idle or in reset. -/
def cspCalmFrom : CSplit Memory → List CSplitEv → Bool
  | _, [] => true
  | s, e :: evs =>
    (match e with
    | .masterW true | .slaveW true => s.c.w.m.idle || !s.c.w.m.running
    | .masterR true | .slaveR true => s.c.r.m.idle || !s.c.r.m.running
    | _ => true) && cspCalmFrom (s.step exC spWa spRa ramTarget e) evs

theorem cspCalmFrom_spec (evs : List CSplitEv) : ∀ s, cspCalmFrom s evs = true →
    ∀ n, ((evs[n]? = some (.masterW true) ∨ evs[n]? = some (.slaveW true)) →
        ((evs.take n).foldl (CSplit.step exC spWa spRa ramTarget) s).c.w.m.idle = true ∨
        ((evs.take n).foldl (CSplit.step exC spWa spRa ramTarget) s).c.w.m.running = false) ∧
      ((evs[n]? = some (.masterR true) ∨ evs[n]? = some (.slaveR true)) →
        ((evs.take n).foldl (CSplit.step exC spWa spRa ramTarget) s).c.r.m.idle = true ∨
        ((evs.take n).foldl (CSplit.step exC spWa spRa ramTarget) s).c.r.m.running = false) := by
  induction evs with
  | nil => exact fun s _ n => ⟨fun h => by simp at h, fun h => by simp at h⟩
  | cons e evs ih =>
    intro s hs n
    simp only [cspCalmFrom, Bool.and_eq_true] at hs
    cases n with
    | zero =>
      simp only [List.getElem?_cons_zero, List.take_zero, List.foldl_nil, Option.some.injEq]
      constructor
      all_goals
        rintro (rfl | rfl)
        all_goals simpa using hs.1
    | succ n => exact ih _ hs.2 n

/-- `cspCalmFrom` checks what C141 needs. -/
theorem cspCalm_of {evs : List CSplitEv} (hc : cspCalmFrom { c := { mem := spM } } evs = true) :
    CSplit.Calm exC spWa spRa ramTarget spM evs :=
  ⟨fun n => (cspCalmFrom_spec evs _ hc n).1, fun n => (cspCalmFrom_spec evs _ hc n).2⟩

theorem cspCalm_calm : cspCalmFrom { c := { mem := spM } } cspCalm = true := by decide +kernel

example : cspCalmFrom { c := { mem := spM } } cspMaster = false ∧ cspCalmFrom { c := { mem := spM } } cspSlave = false ∧
    cspCalmFrom { c := { mem := spM } } cspReadM = false := ⟨by decide +kernel, by decide +kernel, by decide +kernel⟩

theorem cspCalm_state :
    (cspRam cspCalm).w.m.results = [(spW 0, some [⟨0, .okay, 0⟩]), (spW 1, some [⟨0, .okay, 0⟩])] ∧
    (cspRam cspCalm).w.m.issued = [spW 0, spW 1] ∧
    (cspRam cspCalm).r.m.results = [(spR 0, some [⟨0, 0x22222222, .okay, true, 0⟩])] ∧
    (cspRam cspCalm).r.m.issued = [spR 0] := by decide +kernel

theorem cspWrites {evs : List CSplitEv} (hc : cspCalmFrom { c := { mem := spM } } evs = true) {op : Op} {got : List BBeat}
    (hr : (op, some got) ∈ (cspRam evs).w.m.results) :
    ∃ ex, WriteDone exC spWa ramTarget (csplitAt exC spWa spRa ramTarget spM evs) evs.length op got ex := by
  obtain ⟨ex, he, _⟩ := C141_writes_partial exC_std spIds ramTarget spM (cspCalm_of hc) evs.length
  exact ⟨_, he op got (by simpa [cspRam, csplitAt, CSplit.after, CSys.view, CWPort.view] using hr)⟩

/-- C141 applies to this history. -/
example : ∃ ex, WriteDone exC spWa ramTarget (csplitAt exC spWa spRa ramTarget spM cspCalm) cspCalm.length (spW 1) [⟨0, .okay, 0⟩] ex :=
  cspWrites cspCalm_calm (by rw [cspCalm_state.1]; simp)

theorem cspCalls {evs : List CSplitEv} (hc : cspCalmFrom { c := { mem := spM } } evs = true)
    (hw : (cspRam evs).w.m.issued = [spW 0, spW 1]) (hr : (cspRam evs).r.m.issued = [spR 0]) :
    CSplitCalls exC spWa spRa spM evs evs.length := by
  have hx : csplitRam exC spWa spRa spM evs evs.length = cspRam evs := by simp [csplitRam, cspRam, CSplit.after]
  refine ⟨cspCalm_of hc, exC_std, spIds, ⟨rfl, trivial⟩, by decide, ?_, ?_⟩
  · rw [hx, hw]
    intro op hop
    rw [List.mem_cons, List.mem_singleton] at hop
    rcases hop with rfl | rfl <;> decide
  · rw [hx, hr]
    intro op hop
    rw [List.mem_singleton] at hop
    subst hop; decide

theorem cspContents {evs : List CSplitEv} (hc : cspCalmFrom { c := { mem := spM } } evs = true)
    (hw : (cspRam evs).w.m.issued = [spW 0, spW 1]) (hr : (cspRam evs).r.m.issued = [spR 0])
    (hd : (cspRam evs).w.m.results = [(spW 0, some [⟨0, .okay, 0⟩]), (spW 1, some [⟨0, .okay, 0⟩])]) (b : Nat) :
    (cspRam evs).mem.contents b = ([spW 0, spW 1].foldl
      (fun f op => f.store (spWa op.key).req.address.toNat (spWa op.key).data) spM.contents) b := by
  have hx : csplitRam exC spWa spRa spM evs evs.length = cspRam evs := by simp [csplitRam, cspRam, CSplit.after]
  have := C141_sequential_partial (cspCalls hc hw hr) b
  rw [hx, hw, hd] at this
  refine this fun op hop _ => ?_
  rw [List.mem_cons, List.mem_singleton] at hop
  rcases hop with rfl | rfl
  · exact ⟨[⟨0, .okay, 0⟩], by simp⟩
  · exact ⟨[⟨0, .okay, 0⟩], by simp⟩

/-- C141 gives the contents of the RAM at the end. -/
example (b : Nat) : (cspRam cspCalm).mem.contents b = ([spW 0, spW 1].foldl
      (fun f op => f.store (spWa op.key).req.address.toNat (spWa op.key).data) spM.contents) b :=
  cspContents cspCalm_calm cspCalm_state.2.1 cspCalm_state.2.2.2 cspCalm_state.1 b

/-- The system after `evs` and then `evs'`. -/
abbrev cspAfter (evs evs' : List CSplitEv) : CSplit Memory := CSplit.run exC spWa spRa ramTarget spM (evs ++ evs')

theorem cspReads {evs : List CSplitEv} (hc : cspCalmFrom { c := { mem := spM } } evs = true) (hu : (cspAfter evs []).Up)
    (hp : Unpaused (cspAfter evs []).c) {op : Op} (hi : op ∈ (cspAfter evs []).c.r.m.issued)
    (hn : ∀ r, (op, r) ∉ (cspAfter evs []).c.r.m.results) :
    ∃ N, ∀ n, N ≤ n → ∃ got, (op, some got) ∈ (cspAfter evs ((List.range n).map (.both ∘ croundRobin))).c.r.m.results := by
  have h0 : (List.range 0).map (CSplitEv.both ∘ croundRobin : Nat → CSplitEv) = [] := by simp
  have := C141_completes_partial exC_std spIds ramTarget spM (cspCalm_of hc) (by rwa [cspAfter, List.append_nil] at hu) croundRobin
    croundRobin_progress (croundRobin_fair _ _ _ _ _) (by simp only [h0]; exact hp)
  simp only [h0] at this
  obtain ⟨N, hN⟩ := this
  exact ⟨N, fun n hn' => (hN n hn').2.2.2 op (List.mem_append_left _ hi) hn⟩

/-- Then a read is called: it completes. -/
def cspCalmRead : List CSplitEv := cspCalm ++ [.both (.r .read)]

theorem cspCalmRead_calm : cspCalmFrom { c := { mem := spM } } cspCalmRead = true := by decide +kernel

theorem cspCalmRead_up : (cspAfter cspCalmRead []).Up := ⟨by decide +kernel, by decide +kernel, by decide +kernel, by decide +kernel⟩

theorem cspCalmRead_unpaused : Unpaused (cspAfter cspCalmRead []).c :=
  ⟨⟨by decide +kernel, by decide +kernel⟩, ⟨by decide +kernel, by decide +kernel⟩, ⟨by decide +kernel, by decide +kernel⟩,
    ⟨by decide +kernel, by decide +kernel⟩, ⟨by decide +kernel, by decide +kernel⟩⟩

theorem cspCalmRead_state : (cspAfter cspCalmRead []).c.r.m.issued = [spR 0, spR 1] ∧
    (cspAfter cspCalmRead []).c.r.m.results = [(spR 0, some [⟨0, 0x22222222, .okay, true, 0⟩])] := by
  decide +kernel

example : ∃ N, ∀ n, N ≤ n → ∃ got, (spR 1, some got) ∈ (cspAfter cspCalmRead ((List.range n).map (.both ∘ croundRobin))).c.r.m.results :=
  cspReads cspCalmRead_calm cspCalmRead_up cspCalmRead_unpaused (by rw [cspCalmRead_state.1]; simp)
    (by rw [cspCalmRead_state.2]; simp [spR])

end Verif.AxiSys
