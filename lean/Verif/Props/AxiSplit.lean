import Verif.Proof.AxiSplit
import Verif.Props.AxiSystem

/-!
# C136: a reset of only one end of an AXI connection
-/

namespace Verif.AxiSys

open Verif.Axi Verif.AxiOps Verif.AxiOps.Master

section

variable {σ : Type} (c : Cfg) (hc : c.Std) (wa : Nat → WArgs) (ra : Nat → Req) (hi : IdsFit c wa ra) (t : Target σ) (st : σ)
  (evs : List SplitEv) (hcalm : Split.Calm c wa ra t st evs) (n : Nat)

include hc hi hcalm

/-- **C136, writes.** In every history in which the master or the slave is reset alone only while `idle()` is true or the master is
in reset already (both together at any time), every completed write was executed exactly, and writes were executed in the order in which they were
issued. Missing (and false, `C136_violated`): a reset of one end at another time. -/
theorem C136_writes_partial :
    let S := fun k => (Split.after c wa ra t st evs k).whole
    ∃ ex : Op → List BBeat → List ((ABeat × List WBeat) × List (Nat × Bool)),
      (∀ op got, (op, some got) ∈ (S n).w.m.results → WriteDone c wa t S n op got (ex op got)) ∧
      ∀ op1 got1 op2 got2, (op1, some got1) ∈ (S n).w.m.results → (op2, some got2) ∈ (S n).w.m.results →
        Before (S n).w.m op1 op2 → ∀ x1 ∈ (ex op1 got1).flatMap (·.2), ∀ x2 ∈ (ex op2 got2).flatMap (·.2), x1.1 < x2.1 := by
  obtain ⟨evs', he⟩ := Split.refine hc hi.w hi.r evs hcalm
  rw [show (fun k => (Split.after c wa ra t st evs k).whole) = Sys.at c wa ra t st evs' from funext he]
  exact C92_write_order c hc wa ra hi t st evs' n

/-- **C136, reads.** -/
theorem C136_reads_partial :
    let S := fun k => (Split.after c wa ra t st evs k).whole
    ∃ ex : Op → List RBeat → List Nat,
      (∀ op got, (op, some got) ∈ (S n).r.m.results → ReadDone c ra t S n op got (ex op got)) ∧
      ∀ op1 got1 op2 got2, (op1, some got1) ∈ (S n).r.m.results → (op2, some got2) ∈ (S n).r.m.results →
        Before (S n).r.m op1 op2 → ∀ x1 ∈ ex op1 got1, ∀ x2 ∈ ex op2 got2, x1 < x2 := by
  obtain ⟨evs', he⟩ := Split.refine hc hi.w hi.r evs hcalm
  rw [show (fun k => (Split.after c wa ra t st evs k).whole) = Sys.at c wa ra t st evs' from funext he]
  exact C92_read_order c hc wa ra hi t st evs' n

/-- **C136, nothing else.** In such a history the target only changes when a beat of a burst of an outstanding operation is
executed: an operation that a reset has flushed has no effect afterwards. -/
theorem C136_nothing_else_partial :
    let S := fun k => (Split.after c wa ra t st evs k).whole
    (S (n + 1)).mem = (S n).mem ∨
    (∃ op l b k w ok, Outstanding (S n).w.m op ∧ (wa op.key).sends c l ∧ b ∈ l ∧ b.2[k]? = some w ∧
      WroteBeat c t b.1 k w (S n).mem ok (S (n + 1)).mem) ∨
    (∃ op l a k r, Outstanding (S n).r.m op ∧ sendsR c (ra op.key) l ∧ (a, k) ∈ rBeats l ∧
      ReadBeat c t a k (S n).mem r (S (n + 1)).mem) := by
  obtain ⟨evs', he⟩ := Split.refine hc hi.w hi.r evs hcalm
  rw [show (fun k => (Split.after c wa ra t st evs k).whole) = Sys.at c wa ra t st evs' from funext he]
  exact C89_nothing_else c hc wa ra hi t st evs' n

/-- **C136, no failure.** In such a history no assertion of the master or the slave fails, and no coroutine dies. -/
theorem C136_no_failure_partial :
    let s := Split.after c wa ra t st evs n
    s.w.p.died = false ∧ s.w.slDied = false ∧ s.w.p.m.respFailed = false ∧ s.w.p.m.workFailed = false ∧
    s.r.p.died = false ∧ s.r.slDied = false ∧ s.r.p.m.respFailed = false ∧ s.r.p.m.workFailed = false := by
  intro s
  obtain ⟨evs', he⟩ := Split.refine hc hi.w hi.r evs hcalm
  obtain ⟨h1, h2, h3, h4, h5, h6⟩ := C89_no_failure c hc wa ra hi t st evs' n
  rw [← he n] at h1 h2 h3 h4 h5 h6
  have h1' : (s.w.p.died || s.w.slDied) = false := h1
  have h4' : (s.r.p.died || s.r.slDied) = false := h4
  simp only [Bool.or_eq_false_iff] at h1' h4'
  exact ⟨h1'.1, h1'.2, h2, h3, h4'.1, h4'.2, h5, h6⟩

/-- **C136, idle.** In such a history, `idle()` of the master means that neither end holds any transaction of its operations. -/
theorem C136_idle_partial :
    let s := Split.after c wa ra t st evs n
    (s.w.p.m.idle = true → s.w.p.todo = [] ∧ s.w.awSrc = [] ∧ s.w.p.aw = [] ∧ s.w.wSrc = [] ∧ s.w.p.w = [] ∧ s.w.bSrc = [] ∧
      s.w.p.b = [] ∧ s.w.p.sl = none) ∧
    (s.r.p.m.idle = true → s.r.p.todo = [] ∧ s.r.arSrc = [] ∧ s.r.p.ar = [] ∧ s.r.rSrc = [] ∧ s.r.p.r = [] ∧ s.r.p.sl = none) := by
  intro s
  obtain ⟨evs', he⟩ := Split.refine hc hi.w hi.r evs hcalm
  obtain ⟨w, hW, _⟩ := (Sys.traceW (wa := wa) (ra := ra) (t := t) (st := st) (evs := evs') hc hi.w).inv n
  obtain ⟨r, hR, _⟩ := (Sys.traceR (wa := wa) (ra := ra) (t := t) (st := st) (evs := evs') hc hi.r).inv n
  simp only [← he n] at hW hR
  refine ⟨fun hidle => ?_, fun hidle => ?_⟩
  · obtain ⟨h1, h2, h3, h4, h5⟩ := hW.rest_of hc (.inl hidle)
    have h2 : s.w.p.aw ++ s.w.awSrc = [] := h2
    have h3 : s.w.p.w ++ s.w.wSrc = [] := h3
    have h4 : s.w.p.b ++ s.w.bSrc = [] := h4
    simp only [List.append_eq_nil_iff] at h2 h3 h4
    exact ⟨h1, h2.2, h2.1, h3.2, h3.1, h4.2, h4.1, h5⟩
  · obtain ⟨h1, h2, h4, h5⟩ := hR.rest_of hc (.inl hidle)
    have h2 : s.r.p.ar ++ s.r.arSrc = [] := h2
    have h4 : s.r.p.r ++ s.r.rSrc = [] := h4
    simp only [List.append_eq_nil_iff] at h2 h4
    exact ⟨h1, h2.2, h2.1, h4.2, h4.1, h5⟩

end

/-! ## A master and a RAM of 16 bytes, 4 bytes wide -/

def spM : Memory := { size := 16, mem := .buf (List.replicate 16 0) }

/-- Write `0x11` four times to address 0, then `0x22` four times to address 4, then two words to address 8. -/
def spWa : Nat → WArgs
  | 0 => { req := { address := 0, length := 0 }, data := [0x11, 0x11, 0x11, 0x11] }
  | 1 => { req := { address := 4, length := 0 }, data := [0x22, 0x22, 0x22, 0x22] }
  | _ => { req := { address := 8, length := 0 }, data := [0x31, 0x32, 0x33, 0x34, 0x35, 0x36, 0x37, 0x38] }

/-- Read address 4, then address 0. -/
def spRa : Nat → Req
  | 0 => { address := 4, length := 4 }
  | _ => { address := 0, length := 4 }

/-- After the first `n` events. -/
def splitRam (evs : List SplitEv) (n : Nat) : Split Memory := Split.after exC spWa spRa ramTarget spM evs n

def spUp : List SplitEv := [.w (.resetBoth true), .w (.resetBoth false), .r (.resetBoth true), .r (.resetBoth false)]

/-- A whole write of one beat, and a whole read of one beat. -/
def spWrite : List SplitEv :=
  [.w (.master .write), .w (.master .take), .w .sendAW, .w .moveAW, .w .slaveAW, .w .sendW, .w (.master .start), .w .moveW, .w .slaveW,
   .w .slaveB, .w .moveB, .w (.master .deliver), .w (.master (.workTake 0)), .w (.master (.workGet 0)), .w (.master (.workDone 0))]

def spRead : List SplitEv :=
  [.r (.master .read), .r (.master .take), .r .sendAR, .r (.master .start), .r .moveAR, .r .slaveAR, .r .slaveR, .r .moveR,
   .r (.master .deliver), .r (.master (.workTake 0)), .r (.master (.workGet 0)), .r (.master (.workDone 0))]

def spW (k : Nat) : Op := { key := k, bursts := [0] }
def spR (k : Nat) : Op := { key := k, bursts := [0] }

/-- The master is reset alone after the AW transaction of the first write has reached the slave. The second write completes
with OKAY. -/
def spMaster : List SplitEv := spUp ++ spWrite.take 5 ++ [.w (.resetM true), .w (.resetM false)] ++ spWrite

/-- The slave is reset alone after the AW transaction of the first write has reached it; then the second write is issued and
completes with OKAY. -/
def spSlave : List SplitEv :=
  spUp ++ spWrite.take 5 ++ [.w (.resetS true), .w (.resetS false), .w .sendW, .w (.master .start), .w .moveW, .w (.master .write),
    .w (.master .take), .w .sendAW, .w .moveAW, .w .slaveAW, .w .slaveW, .w .slaveB, .w .moveB, .w .sendW, .w (.master .start), .w (.master .deliver),
    .w (.master (.workTake 0)), .w (.master (.workGet 0)), .w (.master (.workDone 0)), .w (.master (.workTake 1)), .w (.master (.workGet 1)),
    .w (.master (.workDone 1))]

/-- The second write is done first; then the master is reset alone after the request of a read of address 4 has reached the slave. The
later read of address 0 completes with OKAY. -/
def spReadM : List SplitEv :=
  spUp ++ spWrite ++ spWrite ++ spRead.take 6 ++ [.r (.resetM true), .r (.resetM false)] ++ spRead

/-- As `spMaster`, but the write after the reset has a burst of two beats. -/
def spDie : List SplitEv :=
  spUp ++ spWrite ++ spWrite.take 5 ++ [.w (.resetM true), .w (.resetM false), .w (.master .write), .w (.master .take), .w .sendAW,
    .w .moveAW, .w .sendW, .w .moveW, .w .slaveW]

/-- **C136, violated.** (1) Reset of the master alone: a later write to address 4 is reported complete with OKAY, but its data is at
address 0, and address 4 is unchanged. (2) Reset of the slave alone: a later write is reported complete with OKAY, but the data of the earlier one
is at its address. (3) Reset of the master alone: a later read of address 0 is reported complete with OKAY, and with the data at
address 4. (4) Reset of the master alone: an assertion in the slave fails because of a later write, and it stops working; the
data of that write is at the address of the flushed one. -/
theorem C136_violated :
    ((splitRam spMaster 26).w.p.m.results = [(spW 0, none), (spW 1, some [⟨0, .okay, 0⟩])] ∧
      (splitRam spMaster 26).mem.read 0 8 = .ok [0x22, 0x22, 0x22, 0x22, 0, 0, 0, 0]) ∧
    ((splitRam spSlave 31).w.p.m.results = [(spW 1, some [⟨1, .okay, 0⟩])] ∧
      (splitRam spSlave 31).mem.read 0 8 = .ok [0, 0, 0, 0, 0x11, 0x11, 0x11, 0x11]) ∧
    ((splitRam spReadM 54).r.p.m.results = [(spR 0, none), (spR 1, some [⟨0, 0x22222222, .okay, true, 0⟩])] ∧
      ∀ n, 20 ≤ n → n ≤ 54 → (splitRam spReadM n).mem.read 0 4 = .ok [0x11, 0x11, 0x11, 0x11]) ∧
    ((splitRam spDie 33).w.p.m.results = [(spW 0, some [⟨0, .okay, 0⟩]), (spW 1, none)] ∧ (splitRam spDie 33).w.slDied = true ∧
      (splitRam spDie 33).mem.read 0 16 = .ok [0x11, 0x11, 0x11, 0x11, 0x31, 0x32, 0x33, 0x34, 0, 0, 0, 0, 0, 0, 0, 0]) := by
  refine ⟨by decide +kernel, by decide +kernel, ⟨by decide +kernel, ?_⟩, by decide +kernel⟩
  have hall : ∀ n ∈ (List.range 55).drop 20, (splitRam spReadM n).mem.read 0 4 = .ok [0x11, 0x11, 0x11, 0x11] := by decide +kernel
  intro n h1 h2
  refine hall n ?_
  rw [List.mem_iff_getElem?]
  exact ⟨n - 20, by rw [List.getElem?_drop, List.getElem?_range (by omega)]; congr 1; omega⟩

/-- A history that satisfies the hypotheses: the two components are brought up one after the other; a write completes, then the master
alone and the slave alone are reset; a write is issued while the master is in reset and is flushed by resetting the master again; a write and a read complete, and
both components are reset while a read is outstanding. -/
def spCalm : List SplitEv :=
  [.w (.resetM true), .w (.resetS true), .w (.resetS false), .w (.resetM false), .r (.resetS true), .r (.resetM true), .r (.resetM false),
    .r (.resetS false)] ++ spWrite ++ [.w (.resetM true), .w (.resetS true), .w (.resetS false), .w (.master .write), .w (.resetS true),
    .w (.resetM true), .w (.resetS false), .w (.resetM false)] ++ spWrite.take 5 ++
    [.w .sendW, .w .moveW, .w .slaveW, .w .sendW, .w (.master .start), .w .moveW, .w .slaveW] ++ spWrite.drop 9 ++ spRead ++
    spRead.take 6 ++ [.r (.resetBoth true)]

def calmUpTo (evs : List SplitEv) : Bool :=
  (List.range evs.length).all fun n =>
    match evs[n]? with
    | some (.w e) => !e.alone || (splitRam evs n).w.p.m.idle || !(splitRam evs n).w.p.m.running
    | some (.r e) => !e.alone || (splitRam evs n).r.p.m.idle || !(splitRam evs n).r.p.m.running
    | none => true

theorem calm_of (evs : List SplitEv) (hc : calmUpTo evs = true) : Split.Calm exC spWa spRa ramTarget spM evs := by
  have key := fun n (hn : n < evs.length) => List.all_eq_true.mp hc n (List.mem_range.mpr hn)
  constructor
  · intro n e hn ha
    have := key n (List.getElem?_eq_some_iff.1 hn).1
    simp only [hn, ha, Bool.not_true, Bool.false_or, Bool.or_eq_true, Bool.not_eq_true'] at this
    exact this
  · intro n e hn ha
    have := key n (List.getElem?_eq_some_iff.1 hn).1
    simp only [hn, ha, Bool.not_true, Bool.false_or, Bool.or_eq_true, Bool.not_eq_true'] at this
    exact this

theorem spIds : IdsFit exC spWa spRa where
  w := fun k => by
    unfold spWa
    split <;> simp
  r := fun k => by
    unfold spRa
    split <;> simp

example : exC.Std ∧ IdsFit exC spWa spRa ∧ calmUpTo spCalm = true ∧ spCalm.length = 68 ∧
    (splitRam spCalm 68).w.p.m.results =
      [(spW 0, some [⟨0, .okay, 0⟩]), (spW 1, none), (spW 2, some [⟨0, .okay, 0⟩])] ∧
    (splitRam spCalm 68).r.p.m.results = [(spR 0, some [⟨0, 0, .okay, true, 0⟩]), (spR 1, none)] ∧
    (splitRam spCalm 23).w.p.m.idle = true ∧ calmUpTo spMaster = false ∧ calmUpTo spSlave = false ∧ calmUpTo spReadM = false ∧
    calmUpTo spDie = false :=
  ⟨exC_std, spIds, by decide +kernel⟩

end Verif.AxiSys
