import Verif.Proof.LiteClock
import Verif.Props.LiteSystem

/-!
# C98: an AXI-lite master connected to a slave, at clock-edge granularity

`Clk` is a master and a slave (or RAM) connected by five channels with `valid`/`ready` handshakes, pauses and bounded queues; the AW
and the W transaction of a write transfer travel on different channels. Here: its operations have the effects and results of
C75 - C77 and C96, for which the channels were FIFOs.
-/

namespace Verif.LiteOps

open Verif.AxiSys (Inner Chan blocked content)

variable {χ α β ρ χ' ρ' σ : Type}

section

variable (h : Halves χ α β) (f : χ → σ → ρ × σ) (g : χ' → σ → ρ' × σ) (m0 : σ)

theorem Clk.run_append (evs : List (ClkEv χ ρ χ' ρ')) (e : ClkEv χ ρ χ' ρ') :
    Clk.run h f g m0 (evs ++ [e]) = (Clk.run h f g m0 evs).step h f g e := by
  simp [Clk.run, List.foldl_append]

theorem Clk.sim (hl : ∀ x, h.join (h.aw x) (h.w x) = x) (evs : List (ClkEv χ ρ χ' ρ')) : ∀ s : Clk χ α β ρ χ' ρ' σ, ClkInv h s →
    ∃ evs' : List (DuoEv χ ρ χ' ρ'), evs'.length = evs.length ∧
      ∀ n, ClkInv h ((evs.take n).foldl (Clk.step h f g) s) ∧
        ((evs.take n).foldl (Clk.step h f g) s).view h = (evs'.take n).foldl (Duo.step f g) (s.view h) := by
  induction evs with
  | nil => exact fun s h => ⟨[], rfl, fun n => by simp only [List.take_nil, List.foldl_nil]; exact ⟨h, trivial⟩⟩
  | cons e evs ih =>
    intro s hs
    obtain ⟨h1, e', _, h2⟩ := hs.step hl (f := f) (g := g) e
    obtain ⟨evs', hl, he⟩ := ih _ h1
    refine ⟨e' :: evs', by simp [hl], fun n => ?_⟩
    cases n with
    | zero => simp only [List.take_zero, List.foldl_nil]; exact ⟨hs, trivial⟩
    | succ n =>
      simp only [List.take_succ_cons, List.foldl_cons]
      rw [← h2]
      exact he n

/-- **C98, refinement.** Whatever the clock-level system does, seen with its channels as lists of transactions, the system with FIFO
channels can do, event by event. In particular the slave gets every AW transaction together with its W transaction. -/
theorem C98_refines (hl : ∀ x, h.join (h.aw x) (h.w x) = x) (evs : List (ClkEv χ ρ χ' ρ')) :
    ∃ evs' : List (DuoEv χ ρ χ' ρ'), evs'.length = evs.length ∧
      ∀ n, (Clk.run h f g m0 (evs.take n)).view h = Duo.run f g { mem := m0 } (evs'.take n) := by
  obtain ⟨evs', hl, he⟩ := Clk.sim h f g hl evs _ (.init h m0)
  exact ⟨evs', hl, fun n => (he n).2⟩

variable {h} (hl : ∀ x, h.join (h.aw x) (h.w x) = x) (evs : List (ClkEv χ ρ χ' ρ'))

include hl

/-- The masters and the target are as in a history of the system with FIFO channels. -/
theorem Clk.refine : ∃ evs' : List (DuoEv χ ρ χ' ρ'), ∀ k,
    (Clk.run h f g m0 (evs.take k)).w.m = (Duo.run f g { mem := m0 } (evs'.take k)).w.m ∧
    (Clk.run h f g m0 (evs.take k)).r.m = (Duo.run f g { mem := m0 } (evs'.take k)).r.m ∧
    (Clk.run h f g m0 (evs.take k)).mem = (Duo.run f g { mem := m0 } (evs'.take k)).mem := by
  obtain ⟨evs', _, he⟩ := C98_refines h f g m0 hl evs
  refine ⟨evs', fun k => ?_⟩
  have := he k
  exact ⟨congrArg (fun s => s.w.m) this, congrArg (fun s => s.r.m) this, congrArg (fun s => s.mem) this⟩

/-- **C98, writes.** Every write that completed was executed exactly: each of its transfers once, while it was outstanding, with the
response that the master got; and writes were executed one after the other in the order in which they were issued. -/
theorem C98_writes (n : Nat) :
    let S := fun k => Clk.run h f g m0 (evs.take k)
    (S n).w.m.issued.Nodup → ∃ ex : Op χ → List ρ → List Nat,
      (∀ op got, (op, some got) ∈ (S n).w.m.results →
        Executed f (fun k => (S k).w.m) (fun k => (S k).mem) n op got (ex op got)) ∧
      ∀ op1 got1 op2 got2, (op1, some got1) ∈ (S n).w.m.results → (op2, some got2) ∈ (S n).w.m.results →
        Before (S n).w.m op1 op2 → ∀ t1 ∈ ex op1 got1, ∀ t2 ∈ ex op2 got2, t1 < t2 := by
  obtain ⟨evs', he⟩ := Clk.refine f g m0 hl evs
  simp only [he]
  exact C96_write_order f g m0 evs' n

/-- **C98, reads.** -/
theorem C98_reads (n : Nat) :
    let S := fun k => Clk.run h f g m0 (evs.take k)
    (S n).r.m.issued.Nodup → ∃ ex : Op χ' → List ρ' → List Nat,
      (∀ op got, (op, some got) ∈ (S n).r.m.results →
        Executed g (fun k => (S k).r.m) (fun k => (S k).mem) n op got (ex op got)) ∧
      ∀ op1 got1 op2 got2, (op1, some got1) ∈ (S n).r.m.results → (op2, some got2) ∈ (S n).r.m.results →
        Before (S n).r.m op1 op2 → ∀ t1 ∈ ex op1 got1, ∀ t2 ∈ ex op2 got2, t1 < t2 := by
  obtain ⟨evs', he⟩ := Clk.refine f g m0 hl evs
  simp only [he]
  exact C96_read_order f g m0 evs' n

/-- **C98, nothing else.** The target only changes when a transfer of an outstanding operation is served. -/
theorem C98_nothing_else (n : Nat) :
    let S := fun k => Clk.run h f g m0 (evs.take k)
    (S n).w.m.issued.Nodup → (S n).r.m.issued.Nodup →
      (S (n + 1)).mem = (S n).mem ∨
      (∃ op x, Outstanding (S n).w.m op ∧ x ∈ op.xs ∧ (S (n + 1)).mem = (f x (S n).mem).2) ∨
      (∃ op x, Outstanding (S n).r.m op ∧ x ∈ op.xs ∧ (S (n + 1)).mem = (g x (S n).mem).2) := by
  obtain ⟨evs', he⟩ := Clk.refine f g m0 hl evs
  simp only [he]
  exact C75_nothing_else f g m0 evs' n

end

/-! ## A RAM -/

section ram

open Word

theorem xferHalves_join (x : WXfer) : xferHalves.join (xferHalves.aw x) (xferHalves.w x) = x := rfl

/-- An `AxiLiteMaster` connected to an `AxiLiteRam`, with five channels. -/
abbrev RamClk := Clk WXfer (Nat × Int) (Nat × Nat) (Py Resp) RXfer (Nat × Resp) Memory
abbrev RamClkEv := ClkEv WXfer (Py Resp) RXfer (Nat × Resp)

/-- The system after the first `n` events of a history that begins with a RAM `m0`. -/
def clkRam (c : Cfg) (m0 : Memory) (evs : List RamClkEv) (n : Nat) : RamClk :=
  Clk.run xferHalves (slaveWrite ramTarget c.lanes true) (slaveRead ramTarget c.lanes) m0 (evs.take n)

/-- The hypotheses on a history: all operations come from accepted calls, with spans inside the RAM, and no two calls are the
same one. -/
structure ClkCalls (c : Cfg) (m0 : Memory) (evs : List RamClkEv) (wc : Nat → WCall) (rc : Nat → RCall) (n : Nat) : Prop where
  lanes : 0 < c.lanes
  wf : m0.WF
  size : 0 < m0.size
  w : ∀ op ∈ (clkRam c m0 evs n).w.m.issued, (wc op.key).makes c op ∧
    (wc op.key).address.toNat + (wc op.key).data.length ≤ m0.size
  r : ∀ op ∈ (clkRam c m0 evs n).r.m.issued, (rc op.key).makes c op ∧
    (rc op.key).address.toNat + (rc op.key).length.toNat ≤ m0.size
  wNodup : (clkRam c m0 evs n).w.m.issued.Nodup
  rNodup : (clkRam c m0 evs n).r.m.issued.Nodup

variable {c : Cfg} {m0 : Memory} {evs : List RamClkEv} {wc : Nat → WCall} {rc : Nat → RCall} {n : Nat}

theorem ClkCalls.refine (H : ClkCalls c m0 evs wc rc n) : ∃ evs' : List RamEv, Calls c m0 evs' wc rc n ∧
    ∀ k, (clkRam c m0 evs k).w.m = (ramAt c m0 evs' k).w.m ∧ (clkRam c m0 evs k).r.m = (ramAt c m0 evs' k).r.m ∧
      (clkRam c m0 evs k).mem = (ramAt c m0 evs' k).mem := by
  obtain ⟨evs', he⟩ := Clk.refine (slaveWrite ramTarget c.lanes true) (slaveRead ramTarget c.lanes) m0 xferHalves_join evs
  have key : ∀ k, (clkRam c m0 evs k).w.m = (ramAt c m0 evs' k).w.m ∧ (clkRam c m0 evs k).r.m = (ramAt c m0 evs' k).r.m ∧
      (clkRam c m0 evs k).mem = (ramAt c m0 evs' k).mem := he
  refine ⟨evs', ⟨H.lanes, H.wf, H.size, ?_, ?_, ?_, ?_⟩, key⟩
  · rw [← (key n).1]; exact H.w
  · rw [← (key n).2.1]; exact H.r
  · rw [← (key n).1]; exact H.wNodup
  · rw [← (key n).2.1]; exact H.rNodup

/-- **C98, RAM writes** (see C76): the caller gets OKAY, and every byte of the data was in the RAM at its address right after an
instant at which the operation was outstanding, the bytes of a word at one instant and the words in ascending order. -/
theorem C98_ram_write (H : ClkCalls c m0 evs wc rc n) (op : Op WXfer) (got : List (Py Resp))
    (hr : (op, some got) ∈ (clkRam c m0 evs n).w.m.results) :
    let A := (wc op.key).address.toNat
    let d := (wc op.key).data
    (∀ r ∈ got, r = .ok .okay) ∧ ∃ t : Nat → Nat, ∀ i < d.length,
      t i < n ∧ Outstanding (clkRam c m0 evs (t i)).w.m op ∧
      some ((clkRam c m0 evs (t i + 1)).mem.contents (A + i)) = d[i]? ∧
      ∀ j < d.length, (t i < t j ↔ (A + i) / c.lanes < (A + j) / c.lanes) := by
  obtain ⟨evs', H', he⟩ := H.refine
  simp only [he] at hr ⊢
  exact C76_write H' op got hr

/-- **C98, RAM reads** (see C76). -/
theorem C98_ram_read (H : ClkCalls c m0 evs wc rc n) (op : Op RXfer) (got : List (Nat × Resp))
    (hr : (op, some got) ∈ (clkRam c m0 evs n).r.m.results) :
    let A := (rc op.key).address.toNat
    let N := (rc op.key).length.toNat
    ∃ data : Bytes, (rc op.key).returns c got data .okay ∧ data.length = N ∧ ∃ t : Nat → Nat, ∀ i < N,
      t i < n ∧ Outstanding (clkRam c m0 evs (t i)).r.m op ∧
      data[i]? = some ((clkRam c m0 evs (t i)).mem.contents (A + i)) ∧
      ∀ j < N, (t i < t j ↔ (A + i) / c.lanes < (A + j) / c.lanes) := by
  obtain ⟨evs', H', he⟩ := H.refine
  simp only [he] at hr ⊢
  exact C76_read H' op got hr

/-- **C98, reads return what was written** (see C77). -/
theorem C98_read_your_writes (H : ClkCalls c m0 evs wc rc n)
    (wop : Op WXfer) (wgot : List (Py Resp)) (k : Nat) (hk : k ≤ n)
    (hw : (wop, some wgot) ∈ (clkRam c m0 evs k).w.m.results)
    (rop : Op RXfer) (rgot : List (Nat × Resp)) (hlate : rop ∉ (clkRam c m0 evs k).r.m.issued)
    (hr : (rop, some rgot) ∈ (clkRam c m0 evs n).r.m.results) (b : Nat) (hb : (wc wop.key).covers b)
    (hb3 : (rc rop.key).address.toNat ≤ b) (hb4 : b < (rc rop.key).address.toNat + (rc rop.key).length.toNat)
    (hlast : ∀ op ∈ (clkRam c m0 evs n).w.m.issued, (wc op.key).covers b →
      op = wop ∨ Before (clkRam c m0 evs n).w.m op wop) :
    ∃ data, (rc rop.key).returns c rgot data .okay ∧
      data[b - (rc rop.key).address.toNat]? = (wc wop.key).data[b - (wc wop.key).address.toNat]? := by
  obtain ⟨evs', H', he⟩ := H.refine
  simp only [he] at hw hlate hr hlast
  exact C77_read_your_writes H' wop wgot k hk hw rop rgot hlate hr b hb hb3 hb4 hlast

/-- **C98, contents** (see C96): when the writes covering a byte have all completed, the RAM contains there what performing all issued
writes one after the other, in the order of the calls, leaves. -/
theorem C98_sequential (H : ClkCalls c m0 evs wc rc n) (b : Nat)
    (hdone : ∀ op ∈ (clkRam c m0 evs n).w.m.issued, (wc op.key).covers b →
      ∃ got, (op, some got) ∈ (clkRam c m0 evs n).w.m.results) :
    (clkRam c m0 evs n).mem.contents b = ((clkRam c m0 evs n).w.m.issued.foldl
      (fun f op => f.store (wc op.key).address.toNat (wc op.key).data) m0.contents) b := by
  obtain ⟨evs', H', he⟩ := H.refine
  simp only [he] at hdone ⊢
  exact C96_sequential H' b hdone

/-! A concrete history: four transfers of three writes, issued while the W channel is paused by the slave, so that its source fills
up and blocks the master, while AW transactions have arrived; then the pause ends; the read is issued when the writes have completed. -/

def exChans : List Chan := [.aw, .w, .b, .ar, .r]
def exPieces : List RamClkEv :=
  [.w (.master .take), .w .sendAW, .w .sendW, .w .slaveAW, .w .slaveW, .w .slaveW, .w .slaveW, .w (.master .respTake), .w .deliver,
   .w (.master .respGet), .w (.master .respDone), .r (.master .take), .r .sendAR, .r .slaveR, .r .slaveR, .r .slaveR, .r (.master .respTake), .r .deliver,
   .r (.master .respGet), .r (.master .respDone)]
/-- One clock cycle. -/
def exCycle : List RamClkEv :=
  exChans.map (.chan · .srcWake) ++ exChans.map (.chan · .snkWake) ++ [.commit] ++ exChans.map (.chan · .snkWake) ++
  [.commit, .tick] ++ exChans.map (.chan · .srcRun) ++ exChans.map (.chan · .snkRun) ++ exPieces ++
  exChans.map (.chan · .resume) ++ exPieces
def exCycles (k : Nat) : List RamClkEv := (List.replicate k exCycle).flatten
def exClkW : Nat → WCall
  | 0 => { address := 2, data := [1, 2, 3, 4] }
  | 1 => { address := 4, data := [5, 6, 7, 8] }
  | _ => { address := 9, data := [9] }
def exW2 : Op WXfer := ⟨2, [⟨9, 2, 0x0900, 2⟩]⟩
def exStall : List RamClkEv :=
  [.w (.reset false), .r (.reset false), .w (.master (.write exW0)), .w (.master (.write exW1)), .w (.master (.write exW2)),
   .chan .w (.snkPause true)] ++ exCycles 4
def exClk1 : List RamClkEv := exStall ++ .chan .w (.snkPause false) :: exCycles 8
def exClk : List RamClkEv := exClk1 ++ .r (.master (.write exR0)) :: exCycles 6

/-- After four cycles the master is blocked: four W transactions are on their way, and the slave has an AW transaction. -/
example : blocked (clkRam exC exM exClk exStall.length).w.w = true ∧ (clkRam exC exM exClk exStall.length).w.sl = some (2, 2) ∧
    content (clkRam exC exM exClk exStall.length).w.aw = [(4, 2), (4, 2), (9, 2)] ∧
    (content (clkRam exC exM exClk exStall.length).w.w).length = 4 := by decide +kernel

theorem exClkWrites : (clkRam exC exM exClk exClk1.length).w.m.results =
      [(exW0, some [.ok .okay, .ok .okay]), (exW1, some [.ok .okay]), (exW2, some [.ok .okay])] ∧
    (clkRam exC exM exClk exClk1.length).r.m.issued = [] := by decide +kernel

theorem exClkIssued : (clkRam exC exM exClk exClk.length).w.m.issued = [exW0, exW1, exW2] ∧
    (clkRam exC exM exClk exClk.length).r.m.issued = [exR0] := by decide +kernel

theorem exClkResults : (clkRam exC exM exClk exClk.length).w.m.results =
      [(exW0, some [.ok .okay, .ok .okay]), (exW1, some [.ok .okay]), (exW2, some [.ok .okay])] ∧
    (clkRam exC exM exClk exClk.length).r.m.results = [(exR0, some [(0x02010707, .okay), (0x08070605, .okay)])] := by
  decide +kernel

theorem exClkCalls : ClkCalls exC exM exClk exClkW exR exClk.length := by
  obtain ⟨hW, hR⟩ := exClkIssued
  refine ⟨by decide, ⟨rfl, trivial⟩, by decide, ?_, ?_, ?_, ?_⟩
  · rw [hW]
    intro op hop
    rw [List.mem_cons, List.mem_cons, List.mem_singleton] at hop
    rcases hop with rfl | rfl | rfl
    · exact ⟨⟨{ address := 2, length := 4, prot := 2 }, (C36_accept_iff ..).2 ⟨rfl, by decide, by decide, by decide,
        by simp [exClkW, exW0], rfl⟩, by decide +kernel⟩, by decide⟩
    · exact ⟨⟨{ address := 4, length := 4, prot := 2 }, (C36_accept_iff ..).2 ⟨rfl, by decide, by decide, by decide,
        by simp [exClkW, exW1], rfl⟩, by decide +kernel⟩, by decide⟩
    · exact ⟨⟨{ address := 9, length := 1, prot := 2 }, (C36_accept_iff ..).2 ⟨rfl, by decide, by decide, by decide,
        by simp [exClkW, exW2], rfl⟩, by decide +kernel⟩, by decide⟩
  · rw [hR, ← show (ramAt exC exM exEvs 30).r.m.issued = [exR0] by decide +kernel]
    exact exCalls.r
  · rw [hW]; decide
  · rw [hR]; decide

/-- C98 applies to all bytes; bytes 4 and 5 were written twice. -/
example (b : Nat) : (clkRam exC exM exClk exClk.length).mem.contents b = ([exW0, exW1, exW2].foldl
      (fun f op => f.store (exClkW op.key).address.toNat (exClkW op.key).data) exM.contents) b := by
  rw [← exClkIssued.1]
  refine C98_sequential exClkCalls b ?_
  rw [exClkIssued.1, exClkResults.1]
  intro op hop _
  rw [List.mem_cons, List.mem_cons, List.mem_singleton] at hop
  rcases hop with rfl | rfl | rfl
  · exact ⟨[.ok .okay, .ok .okay], by simp⟩
  · exact ⟨[.ok .okay], by simp⟩
  · exact ⟨[.ok .okay], by simp⟩

/-- The read returns byte 4 of the second write. -/
example : ∃ data, (exR 0).returns exC [(0x02010707, .okay), (0x08070605, .okay)] data .okay ∧ data[3]? = some 5 := by
  obtain ⟨data, d1, d2⟩ := C98_read_your_writes exClkCalls exW1 [.ok .okay] exClk1.length (by decide +kernel)
    (by rw [exClkWrites.1]; simp) exR0 _ (by rw [exClkWrites.2]; simp) (by rw [exClkResults.2]; exact List.mem_singleton.2 rfl) 4
    ⟨by decide, by decide⟩ (by decide) (by decide) (by
      unfold Before
      rw [exClkIssued.1]
      intro op hop hc
      rw [List.mem_cons, List.mem_cons, List.mem_singleton] at hop
      rcases hop with rfl | rfl | rfl
      · exact .inr (by decide)
      · exact .inl rfl
      · exact absurd hc.1 (by decide))
  exact ⟨data, d1, d2⟩

end ram

end Verif.LiteOps
