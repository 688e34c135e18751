import Verif.Proof.LiteSplit
import Verif.Props.LiteSystem

/-!
# C132: a reset of only one end of an AXI-lite connection
-/

namespace Verif.LiteOps

open Verif.Word

variable {χ α β ρ χ' ρ' σ : Type}

section

variable (h : Halves χ α β) (hl : ∀ x, h.join (h.aw x) (h.w x) = x) (f : χ → σ → ρ × σ) (g : χ' → σ → ρ' × σ) (m0 : σ)
  (evs : List (SplitEv χ ρ χ' ρ')) (n : Nat)

include hl

/-- **C132, writes.** In every history in which the master or the slave is reset alone only while `idle()` of the master is true (both
together at any time), every completed write was executed by its own transfers, in order, while it was outstanding, and got the
responses to them. Missing (and false, `C132_violated`): a reset of one end at another time. -/
theorem C132_writes_partial (hw : Split.CalmW h f g m0 evs) :
    let S := Split.after h f g m0 evs
    (S n).w.m.issued.Nodup → ∀ op got, (op, some got) ∈ (S n).w.m.results →
      ∃ ts, Executed f (fun k => (S k).w.m) (fun k => (S k).mem) n op got ts :=
  fun hk op got hr => by
    obtain ⟨h1, ts, h2, h3, h4⟩ := (Split.traceW h f g m0 evs hl hw).served n hk op got hr
    exact ⟨ts, h1, h2, h3, fun i x r t a b d => ⟨(h4 i x r t a b d).1, (h4 i x r t a b d).2.1.1, (h4 i x r t a b d).2.2⟩⟩

omit hl in
/-- **C132, reads.** -/
theorem C132_reads_partial (hc : Split.CalmR h f g m0 evs) :
    let S := Split.after h f g m0 evs
    (S n).r.m.issued.Nodup → ∀ op got, (op, some got) ∈ (S n).r.m.results →
      ∃ ts, Executed g (fun k => (S k).r.m) (fun k => (S k).mem) n op got ts :=
  fun hk op got hr => by
    obtain ⟨h1, ts, h2, h3, h4⟩ := (Split.traceR h f g m0 evs hc).served n hk op got hr
    exact ⟨ts, h1, h2, h3, fun i x r t a b d => ⟨(h4 i x r t a b d).1, (h4 i x r t a b d).2.1.1, (h4 i x r t a b d).2.2⟩⟩

/-- **C132, nothing else.** In such a history the target only changes by transfers of outstanding operations: an operation that a
reset has flushed has no effect afterwards. -/
theorem C132_nothing_else_partial (hw : Split.CalmW h f g m0 evs) (hc : Split.CalmR h f g m0 evs) :
    let S := Split.after h f g m0 evs
    (S n).w.m.issued.Nodup → (S n).r.m.issued.Nodup →
      (S (n + 1)).mem = (S n).mem ∨
      (∃ op x, Outstanding (S n).w.m op ∧ x ∈ op.xs ∧ (S (n + 1)).mem = (f x (S n).mem).2) ∨
      (∃ op x, Outstanding (S n).r.m op ∧ x ∈ op.xs ∧ (S (n + 1)).mem = (g x (S n).mem).2) := by
  intro S h1 h2
  rcases Split.mem_step h f g m0 evs hl hw hc n with h' | ⟨op, hp, x, hx, h'⟩ | ⟨op, hp, x, hx, h'⟩
  · exact .inl h'
  · exact .inr (.inl ⟨op, x, outstanding_of_pend ((Split.traceW h f g m0 evs hl hw).seq.inv n) h1 hp, hx, h'⟩)
  · exact .inr (.inr ⟨op, x, outstanding_of_pend ((Split.traceR h f g m0 evs hc).seq.inv n) h2 hp, hx, h'⟩)

/-- **C132, idle.** In such a history, `idle()` of the master means that neither end holds any transaction of its operations. -/
theorem C132_idle_partial (hw : Split.CalmW h f g m0 evs) (hc : Split.CalmR h f g m0 evs) :
    let s := Split.after h f g m0 evs n
    (s.w.m.idle = true → s.w.sl = none ∧ s.w.awSrc = [] ∧ s.w.awSnk = [] ∧ s.w.wSrc = [] ∧ s.w.wSnk = [] ∧ s.w.bSrc = []) ∧
    (s.r.m.idle = true → s.r.arSrc = [] ∧ s.r.arSnk = [] ∧ s.r.rSrc = []) := by
  constructor
  · intro hi
    obtain ⟨_, h2, h3, h4, h5, h6, h7⟩ := (Split.invW h f g m0 evs hl hw n).quiet hl hi
    exact ⟨h2, h4, h3, h6, h5, h7⟩
  · intro hi
    obtain ⟨_, h2, h3⟩ := (Split.invR h f g m0 evs hc n).idle hi
    obtain ⟨h4, h5⟩ := List.append_eq_nil_iff.mp h2
    exact ⟨h5, h4, h3⟩

end

/-! ## A master and a RAM of 8 bytes, 4 bytes wide -/

abbrev SplitRamEv := SplitEv WXfer (Py Resp) RXfer (Nat × Resp)

/-- After the first `n` events. -/
def splitRam (evs : List SplitRamEv) (n : Nat) : Split WXfer (Nat × Int) (Nat × Nat) (Py Resp) RXfer (Nat × Resp) Memory :=
  Split.after xferHalves (slaveWrite ramTarget 4 true) (slaveRead ramTarget 4) ⟨8, .buf (List.replicate 8 0)⟩ evs n

/-- Write 0x11111111 to address 0; write 0x22222222 to address 4. -/
def spW0 : Op WXfer := ⟨0, [{ addr := 0, prot := 2, data := 0x11111111, strb := 0xf }]⟩
def spW1 : Op WXfer := ⟨1, [{ addr := 4, prot := 2, data := 0x22222222, strb := 0xf }]⟩
/-- Read address 0; read address 4. -/
def spR0 : Op RXfer := ⟨0, [{ addr := 0, prot := 2 }]⟩
def spR1 : Op RXfer := ⟨1, [{ addr := 4, prot := 2 }]⟩

def spUp : List SplitRamEv := [.w (.resetBoth true), .w (.resetBoth false), .r (.resetBoth true), .r (.resetBoth false)]

/-- A whole write, and a whole read. -/
def spWrite (op : Op WXfer) : List SplitRamEv :=
  [.w (.master (.write op)), .w (.master .take), .w (.master .respTake), .w .sendAW, .w .moveAW, .w .slaveAW, .w .sendW, .w .moveW,
   .w .slaveW, .w .moveB, .w (.master .respGet), .w (.master .respDone)]

def spRead (op : Op RXfer) : List SplitRamEv :=
  [.r (.master (.write op)), .r (.master .take), .r (.master .respTake), .r .sendAR, .r .moveAR, .r .slaveR, .r .moveR,
   .r (.master .respGet), .r (.master .respDone)]

/-- The master is reset alone after the AW transaction of the first write has reached the slave. The second write completes
with OKAY. -/
def spMaster : List SplitRamEv :=
  spUp ++ (spWrite spW0).take 6 ++ [.w (.resetM true), .w (.resetM false)] ++ spWrite spW1

/-- The slave is reset alone after the AW transaction of the first write has reached it; then the second write is issued. -/
def spSlave : List SplitRamEv :=
  spUp ++ (spWrite spW0).take 6 ++ [.w (.resetS true), .w (.resetS false), .w .sendW, .w .moveW, .w (.master (.write spW1)),
    .w (.master .take), .w .sendAW, .w .moveAW, .w .slaveAW, .w .slaveW, .w .moveB, .w (.master .respGet), .w (.master .respDone)]

/-- Address 4 is written first; then the master is reset alone after the request of a read of address 4 has reached the
slave. The later read of address 0 completes with OKAY. -/
def spReadM : List SplitRamEv :=
  spUp ++ spWrite spW1 ++ (spRead spR1).take 5 ++ [.r (.resetM true), .r (.resetM false)] ++ spRead spR0

/-- **C132, violated.** (1) Reset of the master alone: a later write to address 4 is reported complete with OKAY, but its data is at address 0,
and address 4 is unchanged. (2) Reset of the slave alone: the data of the first write is at the address of the second, and the
first write is reported complete with OKAY although its address is unchanged. (3) Reset of the master alone: a later read of address
0 is reported complete with OKAY, and with the data at address 4. -/
theorem C132_violated :
    ((splitRam spMaster 24).w.m.results = [(spW0, none), (spW0, none), (spW1, some [.ok .okay])] ∧
      (splitRam spMaster 24).mem.read 0 8 = .ok [0x22, 0x22, 0x22, 0x22, 0, 0, 0, 0]) ∧
    ((splitRam spSlave 23).w.m.results = [(spW0, some [.ok .okay])] ∧
      (splitRam spSlave 23).mem.read 0 8 = .ok [0, 0, 0, 0, 0x11, 0x11, 0x11, 0x11]) ∧
    ((splitRam spReadM 32).r.m.results = [(spR1, none), (spR0, some [(0x22222222, .okay)])] ∧
      ∀ n ≤ 32, ∃ d, (splitRam spReadM n).mem.read 0 4 = .ok d ∧ d = [0, 0, 0, 0]) := by
  refine ⟨by decide +kernel, by decide +kernel, by decide +kernel, ?_⟩
  have hall : ∀ n ∈ List.range 33, (splitRam spReadM n).mem.read 0 4 = .ok [0, 0, 0, 0] := by decide +kernel
  exact fun n hn => ⟨_, hall n (List.mem_range.mpr (by omega)), rfl⟩

/-- A history that satisfies the hypotheses: a write completes, then the master alone and later the slave alone are reset, then the other
write and a read complete, and both are reset while a read is outstanding. -/
def spCalm : List SplitRamEv :=
  spUp ++ spWrite spW0 ++ [.w (.resetM true), .w (.resetM false), .w (.resetS true), .w (.resetS false), .r (.resetS true)] ++
    spWrite spW1 ++ [.r (.resetS false)] ++ spRead spR1 ++ (spRead spR0).take 5 ++ [.r (.resetBoth true)]

def calmUpTo (evs : List SplitRamEv) : Bool :=
  (List.range evs.length).all fun n =>
    match evs[n]? with
    | some (.w e) => !e.alone || (splitRam evs n).w.m.idle
    | some (.r e) => !e.alone || (splitRam evs n).r.m.idle
    | none => true

theorem calm_of (evs : List SplitRamEv) (hc : calmUpTo evs = true) :
    Split.CalmW xferHalves (slaveWrite ramTarget 4 true) (slaveRead ramTarget 4) ⟨8, .buf (List.replicate 8 0)⟩ evs ∧
    Split.CalmR xferHalves (slaveWrite ramTarget 4 true) (slaveRead ramTarget 4) ⟨8, .buf (List.replicate 8 0)⟩ evs := by
  have key := fun n (hn : n < evs.length) => List.all_eq_true.mp hc n (List.mem_range.mpr hn)
  constructor
  · intro n e hn ha
    have := key n (List.getElem?_eq_some_iff.1 hn).1
    simp only [hn, ha, Bool.not_true, Bool.false_or] at this
    exact this
  · intro n e hn ha
    have := key n (List.getElem?_eq_some_iff.1 hn).1
    simp only [hn, ha, Bool.not_true, Bool.false_or] at this
    exact this

example : calmUpTo spCalm = true ∧ (splitRam spCalm 50).w.m.issued.Nodup ∧ (splitRam spCalm 50).r.m.issued.Nodup ∧
    (splitRam spCalm 50).w.m.results = [(spW0, some [.ok .okay]), (spW1, some [.ok .okay])] ∧
    (splitRam spCalm 50).r.m.results = [(spR1, some [(0x22222222, .okay)]), (spR0, none)] ∧
    (splitRam spCalm 16).w.m.idle = true ∧ calmUpTo spMaster = false ∧ calmUpTo spSlave = false ∧ calmUpTo spReadM = false := by
  decide +kernel

end Verif.LiteOps
