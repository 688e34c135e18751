import Verif.Proof.AxiSystem
import Verif.Props.AxiSlave

/-!
# C89 - C91: an AXI master connected to a slave, with concurrent operations

Reads and writes are issued at any time with any IDs, burst types and sizes; they are sent, served and answered in any
interleaving; resets may happen at any time.
-/

namespace Verif.AxiSys

open Verif.Axi Verif.AxiOps Verif.AxiOps.Master

variable {σ : Type}

/-- The requested IDs can be driven on the ID signals. (An ID equal to the number of IDs is accepted by the master, see C29,
but cannot be driven.) -/
structure IdsFit (c : Cfg) (wa : Nat → WArgs) (ra : Nat → Req) : Prop where
  w : ∀ k, (wa k).req.id ≠ some (2 ^ c.idWidth)
  r : ∀ k, (ra k).id ≠ some (2 ^ c.idWidth)

theorem framed_beats (gs : List RGrp) : ∀ (rs : List RBeat),
    rs.map (·.last) = (gs.flatMap RGrp.atoms).map (fun x => decide (x.2 = x.1.a.len)) →
      FramedR (gs.map (·.a.beats)) rs := by
  induction gs with
  | nil =>
    intro rs h
    simp only [List.flatMap_nil, List.map_nil, List.map_eq_nil_iff] at h
    simpa [FramedR] using h
  | cons g gs ih =>
    intro rs h
    simp only [List.flatMap_cons, List.map_append] at h
    simp only [List.map_cons, FramedR]
    have hl : (g.atoms.map fun x => decide (x.2 = x.1.a.len)).length = g.a.beats := by
      rw [List.length_map, RGrp.atoms_length]
    constructor
    · have e : lastFlags g.a.beats = g.atoms.map fun x => decide (x.2 = x.1.a.len) := by
        apply List.ext_getElem (by simp [RGrp.atoms_length, lastFlags, ABeat.beats])
        intro i h1 h2
        rw [lastFlags_getElem]
        simp only [RGrp.atoms, List.map_map, List.getElem_map, List.getElem_range, Function.comp_apply, decide_eq_decide]
        simp only [ABeat.beats]
        omega
      rw [e, List.map_take, h, List.take_left' hl]
    · refine ih _ ?_
      rw [List.map_drop, h, ← hl, List.drop_left]

/-- A completed write was executed exactly, whoever else accesses the target. -/
theorem WTrace.write_done {c : Cfg} {wa : Nat → WArgs} {t : Target σ} {p : Nat → WPort} {μ : Nat → σ} (hT : WTrace c wa t p μ)
    (n : Nat) :
    let S := fun k => ({ w := p k, r := {}, mem := μ k } : Sys σ)
    ∀ op got, (op, some got) ∈ (p n).m.results → ∃ bs, WriteDone c wa t S n op got bs ∧
      ∀ τ ∈ (bs.flatMap (·.2)).map (·.1), τ < n ∧ ∃ g, (wOpen c wa (p τ)).head? = some g ∧ g.op = op := by
  intro S op got hr
  have hc := hT.std
  obtain ⟨j, hj, u, hd⟩ := hT.seq.result hr
  obtain ⟨hmk, htk, ds, h1, h2, h3, h4, h5⟩ := hT.done hd
  have hok : ∀ d ∈ ds, d.1.OK c := fun d hdm => wGroups_ok hc (x := (u, op)) hmk (h1 ▸ List.mem_map_of_mem hdm)
  refine ⟨ds.map fun d => ((d.1.a, d.1.ws), d.2), ⟨?_, ?_, ?_, ?_, ?_⟩, ?_⟩
  · have := wGroups_sends hc hmk (hT.minv j) htk
    rw [← h1, List.map_map] at this
    rw [List.map_map]
    exact this
  · rw [← h2, List.map_map]
    refine List.map_congr_left ?_
    intro d hdm
    simp only [wRsp, Function.comp_apply, (hok d hdm).id]
    rfl
  · obtain ⟨cmd, ha, g1, _, g2, _, _, g3⟩ := wMade hc hmk
    refine ⟨cmd, 0, _, _, _, _, got.map (·.user), ha, processWrite_spec c cmd _ _ g1 g2 0, ?_⟩
    have := C30_write ((segs c cmd 0).map (·.2)) got [] (by
      rw [List.length_map, ← g3, ← h2, List.length_map]
      have e1 := congrArg List.length h1
      have e2 := congrArg List.length (wGroups_lab hc (t := u) hmk)
      simp only [List.length_map, List.length_range] at e1 e2
      omega)
    rw [List.append_nil] at this
    exact this
  · rw [List.flatMap_map]; exact h3
  · intro b hb
    obtain ⟨d, hdm, rfl⟩ := List.mem_map.1 hb
    refine ⟨h4 d hdm, ?_⟩
    intro k τ ok w hk hw
    obtain ⟨g1, g2, wb, g3, g4⟩ := h5 d hdm k τ ok hk
    simp only at hw
    rw [hw] at g3
    cases g3
    exact ⟨Nat.lt_of_lt_of_le g1 hj, (hT.minv τ).outstanding g2.2, g4⟩
  · intro τ hτ
    rw [List.flatMap_map] at hτ
    obtain ⟨⟨τ', ok⟩, hx, rfl⟩ := List.mem_map.1 hτ
    obtain ⟨d, hdm, hx⟩ := List.mem_flatMap.1 hx
    obtain ⟨k, hk, he⟩ := List.getElem_of_mem hx
    obtain ⟨g1, g2, _⟩ := h5 d hdm k τ' ok (by rw [List.getElem?_eq_getElem hk]; exact congrArg some he)
    refine ⟨Nat.lt_of_lt_of_le g1 hj, d.1, g2.1, ?_⟩
    have := wGroups_op (h1 ▸ List.mem_map_of_mem hdm : d.1 ∈ wGroups c wa (u, op))
    simp only [Prod.mk.injEq] at this
    exact this.2

/-- A completed read was executed exactly, whoever else accesses the target. -/
theorem RTrace.read_done {c : Cfg} {ra : Nat → Req} {t : Target σ} {p : Nat → RPort} {μ : Nat → σ} (hT : RTrace c ra t p μ)
    (n : Nat) :
    let S := fun k => ({ w := {}, r := p k, mem := μ k } : Sys σ)
    ∀ op got, (op, some got) ∈ (p n).m.results → ∃ τs, ReadDone c ra t S n op got τs ∧
      ∀ τ ∈ τs, τ < n ∧ ∃ g, (rOpen c ra (p τ)).head? = some g ∧ g.op = op := by
  intro S op got hr
  have hc := hT.std
  obtain ⟨j, hj, u, hd⟩ := hT.seq.result hr
  obtain ⟨hmk, htk, ds, h1, h2, h3, h4⟩ := hT.done hd
  have hb : ds.map (fun d => (d.at_.1.a, d.at_.2)) = rBeats ((rGroups c ra (u, op)).map (·.a)) := by
    have := congrArg (List.map fun x : RGrp × Nat => (x.1.a, x.2)) h1
    rw [List.map_map] at this
    rw [rBeats, List.flatMap_map]
    refine Eq.trans this ?_
    rw [List.map_flatMap]
    congr 1
    funext g
    simp only [RGrp.atoms, List.map_map]
    rfl
  have hs := rGroups_sends hc hmk (hT.minv j) htk
  refine ⟨ds.map (·.tm), ⟨(rGroups c ra (u, op)).map (·.a), hs, ?_, ?_, ?_, h3, ?_⟩, ?_⟩
  · obtain ⟨cmd, curId, ha, hl⟩ := hs
    obtain ⟨data, hdat⟩ := C30_read c hc _ cmd curId ha got [] (by
      rw [← hl, List.map_map]
      refine framed_beats _ got ?_
      rw [← h2, ← h1, List.map_map, List.map_map]
      refine List.map_congr_left ?_
      intro d hdm
      exact (h4 d hdm).2.2.2.1)
    rw [List.append_nil] at hdat
    exact ⟨data, cmd, curId, _, ha, hdat⟩
  · have := congrArg List.length hb
    rw [← this, ← h2, List.length_map, List.length_map]
  · rw [← h2, List.length_map, List.length_map]
  · intro i τ k a r hτ ha hg
    rw [← hb] at ha
    rw [← h2] at hg
    simp only [List.getElem?_map, Option.map_eq_some_iff] at hτ ha hg
    obtain ⟨d, hd0, rfl⟩ := hτ
    obtain ⟨d1, hd1, he⟩ := ha
    obtain ⟨d2, hd2, rfl⟩ := hg
    rw [hd0] at hd1 hd2
    cases hd1
    cases hd2
    cases he
    obtain ⟨g1, g2, g3⟩ := h4 d (List.mem_of_getElem? hd0)
    exact ⟨Nat.lt_of_lt_of_le g1 hj, (hT.minv _).outstanding g2.2, g3⟩
  · intro τ hτ
    obtain ⟨d, hdm, rfl⟩ := List.mem_map.1 hτ
    obtain ⟨g1, g2, _⟩ := h4 d hdm
    refine ⟨Nat.lt_of_lt_of_le g1 hj, d.at_.1, g2.1, ?_⟩
    have hin : d.at_ ∈ (rGroups c ra (u, op)).flatMap RGrp.atoms := by rw [← h1]; exact List.mem_map_of_mem hdm
    obtain ⟨g, hg1, hg2⟩ := List.mem_flatMap.1 hin
    have hgeq : d.at_.1 = g := by
      simp only [RGrp.atoms, List.mem_map] at hg2
      obtain ⟨_, _, he⟩ := hg2
      rw [← he]
    have := rGroups_op hg1
    simp only [Prod.mk.injEq] at this
    rw [hgeq]; exact this.2

section

variable (c : Cfg) (hc : c.Std) (wa : Nat → WArgs) (ra : Nat → Req) (hi : IdsFit c wa ra) (t : Target σ) (st : σ)
  (evs : List Ev)

include hc hi

/-- **C89, calls.** Every operation under way or complete comes from exactly one call, and that call was accepted. -/
theorem C89_calls (n : Nat) :
    let S := Sys.at c wa ra t st evs
    ((S n).w.m.issued.map (·.key)).Nodup ∧ ((S n).r.m.issued.map (·.key)).Nodup ∧
    (∀ op ∈ (S n).w.m.issued, op.key < (S n).w.calls ∧ ∃ l, (wa op.key).sends c l) ∧
    (∀ op ∈ (S n).r.m.issued, op.key < (S n).r.calls ∧ ∃ l, sendsR c (ra op.key) l) := by
  intro S
  have h1 := (Sys.traceW (wa := wa) (ra := ra) (t := t) (st := st) (evs := evs) hc hi.w).minv n
  have h2 := (Sys.traceR (wa := wa) (ra := ra) (t := t) (st := st) (evs := evs) hc hi.r).minv n
  refine ⟨?_, ?_, ?_, ?_⟩
  · have := h1.nodup
    rw [List.map_append] at this
    exact (List.nodup_append.1 this).1
  · have := h2.nodup
    rw [List.map_append] at this
    exact (List.nodup_append.1 this).1
  · intro op ho
    obtain ⟨g1, g2⟩ := h1.made op (List.mem_append_left _ ho)
    obtain ⟨cmd, ha, _⟩ := wMade hc g1
    obtain ⟨out, bl, nid, ho, _⟩ := wGroups_out hc g1 0 ha
    exact ⟨g2, _, cmd, 0, out, _, bl, nid, ha, ho, rfl⟩
  · intro op ho
    obtain ⟨g1, g2⟩ := h2.made op (List.mem_append_left _ ho)
    obtain ⟨cmd, ha, _⟩ := rMade hc g1
    exact ⟨g2, _, cmd, 0, ha, rfl⟩

theorem write_done (n : Nat) :
    let S := Sys.at c wa ra t st evs
    ∀ op got, (op, some got) ∈ (S n).w.m.results → ∃ bs, WriteDone c wa t S n op got bs ∧
      ∀ τ ∈ (bs.flatMap (·.2)).map (·.1), τ < n ∧ ∃ g, (wOpen c wa (S τ).w).head? = some g ∧ g.op = op :=
  (Sys.traceW (wa := wa) (ra := ra) (t := t) (st := st) (evs := evs) hc hi.w).write_done n

theorem read_done (n : Nat) :
    let S := Sys.at c wa ra t st evs
    ∀ op got, (op, some got) ∈ (S n).r.m.results → ∃ τs, ReadDone c ra t S n op got τs ∧
      ∀ τ ∈ τs, τ < n ∧ ∃ g, (rOpen c ra (S τ).r).head? = some g ∧ g.op = op :=
  (Sys.traceR (wa := wa) (ra := ra) (t := t) (st := st) (evs := evs) hc hi.r).read_done n

/-- **C89, writes.** A write that completed was executed exactly: for every burst that the call sends, its beats were executed
on the target one by one in order, each at an instant at which the operation was outstanding; the B transaction it got for the
burst says OKAY if all its beats succeeded and SLVERR otherwise, and the caller is given a response computed from these. -/
theorem C89_writes (n : Nat) :
    let S := Sys.at c wa ra t st evs
    ∀ op got, (op, some got) ∈ (S n).w.m.results → ∃ bs, WriteDone c wa t S n op got bs := by
  intro S op got hr
  obtain ⟨bs, h, _⟩ := write_done c hc wa ra hi t st evs n op got hr
  exact ⟨bs, h⟩

/-- **C89, reads.** A read that completed was executed exactly: the beats of the bursts that the call sends were executed on
the target one by one in order, each at an instant at which the operation was outstanding, and the R transactions it got are
their outcomes; the caller is given data and response computed from these. -/
theorem C89_reads (n : Nat) :
    let S := Sys.at c wa ra t st evs
    ∀ op got, (op, some got) ∈ (S n).r.m.results → ∃ τs, ReadDone c ra t S n op got τs := by
  intro S op got hr
  obtain ⟨bs, h, _⟩ := read_done c hc wa ra hi t st evs n op got hr
  exact ⟨bs, h⟩

/-- **C92, writes.** Writes are executed one after the other in the order in which they were issued, whatever their IDs: there
are executions of all completed writes such that all beats of a write come before all beats of writes issued later. -/
theorem C92_write_order (n : Nat) :
    let S := Sys.at c wa ra t st evs
    ∃ ex : Op → List BBeat → List ((ABeat × List WBeat) × List (Nat × Bool)),
      (∀ op got, (op, some got) ∈ (S n).w.m.results → WriteDone c wa t S n op got (ex op got)) ∧
      ∀ op1 got1 op2 got2, (op1, some got1) ∈ (S n).w.m.results → (op2, some got2) ∈ (S n).w.m.results →
        Before (S n).w.m op1 op2 → ∀ x1 ∈ (ex op1 got1).flatMap (·.2), ∀ x2 ∈ (ex op2 got2).flatMap (·.2), x1.1 < x2.1 := by
  intro S
  have hT := Sys.traceW (wa := wa) (ra := ra) (t := t) (st := st) (evs := evs) hc hi.w
  have hd := write_done c hc wa ra hi t st evs n
  refine ⟨fun op got => if h : (op, some got) ∈ (S n).w.m.results then Classical.choose (hd op got h) else [], ?_, ?_⟩
  · intro op got h
    simp only [h, dite_true]
    exact (Classical.choose_spec (hd op got h)).1
  · intro op1 got1 op2 got2 r1 r2 hb x1 m1 x2 m2
    simp only [r1, r2, dite_true] at m1 m2
    obtain ⟨_, g1, o1, rfl⟩ := (Classical.choose_spec (hd op1 got1 r1)).2 x1.1 (List.mem_map_of_mem m1)
    obtain ⟨l2, g2, o2, rfl⟩ := (Classical.choose_spec (hd op2 got2 r2)).2 x2.1 (List.mem_map_of_mem m2)
    exact hT.served.order o1 o2 (Nat.le_of_lt l2) hb

/-- **C92, reads.** Reads are executed one after the other in the order in which they were issued, whatever their IDs. -/
theorem C92_read_order (n : Nat) :
    let S := Sys.at c wa ra t st evs
    ∃ ex : Op → List RBeat → List Nat,
      (∀ op got, (op, some got) ∈ (S n).r.m.results → ReadDone c ra t S n op got (ex op got)) ∧
      ∀ op1 got1 op2 got2, (op1, some got1) ∈ (S n).r.m.results → (op2, some got2) ∈ (S n).r.m.results →
        Before (S n).r.m op1 op2 → ∀ x1 ∈ ex op1 got1, ∀ x2 ∈ ex op2 got2, x1 < x2 := by
  intro S
  have hT := Sys.traceR (wa := wa) (ra := ra) (t := t) (st := st) (evs := evs) hc hi.r
  have hd := read_done c hc wa ra hi t st evs n
  refine ⟨fun op got => if h : (op, some got) ∈ (S n).r.m.results then Classical.choose (hd op got h) else [], ?_, ?_⟩
  · intro op got h
    simp only [h, dite_true]
    exact (Classical.choose_spec (hd op got h)).1
  · intro op1 got1 op2 got2 r1 r2 hb x1 m1 x2 m2
    simp only [r1, r2, dite_true] at m1 m2
    obtain ⟨_, g1, o1, rfl⟩ := (Classical.choose_spec (hd op1 got1 r1)).2 x1 m1
    obtain ⟨l2, g2, o2, rfl⟩ := (Classical.choose_spec (hd op2 got2 r2)).2 x2 m2
    exact hT.served.order o1 o2 (Nat.le_of_lt l2) hb

/-- **C89, nothing else.** The target only changes when a beat of a burst of an outstanding operation is executed. -/
theorem C89_nothing_else (n : Nat) :
    let S := Sys.at c wa ra t st evs
    (S (n + 1)).mem = (S n).mem ∨
    (∃ op l b k w ok, Outstanding (S n).w.m op ∧ (wa op.key).sends c l ∧ b ∈ l ∧ b.2[k]? = some w ∧
      WroteBeat c t b.1 k w (S n).mem ok (S (n + 1)).mem) ∨
    (∃ op l a k r, Outstanding (S n).r.m op ∧ sendsR c (ra op.key) l ∧ (a, k) ∈ rBeats l ∧
      ReadBeat c t a k (S n).mem r (S (n + 1)).mem) := by
  intro S
  have hW := (Sys.traceW (wa := wa) (ra := ra) (t := t) (st := st) (evs := evs) hc hi.w).minv n
  have hR := (Sys.traceR (wa := wa) (ra := ra) (t := t) (st := st) (evs := evs) hc hi.r).minv n
  rcases Sys.mem_step (wa := wa) (ra := ra) (t := t) (st := st) (evs := evs) hc hi.w hi.r n with
    h | ⟨g, k, wb, ok, h1, _, h2, h3, h4⟩ | ⟨g, k, r, h1, h2, _, h3, h4⟩
  · exact .inl h
  · refine .inr (.inl ⟨g.op, (wGroups c wa (g.t, g.op)).map fun g => (g.a, g.ws), (g.a, g.ws), k, wb, ok, hW.outstanding h2, ?_, ?_, h3, h4⟩)
    · exact wGroups_sends hc (hW.madeOf (hW.taken_issued (wAll_ok hc hW h1).2)) hW (wAll_ok hc hW h1).2
    · obtain ⟨x, hx, hg⟩ := List.mem_flatMap.1 h1
      rw [wGroups_op hg]
      exact List.mem_map.2 ⟨g, hg, rfl⟩
  · refine .inr (.inr ⟨g.op, (rGroups c ra (g.t, g.op)).map (·.a), g.a, k, r, hR.outstanding h3, ?_, ?_, h4⟩)
    · exact rGroups_sends hc (hR.madeOf (hR.taken_issued (rAll_ok hc hR h1).2)) hR (rAll_ok hc hR h1).2
    · obtain ⟨x, hx, hg⟩ := List.mem_flatMap.1 h1
      rw [rGroups_op hg]
      refine List.mem_flatMap.2 ⟨g.a, List.mem_map_of_mem hg, ?_⟩
      exact List.mem_map.2 ⟨k, List.mem_range.2 h2, rfl⟩

/-- **C89, no failure.** No assertion of the master or the slave fails, and no coroutine dies: every response belongs to an
active operation, `rlast` and `wlast` are where they are expected, no burst crosses a 4 KiB boundary. -/
theorem C89_no_failure (n : Nat) :
    let S := Sys.at c wa ra t st evs
    (S n).w.died = false ∧ (S n).w.m.respFailed = false ∧ (S n).w.m.workFailed = false ∧
    (S n).r.died = false ∧ (S n).r.m.respFailed = false ∧ (S n).r.m.workFailed = false := by
  intro S
  obtain ⟨w, hw, _⟩ := (Sys.traceW (wa := wa) (ra := ra) (t := t) (st := st) (evs := evs) hc hi.w).inv n
  obtain ⟨r, hr, _⟩ := (Sys.traceR (wa := wa) (ra := ra) (t := t) (st := st) (evs := evs) hc hi.r).inv n
  exact ⟨hw.died, hw.ok, hw.m.inv.ok, hr.died, hr.ok, hr.m.inv.ok⟩

end

/-! A concrete history: a write of two bursts, and a second write with the same ID that is issued while the first one is under
way; a read of two bursts is served around the second write; the second write has not been answered at the end. -/

def exC : Cfg := { lanes := 4, addrWidth := 16, idWidth := 1, maxBurstLenArg := 2 }
def exM : Memory := { size := 16, mem := .buf (List.replicate 16 7) }
def exW : Nat → WArgs
  | 0 => { req := { address := 2, length := 0 }, data := [1, 2, 3, 4, 5, 6, 7, 8, 9] }
  | _ => { req := { address := 4, length := 0, id := some 0 }, data := [21, 22, 23] }
def exR : Nat → Req := fun _ => { address := 1, length := 11 }
def exEvs : List Ev :=
  [.w (.reset false), .r (.reset false), .w .write, .w .take, .w .sendAW, .w .slaveAW, .w .write, .w .sendW, .w .slaveW,
   .w .sendW, .w .sendAW, .w .slaveW, .w .slaveB, .w .slaveAW, .w .sendW, .w .start, .w .slaveW, .w .deliver, .w .slaveB,
   .w .deliver, .w (.workTake 0), .w (.workGet 0), .w (.workGet 0), .w (.workDone 0),
   .r .read, .r .take, .r .sendAR, .r .sendAR, .r .start, .r .slaveAR, .r .slaveR, .w .take, .w .sendAW, .w .slaveAW, .w .sendW,
   .w .start, .w .slaveW, .r .slaveR, .r .slaveAR, .r .deliver, .r .slaveR, .r .deliver, .r .deliver, .r (.workTake 0),
   .r (.workGet 0), .r (.workGet 0), .r (.workGet 0), .r (.workDone 0), .w .slaveB, .w .deliver, .w (.workTake 0),
   .w (.workGet 0), .w (.workDone 0)]
def exW0 : Op := { key := 0, bursts := [0, 0] }
def exW1 : Op := { key := 1, id? := some 0, bursts := [0] }
def exR0 : Op := { key := 0, bursts := [1, 0] }

theorem exC_std : exC.Std := ⟨2, rfl, by omega⟩

theorem exIds : IdsFit exC exW exR where
  w := fun k => by
    unfold exW
    split <;> simp [exC]
  r := fun k => by simp [exR]

/-- C89 applies to the write and to the read. -/
example : ((exW0, some [⟨0, .okay, 0⟩, ⟨0, .okay, 0⟩]) ∈ (Sys.at exC exW exR ramTarget exM exEvs 48).w.m.results ∧
    (exR0, some [⟨0, 33621767, .okay, false, 0⟩, ⟨0, 102176277, .okay, true, 0⟩, ⟨0, 118032391, .okay, true, 0⟩]) ∈
      (Sys.at exC exW exR ramTarget exM exEvs 48).r.m.results) ∧
    (Outstanding (Sys.at exC exW exR ramTarget exM exEvs 48).w.m exW1 ∧ Before (Sys.at exC exW exR ramTarget exM exEvs 48).w.m exW0 exW1) := by
  have h1 : (Sys.at exC exW exR ramTarget exM exEvs 48).w.m.issued = [exW0, exW1] := by decide +kernel
  have h2 : (Sys.at exC exW exR ramTarget exM exEvs 48).w.m.results = [(exW0, some [⟨0, .okay, 0⟩, ⟨0, .okay, 0⟩])] := by
    decide +kernel
  refine ⟨by decide +kernel, ⟨by rw [h1]; simp, ?_⟩, ?_⟩
  · intro r hr
    rw [h2] at hr
    simp [exW0, exW1] at hr
  · unfold Before
    rw [h1]; exact List.Sublist.refl _

/-- C92 applies to the two writes: both complete, and the first one was executed first. -/
example : ∃ b1 b2, WriteDone exC exW ramTarget (Sys.at exC exW exR ramTarget exM exEvs) 53 exW0 [⟨0, .okay, 0⟩, ⟨0, .okay, 0⟩] b1 ∧
    WriteDone exC exW ramTarget (Sys.at exC exW exR ramTarget exM exEvs) 53 exW1 [⟨0, .okay, 0⟩] b2 ∧
    ∀ x1 ∈ b1.flatMap (·.2), ∀ x2 ∈ b2.flatMap (·.2), x1.1 < x2.1 := by
  obtain ⟨ex, h1, h2⟩ := C92_write_order exC exC_std exW exR exIds ramTarget exM exEvs 53
  have r1 : (exW0, some [⟨0, .okay, 0⟩, ⟨0, .okay, 0⟩]) ∈ (Sys.at exC exW exR ramTarget exM exEvs 53).w.m.results := by
    decide +kernel
  have r2 : (exW1, some [⟨0, .okay, 0⟩]) ∈ (Sys.at exC exW exR ramTarget exM exEvs 53).w.m.results := by decide +kernel
  refine ⟨_, _, h1 _ _ r1, h1 _ _ r2, h2 _ _ _ _ r1 r2 ?_⟩
  have : (Sys.at exC exW exR ramTarget exM exEvs 53).w.m.issued = [exW0, exW1] := by decide +kernel
  unfold Before
  rw [this]; exact List.Sublist.refl _

/-- **C89 fails for an ID equal to the number of IDs.** The master accepts it (see C29), and the coroutine that sends the
commands dies: nothing issued later can complete. -/
theorem C89_id_violated : ∃ (c : Cfg) (wa : Nat → WArgs) (ra : Nat → Req) (m0 : Memory) (evs : List Ev), c.Std ∧
    (Sys.at c wa ra ramTarget m0 evs evs.length).w.m.issued.length = 1 ∧
    (Sys.at c wa ra ramTarget m0 evs evs.length).w.died = true :=
  ⟨exC, fun _ => { req := { address := 0, length := 0, id := some 2 }, data := [1] }, exR, exM,
    [.w (.reset false), .w .write, .w .take, .w .sendAW], exC_std, by decide +kernel, by decide +kernel⟩

end Verif.AxiSys
