import Verif.Proof.AxiSysMapped
import Verif.Props.Mapped
import Verif.Props.AxiSysRam

/-!
# C102, C103: an AXI master connected to a slave whose target has an address map

The target is a memory region, a window, an address space with several regions and holes, or anything else that is `Mapped`
(`Spec/Mapped.lean`). Operations may lie anywhere, also outside the mapped addresses.
-/

namespace Verif.AxiSys

open Verif.Axi Verif.AxiOps Verif.AxiOps.Master

section mapped

variable {σ κ : Type} (c : Cfg) (wa : Nat → WArgs) (ra : Nat → Req) (t : Target σ) (s0 : σ) (evs : List Ev)
  (good : σ → Prop) (f : Nat → Option κ) (val : σ → κ → UInt8)

/-- The hypotheses on a history: the target has the address map `f`, and the operations issued use incrementing bursts. -/
structure MapCalls (n : Nat) : Prop where
  std : c.Std
  ids : IdsFit c wa ra
  map : Mapped t good f val
  init : good s0
  w : ∀ op ∈ (Sys.at c wa ra t s0 evs n).w.m.issued, (wa op.key).req.burst = 1
  r : ∀ op ∈ (Sys.at c wa ra t s0 evs n).r.m.issued, (ra op.key).burst = 1

/-- All addresses of the write that are in the same beat as the address `b` are mapped. -/
def BeatMapped (op : Op) (b : Nat) : Prop :=
  ∀ y, Covers wa op y → y / beatBytes c (wa op.key).req = b / beatBytes c (wa op.key).req → f y ≠ none

/-- All addresses of the bus word that contains the address `b` are mapped. -/
def WordMapped (b : Nat) : Prop := ∀ y, y / c.lanes = b / c.lanes → f y ≠ none

variable {c wa ra t s0 evs good f val} {n : Nat}

local notation "S" => Sys.at c wa ra t s0 evs

theorem MapCalls.traceW (H : MapCalls c wa ra t s0 evs good f val n) : WTrace c wa t (fun k => (S k).w) (fun k => (S k).mem) :=
  Sys.traceW (wa := wa) (ra := ra) (t := t) (st := s0) (evs := evs) H.std H.ids.w

theorem MapCalls.traceR (H : MapCalls c wa ra t s0 evs good f val n) : RTrace c ra t (fun k => (S k).r) (fun k => (S k).mem) :=
  Sys.traceR (wa := wa) (ra := ra) (t := t) (st := s0) (evs := evs) H.std H.ids.r

theorem MapCalls.issuedW (H : MapCalls c wa ra t s0 evs good f val n) {i j : Nat} (h : i ≤ j) :
    (S i).w.m.issued <+: (S j).w.m.issued ∧ (S i).w.m.results <+: (S j).w.m.results := H.traceW.seq.grows h

theorem MapCalls.issuedR (H : MapCalls c wa ra t s0 evs good f val n) {i j : Nat} (h : i ≤ j) :
    (S i).r.m.issued <+: (S j).r.m.issued ∧ (S i).r.m.results <+: (S j).r.m.results := H.traceR.seq.grows h

theorem MapCalls.mono (H : MapCalls c wa ra t s0 evs good f val n) {k : Nat} (hk : k ≤ n) : MapCalls c wa ra t s0 evs good f val k :=
  ⟨H.std, H.ids, H.map, H.init, fun op ho => H.w op ((H.issuedW hk).1.subset ho), fun op ho => H.r op ((H.issuedR hk).1.subset ho)⟩

/-- The command of an issued write. -/
theorem MapCalls.cmdW (H : MapCalls c wa ra t s0 evs good f val n) {op : Op} (ho : op ∈ (S n).w.m.issued) :
    ∃ cmd, acceptWrite c (wa op.key).req (wa op.key).data (wa op.key).wuser = .ok cmd ∧ CmdOK c cmd ∧
      (wa op.key).data.length = cmd.length ∧ cmd.burst = .incr ∧ cmd.address = (wa op.key).req.address.toNat ∧
      2 ^ cmd.size = beatBytes c (wa op.key).req := by
  obtain ⟨cmd, h1, _⟩ := wMade H.std ((H.traceW.minv n).madeOf ho)
  obtain ⟨g1, _, g3, g4, g5, _⟩ := acceptWrite_ok H.std h1
  exact ⟨cmd, h1, g1, g3, g5 (H.w op ho), by omega, acceptWrite_size H.std h1⟩

theorem MapCalls.cmdR (H : MapCalls c wa ra t s0 evs good f val n) {op : Op} (ho : op ∈ (S n).r.m.issued) :
    ∃ cmd, acceptRead c (ra op.key) = .ok cmd ∧ CmdOK c cmd ∧
      cmd.length = (ra op.key).length.toNat ∧ cmd.burst = .incr ∧ cmd.address = (ra op.key).address.toNat ∧
      2 ^ cmd.size = beatBytes c (ra op.key) := by
  obtain ⟨cmd, h1, _⟩ := rMade H.std ((H.traceR.minv n).madeOf ho)
  obtain ⟨g1, _, g3, g4, g5, _⟩ := acceptRead_ok H.std h1
  exact ⟨cmd, h1, g1, by omega, g5 (H.r op ho), by omega, acceptRead_size H.std h1⟩

theorem Sys.mem_map (H : MapCalls c wa ra t s0 evs good f val n) {τ : Nat} (hτ : τ ≤ n) (hg : good (S τ).mem) :
    (S (τ + 1)).mem = (S τ).mem ∨
    ∃ op, (Outstanding (S τ).w.m op ∧ ∃ g, (wOpen c wa (S τ).w).head? = some g ∧ g.op = op) ∧ good (S (τ + 1)).mem ∧
      ∀ x, val (S (τ + 1)).mem x = val (S τ).mem x ∨
        ∃ y, Covers wa op y ∧ f y = some x ∧ some (val (S (τ + 1)).mem x) = (wa op.key).data[y - (wa op.key).req.address.toNat]? := by
  have hW := H.traceW.minv τ
  rcases Sys.mem_step (wa := wa) (ra := ra) (t := t) (st := s0) (evs := evs) H.std H.ids.w H.ids.r τ with
    h | ⟨g, k, wb, ok, q1, q0, q2, q3, q4⟩ | ⟨g, k, r, _, _, _, _, q4⟩
  · exact .inl h
  · obtain ⟨x, hx, hg'⟩ := List.mem_flatMap.1 q1
    have hop := wGroups_op hg'
    subst hop
    have hout := hW.outstanding q2
    obtain ⟨cmd, e1, e2, e3, e4, e5, e7⟩ := (H.mono hτ).cmdW hout.1
    obtain ⟨k0, l, f1, f2, f3⟩ := wGroups_beat e1 hg' q3
    rw [f1, f3] at q4
    obtain ⟨r1, _, _, r4⟩ := wroteBeat_mapped H.map e2 e3 e4 hg f2 q4
    refine .inr ⟨g.op, ⟨hout, g, q0, rfl⟩, r1, ?_⟩
    intro x
    rcases r4 x with h | ⟨y, y1, y2, y3, y4⟩
    · exact .inl h
    · obtain ⟨z1, z2, _⟩ := (beat_bytes e2 f2 y).1 ⟨y1, y2⟩
      refine .inr ⟨y, ⟨by omega, by omega⟩, y3, ?_⟩
      rw [y4, e5]
  · refine .inl (readBeat_mapped H.map ?_ hg q4).1
    obtain ⟨w, hw, _⟩ := H.std
    rw [hw]; exact Nat.two_pow_pos w

theorem MapCalls.mem_ok (H : MapCalls c wa ra t s0 evs good f val n) {τ : Nat} (hτ : τ ≤ n) : good (S τ).mem := by
  induction τ with
  | zero => exact H.init
  | succ τ ih =>
    have h := ih (by omega)
    rcases Sys.mem_map H (by omega) h with h' | ⟨_, _, g1, _⟩
    · rw [h']; exact h
    · exact g1

theorem MapCalls.write (H : MapCalls c wa ra t s0 evs good f val n) (op : Op) (got : List BBeat)
    (hr : (op, some got) ∈ (S n).w.m.results) :
    let A := (wa op.key).req.address.toNat
    let d := (wa op.key).data
    let nb := beatBytes c (wa op.key).req
    (∃ resp, (wa op.key).returns c got resp ∧ (resp = .okay ∨ resp = .slverr) ∧
      (resp = .okay ↔ ∀ i < d.length, f (A + i) ≠ none)) ∧
    ∃ τ : Nat → Nat, ∀ i < d.length,
      (τ i < n ∧ ∃ g, (wOpen c wa (S (τ i)).w).head? = some g ∧ g.op = op) ∧ Outstanding (S (τ i)).w.m op ∧
      (BeatMapped c wa f op (A + i) → ∀ x, f (A + i) = some x → some (val (S (τ i + 1)).mem x) = d[i]?) ∧
      ∀ j < d.length, (τ i < τ j ↔ (A + i) / nb < (A + j) / nb) := by
  intro A d nb
  have hT := H.traceW
  obtain ⟨J, hJ, u, hd⟩ := hT.seq.result hr
  obtain ⟨hmk, htk, ds, h1, h2, h3, h4, h5⟩ := hT.done hd
  have hiss : op ∈ (S n).w.m.issued := (H.issuedW hJ).1.subset ((hT.minv J).taken_issued htk)
  obtain ⟨cmd, e1, e2, e3, e4, e5, e7⟩ := H.cmdW hiss
  have hA : cmd.address = A := e5
  have hds : ds.map (fun d => (d.1.a, d.1.ws)) = (segs c cmd 0).map fun p => (aAt c cmd u p.1, segW c cmd d (wa op.key).wuser p) := by
    have := congrArg (List.map fun g : Grp => (g.a, g.ws)) h1
    rw [List.map_map] at this
    refine Eq.trans this ?_
    unfold wGroups
    simp only [e1, List.map_map]
    have hcomp : ((fun g : Grp => (g.a, g.ws)) ∘ fun q : (Nat × Nat) × Nat => (⟨u, op, q.2, aAt c cmd u q.1.1,
        segW c cmd (wa op.key).data (wa op.key).wuser q.1⟩ : Grp)) =
        (fun p : Nat × Nat => (aAt c cmd u p.1, segW c cmd d (wa op.key).wuser p)) ∘ Prod.fst := rfl
    rw [hcomp, ← List.map_map, List.zipIdx_map_fst]
  obtain ⟨hlen, hloc⟩ := segs_beat 0 (Nat.zero_le _) ds hds h4
  /- when a beat succeeds -/
  have hbeat : ∀ d' ∈ ds, ∀ (k τ : Nat) (ok : Bool), d'.2[k]? = some (τ, ok) → (∀ i < d.length, f (A + i) ≠ none) → ok = true := by
    intro d' hd' k τ ok hk hall
    obtain ⟨g1, g2, wb, g3, g4⟩ := h5 d' hd' k τ ok hk
    obtain ⟨k0, l, f1, f2, f3⟩ := wGroups_beat e1 (h1 ▸ List.mem_map_of_mem hd') g3
    rw [f1, f3] at g4
    obtain ⟨_, r2, _, _⟩ := wroteBeat_mapped H.map e2 e3 e4 (H.mem_ok (τ := τ) (by omega)) f2 g4
    rw [r2]
    intro y y1 y2
    obtain ⟨z1, z2, _⟩ := (beat_bytes e2 f2 y).1 ⟨y1, y2⟩
    have := hall (y - A) (by simp only [d]; omega)
    rwa [show A + (y - A) = y by omega] at this
  have hts : ((ds.flatMap (·.2)).map (·.1)).length = cyclesOf cmd := by rw [List.length_map, hlen, Nat.sub_zero]
  /- the beat of a byte -/
  have hbyte : ∀ i < d.length, ∃ d' ∈ ds, ∃ (j τ : Nat) (ok : Bool), d'.2[j]? = some (τ, ok) ∧
      ((ds.flatMap (·.2)).map (·.1)).getD (beatNo cmd (A + i)) 0 = τ ∧
      (ok = true ↔ BeatMapped c wa f op (A + i)) ∧
      (τ < n ∧ ∃ g, (wOpen c wa (S τ).w).head? = some g ∧ g.op = op) ∧ Outstanding (S τ).w.m op ∧
      (ok = true → ∀ x, f (A + i) = some x → some (val (S (τ + 1)).mem x) = d[i]?) := by
    intro i hi
    have hi : i < (wa op.key).data.length := hi
    obtain ⟨b1, b2, b3, b4⟩ := beatNo_spec e2 (x := A + i) (by omega) (by omega)
    obtain ⟨d', hd', k0, j, l, τ, ok, f1, f2, f3, f4, f5⟩ := hloc _ (Nat.zero_le _) b1
    have hτ : ((ds.flatMap (·.2)).map (·.1)).getD (beatNo cmd (A + i)) 0 = τ := by
      rw [List.getD_eq_getElem?_getD, List.getElem?_map]
      rw [Nat.sub_zero] at f5
      rw [f5]; rfl
    obtain ⟨g1, g2, wb, g3, g4⟩ := h5 d' hd' j τ ok f4
    rw [f3] at g3
    cases g3
    rw [f2] at g4
    rw [← f1] at g4 b1 b2 b3 b4
    obtain ⟨_, r2, r3, _⟩ := wroteBeat_mapped H.map e2 e3 e4 (H.mem_ok (τ := τ) (by omega)) b1 g4
    have hgop := wGroups_op (h1 ▸ List.mem_map_of_mem hd' : d'.1 ∈ wGroups c wa (u, op))
    simp only [Prod.mk.injEq] at hgop
    refine ⟨d', hd', j, τ, ok, f4, hτ, ?_, ⟨by omega, d'.1, g2.1, hgop.2⟩, (hT.minv τ).outstanding g2.2, ?_⟩
    · rw [r2]
      constructor
      · rintro h y ⟨y1, y2⟩ y3
        rw [← e7, b4] at y3
        obtain ⟨z1, z2⟩ := (beat_bytes e2 b1 y).2 ⟨by omega, by omega, y3⟩
        exact h y z1 z2
      · intro h y y1 y2
        obtain ⟨z1, z2, z3⟩ := (beat_bytes e2 b1 y).1 ⟨y1, y2⟩
        exact h y ⟨by omega, by omega⟩ (by rw [← e7, b4]; exact z3)
    · intro hok x hx
      rw [r3 hok (A + i) b2 b3 x hx, show A + i - cmd.address = i by omega]
  constructor
  · obtain ⟨bs, _, hg, hret, _⟩ := C89_writes c H.std wa ra H.ids t s0 evs n op got hr
    have hresp : got.map (·.resp) = ds.map fun d' => burstResp d'.2 := by
      rw [← h2, List.map_map]; rfl
    refine ⟨_, hret, lastNonOkay_two ?_, ?_⟩
    · rw [hresp]
      intro r hr
      obtain ⟨d', hd', rfl⟩ := List.mem_map.1 hr
      simp only [burstResp]
      split
      · exact .inl rfl
      · exact .inr rfl
    · rw [lastNonOkay_okay_iff, hresp]
      constructor
      · intro h i hi
        obtain ⟨d', hd', j, τ, ok, k1, k2, k3, _⟩ := hbyte i hi
        have := h _ (List.mem_map_of_mem hd')
        simp only [burstResp] at this
        split at this
        · rename_i hall
          rw [List.all_eq_true] at hall
          have hok : ok = true := hall _ (List.mem_of_getElem? k1)
          exact (k3.1 hok) (A + i) ⟨by omega, by simp only [A]; simp only [d] at hi; omega⟩ rfl
        · cases this
      · intro h r hr
        obtain ⟨d', hd', rfl⟩ := List.mem_map.1 hr
        simp only [burstResp]
        rw [if_pos]
        rw [List.all_eq_true]
        intro x hx
        obtain ⟨k, hk, rfl⟩ := List.getElem_of_mem hx
        exact hbeat d' hd' k _ _ (List.getElem?_eq_getElem hk) h
  · refine ⟨fun i => ((ds.flatMap (·.2)).map (·.1)).getD (beatNo cmd (A + i)) 0, ?_⟩
    intro i hi
    obtain ⟨d', hd', j, τ, ok, k1, k2, k3, k4, k5, k6⟩ := hbyte i hi
    have hi : i < (wa op.key).data.length := hi
    obtain ⟨b1, b2, b3, b4⟩ := beatNo_spec e2 (x := A + i) (by omega) (by omega)
    simp only [k2]
    refine ⟨k4, k5, fun hb => k6 (k3.2 hb), ?_⟩
    intro j' hj'
    have hj' : j' < (wa op.key).data.length := hj'
    obtain ⟨c1, c2, c3, c4⟩ := beatNo_spec e2 (x := A + j') (by omega) (by omega)
    rw [← k2, ascending_iff h3 (by omega) (by omega)]
    simp only [nb, ← e7, b4, c4]
    omega

/-- **C102, writes.** When a write has completed, its caller is given OKAY if all its addresses are mapped, and SLVERR otherwise.
Each beat was executed at an instant at which the write was outstanding, in ascending order; if all addresses of the beat are
mapped, then its bytes are stored in the cells that they designate at that instant, whatever becomes of the other beats. -/
theorem C102_write (H : MapCalls c wa ra t s0 evs good f val n) (op : Op) (got : List BBeat)
    (hr : (op, some got) ∈ (S n).w.m.results) :
    let A := (wa op.key).req.address.toNat
    let d := (wa op.key).data
    let nb := beatBytes c (wa op.key).req
    (∃ resp, (wa op.key).returns c got resp ∧ (resp = .okay ∨ resp = .slverr) ∧
      (resp = .okay ↔ ∀ i < d.length, f (A + i) ≠ none)) ∧
    ∃ τ : Nat → Nat, ∀ i < d.length,
      τ i < n ∧ Outstanding (S (τ i)).w.m op ∧
      (BeatMapped c wa f op (A + i) → ∀ x, f (A + i) = some x → some (val (S (τ i + 1)).mem x) = d[i]?) ∧
      ∀ j < d.length, (τ i < τ j ↔ (A + i) / nb < (A + j) / nb) := by
  obtain ⟨h1, τ, h2⟩ := H.write op got hr
  refine ⟨h1, τ, fun i hi => ?_⟩
  obtain ⟨h3, h4, h5, h6⟩ := h2 i hi
  exact ⟨h3.1, h4, h5, h6⟩

/-- **C102, reads.** When a read has completed, its caller gets the requested number of bytes. The response is OKAY if all bus words
that the read touches are entirely mapped, and SLVERR otherwise. Each beat was executed at an instant at which the read was
outstanding, in ascending order; its bytes are what the cells contained then if its bus word is entirely mapped, and zero
otherwise. -/
theorem C102_read (H : MapCalls c wa ra t s0 evs good f val n) (op : Op) (got : List RBeat)
    (hr : (op, some got) ∈ (S n).r.m.results) :
    let A := (ra op.key).address.toNat
    let N := (ra op.key).length.toNat
    let nb := beatBytes c (ra op.key)
    ∃ (data : Bytes) (resp : Resp), returnsR c (ra op.key) got data resp ∧ data.length = N ∧ (resp = .okay ∨ resp = .slverr) ∧
      (0 < N → (resp = .okay ↔ ∀ i < N, WordMapped c f (A + i))) ∧ ∃ τ : Nat → Nat, ∀ i < N,
      τ i < n ∧ Outstanding (S (τ i)).r.m op ∧
      (WordMapped c f (A + i) → ∀ x, f (A + i) = some x → data[i]? = some (val (S (τ i)).mem x)) ∧
      (¬ WordMapped c f (A + i) → data[i]? = some 0) ∧
      ∀ j < N, (τ i < τ j ↔ (A + i) / nb < (A + j) / nb) := by
  intro A N nb
  have hT := H.traceR
  obtain ⟨J, hJ, u, hd⟩ := hT.seq.result hr
  obtain ⟨hmk, htk, ds, h1, h2, h3, h4⟩ := hT.done hd
  have hiss : op ∈ (S n).r.m.issued := (H.issuedR hJ).1.subset ((hT.minv J).taken_issued htk)
  obtain ⟨cmd, e1, e2, e3, e4, e5, e7⟩ := H.cmdR hiss
  have hpos := e2.geo.lanesPos
  have hlab := congrArg (List.map rLab) h1
  rw [rGroups_lab H.std hmk, List.map_map] at hlab
  have hneed : op.need = cyclesOf cmd := by
    obtain ⟨cmd', a1, _, _, _, _, a2⟩ := rMade H.std hmk
    rw [a1] at e1; cases e1; exact a2
  have hlen : ds.length = cyclesOf cmd := by
    have := congrArg List.length hlab
    simp only [List.length_map, List.length_range] at this
    omega
  have hbeat : ∀ k (hk : k < ds.length), ds[k].tm < n ∧ Outstanding (S ds[k].tm).r.m op ∧
      (((∀ i < c.lanes, f (wordAt c cmd k + i) ≠ none) ∧ ds[k].r.resp = .okay ∧
        ∀ i < c.lanes, ∀ x, f (wordAt c cmd k + i) = some x → UInt8.ofNat (ds[k].r.data / 256 ^ i) = val (S ds[k].tm).mem x) ∨
       ((∃ i < c.lanes, f (wordAt c cmd k + i) = none) ∧ ds[k].r.resp = .slverr ∧ ds[k].r.data = 0)) := by
    intro k hk
    obtain ⟨g1, g2, g3⟩ := h4 _ (List.getElem_mem hk)
    have hq := (readBeat_mapped H.map hpos (H.mem_ok (τ := ds[k].tm) (by omega)) g3).2
    refine ⟨by omega, (hT.minv _).outstanding g2.2, ?_⟩
    have hword : beatWord c.lanes ds[k].at_.1.a ds[k].at_.2 = wordAt c cmd k := by
      have hl : rLab ds[k].at_ = (u, op, k) := by
        have := congrArg (·[k]?) hlab
        simp only [List.getElem?_map, List.getElem?_eq_getElem hk, Option.map_some, List.getElem?_range (show k < op.need by omega),
          Option.some.injEq] at this
        exact this
      have hin : ds[k].at_ ∈ (rGroups c ra (u, op)).flatMap RGrp.atoms := h1 ▸ List.mem_map_of_mem (List.getElem_mem hk)
      obtain ⟨g, hg, ha⟩ := List.mem_flatMap.1 hin
      simp only [RGrp.atoms, List.mem_map] at ha
      obtain ⟨j, _, ha⟩ := ha
      rw [← ha] at hl ⊢
      unfold rGroups at hg
      simp only [e1] at hg
      obtain ⟨p, hp, rfl⟩ := List.mem_map.1 hg
      simp only [rLab, Prod.mk.injEq, true_and] at hl
      simp only [beatWord, beatAddr_aAt c cmd u e4, hl]
      rfl
    rw [hword] at hq
    exact hq
  have hts : (ds.map (·.tm)).length = cyclesOf cmd := by rw [List.length_map, hlen]
  have hget : ∀ k (hk : k < ds.length), (ds.map (·.tm)).getD k 0 = ds[k].tm := by
    intro k hk
    rw [List.getD_eq_getElem?_getD, List.getElem?_map, List.getElem?_eq_getElem hk]; rfl
  have hf : FramedR ((processRead c 0 cmd).1.map (·.beats)) got := by
    have hout := rGroups_out H.std hmk 0 e1
    have hfr : FramedR ((rGroups c ra (u, op)).map (·.a.beats)) got := by
      refine framed_beats _ got ?_
      rw [← h2, ← h1, List.map_map, List.map_map]
      refine List.map_congr_left ?_
      intro d hdm
      exact (h4 d hdm).2.2.2.1
    rw [hout]
    have hb : ∀ v, (rGroups c ra (v, op)).map (·.a.beats) = (segs c cmd 0).map fun p => blAt c cmd p.1 - 1 + 1 := by
      intro v
      unfold rGroups
      simp only [e1, List.map_map]
      rfl
    rw [List.map_map]
    show FramedR ((rGroups c ra ((op.id?).getD 0, op)).map (·.a.beats)) got
    rw [hb, ← hb u]; exact hfr
  have hres := readResult_spec c cmd e2 ((segs c cmd 0).map (·.2)) got [] (by
    intro L hL
    obtain ⟨p, hp, rfl⟩ := List.mem_map.1 hL
    obtain ⟨q1, q2⟩ := mem_segs c cmd 0 (Nat.zero_le _) p hp
    have := blAt_bounds c cmd p.1 q1
    omega) (by
    rw [processRead_spec] at hf
    simp only at hf
    rw [← burstList_segs c cmd _ 0 (Nat.zero_le _)] at hf
    exact hf)
  rw [List.append_nil] at hres
  have hlast : foldResp .okay (got.map (·.resp)) = lastNonOkay (got.map (·.resp)) := foldResp_last _ _
  rw [hlast] at hres
  have hresp : ∀ r ∈ got.map (·.resp), ∃ k, ∃ hk : k < ds.length, r = ds[k].r.resp := by
    intro r hr
    rw [← h2, List.map_map] at hr
    obtain ⟨d, hdm, rfl⟩ := List.mem_map.1 hr
    obtain ⟨k, hk, rfl⟩ := List.getElem_of_mem hdm
    exact ⟨k, hk, rfl⟩
  have hrespOf : ∀ k (hk : k < ds.length), ds[k].r.resp ∈ got.map (·.resp) := by
    intro k hk
    rw [← h2, List.map_map]
    exact List.mem_map.2 ⟨ds[k], List.getElem_mem hk, rfl⟩
  have hcol := collect_vals e2 (fun k => (got[k]?.map (·.data)).getD 0) got 0 (by
    intro i r hi
    simp only [Nat.zero_add, hi, Option.map_some, Option.getD_some])
  have hgl : got.length = cyclesOf cmd := by rw [← h2, List.length_map, hlen]
  have hgd : ∀ k (hk : k < ds.length), (got[k]?.map (·.data)).getD 0 = ds[k].r.data := by
    intro k hk
    rw [← h2, List.getElem?_map, List.getElem?_eq_getElem hk]; rfl
  have hlo0 : loAt cmd 0 = A := by
    have := gLo_zero (2 ^ cmd.size) cmd.address
    rw [e5] at this
    simp only [loAt, e5, A]
    exact this
  have hcov := gCycles_cover (2 ^ cmd.size) cmd.address cmd.length e2.geo.nbPos
  rw [← cyclesOf_eq] at hcov
  have hN : cmd.length = N := e3
  have hA : cmd.address = A := e5
  rw [Nat.zero_add, hgl, hlo0] at hcol
  have hdata : (collect c cmd 0 got).take cmd.length =
      (List.range N).map fun i => UInt8.ofNat ((got[beatNo cmd (A + i)]?.map (·.data)).getD 0 / 256 ^ ((A + i) % c.lanes)) := by
    rw [hcol]
    apply List.ext_getElem
    · simp only [List.length_take, List.length_map, List.length_range', List.length_range]; omega
    · intro i i1 i2
      simp only [List.getElem_take, List.getElem_map, List.getElem_range', List.getElem_range, Nat.one_mul]
  /- the bus word of a byte -/
  have hw : ∀ i < N, (A + i) / c.lanes * c.lanes = wordAt c cmd (beatNo cmd (A + i)) := by
    intro i hi
    obtain ⟨b1, b2, b3, b4⟩ := beatNo_spec e2 (x := A + i) (by omega) (by omega)
    have hg := gBox_succ (2 ^ cmd.size) cmd.address (beatNo cmd (A + i))
    simp only [loAt, gLo, hiAt, gHi] at b2 b3
    exact gWord_eq e2.geo (by omega) (by omega)
  have hwm : ∀ i < N, (WordMapped c f (A + i) ↔ ∀ j < c.lanes, f (wordAt c cmd (beatNo cmd (A + i)) + j) ≠ none) := by
    intro i hi
    rw [← hw i hi]
    constructor
    · intro h j hj
      exact h _ ((word_of_byte hpos).2 ⟨j, hj, rfl⟩)
    · intro h y hy
      obtain ⟨j, hj, rfl⟩ := (word_of_byte hpos).1 hy
      exact h j hj
  refine ⟨(collect c cmd 0 got).take cmd.length, lastNonOkay (got.map (·.resp)), ⟨cmd, 0, got.map (·.user), e1, ?_⟩, ?_, ?_, ?_,
    fun i => (ds.map (·.tm)).getD (beatNo cmd (A + i)) 0, ?_⟩
  · rw [processRead_spec]; exact hres
  · rw [hdata]; simp
  · refine lastNonOkay_two ?_
    intro r hr
    obtain ⟨k, hk, rfl⟩ := hresp r hr
    rcases (hbeat k hk).2.2 with h | h
    · exact .inl h.2.1
    · exact .inr h.2.1
  · intro hN0
    rw [lastNonOkay_okay_iff]
    constructor
    · intro h i hi
      obtain ⟨b1, b2, b3, b4⟩ := beatNo_spec e2 (x := A + i) (by omega) (by omega)
      have hk : beatNo cmd (A + i) < ds.length := by omega
      rw [hwm i hi]
      rcases (hbeat _ hk).2.2 with h' | h'
      · exact h'.1
      · have := h _ (hrespOf _ hk)
        rw [h'.2.1] at this
        cases this
    · intro h r hr
      obtain ⟨k, hk, rfl⟩ := hresp r hr
      have hkc : k < cyclesOf cmd := by omega
      have hlt : loAt cmd k < hiAt cmd k := lo_lt_hi e2 (by omega) hkc
      obtain ⟨z1, z2, z3⟩ := (beat_bytes e2 hkc (loAt cmd k)).1 ⟨Nat.le_refl _, hlt⟩
      have hi : loAt cmd k - A < N := by omega
      have hsum : A + (loAt cmd k - A) = loAt cmd k := by omega
      have hbn : beatNo cmd (A + (loAt cmd k - A)) = k := by
        obtain ⟨_, _, _, c4⟩ := beatNo_spec e2 (x := A + (loAt cmd k - A)) (by omega) (by omega)
        rw [hsum] at c4 ⊢
        omega
      have hm := (hwm _ hi).1 (h _ hi)
      rw [hbn] at hm
      rcases (hbeat k hk).2.2 with h' | ⟨⟨j, hj, hn⟩, _⟩
      · exact h'.2.1
      · exact absurd hn (hm j hj)
  · intro i hi
    obtain ⟨b1, b2, b3, b4⟩ := beatNo_spec e2 (x := A + i) (by omega) (by omega)
    have hk : beatNo cmd (A + i) < ds.length := by omega
    have hb := hbeat _ hk
    have hmod : wordAt c cmd (beatNo cmd (A + i)) + (A + i) % c.lanes = A + i := by
      rw [← hw i hi, Nat.mul_comm]; exact Nat.div_add_mod ..
    rw [← hget _ hk] at hb
    refine ⟨hb.1, hb.2.1, ?_, ?_, ?_⟩
    · intro hm x hx
      rw [hdata, List.getElem?_map, List.getElem?_range hi, Option.map_some, hgd _ hk]
      rcases hb.2.2 with h' | ⟨⟨j, hj, hn⟩, _⟩
      · congr 1
        exact h'.2.2 _ (Nat.mod_lt _ hpos) x (by rw [hmod]; exact hx)
      · exact absurd hn ((hwm i hi).1 hm j hj)
    · intro hm
      rw [hdata, List.getElem?_map, List.getElem?_range hi, Option.map_some, hgd _ hk]
      rcases hb.2.2 with h' | ⟨_, _, h'⟩
      · exact absurd ((hwm i hi).2 h'.1) hm
      · rw [h', Nat.zero_div]; rfl
    · intro j hj
      obtain ⟨c1, c2, c3, c4⟩ := beatNo_spec e2 (x := A + j) (by omega) (by omega)
      simp only
      rw [ascending_iff h3 (by omega) (by omega)]
      simp only [nb, ← e7, b4, c4]
      omega

theorem MapCalls.change (H : MapCalls c wa ra t s0 evs good f val n) (τ : Nat) (x : κ) (hτ : τ < n)
    (hne : val (S (τ + 1)).mem x ≠ val (S τ).mem x) :
    ∃ op, (Outstanding (S τ).w.m op ∧ ∃ g, (wOpen c wa (S τ).w).head? = some g ∧ g.op = op) ∧
      ∃ b, Covers wa op b ∧ f b = some x ∧ (wa op.key).data[b - (wa op.key).req.address.toNat]? = some (val (S (τ + 1)).mem x) := by
  rcases Sys.mem_map H (by omega) (H.mem_ok (τ := τ) (by omega)) with h | ⟨op, h1, _, h3⟩
  · rw [h] at hne; exact absurd rfl hne
  · rcases h3 x with h | ⟨y, y1, y2, y3⟩
    · exact absurd h hne
    · exact ⟨op, h1, y, y1, y2, y3.symm⟩

/-- **C102, nothing else.** A cell changes only at an instant at which a write covering the address that designates it is outstanding,
and to the byte that this write has for it. In particular reads, and writes elsewhere, change nothing. -/
theorem C102_changes (H : MapCalls c wa ra t s0 evs good f val n) (τ : Nat) (x : κ) (hτ : τ < n)
    (hne : val (S (τ + 1)).mem x ≠ val (S τ).mem x) :
    ∃ op, Outstanding (S τ).w.m op ∧ ∃ b, Covers wa op b ∧ f b = some x ∧
      (wa op.key).data[b - (wa op.key).req.address.toNat]? = some (val (S (τ + 1)).mem x) := by
  obtain ⟨op, h1, h2⟩ := H.change τ x hτ hne
  exact ⟨op, h1.1, h2⟩

/-- From its completion on, the bytes of a write stay, unless another write covering them is issued later. -/
theorem MapCalls.stays (H : MapCalls c wa ra t s0 evs good f val n) (wop : Op) (wgot : List BBeat) (k : Nat) (hk : k ≤ n)
    (hw : (wop, some wgot) ∈ (S k).w.m.results) (b : Nat) (x : κ) (hx : f b = some x) (hb : Covers wa wop b)
    (hm : BeatMapped c wa f wop b)
    (hlast : ∀ op ∈ (S n).w.m.issued, Covers wa op b → op = wop ∨ Before (S n).w.m op wop)
    (q : Nat) (hq : k ≤ q) (hqn : q ≤ n) :
    some (val (S q).mem x) = (wa wop.key).data[b - (wa wop.key).req.address.toNat]? := by
  obtain ⟨hb1, hb2⟩ := hb
  obtain ⟨_, tw, W⟩ := (H.mono hk).write wop wgot hw
  obtain ⟨⟨w1, g, w0, wg⟩, w2, w3, _⟩ := W (b - (wa wop.key).req.address.toNat) (by omega)
  rw [show (wa wop.key).req.address.toNat + (b - (wa wop.key).req.address.toNat) = b by omega] at w3
  have w3 := w3 hm x hx
  generalize htw : tw (b - (wa wop.key).req.address.toNat) = a at *
  obtain ⟨d, rfl⟩ := Nat.exists_eq_add_of_le (show a + 1 ≤ q by omega)
  clear hq
  induction d with
  | zero => exact w3
  | succ d ih =>
    have ih := ih (by omega)
    by_cases hch : val (S (a + 1 + d + 1)).mem x = val (S (a + 1 + d)).mem x
    · rw [← Nat.add_assoc, hch]; exact ih
    · obtain ⟨op, ⟨o1, g', o0, og⟩, y, o2, o3, o4⟩ := H.change (a + 1 + d) x (by omega) hch
      have hy := H.map.inj _ _ _ o3 hx
      subst hy
      rcases hlast op ((H.issuedW (by omega)).1.subset o1.1) o2 with heq | hbef
      · subst heq
        rw [← Nat.add_assoc, ← o4]
      · exfalso
        subst wg og
        have := H.traceW.served.order o0 w0 (N := n) (by omega) hbef
        omega

/-- **C103: a read returns what was written.** Let a write have completed by instant `k`, and a read be issued after `k` and have
completed. Address `b` of both: if its beat of the write and its bus word are mapped, and every other write covering it was issued
before that write (complete or not, successful or not), the read returns that byte of the written data. -/
theorem C103_read_your_writes (H : MapCalls c wa ra t s0 evs good f val n) (wop : Op) (wgot : List BBeat) (k : Nat) (hk : k ≤ n)
    (hw : (wop, some wgot) ∈ (S k).w.m.results)
    (rop : Op) (rgot : List RBeat) (hlate : rop ∉ (S k).r.m.issued) (hr : (rop, some rgot) ∈ (S n).r.m.results)
    (b : Nat) (hb : Covers wa wop b) (hm : BeatMapped c wa f wop b) (hwm : WordMapped c f b)
    (hb3 : (ra rop.key).address.toNat ≤ b) (hb4 : b < (ra rop.key).address.toNat + (ra rop.key).length.toNat)
    (hlast : ∀ op ∈ (S n).w.m.issued, Covers wa op b → op = wop ∨ Before (S n).w.m op wop) :
    ∃ data resp, returnsR c (ra rop.key) rgot data resp ∧
      data[b - (ra rop.key).address.toNat]? = (wa wop.key).data[b - (wa wop.key).req.address.toNat]? := by
  obtain ⟨data, resp, d1, d2, _, _, tr, R⟩ := C102_read H rop rgot hr
  obtain ⟨r1, r2, r3, _⟩ := R (b - (ra rop.key).address.toNat) (by omega)
  refine ⟨data, resp, d1, ?_⟩
  rw [show (ra rop.key).address.toNat + (b - (ra rop.key).address.toNat) = b by omega] at r3
  obtain ⟨x, hx⟩ := Option.ne_none_iff_exists'.1 (hwm b rfl)
  rw [r3 hwm x hx]
  refine H.stays wop wgot k hk hw b x hx hb hm hlast _ ?_ (by omega)
  rcases Nat.lt_or_ge k (tr (b - (ra rop.key).address.toNat)) with h | h
  · omega
  · exact absurd ((H.issuedR h).1.subset r2.1) hlate

/-- **C103: the last write prevails.** Among the writes covering an address, let `w` be the one issued last. When `w` has completed and
its beat is mapped, the cell contains its byte, whatever the others did. -/
theorem C103_last_write (H : MapCalls c wa ra t s0 evs good f val n) (b : Nat) (x : κ) (hx : f b = some x)
    (l1 l2 : List Op) (w : Op) (he : (S n).w.m.issued = l1 ++ w :: l2) (h1 : Covers wa w b) (h2 : ∀ op ∈ l2, ¬ Covers wa op b)
    (got : List BBeat) (hgot : (w, some got) ∈ (S n).w.m.results) (hm : BeatMapped c wa f w b) :
    some (val (S n).mem x) = (wa w.key).data[b - (wa w.key).req.address.toNat]? := by
  refine H.stays w got n (Nat.le_refl _) hgot b x hx h1 hm ?_ n (Nat.le_refl _) (Nat.le_refl _)
  intro op hop hcov
  rw [he] at hop
  rcases List.mem_append.1 hop with hop | hop
  · refine .inr ?_
    unfold Before
    rw [he]
    exact (List.singleton_sublist.2 hop).append (List.singleton_sublist.2 List.mem_cons_self)
  · rcases List.mem_cons.1 hop with hop | hop
    · exact .inl hop
    · exact absurd hcov (h2 op hop)

/-- **C103: no write, no change.** A cell whose address no issued write covers is as it was at the beginning. -/
theorem C103_untouched (H : MapCalls c wa ra t s0 evs good f val n) (x : κ)
    (hno : ∀ op ∈ (S n).w.m.issued, ∀ b, f b = some x → ¬ Covers wa op b) : val (S n).mem x = val s0 x := by
  have : ∀ q, q ≤ n → val (S q).mem x = val s0 x := by
    intro q
    induction q with
    | zero => intro _; rfl
    | succ q ih =>
      intro hq
      by_cases hch : val (S (q + 1)).mem x = val (S q).mem x
      · rw [hch]; exact ih (by omega)
      · obtain ⟨op, o1, b, o2, o3, _⟩ := C102_changes H q x (by omega) hch
        exact absurd o2 (hno op ((H.issuedW (by omega)).1.subset o1.1) b o3)
  exact this n (Nat.le_refl _)

/-- **C104 (partial).** If the address map consists of whole bus words, then a read of mapped addresses is given OKAY and what the cells
contained at instants at which it was outstanding. Missing: maps whose regions begin or end inside a bus word, for which it is
false (`C104_violated`). -/
theorem C104_mapped_read_partial (H : MapCalls c wa ra t s0 evs good f val n)
    (hwords : ∀ x y, x / c.lanes = y / c.lanes → f x ≠ none → f y ≠ none) (op : Op) (got : List RBeat)
    (hr : (op, some got) ∈ (S n).r.m.results) (hN : 0 < (ra op.key).length)
    (hmap : ∀ i < (ra op.key).length.toNat, f ((ra op.key).address.toNat + i) ≠ none) :
    ∃ data : Bytes, returnsR c (ra op.key) got data .okay ∧ data.length = (ra op.key).length.toNat ∧
      ∃ τ : Nat → Nat, ∀ i < (ra op.key).length.toNat, τ i < n ∧ Outstanding (S (τ i)).r.m op ∧
        ∀ x, f ((ra op.key).address.toNat + i) = some x → data[i]? = some (val (S (τ i)).mem x) := by
  obtain ⟨data, resp, h1, h2, _, h3, τ, h4⟩ := C102_read H op got hr
  have hw : ∀ i < (ra op.key).length.toNat, WordMapped c f ((ra op.key).address.toNat + i) :=
    fun i hi y hy => hwords _ y hy.symm (hmap i hi)
  have := (h3 (by omega)).2 hw
  subst this
  exact ⟨data, h1, h2, τ, fun i hi => ⟨(h4 i hi).1, (h4 i hi).2.1, (h4 i hi).2.2.1 (hw i hi)⟩⟩

end mapped

/-! The history `exEvs` of `Props/AxiSystem.lean`, on the address space `exSpace` of `Props/Mapped.lean` (two memories and a hole from 8 on):
the first write runs into the hole, and so does the read. -/

section example_

open Verif.AddressSpace (exSpace exHeap exMap exS)

def exT : Target Heap := Target.ofIface exSpace.toIface
def exRGotM : List RBeat := [⟨0, 33621767, .okay, false, 0⟩, ⟨0, 102176277, .okay, true, 0⟩, ⟨0, 0, .slverr, true, 0⟩]

theorem exIssuedM : (Sys.at exC exW exR exT exHeap exEvs 53).w.m.issued = [exW0, exW1] ∧
    (Sys.at exC exW exR exT exHeap exEvs 53).r.m.issued = [exR0] := by decide +kernel

theorem exMapCalls : MapCalls exC exW exR exT exHeap exEvs (Good exS) exMap cell 53 where
  std := exC_std
  ids := exIds
  map := AddressSpace.exMapped
  init := AddressSpace.exGood
  w := by
    rw [exIssuedM.1]
    intro op hop
    rw [List.mem_cons, List.mem_singleton] at hop
    rcases hop with rfl | rfl <;> decide
  r := by
    rw [exIssuedM.2]
    intro op hop
    rw [List.mem_singleton] at hop
    subst hop; decide

/-- The results: the first write failed, the second one did not, the read failed. -/
theorem exResultsM : (Sys.at exC exW exR exT exHeap exEvs 53).w.m.results =
      [(exW0, some [⟨0, .okay, 0⟩, ⟨0, .slverr, 0⟩]), (exW1, some [⟨0, .okay, 0⟩])] ∧
    (Sys.at exC exW exR exT exHeap exEvs 24).w.m.results = [(exW0, some [⟨0, .okay, 0⟩, ⟨0, .slverr, 0⟩])] ∧
    (Sys.at exC exW exR exT exHeap exEvs 53).r.m.results = [(exR0, some exRGotM)] ∧
    (Sys.at exC exW exR exT exHeap exEvs 24).r.m.issued = [] := by decide +kernel

/-- C102 applies: the first write is given SLVERR. -/
example : ∃ resp, (exW 0).returns exC [⟨0, .okay, 0⟩, ⟨0, .slverr, 0⟩] resp ∧ resp = .slverr := by
  obtain ⟨⟨resp, h1, h2, h3⟩, _⟩ := C102_write exMapCalls exW0 [⟨0, .okay, 0⟩, ⟨0, .slverr, 0⟩] (by rw [exResultsM.1]; simp)
  refine ⟨resp, h1, h2.resolve_left fun h => ?_⟩
  exact h3.1 h 6 (by decide) (by decide)

/-- … and the read returns zeros for the addresses from 8 on. -/
example : ∃ data resp, returnsR exC (exR 0) exRGotM data resp ∧ resp = .slverr ∧ data[8]? = some 0 := by
  obtain ⟨data, resp, h1, h2, h3, h4, τ, h5⟩ := C102_read exMapCalls exR0 exRGotM (by rw [exResultsM.2.2.1]; simp)
  have hn : ¬ WordMapped exC exMap ((exR 0).address.toNat + 8) := fun h => h 9 (by decide) (by decide)
  refine ⟨data, resp, h1, h3.resolve_left fun h => ?_, (h5 8 (by decide)).2.2.2.1 hn⟩
  exact hn ((h4 (by decide)).1 h 8 (by decide))

theorem exWord0 (b : Nat) (hb : b < 8) : WordMapped exC exMap b := by
  intro y hy h
  simp only [exMap] at h
  split at h
  · cases h
  · simp only [exC] at hy
    omega

/-- C103 applies to address 3, although the write failed and so did the read. -/
example : ∃ data resp, returnsR exC (exR 0) exRGotM data resp ∧ data[2]? = some 2 :=
  C103_read_your_writes exMapCalls exW0 [⟨0, .okay, 0⟩, ⟨0, .slverr, 0⟩] 24 (by decide) (by rw [exResultsM.2.1]; simp) exR0 exRGotM
    (by rw [exResultsM.2.2.2]; simp) (by rw [exResultsM.2.2.1]; simp) 3 ⟨by decide, by decide⟩
    (fun y _ hy => exWord0 3 (by omega) y hy) (exWord0 3 (by omega)) (by decide) (by decide) (by
      rw [exIssuedM.1]
      intro op hop h
      rw [List.mem_cons, List.mem_singleton] at hop
      rcases hop with rfl | rfl
      · exact .inl rfl
      · exact absurd h.1 (by decide))

/-- … and the second write prevails at address 5; memory 0 is untouched at offset 0. -/
example : some (cell (Sys.at exC exW exR exT exHeap exEvs 53).mem (1, 1)) = some 22 ∧
    cell (Sys.at exC exW exR exT exHeap exEvs 53).mem (0, 0) = cell exHeap (0, 0) := by
  constructor
  · exact C103_last_write exMapCalls 5 (1, 1) rfl [exW0] [] exW1 exIssuedM.1 ⟨by decide, by decide⟩ (by simp) [⟨0, .okay, 0⟩]
      (by rw [exResultsM.1]; simp) (fun y _ hy => exWord0 5 (by omega) y hy)
  · refine C103_untouched exMapCalls (0, 0) ?_
    rw [exIssuedM.1]
    intro op hop b hb hc
    have hb0 : b = 0 := AddressSpace.exMapped.inj b 0 _ hb rfl
    subst hb0
    rw [List.mem_cons, List.mem_singleton] at hop
    rcases hop with rfl | rfl <;> exact absurd hc.1 (by decide)

/-! C104: a memory region of 6 bytes on a bus of 4 byte lanes. -/

def exT6 : Target Heap := Target.ofIface (memoryRegion 6 none 0)
def exW6 : Nat → WArgs := fun _ => { req := { address := 4, length := 0 }, data := [1, 2] }
def exR6 : Nat → Req := fun _ => { address := 4, length := 2 }
def exEvs6 : List Ev :=
  [.w (.reset false), .r (.reset false), .w .write, .w .take, .w .sendAW, .w .slaveAW, .w .sendW, .w .slaveW, .w .slaveB, .w .start,
   .w .deliver, .w (.workTake 0), .w (.workGet 0), .w (.workDone 0), .r .read, .r .take, .r .sendAR, .r .start, .r .slaveAR,
   .r .slaveR, .r .deliver, .r (.workTake 0), .r (.workGet 0), .r (.workDone 0)]
def exOp6 : Op := { key := 0, bursts := [0] }

/-- **C104 is false of the code**: the addresses 4 and 5 are mapped, the write to them is given OKAY and is stored, and then the
read of them is given SLVERR and zeros. -/
theorem C104_violated : ∃ (c : Cfg) (wa : Nat → WArgs) (ra : Nat → Req) (size : Nat) (h0 : Heap) (evs : List Ev) (n : Nat) (op : Op)
    (got : List RBeat) (data : Bytes),
    let t := Target.ofIface (memoryRegion size none 0)
    let f : Nat → Option (Nat × Nat) := fun x => if x < size then some (0, x) else none
    MapCalls c wa ra t h0 evs (Good fun _ => (false, size)) f cell n ∧
    (∀ i < (ra op.key).length.toNat, f ((ra op.key).address.toNat + i) ≠ none) ∧
    (∃ wgot, (op, some wgot) ∈ (Sys.at c wa ra t h0 evs n).w.m.results ∧ (wa op.key).returns c wgot .okay) ∧
    (wa op.key).req.address = (ra op.key).address ∧ (wa op.key).data = [1, 2] ∧
    cell (Sys.at c wa ra t h0 evs n).mem (0, 4) = 1 ∧ cell (Sys.at c wa ra t h0 evs n).mem (0, 5) = 2 ∧
    (op, some got) ∈ (Sys.at c wa ra t h0 evs n).r.m.results ∧ returnsR c (ra op.key) got data .slverr ∧ data = [0, 0] := by
  refine ⟨exC, exW6, exR6, 6, fun _ => .buf (List.replicate 6 7), exEvs6, 24, exOp6, [⟨0, 0, .slverr, true, 0⟩], [0, 0], ?_⟩
  have hW : (Sys.at exC exW6 exR6 exT6 (fun _ => .buf (List.replicate 6 7)) exEvs6 24).w.m.issued = [exOp6] := by decide +kernel
  have hR : (Sys.at exC exW6 exR6 exT6 (fun _ => .buf (List.replicate 6 7)) exEvs6 24).r.m.issued = [exOp6] := by decide +kernel
  have hWr : (Sys.at exC exW6 exR6 exT6 (fun _ => .buf (List.replicate 6 7)) exEvs6 24).w.m.results =
    [(exOp6, some [⟨0, .okay, 0⟩])] := by decide +kernel
  have hRr : (Sys.at exC exW6 exR6 exT6 (fun _ => .buf (List.replicate 6 7)) exEvs6 24).r.m.results =
    [(exOp6, some [⟨0, 0, .slverr, true, 0⟩])] := by decide +kernel
  have hc : cell (Sys.at exC exW6 exR6 exT6 (fun _ => .buf (List.replicate 6 7)) exEvs6 24).mem (0, 4) = 1 ∧
    cell (Sys.at exC exW6 exR6 exT6 (fun _ => .buf (List.replicate 6 7)) exEvs6 24).mem (0, 5) = 2 := by decide +kernel
  have H : MapCalls exC exW6 exR6 exT6 (fun _ => .buf (List.replicate 6 7)) exEvs6 (Good fun _ => (false, 6))
      (fun x => if x < 6 then some (0, x) else none) cell 24 := by
    refine ⟨exC_std, ⟨fun k => by simp [exW6], fun k => by simp [exR6]⟩,
      (AddressSpace.C102_region (fun _ => (false, 6)) 6 none 0 (Nat.le_refl _)).1, fun k => ⟨⟨rfl, trivial⟩, rfl⟩, ?_, ?_⟩
    · rw [hW]; intro op hop; rw [List.mem_singleton] at hop; subst hop; rfl
    · rw [hR]; intro op hop; rw [List.mem_singleton] at hop; subst hop; rfl
  have m1 : (exOp6, some [⟨0, .okay, 0⟩]) ∈ (Sys.at exC exW6 exR6 exT6 (fun _ => .buf (List.replicate 6 7)) exEvs6 24).w.m.results := by
    rw [hWr]; simp
  have m2 : (exOp6, some [⟨0, 0, .slverr, true, 0⟩]) ∈
      (Sys.at exC exW6 exR6 exT6 (fun _ => .buf (List.replicate 6 7)) exEvs6 24).r.m.results := by
    rw [hRr]; simp
  have hm : ∀ i < 2, (if 4 + i < 6 then some (0, 4 + i) else none) ≠ none := by
    intro i hi
    rw [if_pos (by omega)]
    exact Option.some_ne_none _
  obtain ⟨⟨resp, w1, _, w2⟩, _⟩ := C102_write H exOp6 _ m1
  have w3 := w2.2 hm
  obtain ⟨data, resp', r1, r2, r3, r4, τ, r5⟩ := C102_read H exOp6 _ m2
  have hn : ∀ i < 2, ¬ WordMapped exC (fun x => if x < 6 then some (0, x) else none) (4 + i) := by
    intro i hi h
    exact h 7 (by simp only [exC]; omega) rfl
  have r6 : resp' = .slverr := r3.resolve_left fun h => hn 0 (by omega) ((r4 (by decide)).1 h 0 (by decide))
  have r7 : data = [0, 0] := by
    have d0 := (r5 0 (by decide)).2.2.2.1 (hn 0 (by omega))
    have d1 := (r5 1 (by decide)).2.2.2.1 (hn 1 (by omega))
    have d2 : data.length = 2 := r2
    match data, d2, d0, d1 with
    | [a, b], _, d0, d1 => simp at d0 d1; rw [d0, d1]
  subst w3 r6 r7
  exact ⟨H, hm, ⟨_, m1, w1⟩, rfl, rfl, hc.1, hc.2, m2, r1, rfl⟩

end example_

end Verif.AxiSys
