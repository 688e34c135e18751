import Verif.Proof.AxiSysRam
import Verif.Props.AxiSystem
import Verif.Props.LiteSystem

/-!
# C90 - C92: an AXI master connected to a RAM, with concurrent operations
-/

namespace Verif.AxiSys

open Verif.Axi Verif.AxiOps Verif.AxiOps.Master

/-- An AXI master connected to a RAM, after the first `n` of the events. -/
def ramAt (c : Cfg) (wa : Nat → WArgs) (ra : Nat → Req) (m0 : Memory) (evs : List Ev) (n : Nat) : Sys Memory :=
  Sys.at c wa ra ramTarget m0 evs n

variable {c : Cfg}

theorem acceptWrite_size (hc : c.Std) {r : Req} {data : Bytes} {wuser : WUser} {cmd : Cmd}
    (h : acceptWrite c r data wuser = .ok cmd) : 2 ^ cmd.size = beatBytes c r := by
  obtain ⟨_, _, rfl⟩ := (C29_write_iff c hc ..).1 h
  obtain ⟨w, hw, _⟩ := hc
  have hm : 2 ^ c.maxBurstSize = c.lanes := by rw [Cfg.maxBurstSize, hw, bitLength_pow]
  simp only [cmdOf, beatBytes]
  cases r.size with
  | none => exact hm
  | some s =>
    simp only
    split
    · exact hm
    · rfl

theorem acceptRead_size (hc : c.Std) {r : Req} {cmd : Cmd} (h : acceptRead c r = .ok cmd) : 2 ^ cmd.size = beatBytes c r := by
  obtain ⟨_, rfl⟩ := (C29_accept_iff c hc ..).1 h
  obtain ⟨w, hw, _⟩ := hc
  have hm : 2 ^ c.maxBurstSize = c.lanes := by rw [Cfg.maxBurstSize, hw, bitLength_pow]
  simp only [cmdOf, beatBytes]
  cases r.size with
  | none => exact hm
  | some s =>
    simp only
    split
    · exact hm
    · rfl

/-- In a strictly ascending list, positions and values are ordered alike. -/
theorem ascending_iff {ts : List Nat} (h : ts.Pairwise (· < ·)) {i j : Nat} (hi : i < ts.length) (hj : j < ts.length) :
    ts.getD i 0 < ts.getD j 0 ↔ i < j := by
  have hv : ts.getD i 0 = ts[i] := by simp [List.getD_eq_getElem?_getD, hi]
  have hv' : ts.getD j 0 = ts[j] := by simp [List.getD_eq_getElem?_getD, hj]
  rw [hv, hv']
  rw [List.pairwise_iff_getElem] at h
  constructor
  · intro hlt
    rcases Nat.lt_trichotomy i j with h1 | h1 | h1
    · exact h1
    · subst h1; omega
    · have := h j i hj hi h1; omega
  · exact fun hlt => h i j hi hj hlt

theorem bytesAt_get {cmd : Cmd} (h : CmdOK c cmd) {data : Bytes} (hlen : data.length = cmd.length) {x : Nat}
    (h1 : cmd.address ≤ x) {k : Nat} (hk : k < cyclesOf cmd) (h3 : loAt cmd k ≤ x) (h4 : x < hiAt cmd k) (m : FlatMem) :
    some (m.store (loAt cmd k) (bytesAt cmd data k) x) = data[x - cmd.address]? := by
  have hbl := bytesAt_length c cmd data h hlen hk
  obtain ⟨b1, b2, b3, b4, b5, b6, b7⟩ := beat_bounds h.geo hk
  have b3' : cmd.address ≤ loAt cmd k := b3
  rw [LiteOps.store_at (by omega)]
  simp only [bytesAt]
  rw [List.getElem?_take, if_pos (by omega), List.getElem?_drop]
  congr 1
  omega

section shared

variable {p : Nat → WPort} {pr : Nat → RPort} {μ : Nat → Memory} {wa : Nat → WArgs} {ra : Nat → Req} {n sz : Nat} {op : Op}

theorem WTrace.issued_of_result {r : Option (List BBeat)} (hT : WTrace c wa ramTarget p μ)
    (hr : (op, r) ∈ (p n).m.results) : op ∈ (p n).m.issued :=
  (hT.minv n).inv.acct.mem_iff.2 (List.mem_append_left _ (List.mem_map_of_mem (f := (·.1)) hr))

theorem RTrace.issued_of_result {r : Option (List RBeat)} (hT : RTrace c ra ramTarget pr μ)
    (hr : (op, r) ∈ (pr n).m.results) : op ∈ (pr n).m.issued :=
  (hT.minv n).inv.acct.mem_iff.2 (List.mem_append_left _ (List.mem_map_of_mem (f := (·.1)) hr))

/-- The command of an issued write. -/
theorem WTrace.cmd (hT : WTrace c wa ramTarget p μ) (ho : op ∈ (p n).m.issued) (hb : (wa op.key).req.burst = 1)
    (hfit : (wa op.key).req.address.toNat + (wa op.key).data.length ≤ sz) :
    ∃ cmd, acceptWrite c (wa op.key).req (wa op.key).data (wa op.key).wuser = .ok cmd ∧ CmdOK c cmd ∧
      (wa op.key).data.length = cmd.length ∧ cmd.burst = .incr ∧ cmd.address = (wa op.key).req.address.toNat ∧
      cmd.address + cmd.length ≤ sz ∧ 2 ^ cmd.size = beatBytes c (wa op.key).req := by
  obtain ⟨cmd, h1, _⟩ := wMade hT.std ((hT.minv n).madeOf ho)
  obtain ⟨g1, _, g3, g4, g5, _⟩ := acceptWrite_ok hT.std h1
  exact ⟨cmd, h1, g1, g3, g5 hb, by omega, by omega, acceptWrite_size hT.std h1⟩

theorem RTrace.cmd (hT : RTrace c ra ramTarget pr μ) (ho : op ∈ (pr n).m.issued) (hb : (ra op.key).burst = 1)
    (hfit : (ra op.key).address.toNat + (ra op.key).length.toNat ≤ sz) :
    ∃ cmd, acceptRead c (ra op.key) = .ok cmd ∧ CmdOK c cmd ∧
      cmd.length = (ra op.key).length.toNat ∧ cmd.burst = .incr ∧ cmd.address = (ra op.key).address.toNat ∧
      cmd.address + cmd.length ≤ sz ∧ 2 ^ cmd.size = beatBytes c (ra op.key) := by
  obtain ⟨cmd, h1, _⟩ := rMade hT.std ((hT.minv n).madeOf ho)
  obtain ⟨g1, _, g3, g4, g5, _⟩ := acceptRead_ok hT.std h1
  exact ⟨cmd, h1, g1, by omega, g5 hb, by omega, by omega, acceptRead_size hT.std h1⟩

/-- A completed write, on a RAM that others may access too. -/
theorem WTrace.ram_write (hT : WTrace c wa ramTarget p μ) (hmem : ∀ τ < n, (μ τ).WF ∧ (μ τ).size = sz) (hs : 0 < sz)
    (hb : (wa op.key).req.burst = 1) (hfit : (wa op.key).req.address.toNat + (wa op.key).data.length ≤ sz)
    {got : List BBeat} (hr : (op, some got) ∈ (p n).m.results) :
    let A := (wa op.key).req.address.toNat
    let d := (wa op.key).data
    let nb := beatBytes c (wa op.key).req
    (wa op.key).returns c got .okay ∧ ∃ t : Nat → Nat, ∀ i < d.length,
      (t i < n ∧ ∃ g, (wOpen c wa (p (t i))).head? = some g ∧ g.op = op) ∧
      Outstanding (p (t i)).m op ∧ some ((μ (t i + 1)).contents (A + i)) = d[i]? ∧
      ∀ j < d.length, (t i < t j ↔ (A + i) / nb < (A + j) / nb) := by
  intro A d nb
  have hS := hs
  obtain ⟨J, hJ, u, hd⟩ := hT.seq.result hr
  obtain ⟨hmk, htk, ds, h1, h2, h3, h4, h5⟩ := hT.done hd
  have hiss : op ∈ (p n).m.issued := (hT.seq.grows hJ).1.subset ((hT.minv J).taken_issued htk)
  obtain ⟨cmd, e1, e2, e3, e4, e5, e6, e7⟩ := hT.cmd hiss hb hfit
  have hds : ds.map (fun d => (d.1.a, d.1.ws)) = (segs c cmd 0).map fun p => (aAt c cmd u p.1, segW c cmd d (wa op.key).wuser p) := by
    have := congrArg (List.map fun g : Grp => (g.a, g.ws)) h1
    rw [List.map_map] at this
    refine Eq.trans this ?_
    unfold wGroups
    simp only [e1, List.map_map]
    have hcomp : ((fun g : Grp => (g.a, g.ws)) ∘ fun q : (Nat × Nat) × Nat => (⟨u, op, q.2, aAt c cmd u q.1.1,
        segW c cmd (wa op.key).data (wa op.key).wuser q.1⟩ : Grp)) =
        (fun p : Nat × Nat => (aAt c cmd u p.1, segW c cmd d (wa op.key).wuser p)) ∘ Prod.fst := rfl
    rw [hcomp, ← List.map_map, List.zipIdx_map_fst]
  obtain ⟨hlen, hloc⟩ := segs_beat 0 (Nat.zero_le _) ds hds h4
  /- every beat succeeds -/
  have hbeat : ∀ d' ∈ ds, ∀ (k τ : Nat) (ok : Bool), d'.2[k]? = some (τ, ok) → ok = true := by
    intro d' hd' k τ ok hk
    obtain ⟨g1, g2, wb, g3, g4⟩ := h5 d' hd' k τ ok hk
    obtain ⟨k0, l, f1, f2, f3⟩ := wGroups_beat e1 (h1 ▸ List.mem_map_of_mem hd') g3
    obtain ⟨q1, q2⟩ := hmem τ (by omega)
    rw [f1, f3] at g4
    exact (wroteBeat_ram e2 e3 e4 q1 (by omega) (by omega) f2 g4).1
  constructor
  · obtain ⟨bs, ⟨_, hg, hret, _⟩, _⟩ := hT.write_done n op got hr
    have : lastNonOkay (got.map (·.resp)) = .okay := by
      rw [lastNonOkay_okay_iff]
      intro r hr
      rw [← h2, List.map_map] at hr
      obtain ⟨d', hd', rfl⟩ := List.mem_map.1 hr
      simp only [Function.comp_apply, wRsp, burstResp]
      rw [if_pos]
      rw [List.all_eq_true]
      intro x hx
      obtain ⟨k, hk, rfl⟩ := List.getElem_of_mem hx
      exact hbeat d' hd' k _ _ (List.getElem?_eq_getElem hk)
    rwa [this] at hret
  · have hts : ((ds.flatMap (·.2)).map (·.1)).length = cyclesOf cmd := by rw [List.length_map, hlen, Nat.sub_zero]
    refine ⟨fun i => ((ds.flatMap (·.2)).map (·.1)).getD (beatNo cmd (A + i)) 0, ?_⟩
    intro i hi
    have hi : i < (wa op.key).data.length := hi
    obtain ⟨b1, b2, b3, b4⟩ := beatNo_spec e2 (x := A + i) (by omega) (by omega)
    obtain ⟨d', hd', k0, j, l, τ, ok, f1, f2, f3, f4, f5⟩ := hloc _ (Nat.zero_le _) b1
    have hτ : ((ds.flatMap (·.2)).map (·.1)).getD (beatNo cmd (A + i)) 0 = τ := by
      rw [List.getD_eq_getElem?_getD, List.getElem?_map]
      rw [Nat.sub_zero] at f5
      rw [f5]; rfl
    simp only [hτ]
    obtain ⟨g1, g2, wb, g3, g4⟩ := h5 d' hd' j τ ok f4
    rw [f3] at g3
    cases g3
    rw [f2] at g4
    obtain ⟨q1, q2⟩ := hmem τ (by omega)
    rw [← f1] at g4 b1 b2 b3
    obtain ⟨r1, r2, r3, r4⟩ := wroteBeat_ram e2 e3 e4 q1 (by omega) (by omega) b1 g4
    have hgop := wGroups_op (h1 ▸ List.mem_map_of_mem hd' : d'.1 ∈ wGroups c wa (u, op))
    simp only [Prod.mk.injEq] at hgop
    refine ⟨⟨by omega, d'.1, g2.1, hgop.2⟩, (hT.minv τ).outstanding g2.2, ?_, ?_⟩
    · rw [r4, bytesAt_get e2 e3 (by omega) b1 b2 b3, show A + i - cmd.address = i by omega]
    · intro j' hj'
      have hj' : j' < (wa op.key).data.length := hj'
      obtain ⟨c1, c2, c3, c4⟩ := beatNo_spec e2 (x := A + j') (by omega) (by omega)
      rw [← hτ, ascending_iff h3 (by omega) (by omega)]
      simp only [nb, ← e7, b4, c4]
      omega

/-- A completed read, on a RAM that others may access too. -/
theorem RTrace.ram_read {p : Nat → RPort} (hT : RTrace c ra ramTarget p μ) (hmem : ∀ τ < n, (μ τ).WF ∧ (μ τ).size = sz) (hs : 0 < sz)
    (hb : (ra op.key).burst = 1) (hfit : (ra op.key).address.toNat + (ra op.key).length.toNat ≤ sz)
    {got : List RBeat} (hr : (op, some got) ∈ (p n).m.results) :
    let A := (ra op.key).address.toNat
    let N := (ra op.key).length.toNat
    let nb := beatBytes c (ra op.key)
    ∃ data : Bytes, returnsR c (ra op.key) got data .okay ∧ data.length = N ∧ ∃ t : Nat → Nat, ∀ i < N,
      t i < n ∧ Outstanding (p (t i)).m op ∧ data[i]? = some ((μ (t i)).contents (A + i)) ∧
      ∀ j < N, (t i < t j ↔ (A + i) / nb < (A + j) / nb) := by
  intro A N nb
  have hS := hs
  obtain ⟨J, hJ, u, hd⟩ := hT.seq.result hr
  obtain ⟨hmk, htk, ds, h1, h2, h3, h4⟩ := hT.done hd
  have hiss : op ∈ (p n).m.issued := (hT.seq.grows hJ).1.subset ((hT.minv J).taken_issued htk)
  obtain ⟨cmd, e1, e2, e3, e4, e5, e6, e7⟩ := hT.cmd hiss hb hfit
  have hlab := congrArg (List.map rLab) h1
  rw [rGroups_lab hT.std hmk, List.map_map] at hlab
  have hneed : op.need = cyclesOf cmd := by
    obtain ⟨cmd', a1, _, _, _, _, a2⟩ := rMade hT.std hmk
    rw [a1] at e1; cases e1; exact a2
  have hlen : ds.length = cyclesOf cmd := by
    have := congrArg List.length hlab
    simp only [List.length_map, List.length_range] at this
    omega
  have hbeat : ∀ k (hk : k < ds.length), ds[k].tm < n ∧ Outstanding (p ds[k].tm).m op ∧
      ds[k].r.resp = .okay ∧ ds[k].r.data = ramWord c.lanes (μ ds[k].tm) (wordAt c cmd k) := by
    intro k hk
    obtain ⟨g1, g2, g3⟩ := h4 _ (List.getElem_mem hk)
    obtain ⟨q1, q2⟩ := hmem ds[k].tm (by omega)
    obtain ⟨f1, f2, _⟩ := readBeat_ram q1 (by omega) g3
    refine ⟨by omega, (hT.minv _).outstanding g2.2, f1, ?_⟩
    rw [f2]
    congr 1
    have hl : rLab ds[k].at_ = (u, op, k) := by
      have := congrArg (·[k]?) hlab
      simp only [List.getElem?_map, List.getElem?_eq_getElem hk, Option.map_some, List.getElem?_range (show k < op.need by omega),
        Option.some.injEq] at this
      exact this
    have hin : ds[k].at_ ∈ (rGroups c ra (u, op)).flatMap RGrp.atoms := h1 ▸ List.mem_map_of_mem (List.getElem_mem hk)
    obtain ⟨g, hg, ha⟩ := List.mem_flatMap.1 hin
    simp only [RGrp.atoms, List.mem_map] at ha
    obtain ⟨j, _, ha⟩ := ha
    rw [← ha] at hl ⊢
    unfold rGroups at hg
    simp only [e1] at hg
    obtain ⟨p, hp, rfl⟩ := List.mem_map.1 hg
    simp only [rLab, Prod.mk.injEq, true_and] at hl
    simp only [beatWord, beatAddr_aAt c cmd u e4, hl]
    rfl
  have hts : (ds.map (·.tm)).length = cyclesOf cmd := by rw [List.length_map, hlen]
  have hget : ∀ k (hk : k < ds.length), (ds.map (·.tm)).getD k 0 = ds[k].tm := by
    intro k hk
    rw [List.getD_eq_getElem?_getD, List.getElem?_map, List.getElem?_eq_getElem hk]; rfl
  let M : Nat → Memory := fun k => μ ((ds.map (·.tm)).getD k 0)
  have hf : FramedR ((processRead c 0 cmd).1.map (·.beats)) got := by
    have hout := rGroups_out hT.std hmk 0 e1
    have hfr : FramedR ((rGroups c ra (u, op)).map (·.a.beats)) got := by
      refine framed_beats _ got ?_
      rw [← h2, ← h1, List.map_map, List.map_map]
      refine List.map_congr_left ?_
      intro d hdm
      exact (h4 d hdm).2.2.2.1
    rw [hout]
    have hb : ∀ v, (rGroups c ra (v, op)).map (·.a.beats) = (segs c cmd 0).map fun p => blAt c cmd p.1 - 1 + 1 := by
      intro v
      unfold rGroups
      simp only [e1, List.map_map]
      rfl
    rw [List.map_map]
    show FramedR ((rGroups c ra ((op.id?).getD 0, op)).map (·.a.beats)) got
    rw [hb, ← hb u]; exact hfr
  have hres := readResult_spec c cmd e2 ((segs c cmd 0).map (·.2)) got [] (by
    intro L hL
    obtain ⟨p, hp, rfl⟩ := List.mem_map.1 hL
    obtain ⟨q1, q2⟩ := mem_segs c cmd 0 (Nat.zero_le _) p hp
    have := blAt_bounds c cmd p.1 q1
    omega) (by
    rw [processRead_spec] at hf
    simp only at hf
    rw [← burstList_segs c cmd _ 0 (Nat.zero_le _)] at hf
    exact hf)
  rw [List.append_nil] at hres
  have hok : foldResp .okay (got.map (·.resp)) = .okay := by
    refine foldResp_okay _ ?_ _
    intro r hr
    rw [← h2, List.map_map] at hr
    obtain ⟨d, hdm, rfl⟩ := List.mem_map.1 hr
    obtain ⟨k, hk, rfl⟩ := List.getElem_of_mem hdm
    exact (hbeat k hk).2.2.1
  rw [hok] at hres
  have hcol := collect_vals e2 (fun k => ramWord c.lanes (M k) (wordAt c cmd k)) got 0 (by
    intro i r hi
    rw [← h2, List.getElem?_map, Option.map_eq_some_iff] at hi
    obtain ⟨d, hdm, rfl⟩ := hi
    obtain ⟨hk, rfl⟩ := List.getElem?_eq_some_iff.1 hdm
    rw [(hbeat i hk).2.2.2, Nat.zero_add]
    simp only [M, hget i hk])
  have hgl : got.length = cyclesOf cmd := by rw [← h2, List.length_map, hlen]
  have hlo0 : loAt cmd 0 = A := by
    have := gLo_zero (2 ^ cmd.size) cmd.address
    rw [e5] at this
    simp only [loAt, e5, A]
    exact this
  have hcov := gCycles_cover (2 ^ cmd.size) cmd.address cmd.length e2.geo.nbPos
  rw [← cyclesOf_eq] at hcov
  have hN : cmd.length = N := e3
  have hA : cmd.address = A := e5
  rw [Nat.zero_add, hgl, hlo0] at hcol
  have hdata : (collect c cmd 0 got).take cmd.length =
      (List.range N).map fun i => (M (beatNo cmd (A + i))).contents (A + i) := by
    rw [hcol]
    apply List.ext_getElem
    · simp only [List.length_take, List.length_map, List.length_range', List.length_range]; omega
    · intro i i1 i2
      simp only [List.length_map, List.length_range] at i2
      simp only [List.getElem_take, List.getElem_map, List.getElem_range', List.getElem_range, Nat.one_mul]
      obtain ⟨b1, b2, b3, b4⟩ := beatNo_spec e2 (x := A + i) (by omega) (by omega)
      have hw : (A + i) / c.lanes * c.lanes = wordAt c cmd (beatNo cmd (A + i)) := by
        have hg := gBox_succ (2 ^ cmd.size) cmd.address (beatNo cmd (A + i))
        simp only [loAt, gLo, hiAt, gHi] at b2 b3
        exact gWord_eq e2.geo (by omega) (by omega)
      have hk : beatNo cmd (A + i) < ds.length := by omega
      obtain ⟨q1, q2⟩ := hmem ((ds.map (·.tm)).getD (beatNo cmd (A + i)) 0) (by
        rw [hget _ hk]; exact (hbeat _ hk).1)
      have q2' : (M (beatNo cmd (A + i))).size = sz := q2
      rw [← hw, ramWord_byte c.lanes (A + i) (M (beatNo cmd (A + i))) q1 (by omega) e2.geo.lanesPos (.inr (by omega)),
        Nat.mod_eq_of_lt (by omega)]
  refine ⟨(collect c cmd 0 got).take cmd.length, ⟨cmd, 0, got.map (·.user), e1, ?_⟩, ?_, fun i => (ds.map (·.tm)).getD (beatNo cmd (A + i)) 0, ?_⟩
  · rw [processRead_spec]; exact hres
  · rw [hdata]; simp
  · intro i hi
    obtain ⟨b1, b2, b3, b4⟩ := beatNo_spec e2 (x := A + i) (by omega) (by omega)
    have hk : beatNo cmd (A + i) < ds.length := by omega
    have hb := hbeat _ hk
    rw [← hget _ hk] at hb
    refine ⟨hb.1, hb.2.1, ?_, ?_⟩
    · rw [hdata, List.getElem?_map, List.getElem?_range hi]; rfl
    · intro j hj
      obtain ⟨c1, c2, c3, c4⟩ := beatNo_spec e2 (x := A + j) (by omega) (by omega)
      simp only
      rw [ascending_iff h3 (by omega) (by omega)]
      simp only [nb, ← e7, b4, c4]
      omega

end shared

section ram

variable (c) (wa : Nat → WArgs) (ra : Nat → Req) (m0 : Memory) (evs : List Ev)

/-- The hypotheses on a history: the operations issued in it use incrementing bursts and have spans inside the RAM. -/
structure RamCalls (n : Nat) : Prop where
  std : c.Std
  ids : IdsFit c wa ra
  wf : m0.WF
  size : 0 < m0.size
  w : ∀ op ∈ (ramAt c wa ra m0 evs n).w.m.issued, (wa op.key).req.burst = 1 ∧
    (wa op.key).req.address.toNat + (wa op.key).data.length ≤ m0.size
  r : ∀ op ∈ (ramAt c wa ra m0 evs n).r.m.issued, (ra op.key).burst = 1 ∧
    (ra op.key).address.toNat + (ra op.key).length.toNat ≤ m0.size

variable {c wa ra m0 evs} {n : Nat}

theorem RamCalls.traceW (H : RamCalls c wa ra m0 evs n) :
    WTrace c wa ramTarget (fun k => (ramAt c wa ra m0 evs k).w) (fun k => (ramAt c wa ra m0 evs k).mem) :=
  Sys.traceW (wa := wa) (ra := ra) (t := ramTarget) (st := m0) (evs := evs) H.std H.ids.w

theorem RamCalls.traceR (H : RamCalls c wa ra m0 evs n) :
    RTrace c ra ramTarget (fun k => (ramAt c wa ra m0 evs k).r) (fun k => (ramAt c wa ra m0 evs k).mem) :=
  Sys.traceR (wa := wa) (ra := ra) (t := ramTarget) (st := m0) (evs := evs) H.std H.ids.r

theorem RamCalls.issuedW (H : RamCalls c wa ra m0 evs n) {i j : Nat} (h : i ≤ j) :
    (ramAt c wa ra m0 evs i).w.m.issued <+: (ramAt c wa ra m0 evs j).w.m.issued ∧
    (ramAt c wa ra m0 evs i).w.m.results <+: (ramAt c wa ra m0 evs j).w.m.results := H.traceW.seq.grows h

theorem RamCalls.issuedR (H : RamCalls c wa ra m0 evs n) {i j : Nat} (h : i ≤ j) :
    (ramAt c wa ra m0 evs i).r.m.issued <+: (ramAt c wa ra m0 evs j).r.m.issued ∧
    (ramAt c wa ra m0 evs i).r.m.results <+: (ramAt c wa ra m0 evs j).r.m.results := H.traceR.seq.grows h

theorem RamCalls.mono (H : RamCalls c wa ra m0 evs n) {k : Nat} (hk : k ≤ n) : RamCalls c wa ra m0 evs k :=
  ⟨H.std, H.ids, H.wf, H.size, fun op ho => H.w op ((H.issuedW hk).1.subset ho), fun op ho => H.r op ((H.issuedR hk).1.subset ho)⟩

/-- The command of an issued write. -/
theorem RamCalls.cmdW (H : RamCalls c wa ra m0 evs n) {op : Op} (ho : op ∈ (ramAt c wa ra m0 evs n).w.m.issued) :
    ∃ cmd, acceptWrite c (wa op.key).req (wa op.key).data (wa op.key).wuser = .ok cmd ∧ CmdOK c cmd ∧
      (wa op.key).data.length = cmd.length ∧ cmd.burst = .incr ∧ cmd.address = (wa op.key).req.address.toNat ∧
      cmd.address + cmd.length ≤ m0.size ∧ 2 ^ cmd.size = beatBytes c (wa op.key).req := by
  obtain ⟨cmd, h1, _⟩ := wMade H.std ((H.traceW.minv n).madeOf ho)
  obtain ⟨g1, _, g3, g4, g5, _⟩ := acceptWrite_ok H.std h1
  obtain ⟨e1, e2⟩ := H.w op ho
  exact ⟨cmd, h1, g1, g3, g5 e1, by omega, by omega, acceptWrite_size H.std h1⟩

theorem RamCalls.cmdR (H : RamCalls c wa ra m0 evs n) {op : Op} (ho : op ∈ (ramAt c wa ra m0 evs n).r.m.issued) :
    ∃ cmd, acceptRead c (ra op.key) = .ok cmd ∧ CmdOK c cmd ∧
      cmd.length = (ra op.key).length.toNat ∧ cmd.burst = .incr ∧ cmd.address = (ra op.key).address.toNat ∧
      cmd.address + cmd.length ≤ m0.size ∧ 2 ^ cmd.size = beatBytes c (ra op.key) := by
  obtain ⟨cmd, h1, _⟩ := rMade H.std ((H.traceR.minv n).madeOf ho)
  obtain ⟨g1, _, g3, g4, g5, _⟩ := acceptRead_ok H.std h1
  obtain ⟨e1, e2⟩ := H.r op ho
  exact ⟨cmd, h1, g1, by omega, g5 e1, by omega, by omega, acceptRead_size H.std h1⟩

theorem Sys.mem_ram (H : RamCalls c wa ra m0 evs n) {τ : Nat} (hτ : τ ≤ n) (h1 : (ramAt c wa ra m0 evs τ).mem.WF)
    (h2 : (ramAt c wa ra m0 evs τ).mem.size = m0.size) :
    (ramAt c wa ra m0 evs (τ + 1)).mem = (ramAt c wa ra m0 evs τ).mem ∨
    ∃ op cmd k, (Outstanding (ramAt c wa ra m0 evs τ).w.m op ∧
        ∃ g, (wOpen c wa (ramAt c wa ra m0 evs τ).w).head? = some g ∧ g.op = op) ∧
      acceptWrite c (wa op.key).req (wa op.key).data (wa op.key).wuser = .ok cmd ∧ CmdOK c cmd ∧
      (wa op.key).data.length = cmd.length ∧ cmd.address = (wa op.key).req.address.toNat ∧ k < cyclesOf cmd ∧
      (ramAt c wa ra m0 evs (τ + 1)).mem.WF ∧ (ramAt c wa ra m0 evs (τ + 1)).mem.size = m0.size ∧
      (ramAt c wa ra m0 evs (τ + 1)).mem.contents =
        (ramAt c wa ra m0 evs τ).mem.contents.store (loAt cmd k) (bytesAt cmd (wa op.key).data k) := by
  have hS := H.size
  have hW := H.traceW.minv τ
  rcases Sys.mem_step (wa := wa) (ra := ra) (t := ramTarget) (st := m0) (evs := evs) H.std H.ids.w H.ids.r τ with
    h | ⟨g, k, wb, ok, q1, q0, q2, q3, q4⟩ | ⟨g, k, r, _, _, _, _, q4⟩
  · exact .inl h
  · obtain ⟨x, hx, hg⟩ := List.mem_flatMap.1 q1
    have hop := wGroups_op hg
    subst hop
    have hout := hW.outstanding q2
    obtain ⟨cmd, e1, e2, e3, e4, e5, e6, e7⟩ := (H.mono hτ).cmdW hout.1
    obtain ⟨k0, l, f1, f2, f3⟩ := wGroups_beat e1 hg q3
    rw [f1, f3] at q4
    obtain ⟨_, r2, r3, r4⟩ := wroteBeat_ram e2 e3 e4 h1 (by omega) (by omega) f2 q4
    exact .inr ⟨g.op, cmd, k0 + k, ⟨hout, g, q0, rfl⟩, e1, e2, e3, e5, f2, r2, r3.trans h2, r4⟩
  · exact .inl (readBeat_ram h1 (by omega) q4).2.2

theorem RamCalls.mem_ok (H : RamCalls c wa ra m0 evs n) {τ : Nat} (hτ : τ ≤ n) :
    (ramAt c wa ra m0 evs τ).mem.WF ∧ (ramAt c wa ra m0 evs τ).mem.size = m0.size := by
  induction τ with
  | zero => exact ⟨H.wf, rfl⟩
  | succ τ ih =>
    obtain ⟨h1, h2⟩ := ih (by omega)
    rcases Sys.mem_ram H (by omega) h1 h2 with h | ⟨_, _, _, _, _, _, _, _, _, g1, g2, _⟩
    · rw [h]; exact ⟨h1, h2⟩
    · exact ⟨g1, g2⟩

theorem RamCalls.write (H : RamCalls c wa ra m0 evs n) (op : Op) (got : List BBeat)
    (hr : (op, some got) ∈ (ramAt c wa ra m0 evs n).w.m.results) :
    let A := (wa op.key).req.address.toNat
    let d := (wa op.key).data
    let nb := beatBytes c (wa op.key).req
    (wa op.key).returns c got .okay ∧ ∃ t : Nat → Nat, ∀ i < d.length,
      (t i < n ∧ ∃ g, (wOpen c wa (ramAt c wa ra m0 evs (t i)).w).head? = some g ∧ g.op = op) ∧
      Outstanding (ramAt c wa ra m0 evs (t i)).w.m op ∧
      some ((ramAt c wa ra m0 evs (t i + 1)).mem.contents (A + i)) = d[i]? ∧
      ∀ j < d.length, (t i < t j ↔ (A + i) / nb < (A + j) / nb) := by
  obtain ⟨h1, h2⟩ := H.w op (H.traceW.issued_of_result hr)
  exact H.traceW.ram_write (fun t ht => H.mem_ok (by omega)) H.size h1 h2 hr

/-- **C90, writes.** When a write has completed, its caller is given OKAY, and each byte of the data was stored at an instant at
which the write was outstanding: bytes of one beat together, beats in ascending order. -/
theorem C90_write (H : RamCalls c wa ra m0 evs n) (op : Op) (got : List BBeat)
    (hr : (op, some got) ∈ (ramAt c wa ra m0 evs n).w.m.results) :
    let A := (wa op.key).req.address.toNat
    let d := (wa op.key).data
    let nb := beatBytes c (wa op.key).req
    (wa op.key).returns c got .okay ∧ ∃ t : Nat → Nat, ∀ i < d.length,
      t i < n ∧ Outstanding (ramAt c wa ra m0 evs (t i)).w.m op ∧
      some ((ramAt c wa ra m0 evs (t i + 1)).mem.contents (A + i)) = d[i]? ∧
      ∀ j < d.length, (t i < t j ↔ (A + i) / nb < (A + j) / nb) := by
  obtain ⟨h1, t, h2⟩ := H.write op got hr
  refine ⟨h1, t, fun i hi => ?_⟩
  obtain ⟨h3, h4, h5, h6⟩ := h2 i hi
  exact ⟨h3.1, h4, h5, h6⟩

/-- **C90, reads.** When a read has completed, its caller gets OKAY and the requested number of bytes, each of them what the RAM
contained at an instant at which the read was outstanding: bytes of one beat at the same instant, beats in ascending order. -/
theorem C90_read (H : RamCalls c wa ra m0 evs n) (op : Op) (got : List RBeat)
    (hr : (op, some got) ∈ (ramAt c wa ra m0 evs n).r.m.results) :
    let A := (ra op.key).address.toNat
    let N := (ra op.key).length.toNat
    let nb := beatBytes c (ra op.key)
    ∃ data : Bytes, returnsR c (ra op.key) got data .okay ∧ data.length = N ∧ ∃ t : Nat → Nat, ∀ i < N,
      t i < n ∧ Outstanding (ramAt c wa ra m0 evs (t i)).r.m op ∧
      data[i]? = some ((ramAt c wa ra m0 evs (t i)).mem.contents (A + i)) ∧
      ∀ j < N, (t i < t j ↔ (A + i) / nb < (A + j) / nb) := by
  obtain ⟨h1, h2⟩ := H.r op (H.traceR.issued_of_result hr)
  exact H.traceR.ram_read (fun t ht => H.mem_ok (by omega)) H.size h1 h2 hr

theorem RamCalls.change (H : RamCalls c wa ra m0 evs n) (τ b : Nat) (hτ : τ < n)
    (hne : (ramAt c wa ra m0 evs (τ + 1)).mem.contents b ≠ (ramAt c wa ra m0 evs τ).mem.contents b) :
    ∃ op, (Outstanding (ramAt c wa ra m0 evs τ).w.m op ∧
        ∃ g, (wOpen c wa (ramAt c wa ra m0 evs τ).w).head? = some g ∧ g.op = op) ∧ (wa op.key).req.address.toNat ≤ b ∧
      (wa op.key).data[b - (wa op.key).req.address.toNat]? = some ((ramAt c wa ra m0 evs (τ + 1)).mem.contents b) := by
  obtain ⟨h1, h2⟩ := H.mem_ok (τ := τ) (by omega)
  rcases Sys.mem_ram H (by omega) h1 h2 with h | ⟨op, cmd, k, ho, _, e2, e3, e5, hk, _, _, hm⟩
  · exact absurd (congrArg (fun m => Memory.contents m b) h) hne
  · rw [hm] at hne ⊢
    have hbl := bytesAt_length c cmd (wa op.key).data e2 e3 hk
    obtain ⟨b1, b2, b3, b4, b5, b6, b7⟩ := beat_bounds e2.geo hk
    have b3' : cmd.address ≤ loAt cmd k := b3
    by_cases hin : loAt cmd k ≤ b ∧ b < loAt cmd k + (bytesAt cmd (wa op.key).data k).length
    · refine ⟨op, ho, by omega, ?_⟩
      rw [bytesAt_get e2 e3 (by omega) hk (by omega) (by omega), e5]
    · exact absurd (LiteOps.store_else hin) hne

/-- **C90, nothing else.** A RAM byte changes only at an instant at which a write covering it is outstanding, and to the byte
that this write has for it. -/
theorem C90_changes (H : RamCalls c wa ra m0 evs n) (τ b : Nat) (hτ : τ < n)
    (hne : (ramAt c wa ra m0 evs (τ + 1)).mem.contents b ≠ (ramAt c wa ra m0 evs τ).mem.contents b) :
    ∃ op, Outstanding (ramAt c wa ra m0 evs τ).w.m op ∧ (wa op.key).req.address.toNat ≤ b ∧
      (wa op.key).data[b - (wa op.key).req.address.toNat]? = some ((ramAt c wa ra m0 evs (τ + 1)).mem.contents b) := by
  obtain ⟨op, h1, h2⟩ := H.change τ b hτ hne
  exact ⟨op, h1.1, h2⟩

/-- The byte `b` is in the span of the write. -/
def Covers (wa : Nat → WArgs) (op : Op) (b : Nat) : Prop :=
  (wa op.key).req.address.toNat ≤ b ∧ b < (wa op.key).req.address.toNat + (wa op.key).data.length

/-- From its completion on, the bytes of a write stay, unless another write covering them is issued later. -/
theorem RamCalls.stays (H : RamCalls c wa ra m0 evs n) (wop : Op) (wgot : List BBeat) (k : Nat) (hk : k ≤ n)
    (hw : (wop, some wgot) ∈ (ramAt c wa ra m0 evs k).w.m.results) (b : Nat) (hb : Covers wa wop b)
    (hlast : ∀ op ∈ (ramAt c wa ra m0 evs n).w.m.issued, Covers wa op b → op = wop ∨ Before (ramAt c wa ra m0 evs n).w.m op wop)
    (q : Nat) (hq : k ≤ q) (hqn : q ≤ n) :
    some ((ramAt c wa ra m0 evs q).mem.contents b) = (wa wop.key).data[b - (wa wop.key).req.address.toNat]? := by
  obtain ⟨hb1, hb2⟩ := hb
  obtain ⟨_, tw, W⟩ := (H.mono hk).write wop wgot hw
  obtain ⟨⟨w1, g, w0, wg⟩, w2, w3, _⟩ := W (b - (wa wop.key).req.address.toNat) (by omega)
  rw [show (wa wop.key).req.address.toNat + (b - (wa wop.key).req.address.toNat) = b by omega] at w3
  generalize htw : tw (b - (wa wop.key).req.address.toNat) = a at *
  obtain ⟨d, rfl⟩ := Nat.exists_eq_add_of_le (show a + 1 ≤ q by omega)
  clear hq
  induction d with
  | zero => exact w3
  | succ d ih =>
    have ih := ih (by omega)
    by_cases hch : (ramAt c wa ra m0 evs (a + 1 + d + 1)).mem.contents b = (ramAt c wa ra m0 evs (a + 1 + d)).mem.contents b
    · rw [← Nat.add_assoc, hch]; exact ih
    · obtain ⟨op, ⟨o1, g', o0, og⟩, o2, o3⟩ := H.change (a + 1 + d) b (by omega) hch
      have hlt : b < (wa op.key).req.address.toNat + (wa op.key).data.length := by
        have := (List.getElem?_eq_some_iff.1 o3).1; omega
      rcases hlast op ((H.issuedW (by omega)).1.subset o1.1) ⟨o2, hlt⟩ with heq | hbef
      · subst heq
        rw [← Nat.add_assoc, ← o3]
      · exfalso
        subst wg og
        have := H.traceW.served.order o0 w0 (N := n) (by omega) hbef
        omega

/-- **C91: a read returns what was written.** Let a write have completed by instant `k`, and a read be issued after `k` and have
completed. Byte `b` of both spans: if every other write covering `b` was issued before that write (complete or not), the read
returns that byte of the written data. -/
theorem C91_read_your_writes (H : RamCalls c wa ra m0 evs n) (wop : Op) (wgot : List BBeat) (k : Nat) (hk : k ≤ n)
    (hw : (wop, some wgot) ∈ (ramAt c wa ra m0 evs k).w.m.results)
    (rop : Op) (rgot : List RBeat) (hlate : rop ∉ (ramAt c wa ra m0 evs k).r.m.issued)
    (hr : (rop, some rgot) ∈ (ramAt c wa ra m0 evs n).r.m.results) (b : Nat) (hb : Covers wa wop b)
    (hb3 : (ra rop.key).address.toNat ≤ b) (hb4 : b < (ra rop.key).address.toNat + (ra rop.key).length.toNat)
    (hlast : ∀ op ∈ (ramAt c wa ra m0 evs n).w.m.issued, Covers wa op b →
      op = wop ∨ Before (ramAt c wa ra m0 evs n).w.m op wop) :
    ∃ data, returnsR c (ra rop.key) rgot data .okay ∧
      data[b - (ra rop.key).address.toNat]? = (wa wop.key).data[b - (wa wop.key).req.address.toNat]? := by
  obtain ⟨data, d1, d2, tr, R⟩ := C90_read H rop rgot hr
  obtain ⟨r1, r2, r3, _⟩ := R (b - (ra rop.key).address.toNat) (by omega)
  refine ⟨data, d1, ?_⟩
  rw [show (ra rop.key).address.toNat + (b - (ra rop.key).address.toNat) = b by omega] at r3
  rw [r3]
  refine H.stays wop wgot k hk hw b hb hlast _ ?_ (by omega)
  rcases Nat.lt_or_ge k (tr (b - (ra rop.key).address.toNat)) with h | h
  · omega
  · exact absurd ((H.issuedR h).1.subset r2.1) hlate

theorem last_covering (wa : Nat → WArgs) (b : Nat) (l : List Op) :
    (∀ op ∈ l, ¬ Covers wa op b) ∨ ∃ l1 w l2, l = l1 ++ w :: l2 ∧ Covers wa w b ∧ ∀ op ∈ l2, ¬ Covers wa op b := by
  induction l with
  | nil => exact .inl (by simp)
  | cons x l ih =>
    rcases ih with ih | ⟨l1, w, l2, rfl, h1, h2⟩
    · by_cases hx : Covers wa x b
      · exact .inr ⟨[], x, l, rfl, hx, ih⟩
      · left
        intro op hop
        rcases List.mem_cons.1 hop with rfl | hop
        · exact hx
        · exact ih op hop
    · exact .inr ⟨x :: l1, w, l2, rfl, h1, h2⟩

theorem fold_not_covered {b : Nat} (l : List Op) (h : ∀ op ∈ l, ¬ Covers wa op b) (f : FlatMem) :
    (l.foldl (fun f op => f.store (wa op.key).req.address.toNat (wa op.key).data) f) b = f b := by
  induction l generalizing f with
  | nil => rfl
  | cons x l ih =>
    rw [List.foldl_cons, ih fun op hop => h op (List.mem_cons_of_mem _ hop)]
    exact LiteOps.store_else (h x List.mem_cons_self)

/-- **C92: writes take effect in the order in which they were issued.** When the writes covering a byte have all completed, the RAM
contains there what performing all issued writes one after the other, in the order of the calls, leaves. -/
theorem C92_sequential (H : RamCalls c wa ra m0 evs n) (b : Nat)
    (hdone : ∀ op ∈ (ramAt c wa ra m0 evs n).w.m.issued, Covers wa op b →
      ∃ got, (op, some got) ∈ (ramAt c wa ra m0 evs n).w.m.results) :
    (ramAt c wa ra m0 evs n).mem.contents b = ((ramAt c wa ra m0 evs n).w.m.issued.foldl
      (fun f op => f.store (wa op.key).req.address.toNat (wa op.key).data) m0.contents) b := by
  rcases last_covering wa b (ramAt c wa ra m0 evs n).w.m.issued with hno | ⟨l1, w, l2, he, h1, h2⟩
  · rw [fold_not_covered _ hno]
    have : ∀ q, q ≤ n → (ramAt c wa ra m0 evs q).mem.contents b = m0.contents b := by
      intro q
      induction q with
      | zero => intro _; rfl
      | succ q ih =>
        intro hq
        by_cases hch : (ramAt c wa ra m0 evs (q + 1)).mem.contents b = (ramAt c wa ra m0 evs q).mem.contents b
        · rw [hch]; exact ih (by omega)
        · obtain ⟨op, o1, o2, o3⟩ := C90_changes H q b (by omega) hch
          have hlt : b < (wa op.key).req.address.toNat + (wa op.key).data.length := by
            have := (List.getElem?_eq_some_iff.1 o3).1; omega
          exact absurd ⟨o2, hlt⟩ (hno op ((H.issuedW (by omega)).1.subset o1.1))
    exact this n (Nat.le_refl _)
  · obtain ⟨got, hgot⟩ := hdone w (by rw [he]; simp) h1
    have hs := H.stays w got n (Nat.le_refl _) hgot b h1 (by
      intro op hop hcov
      rw [he] at hop
      rcases List.mem_append.1 hop with hop | hop
      · refine .inr ?_
        unfold Before
        rw [he]
        exact (List.singleton_sublist.2 hop).append (List.singleton_sublist.2 List.mem_cons_self)
      · rcases List.mem_cons.1 hop with hop | hop
        · exact .inl hop
        · exact absurd hcov (h2 op hop)) n (Nat.le_refl _) (Nat.le_refl _)
    rw [he, List.foldl_append, List.foldl_cons, fold_not_covered _ h2]
    rw [← Option.some.injEq, hs]
    obtain ⟨c1, c2⟩ := h1
    have := LiteOps.store_at (m := l1.foldl (fun f op => f.store (wa op.key).req.address.toNat (wa op.key).data) m0.contents)
      (a := (wa w.key).req.address.toNat) (d := (wa w.key).data) (x := b) ⟨c1, c2⟩
    rw [this]

end ram
/-! The history `exEvs` of `Props/AxiSystem.lean`. -/

theorem exIssued : (ramAt exC exW exR exM exEvs 53).w.m.issued = [exW0, exW1] ∧ (ramAt exC exW exR exM exEvs 48).w.m.issued = [exW0, exW1] ∧
    (ramAt exC exW exR exM exEvs 53).r.m.issued = [exR0] := by decide +kernel

theorem exCalls : RamCalls exC exW exR exM exEvs 53 where
  std := exC_std
  ids := exIds
  wf := ⟨rfl, trivial⟩
  size := by decide
  w := by
    rw [exIssued.1]
    intro op hop
    rw [List.mem_cons, List.mem_singleton] at hop
    rcases hop with rfl | rfl <;> decide
  r := by
    rw [exIssued.2.2]
    intro op hop
    rw [List.mem_singleton] at hop
    subst hop; decide

def exRGot : List RBeat := [⟨0, 33621767, .okay, false, 0⟩, ⟨0, 102176277, .okay, true, 0⟩, ⟨0, 118032391, .okay, true, 0⟩]

/-- C91 applies to address 3 (covered by the first write only). -/
example : ∃ data, returnsR exC (exR 0) exRGot data .okay ∧ data[2]? = some 2 :=
  C91_read_your_writes exCalls exW0 [⟨0, .okay, 0⟩, ⟨0, .okay, 0⟩] 24 (by decide) (by decide +kernel) exR0 exRGot
    (by decide +kernel) (by decide +kernel) 3 ⟨by decide, by decide⟩ (by decide) (by decide) (by
      rw [exIssued.1]
      intro op hop h
      rw [List.mem_cons, List.mem_singleton] at hop
      rcases hop with rfl | rfl
      · exact .inl rfl
      · exact absurd h.1 (by decide))

/-- C92 applies to all bytes after the second write has completed; byte 5 was written twice. -/
example (b : Nat) : (ramAt exC exW exR exM exEvs 53).mem.contents b = ([exW0, exW1].foldl
      (fun f op => f.store (exW op.key).req.address.toNat (exW op.key).data) exM.contents) b := by
  rw [← exIssued.1]
  refine C92_sequential exCalls b ?_
  rw [exIssued.1]
  intro op hop _
  rw [List.mem_cons, List.mem_singleton] at hop
  rcases hop with rfl | rfl
  · exact ⟨[⟨0, .okay, 0⟩, ⟨0, .okay, 0⟩], by decide +kernel⟩
  · exact ⟨[⟨0, .okay, 0⟩], by decide +kernel⟩

example : (ramAt exC exW exR exM exEvs 53).mem.contents 5 = 22 := by decide +kernel

end Verif.AxiSys
