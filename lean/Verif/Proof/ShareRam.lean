import Verif.Props.AxiSysRam
import Verif.Props.LiteSystem
import Verif.Proof.ApbShare

/-!
# What one event of a port does to a target, or a RAM, that it shares with others
-/

namespace Verif.AxiSys

open Verif.Axi Verif.AxiOps

section
variable {σ : Type} {c : Cfg} {wa : Nat → WArgs} {ra : Nat → Req} {t : Target σ} {p : Nat → WPort} {pr : Nat → RPort} {μ : Nat → σ}

theorem WTrace.mem_step (hT : WTrace c wa t p μ) (n : Nat) (e : WEv) :
    ((p n).step c wa t (μ n) e).2 = μ n ∨
    ∃ g k wb ok, g ∈ wAll c wa (p n).m ∧ (wOpen c wa (p n)).head? = some g ∧ g.op ∈ (p n).m.pend ∧ g.ws[k]? = some wb ∧
      WroteBeat c t g.a k wb (μ n) ok ((p n).step c wa t (μ n) e).2 := by
  obtain ⟨w, h1, _⟩ := hT.inv n
  obtain ⟨w', _, h2⟩ := h1.step (t := t) hT.std (wMk_id hT.std hT.ids) (μ n) e n
  rcases h2 with ⟨_, h2⟩ | ⟨g, k, ok, wb, _, h3⟩
  · exact .inl h2
  · exact .inr ⟨g, k, wb, ok, h3⟩

theorem RTrace.mem_step (hT : RTrace c ra t pr μ) (n : Nat) (e : REv) :
    ((pr n).step c ra t (μ n) e).2 = μ n ∨
    ∃ g k r, g ∈ rAll c ra (pr n).m ∧ k < g.a.beats ∧ (rOpen c ra (pr n)).head? = some g ∧ g.op ∈ (pr n).m.pend ∧
      ReadBeat c t g.a k (μ n) r ((pr n).step c ra t (μ n) e).2 := by
  obtain ⟨w, h1, _⟩ := hT.inv n
  obtain ⟨w', _, h2⟩ := h1.step (t := t) hT.std (rMk_id hT.std hT.ids) (μ n) e n
  rcases h2 with ⟨_, h2⟩ | ⟨g, k, r, _, h3⟩
  · exact .inl h2
  · exact .inr ⟨g, k, r, h3⟩

/-- Every change of the target by the write side is a beat of an outstanding write. -/
theorem WTrace.only (hT : WTrace c wa t p μ) (n : Nat) (e : WEv) :
    ((p n).step c wa t (μ n) e).2 = μ n ∨
    ∃ op l b k w ok, Outstanding (p n).m op ∧ (wa op.key).sends c l ∧ b ∈ l ∧ b.2[k]? = some w ∧
      WroteBeat c t b.1 k w (μ n) ok ((p n).step c wa t (μ n) e).2 := by
  have hc := hT.std
  have hW := hT.minv n
  rcases hT.mem_step n e with h | ⟨g, k, wb, ok, h1, _, h2, h3, h4⟩
  · exact .inl h
  · refine .inr ⟨g.op, (wGroups c wa (g.t, g.op)).map fun g => (g.a, g.ws), (g.a, g.ws), k, wb, ok, hW.outstanding h2, ?_, ?_, h3, h4⟩
    · exact wGroups_sends hc (hW.madeOf (hW.taken_issued (wAll_ok hc hW h1).2)) hW (wAll_ok hc hW h1).2
    · obtain ⟨x, hx, hg⟩ := List.mem_flatMap.1 h1
      rw [wGroups_op hg]
      exact List.mem_map.2 ⟨g, hg, rfl⟩

/-- Every change of the target by the read side is a beat of an outstanding read. -/
theorem RTrace.only (hT : RTrace c ra t pr μ) (n : Nat) (e : REv) :
    ((pr n).step c ra t (μ n) e).2 = μ n ∨
    ∃ op l a k r, Outstanding (pr n).m op ∧ sendsR c (ra op.key) l ∧ (a, k) ∈ rBeats l ∧
      ReadBeat c t a k (μ n) r ((pr n).step c ra t (μ n) e).2 := by
  have hc := hT.std
  have hR := hT.minv n
  rcases hT.mem_step n e with h | ⟨g, k, r, h1, h2, _, h3, h4⟩
  · exact .inl h
  · refine .inr ⟨g.op, (rGroups c ra (g.t, g.op)).map (·.a), g.a, k, r, hR.outstanding h3, ?_, ?_, h4⟩
    · exact rGroups_sends hc (hR.madeOf (hR.taken_issued (rAll_ok hc hR h1).2)) hR (rAll_ok hc hR h1).2
    · obtain ⟨x, hx, hg⟩ := List.mem_flatMap.1 h1
      rw [rGroups_op hg]
      refine List.mem_flatMap.2 ⟨g.a, List.mem_map_of_mem hg, ?_⟩
      exact List.mem_map.2 ⟨k, List.mem_range.2 h2, rfl⟩

end

variable {c : Cfg} {wa : Nat → WArgs} {ra : Nat → Req} {p : Nat → WPort} {pr : Nat → RPort} {μ : Nat → Memory} {n sz : Nat}

/-- What an event of the write side does to a RAM. -/
theorem WTrace.ram_step (hT : WTrace c wa ramTarget p μ) (h1 : (μ n).WF) (h2 : (μ n).size = sz) (hs : 0 < sz)
    (hcalls : ∀ op ∈ (p n).m.issued, (wa op.key).req.burst = 1 ∧
      (wa op.key).req.address.toNat + (wa op.key).data.length ≤ sz) (e : WEv) :
    ((p n).step c wa ramTarget (μ n) e).2 = μ n ∨
    (((p n).step c wa ramTarget (μ n) e).2.WF ∧ ((p n).step c wa ramTarget (μ n) e).2.size = sz ∧
      ∃ op, (Outstanding (p n).m op ∧ ∃ g, (wOpen c wa (p n)).head? = some g ∧ g.op = op) ∧
        ∀ b, ((p n).step c wa ramTarget (μ n) e).2.contents b ≠ (μ n).contents b →
          (wa op.key).req.address.toNat ≤ b ∧ (wa op.key).data[b - (wa op.key).req.address.toNat]? =
            some (((p n).step c wa ramTarget (μ n) e).2.contents b)) := by
  rcases hT.mem_step n e with h | ⟨g, k, wb, ok, q1, q0, q2, q3, q4⟩
  · exact .inl h
  · obtain ⟨x, hx, hg⟩ := List.mem_flatMap.1 q1
    have hop := wGroups_op hg
    subst hop
    have hout := (hT.minv n).outstanding q2
    obtain ⟨hb, hfit⟩ := hcalls g.op hout.1
    obtain ⟨cmd, e1, e2, e3, e4, e5, e6, e7⟩ := hT.cmd hout.1 hb hfit
    obtain ⟨k0, l, f1, f2, f3⟩ := wGroups_beat e1 hg q3
    rw [f1, f3] at q4
    obtain ⟨_, r2, r3, hm⟩ := wroteBeat_ram e2 e3 e4 h1 (by omega) (by omega) f2 q4
    refine .inr ⟨r2, r3.trans h2, g.op, ⟨hout, g, q0, rfl⟩, ?_⟩
    intro b hne
    rw [hm] at hne ⊢
    have hbl := bytesAt_length c cmd (wa g.op.key).data e2 e3 f2
    obtain ⟨b1, b2, b3, b4, b5, b6, b7⟩ := beat_bounds e2.geo f2
    have b3' : cmd.address ≤ loAt cmd (k0 + k) := b3
    by_cases hin : loAt cmd (k0 + k) ≤ b ∧ b < loAt cmd (k0 + k) + (bytesAt cmd (wa g.op.key).data (k0 + k)).length
    · refine ⟨by omega, ?_⟩
      rw [bytesAt_get e2 e3 (by omega) f2 (by omega) (by omega), e5]
    · exact absurd (LiteOps.store_else hin) hne

/-- An event of the read side does nothing to a RAM. -/
theorem RTrace.ram_step (hT : RTrace c ra ramTarget pr μ) (h1 : (μ n).WF) (h2 : 0 < (μ n).size) (e : REv) :
    ((pr n).step c ra ramTarget (μ n) e).2 = μ n := by
  rcases hT.mem_step n e with h | ⟨g, k, r, _, _, _, _, q4⟩
  · exact h
  · exact (readBeat_ram h1 h2 q4).2.2

end Verif.AxiSys

namespace Verif.LiteOps

open Word

/-- What one event of a port does to the target. -/
theorem Trace.mem_step {χ ρ σ : Type} {f : χ → σ → ρ × σ} {p : Nat → Port χ ρ} {μ : Nat → σ} (hT : Trace f p μ) (n : Nat)
    (e : PortEv χ ρ) (hk : (p n).m.issued.Nodup) :
    ((p n).step f (μ n) e).2 = μ n ∨
    ∃ op x, (Outstanding (p n).m op ∧ (p n).front = some op) ∧ x ∈ op.xs ∧ ((p n).step f (μ n) e).2 = (f x (μ n)).2 := by
  cases e with
  | serve =>
    obtain ⟨sv, hi⟩ := hT.inv n
    simp only [Port.step]
    split
    · rename_i x rest hreq
      obtain ⟨op, i, _, hp, hx⟩ := hi.owner hreq
      exact .inr ⟨op, x, ⟨outstanding_of_pend (hT.seq.inv n) hk hp.1, hp.2⟩, List.mem_of_getElem? hx, rfl⟩
    · exact .inl rfl
  | _ => exact .inl rfl

variable {c : Cfg} {μ : Nat → Memory} {n sz : Nat}

/-- One write transfer of a call, on a RAM. -/
theorem xfer_write (hl : 0 < c.lanes) {a : WCall} {op : Op WXfer} (ha : a.makes c op) {m : Memory} (h1 : m.WF)
    (hs : 0 < m.size) (hfit : a.address.toNat + a.data.length ≤ m.size) {x : WXfer} (hx : x ∈ op.xs) :
    (slaveWrite ramTarget c.lanes true x m).2.WF ∧ (slaveWrite ramTarget c.lanes true x m).2.size = m.size ∧
      ∀ b, (slaveWrite ramTarget c.lanes true x m).2.contents b ≠ m.contents b →
        a.address.toNat ≤ b ∧ a.data[b - a.address.toNat]? =
          some ((slaveWrite ramTarget c.lanes true x m).2.contents b) := by
  obtain ⟨cmd, e1, e2, e3, _⟩ := WCall.makes_xs hl ha
  rw [e3] at hx
  obtain ⟨k, hk, rfl⟩ := List.mem_map.1 hx
  rw [List.mem_range] at hk
  obtain ⟨m', f1, f2, f3, f4⟩ := write_one c hl cmd _ e2.symm k hk m h1 hs (by omega)
  rw [f1]
  refine ⟨f2, f3, fun b hne => ?_⟩
  simp only [f4] at hne ⊢
  have := write_change hl e2.symm hk hne
  rwa [e1] at this

theorem Trace.ram_stepW {p : Nat → Port WXfer (Py Resp)} (hT : Trace (slaveWrite ramTarget c.lanes true) p μ)
    (hl : 0 < c.lanes) (h1 : (μ n).WF) (h2 : (μ n).size = sz) (hs : 0 < sz) (hk : (p n).m.issued.Nodup) {wc : Nat → WCall}
    (hcalls : ∀ op ∈ (p n).m.issued, (wc op.key).makes c op ∧ (wc op.key).address.toNat + (wc op.key).data.length ≤ sz)
    (e : PortEv WXfer (Py Resp)) :
    let m' := ((p n).step (slaveWrite ramTarget c.lanes true) (μ n) e).2
    m' = μ n ∨ (m'.WF ∧ m'.size = sz ∧ ∃ op, (Outstanding (p n).m op ∧ (p n).front = some op) ∧
      ∀ b, m'.contents b ≠ (μ n).contents b → (wc op.key).address.toNat ≤ b ∧
        (wc op.key).data[b - (wc op.key).address.toNat]? = some (m'.contents b)) := by
  intro m'
  rcases hT.mem_step n e hk with h | ⟨op, x, ho, hx, h⟩
  · exact .inl h
  · obtain ⟨g1, g2⟩ := hcalls op ho.1.1
    have := xfer_write hl g1 h1 (by omega) (by omega) hx
    rw [← h] at this
    exact .inr ⟨this.1, this.2.1.trans h2, op, ho, this.2.2⟩

theorem Trace.ram_stepR {p : Nat → Port RXfer (Nat × Resp)} (hT : Trace (slaveRead ramTarget c.lanes) p μ)
    (h1 : (μ n).WF) (h2 : 0 < (μ n).size) (hk : (p n).m.issued.Nodup) (e : PortEv RXfer (Nat × Resp)) :
    ((p n).step (slaveRead ramTarget c.lanes) (μ n) e).2 = μ n := by
  rcases hT.mem_step n e hk with h | ⟨op, x, _, _, h⟩
  · exact h
  · rw [h, read_one c x _ h1 h2]

end Verif.LiteOps

namespace Verif.Apb

open Word

variable {c : Cfg} {slverr : Bool} {y : Nat → Sys Memory} {μ : Nat → Memory} {n sz : Nat}

theorem access_write {σ : Type} (t : Target σ) (lanes : Nat) (sp : Bool) (x : WXfer) (st : σ) :
    (access t lanes sp (.write x) st).2 = (slaveWrite t lanes sp x st).2 := by
  simp only [access]
  rcases slaveWrite t lanes sp x st with ⟨r, st'⟩
  cases r <;> rfl

theorem access_read {σ : Type} (t : Target σ) (lanes : Nat) (sp : Bool) (x : RXfer) (st : σ) :
    access t lanes sp (.read x) st = ((some (slaveRead t lanes x st).1.1, (slaveRead t lanes x st).1.2 == .slverr),
      (slaveRead t lanes x st).2) := rfl

/-- A completed write, on a RAM that others may access too. -/
theorem ATrace.ram_write (hT : ATrace slverr (access ramTarget c.lanes true) y μ) (hl : 0 < c.lanes)
    (hmem : ∀ t < n, (μ t).WF ∧ (μ t).size = sz) (hs : 0 < sz) (hk : (y n).m.issued.Nodup) {a : Int} {d : Bytes} {prot : Int}
    {op : Op} (ha : (Call.write a d prot).makes c op) (hfit : a.toNat + d.length ≤ sz) {got : List Rsp}
    (hr : (op, some got) ∈ (y n).m.results) :
    (Call.write a d prot).outcome c got = some (.written .okay) ∧ ∃ t : Nat → Nat, ∀ i < d.length,
      t i < n ∧ ((op ∈ (y (t i)).m.issued ∧ ∀ r, (op, r) ∉ (y (t i)).m.results) ∧ (y (t i)).m.active = [op]) ∧
      some ((μ (t i + 1)).contents (a.toNat + i)) = d[i]? ∧
      ∀ j < d.length, (t i < t j ↔ (a.toNat + i) / c.lanes < (a.toNat + j) / c.lanes) := by
  obtain ⟨g1, ts, g2, g3, g4⟩ := hT.served n hk op got hr
  obtain ⟨cmd, xs, w1, w2, w3⟩ := ha
  obtain ⟨cmd', e1, e2, e3, e4⟩ := LiteOps.WCall.makes_xs (c := c) hl (a := ⟨a, d, prot⟩) (op := ⟨op.key, xs⟩) ⟨cmd, w1, w2⟩
  simp only at e1 e2 e3 e4
  rw [e4] at w1
  simp only [Except.ok.injEq, Prod.mk.injEq, and_true] at w1
  subst w1
  have hxl : op.xs.length = cycles c cmd' := by rw [w3, e3]; simp
  have hx : ∀ k < cycles c cmd', op.xs[k]? = some (.write (xAt c cmd' d k)) := by
    intro k hk
    rw [w3, e3, List.getElem?_map, List.getElem?_map, List.getElem?_range hk]
    rfl
  obtain ⟨h1, h2⟩ := LiteOps.word_write hl (d := d) e2.symm hmem hs (by omega)
    (P := fun t => (op ∈ (y t).m.issued ∧ ∀ r, (op, r) ∉ (y t).m.results) ∧ (y t).m.active = [op])
    (ts := ts) (by omega) g3 (resp := fun k => (slaveWrite ramTarget c.lanes true (xAt c cmd' d k) (μ (ts.getD k 0))).1) (by
      intro k hk t ht
      have hg : k < got.length := by omega
      obtain ⟨p1, p2, p3, _⟩ := g4 k _ got[k] t (hx k hk) (List.getElem?_eq_getElem hg) ht
      refine ⟨p1, p2, ?_⟩
      rw [p3, access_write, List.getD_eq_getElem?_getD, ht]
      rfl)
  rw [e1] at h2
  refine ⟨?_, h2⟩
  have hall : ∀ r ∈ got, r.2 = .okay := by
    intro r hr
    obtain ⟨k, hk, rfl⟩ := List.getElem_of_mem hr
    have hkc : k < cycles c cmd' := by omega
    have hts : ts[k]? = some (ts.getD k 0) := LiteOps.pick_get (by omega)
    obtain ⟨_, _, _, p4, _⟩ := g4 k _ got[k] _ (hx k hkc) (List.getElem?_eq_getElem hk) hts
    have h0 := h1 k hkc
    rw [p4]
    rcases hsw : slaveWrite ramTarget c.lanes true (xAt c cmd' d k) (μ (ts.getD k 0)) with ⟨r, st'⟩
    rw [hsw] at h0
    simp only at h0
    subst h0
    simp only [access, hsw]
    simp
  have hrep : got.map (·.2) = List.replicate got.length .okay := by
    rw [List.eq_replicate_iff]
    refine ⟨by simp, fun r hr => ?_⟩
    obtain ⟨x, hx, rfl⟩ := List.mem_map.1 hr
    exact hall x hx
  have := C73_response c cmd' (List.replicate got.length .okay) [] (by simp; omega)
    (fun r hr => .inl (List.mem_replicate.1 hr).2)
  rw [List.append_nil, if_neg (by simp)] at this
  simp only [Call.outcome, e4, hrep, this]
  rfl

/-- A completed read, on a RAM that others may access too. -/
theorem ATrace.ram_read (hT : ATrace slverr (access ramTarget c.lanes true) y μ) (hl : 0 < c.lanes)
    (hmem : ∀ t < n, (μ t).WF ∧ (μ t).size = sz) (hs : 0 < sz) (hk : (y n).m.issued.Nodup) {a len prot : Int}
    {op : Op} (ha : (Call.read a len prot).makes c op) (hfit : a.toNat + len.toNat ≤ sz) {got : List Rsp}
    (hr : (op, some got) ∈ (y n).m.results) :
    ∃ data : Bytes, (Call.read a len prot).outcome c got = some (.data data .okay) ∧ data.length = len.toNat ∧
      ∃ t : Nat → Nat, ∀ i < len.toNat, t i < n ∧
      (op ∈ (y (t i)).m.issued ∧ ∀ r, (op, r) ∉ (y (t i)).m.results) ∧
      data[i]? = some ((μ (t i)).contents (a.toNat + i)) ∧
      ∀ j < len.toNat, (t i < t j ↔ (a.toNat + i) / c.lanes < (a.toNat + j) / c.lanes) := by
  obtain ⟨g1, ts, g2, g3, g4⟩ := hT.served n hk op got hr
  obtain ⟨cmd, w1, w3⟩ := ha
  obtain ⟨a1, a2, a3, a4, a5, a6⟩ := (C37_accept_iff ..).1 w1
  have e1 : cmd.address = a.toNat := by rw [a6]
  have e2 : cmd.length = len.toNat := by rw [a6]
  have hcy : op.xs.length = cycles c cmd := by rw [w3]; simp [readXfers]
  obtain ⟨data, h1, h2, h3⟩ := LiteOps.word_read hl hmem hs (cmd := cmd) (by omega)
    (P := fun t => op ∈ (y t).m.issued ∧ ∀ r, (op, r) ∉ (y t).m.results)
    (ts := ts) (by omega) g3 (got := got) (by omega) (by
      intro k hk t r ht hg
      obtain ⟨p1, p2, p3⟩ := g4 k (.read { addr := beatAddr c cmd k, prot := cmd.prot }) r t (by
        rw [w3, readXfers, List.getElem?_map, List.getElem?_map, List.getElem?_range hk]; rfl) hg ht
      refine ⟨p1, p2.1, ?_⟩
      obtain ⟨q1, q2⟩ := hmem t p1
      obtain ⟨_, p4, p5⟩ := p3
      rw [access_read] at p4 p5
      have := LiteOps.read_one c { addr := beatAddr c cmd k, prot := cmd.prot } (μ t) q1 (by omega)
      rw [this] at p4 p5 ⊢
      simp only at p4 p5 ⊢
      obtain ⟨r1, r2⟩ := r
      rw [← p5 _ rfl]
      simp only at p4 ⊢
      rw [p4]
      simp)
  rw [e1, e2] at h3
  rw [e2] at h2
  refine ⟨data, ?_, h2, h3⟩
  simp only [Call.outcome, w1, h1]
  rfl

/-- What an event of the port does to a RAM. -/
theorem ATrace.ram_step (hT : ATrace slverr (access ramTarget c.lanes true) y μ) (hl : 0 < c.lanes) (h1 : (μ n).WF)
    (h2 : (μ n).size = sz) (hs : 0 < sz) (hk : (y n).m.issued.Nodup) {call : Nat → Call}
    (hcalls : ∀ op ∈ (y n).m.issued, (call op.key).makes c op ∧ (call op.key).within sz) {e : Ev}
    (hy : y (n + 1) = ((y n).put (μ n)).step slverr (access ramTarget c.lanes true) e) :
    let m' := (y (n + 1)).s.mem
    m' = μ n ∨ (m'.WF ∧ m'.size = sz ∧ ∃ op a d prot, call op.key = .write a d prot ∧
      ((op ∈ (y n).m.issued ∧ ∀ r, (op, r) ∉ (y n).m.results) ∧ (y n).m.active = [op]) ∧
      ∀ b, m'.contents b ≠ (μ n).contents b → a.toNat ≤ b ∧ d[b - a.toNat]? = some (m'.contents b)) := by
  intro m'
  rcases hT.mem_step hy hk with h | ⟨op, x, ho, hx, h⟩
  · exact .inl h
  · obtain ⟨g1, g2⟩ := hcalls op ho.1.1
    cases hc : call op.key with
    | write a d prot =>
      rw [hc] at g1 g2
      obtain ⟨cmd, xs, w1, w2, w3⟩ := g1
      rw [w3] at hx
      obtain ⟨x', hx', rfl⟩ := List.mem_map.1 hx
      rw [access_write] at h
      have := LiteOps.xfer_write (c := c) hl (a := ⟨a, d, prot⟩) (op := ⟨op.key, xs⟩) ⟨cmd, w1, w2⟩ h1 (by omega)
        (show a.toNat + d.length ≤ (μ n).size by have := g2; simp only [Call.within] at this; omega) hx'
      rw [← h] at this
      exact .inr ⟨this.1, this.2.1.trans h2, op, a, d, prot, hc, ho, this.2.2⟩
    | read a len prot =>
      rw [hc] at g1
      obtain ⟨cmd, w1, w3⟩ := g1
      rw [w3] at hx
      obtain ⟨x', hx', rfl⟩ := List.mem_map.1 hx
      left
      show (y (n + 1)).s.mem = μ n
      rw [h, access_read, LiteOps.read_one c x' _ h1 (by omega)]

end Verif.Apb
