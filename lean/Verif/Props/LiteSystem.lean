import Verif.Proof.LiteOrder
import Verif.Proof.WordRam
import Verif.Spec.LiteSystem
import Verif.Props.AxiLite

/-!
# C75 - C77, C96: an AXI-lite master connected to a slave, with concurrent operations

Reads and writes are issued at any time, travel and are served in any interleaving; resets may happen at any time.
-/

namespace Verif.LiteOps

variable {χ ρ χ' ρ' σ : Type}

theorem outstanding_of_pend {s : Lite χ ρ} (h : s.Inv) (hk : s.issued.Nodup) {op : Op χ} (hp : op ∈ s.pend) :
    Outstanding s op := (h.pend_iff hk op).1 hp

theorem Trace.served {f : χ → σ → ρ × σ} {p : Nat → Port χ ρ} {μ : Nat → σ} (h : Trace f p μ) (n : Nat)
    (hk : (p n).m.issued.Nodup) (op : Op χ) (got : List ρ) (hr : (op, some got) ∈ (p n).m.results) :
    got.length = op.xs.length ∧ ∃ ts : List Nat, ts.length = op.xs.length ∧ ts.Pairwise (· < ·) ∧
      ∀ (i : Nat) (x : χ) (r : ρ) (t : Nat), op.xs[i]? = some x → got[i]? = some r → ts[i]? = some t →
        t < n ∧ (Outstanding (p t).m op ∧ (p t).front = some op) ∧ (r, μ (t + 1)) = f x (μ t) := by
  obtain ⟨k, hk1, hd⟩ := h.result n op got hr
  obtain ⟨h1, ts, h2, h3, h4⟩ := h.done k op got hd
  refine ⟨h1, ts, h2, h3, ?_⟩
  intro i x r t hx hg ht
  obtain ⟨g1, ⟨g2, g0⟩, g3⟩ := h4 i x r t hx hg ht
  refine ⟨by omega, ⟨?_, g0⟩, g3.symm⟩
  have hle := h.seq.issued_le t (n - t)
  rw [show t + (n - t) = n by omega] at hle
  exact outstanding_of_pend (h.seq.inv t) (hk.sublist hle.sublist) g2

theorem Trace.ordered {f : χ → σ → ρ × σ} {p : Nat → Port χ ρ} {μ : Nat → σ} (h : Trace f p μ) (n : Nat)
    (hk : (p n).m.issued.Nodup) : ∃ ex : Op χ → List ρ → List Nat,
      (∀ op got, (op, some got) ∈ (p n).m.results → Executed f (fun k => (p k).m) μ n op got (ex op got)) ∧
      ∀ op1 got1 op2 got2, (op1, some got1) ∈ (p n).m.results → (op2, some got2) ∈ (p n).m.results →
        Before (p n).m op1 op2 → ∀ t1 ∈ ex op1 got1, ∀ t2 ∈ ex op2 got2, t1 < t2 := by
  have hd : ∀ op got, (op, some got) ∈ (p n).m.results →
      ∃ ts, Executed f (fun k => (p k).m) μ n op got ts ∧ ∀ t ∈ ts, t < n ∧ (p t).front = some op := by
    intro op got hr
    obtain ⟨h1, ts, h2, h3, h4⟩ := h.served n hk op got hr
    refine ⟨ts, ⟨h1, h2, h3, fun i x r t a b d => ⟨(h4 i x r t a b d).1, (h4 i x r t a b d).2.1.1, (h4 i x r t a b d).2.2⟩⟩, ?_⟩
    intro t ht
    obtain ⟨i, hi, rfl⟩ := List.getElem_of_mem ht
    obtain ⟨q1, q2, _⟩ := h4 i _ _ _ (List.getElem?_eq_getElem (by omega)) (List.getElem?_eq_getElem (by omega))
      (List.getElem?_eq_getElem hi)
    exact ⟨q1, q2.2⟩
  refine ⟨fun op got => open Classical in if hr : (op, some got) ∈ (p n).m.results then Classical.choose (hd op got hr) else [],
    ?_, ?_⟩
  · intro op got hr
    simp only [hr, dite_true]
    exact (Classical.choose_spec (hd op got hr)).1
  · intro op1 got1 op2 got2 r1 r2 hb t1 m1 t2 m2
    simp only [r1, r2, dite_true] at m1 m2
    obtain ⟨l1, g1⟩ := (Classical.choose_spec (hd op1 got1 r1)).2 t1 m1
    obtain ⟨l2, g2⟩ := (Classical.choose_spec (hd op2 got2 r2)).2 t2 m2
    exact h.order g1 g2 (by omega) (by omega) hk hb

/-- **C75, writes.** For any slave `f` (and reads `g`) on any target: a write that completed was served exactly: its
transfers were executed one by one in order, each at an instant at which the operation was outstanding, and the responses it
completed with are those that the slave gave at these instants. -/
theorem C75_writes (f : χ → σ → ρ × σ) (g : χ' → σ → ρ' × σ) (m0 : σ) (evs : List (DuoEv χ ρ χ' ρ')) (n : Nat) :
    let S := fun k => Duo.run f g { mem := m0 } (evs.take k)
    (S n).w.m.issued.Nodup → ∀ op got, (op, some got) ∈ (S n).w.m.results →
      got.length = op.xs.length ∧ ∃ ts : List Nat, ts.length = op.xs.length ∧ ts.Pairwise (· < ·) ∧
        ∀ (i : Nat) (x : χ) (r : ρ) (t : Nat), op.xs[i]? = some x → got[i]? = some r → ts[i]? = some t →
          t < n ∧ Outstanding (S t).w.m op ∧ (r, (S (t + 1)).mem) = f x (S t).mem :=
  fun hk op got hr => by
    obtain ⟨h1, ts, h2, h3, h4⟩ := (Duo.traceW f g m0 evs).served n hk op got hr
    exact ⟨h1, ts, h2, h3, fun i x r t a b d => ⟨(h4 i x r t a b d).1, (h4 i x r t a b d).2.1.1, (h4 i x r t a b d).2.2⟩⟩

/-- **C75, reads.** -/
theorem C75_reads (f : χ → σ → ρ × σ) (g : χ' → σ → ρ' × σ) (m0 : σ) (evs : List (DuoEv χ ρ χ' ρ')) (n : Nat) :
    let S := fun k => Duo.run f g { mem := m0 } (evs.take k)
    (S n).r.m.issued.Nodup → ∀ op got, (op, some got) ∈ (S n).r.m.results →
      got.length = op.xs.length ∧ ∃ ts : List Nat, ts.length = op.xs.length ∧ ts.Pairwise (· < ·) ∧
        ∀ (i : Nat) (x : χ') (r : ρ') (t : Nat), op.xs[i]? = some x → got[i]? = some r → ts[i]? = some t →
          t < n ∧ Outstanding (S t).r.m op ∧ (r, (S (t + 1)).mem) = g x (S t).mem :=
  fun hk op got hr => by
    obtain ⟨h1, ts, h2, h3, h4⟩ := (Duo.traceR f g m0 evs).served n hk op got hr
    exact ⟨h1, ts, h2, h3, fun i x r t a b d => ⟨(h4 i x r t a b d).1, (h4 i x r t a b d).2.1.1, (h4 i x r t a b d).2.2⟩⟩

theorem Duo.change (f : χ → σ → ρ × σ) (g : χ' → σ → ρ' × σ) (m0 : σ) (evs : List (DuoEv χ ρ χ' ρ')) (n : Nat) :
    let S := fun k => Duo.run f g { mem := m0 } (evs.take k)
    (S n).w.m.issued.Nodup → (S n).r.m.issued.Nodup →
      (S (n + 1)).mem = (S n).mem ∨
      (∃ op x, (Outstanding (S n).w.m op ∧ (S n).w.front = some op) ∧ x ∈ op.xs ∧ (S (n + 1)).mem = (f x (S n).mem).2) ∨
      (∃ op x, Outstanding (S n).r.m op ∧ x ∈ op.xs ∧ (S (n + 1)).mem = (g x (S n).mem).2) := by
  intro S hw hr
  rcases Duo.mem_step f g m0 evs n with h | ⟨op, ⟨hp, hf⟩, x, hx, h⟩ | ⟨op, ⟨hp, _⟩, x, hx, h⟩
  · exact .inl h
  · exact .inr (.inl ⟨op, x, ⟨outstanding_of_pend ((Duo.traceW f g m0 evs).seq.inv n) hw hp, hf⟩, hx, h⟩)
  · exact .inr (.inr ⟨op, x, outstanding_of_pend ((Duo.traceR f g m0 evs).seq.inv n) hr hp, hx, h⟩)

/-- **C75, nothing else.** The target only changes when a transfer of an outstanding operation is served. -/
theorem C75_nothing_else (f : χ → σ → ρ × σ) (g : χ' → σ → ρ' × σ) (m0 : σ) (evs : List (DuoEv χ ρ χ' ρ')) (n : Nat) :
    let S := fun k => Duo.run f g { mem := m0 } (evs.take k)
    (S n).w.m.issued.Nodup → (S n).r.m.issued.Nodup →
      (S (n + 1)).mem = (S n).mem ∨
      (∃ op x, Outstanding (S n).w.m op ∧ x ∈ op.xs ∧ (S (n + 1)).mem = (f x (S n).mem).2) ∨
      (∃ op x, Outstanding (S n).r.m op ∧ x ∈ op.xs ∧ (S (n + 1)).mem = (g x (S n).mem).2) := by
  intro S hw hr
  rcases Duo.change f g m0 evs n hw hr with h | ⟨op, x, hp, hx, h⟩ | ⟨op, x, hp, hx, h⟩
  · exact .inl h
  · exact .inr (.inl ⟨op, x, hp.1, hx, h⟩)
  · exact .inr (.inr ⟨op, x, hp, hx, h⟩)

/-- **C96, order.** Writes are executed one after the other in the order in which they were issued: there are executions of all
completed writes such that all transfers of a write come before all transfers of writes issued later. -/
theorem C96_write_order (f : χ → σ → ρ × σ) (g : χ' → σ → ρ' × σ) (m0 : σ) (evs : List (DuoEv χ ρ χ' ρ')) (n : Nat) :
    let S := fun k => Duo.run f g { mem := m0 } (evs.take k)
    (S n).w.m.issued.Nodup → ∃ ex : Op χ → List ρ → List Nat,
      (∀ op got, (op, some got) ∈ (S n).w.m.results →
        Executed f (fun k => (S k).w.m) (fun k => (S k).mem) n op got (ex op got)) ∧
      ∀ op1 got1 op2 got2, (op1, some got1) ∈ (S n).w.m.results → (op2, some got2) ∈ (S n).w.m.results →
        Before (S n).w.m op1 op2 → ∀ t1 ∈ ex op1 got1, ∀ t2 ∈ ex op2 got2, t1 < t2 :=
  fun hk => (Duo.traceW f g m0 evs).ordered n hk

/-- **C96, order of reads.** -/
theorem C96_read_order (f : χ → σ → ρ × σ) (g : χ' → σ → ρ' × σ) (m0 : σ) (evs : List (DuoEv χ ρ χ' ρ')) (n : Nat) :
    let S := fun k => Duo.run f g { mem := m0 } (evs.take k)
    (S n).r.m.issued.Nodup → ∃ ex : Op χ' → List ρ' → List Nat,
      (∀ op got, (op, some got) ∈ (S n).r.m.results →
        Executed g (fun k => (S k).r.m) (fun k => (S k).mem) n op got (ex op got)) ∧
      ∀ op1 got1 op2 got2, (op1, some got1) ∈ (S n).r.m.results → (op2, some got2) ∈ (S n).r.m.results →
        Before (S n).r.m op1 op2 → ∀ t1 ∈ ex op1 got1, ∀ t2 ∈ ex op2 got2, t1 < t2 :=
  fun hk => (Duo.traceR f g m0 evs).ordered n hk

/-- **C35 for the connected system**: results are final, whatever happens later (the slave never answers early). -/
theorem C35_system_final [DecidableEq χ] [DecidableEq χ'] (f : χ → σ → ρ × σ) (g : χ' → σ → ρ' × σ) (m0 : σ)
    (evs : List (DuoEv χ ρ χ' ρ')) (n k : Nat) :
    let S := fun k => Duo.run f g { mem := m0 } (evs.take k)
    n ≤ k →
    ((S k).w.m.issued.Nodup → ∀ op r, resultOf (S n).w.m.results op = some r → resultOf (S k).w.m.results op = some r) ∧
    ((S k).r.m.issued.Nodup → ∀ op r, resultOf (S n).r.m.results op = some r → resultOf (S k).r.m.results op = some r) := by
  intro S hnk
  constructor
  · intro hk op r h
    have := (Duo.traceW f g m0 evs).seq.final (Duo.traceW f g m0 evs).not_early n (k - n)
    rw [show n + (k - n) = k by omega] at this
    exact this hk op r h
  · intro hk op r h
    have := (Duo.traceR f g m0 evs).seq.final (Duo.traceR f g m0 evs).not_early n (k - n)
    rw [show n + (k - n) = k by omega] at this
    exact this hk op r h

/-! ## With a RAM -/

section ram

open Word

variable (c : Cfg) (m0 : Memory) (evs : List RamEv)

/-- The hypotheses on a history: all operations come from accepted calls, with spans inside the RAM, and no two calls are the
same one. -/
structure Calls (wc : Nat → WCall) (rc : Nat → RCall) (n : Nat) : Prop where
  lanes : 0 < c.lanes
  wf : m0.WF
  size : 0 < m0.size
  w : ∀ op ∈ (ramAt c m0 evs n).w.m.issued, (wc op.key).makes c op ∧
    (wc op.key).address.toNat + (wc op.key).data.length ≤ m0.size
  r : ∀ op ∈ (ramAt c m0 evs n).r.m.issued, (rc op.key).makes c op ∧
    (rc op.key).address.toNat + (rc op.key).length.toNat ≤ m0.size
  wNodup : (ramAt c m0 evs n).w.m.issued.Nodup
  rNodup : (ramAt c m0 evs n).r.m.issued.Nodup

variable {c m0 evs}

theorem issuedW_le {t n : Nat} (h : t ≤ n) :
    (ramAt c m0 evs t).w.m.issued <+: (ramAt c m0 evs n).w.m.issued := by
  have := (Duo.traceW (slaveWrite ramTarget c.lanes true) (slaveRead ramTarget c.lanes) m0 evs).seq.issued_le t (n - t)
  rwa [show t + (n - t) = n by omega] at this

theorem issuedR_le {t n : Nat} (h : t ≤ n) :
    (ramAt c m0 evs t).r.m.issued <+: (ramAt c m0 evs n).r.m.issued := by
  have := (Duo.traceR (slaveWrite ramTarget c.lanes true) (slaveRead ramTarget c.lanes) m0 evs).seq.issued_le t (n - t)
  rwa [show t + (n - t) = n by omega] at this

/-- The transfers of an accepted write. -/
theorem WCall.makes_xs (hl : 0 < c.lanes) {a : WCall} {op : Op WXfer} (h : a.makes c op) :
    ∃ cmd : Cmd, cmd.address = a.address.toNat ∧ cmd.length = a.data.length ∧
      op.xs = (List.range (cycles c cmd)).map (xAt c cmd a.data) ∧
      Word.acceptWrite c a.address (.bytes a.data) a.prot = .ok (cmd, a.data) := by
  obtain ⟨cmd, h1, h2⟩ := h
  have h0 := h1
  obtain ⟨_, _, _, _, _, rfl⟩ := (C36_accept_iff ..).1 h1
  refine ⟨{ address := a.address.toNat, length := a.data.length, prot := a.prot }, rfl, rfl, ?_, h0⟩
  rw [writeXfers_spec c _ a.data hl rfl] at h2
  exact (Except.ok.inj h2).symm

theorem Trace.issued_of_result {f : χ → σ → ρ × σ} {p : Nat → Port χ ρ} {μ : Nat → σ} (hT : Trace f p μ) {n : Nat} {op : Op χ}
    {r : Option (List ρ)} (hr : (op, r) ∈ (p n).m.results) : op ∈ (p n).m.issued := by
  obtain ⟨st, h1, h2⟩ := (hT.seq.inv n).acct
  exact h1.mem_iff.2 (List.mem_append_left _ ((h2 op).2 ⟨_, hr⟩))

/-- A completed write, on a RAM that others may access too. -/
theorem Trace.ram_write {p : Nat → Port WXfer (Py Resp)} {μ : Nat → Memory} {n sz : Nat}
    (hT : Trace (slaveWrite ramTarget c.lanes true) p μ) (hl : 0 < c.lanes) (hmem : ∀ t < n, (μ t).WF ∧ (μ t).size = sz)
    (hs : 0 < sz) (hk : (p n).m.issued.Nodup) {a : WCall} {op : Op WXfer} (ha : a.makes c op)
    (hfit : a.address.toNat + a.data.length ≤ sz) {got : List (Py Resp)} (hr : (op, some got) ∈ (p n).m.results) :
    a.returns c got .okay ∧ (∀ r ∈ got, r = .ok .okay) ∧ ∃ t : Nat → Nat, ∀ i < a.data.length,
      t i < n ∧ (Outstanding (p (t i)).m op ∧ (p (t i)).front = some op) ∧
      some ((μ (t i + 1)).contents (a.address.toNat + i)) = a.data[i]? ∧
      ∀ j < a.data.length, (t i < t j ↔ (a.address.toNat + i) / c.lanes < (a.address.toNat + j) / c.lanes) := by
  obtain ⟨g1, ts, g2, g3, g4⟩ := hT.served n hk op got hr
  obtain ⟨cmd, e1, e2, e3, e4⟩ := WCall.makes_xs hl ha
  have hcy : op.xs.length = cycles c cmd := by rw [e3]; simp
  obtain ⟨h1, h2⟩ := word_write hl (d := a.data) e2.symm hmem hs (by omega) (P := fun t => Outstanding (p t).m op ∧ (p t).front = some op)
    (ts := ts) (by omega) g3 (resp := fun k => got.getD k (.ok .okay)) (by
      intro k hk t ht
      have hg : k < got.length := by omega
      obtain ⟨p1, p2, p3⟩ := g4 k (xAt c cmd a.data k) got[k] t (by rw [e3]; simp [hk]) (List.getElem?_eq_getElem hg) ht
      refine ⟨p1, p2, ?_⟩
      rw [List.getD_eq_getElem?_getD, List.getElem?_eq_getElem hg]
      exact p3)
  have hall : ∀ r ∈ got, r = .ok .okay := by
    intro r hr
    obtain ⟨k, hk, rfl⟩ := List.getElem_of_mem hr
    have := h1 k (by omega)
    rwa [List.getD_eq_getElem?_getD, List.getElem?_eq_getElem hk] at this
  rw [e1] at h2
  refine ⟨⟨cmd, List.replicate got.length .okay, e4, ?_, ?_⟩, hall, h2⟩
  · rw [List.map_replicate]
    exact List.eq_replicate_iff.2 ⟨rfl, hall⟩
  · have := C73_response c cmd (List.replicate got.length .okay) [] (by simp; omega)
      (fun r hr => .inl (List.mem_replicate.1 hr).2)
    rw [List.append_nil, if_neg (by simp)] at this
    exact this

/-- A completed read, on a RAM that others may access too. -/
theorem Trace.ram_read {p : Nat → Port RXfer (Nat × Resp)} {μ : Nat → Memory} {n sz : Nat}
    (hT : Trace (slaveRead ramTarget c.lanes) p μ) (hl : 0 < c.lanes) (hmem : ∀ t < n, (μ t).WF ∧ (μ t).size = sz)
    (hs : 0 < sz) (hk : (p n).m.issued.Nodup) {a : RCall} {op : Op RXfer} (ha : a.makes c op)
    (hfit : a.address.toNat + a.length.toNat ≤ sz) {got : List (Nat × Resp)} (hr : (op, some got) ∈ (p n).m.results) :
    ∃ data : Bytes, a.returns c got data .okay ∧ data.length = a.length.toNat ∧ ∃ t : Nat → Nat, ∀ i < a.length.toNat,
      t i < n ∧ Outstanding (p (t i)).m op ∧
      data[i]? = some ((μ (t i)).contents (a.address.toNat + i)) ∧
      ∀ j < a.length.toNat, (t i < t j ↔ (a.address.toNat + i) / c.lanes < (a.address.toNat + j) / c.lanes) := by
  obtain ⟨g1, ts, g2, g3, g4⟩ := hT.served n hk op got hr
  obtain ⟨cmd, w0, e3⟩ := ha
  obtain ⟨a1, a2, a3, a4, a5, a6⟩ := (C37_accept_iff ..).1 w0
  have e1 : cmd.address = a.address.toNat := by rw [a6]
  have e2 : cmd.length = a.length.toNat := by rw [a6]
  have hcy : op.xs.length = cycles c cmd := by rw [← e3]; simp [readXfers]
  obtain ⟨data, h1, h2, h3⟩ := word_read hl hmem hs (cmd := cmd) (by omega) (P := fun t => Outstanding (p t).m op)
    (ts := ts) (by omega) g3 (got := got) (by omega) (by
      intro k hk t r ht hg
      obtain ⟨p1, p2, p3⟩ := g4 k { addr := beatAddr c cmd k, prot := cmd.prot } r t (by
        rw [← e3, readXfers, List.getElem?_map, List.getElem?_range hk]; rfl) hg ht
      exact ⟨p1, p2.1, congrArg Prod.fst p3⟩)
  rw [e1, e2] at h3
  rw [e2] at h2
  exact ⟨data, ⟨cmd, w0, h1⟩, h2, h3⟩

theorem Calls.mem_ok {wc : Nat → WCall} {rc : Nat → RCall} {n : Nat} (H : Calls c m0 evs wc rc n) {t : Nat} (ht : t ≤ n) :
    (ramAt c m0 evs t).mem.WF ∧ (ramAt c m0 evs t).mem.size = m0.size := by
  induction t with
  | zero => exact ⟨H.wf, rfl⟩
  | succ t ih =>
    obtain ⟨h1, h2⟩ := ih (by omega)
    have hS := H.size
    rcases C75_nothing_else (slaveWrite ramTarget c.lanes true) (slaveRead ramTarget c.lanes) m0 evs t
        (H.wNodup.sublist (issuedW_le (by omega)).sublist) (H.rNodup.sublist (issuedR_le (by omega)).sublist) with
      h | ⟨op, x, ho, hx, h⟩ | ⟨op, x, ho, hx, h⟩
    · exact h ▸ ⟨h1, h2⟩
    · obtain ⟨g1, g2⟩ := H.w op ((issuedW_le (by omega)).subset ho.1)
      obtain ⟨cmd, e1, e2, e3, _⟩ := WCall.makes_xs H.lanes g1
      rw [e3] at hx
      obtain ⟨k, hk, rfl⟩ := List.mem_map.1 hx
      rw [List.mem_range] at hk
      obtain ⟨m', f1, f2, f3, f4⟩ := write_one c H.lanes cmd _ e2.symm k hk (ramAt c m0 evs t).mem h1 (by omega) (by omega)
      have h' : (ramAt c m0 evs (t + 1)).mem = m' := by
        refine Eq.trans h ?_
        show (slaveWrite ramTarget c.lanes true _ (ramAt c m0 evs t).mem).2 = m'
        rw [f1]
      rw [h']
      exact ⟨f2, by omega⟩
    · have h' : (ramAt c m0 evs (t + 1)).mem = (ramAt c m0 evs t).mem := by
        refine Eq.trans h ?_
        show (slaveRead ramTarget c.lanes _ (ramAt c m0 evs t).mem).2 = _
        rw [read_one c x _ h1 (by omega)]
      rw [h']
      exact ⟨h1, h2⟩

/-- See `C76_write`; also, the write was at the front then. -/
theorem Calls.write {wc : Nat → WCall} {rc : Nat → RCall} {n : Nat} (H : Calls c m0 evs wc rc n) (op : Op WXfer)
    (got : List (Py Resp)) (hr : (op, some got) ∈ (ramAt c m0 evs n).w.m.results) :
    let A := (wc op.key).address.toNat
    let d := (wc op.key).data
    (∀ r ∈ got, r = .ok .okay) ∧ ∃ t : Nat → Nat, ∀ i < d.length,
      t i < n ∧ (Outstanding (ramAt c m0 evs (t i)).w.m op ∧ (ramAt c m0 evs (t i)).w.front = some op) ∧
      some ((ramAt c m0 evs (t i + 1)).mem.contents (A + i)) = d[i]? ∧
      ∀ j < d.length, (t i < t j ↔ (A + i) / c.lanes < (A + j) / c.lanes) := by
  have hT := Duo.traceW (slaveWrite ramTarget c.lanes true) (slaveRead ramTarget c.lanes) m0 evs
  obtain ⟨w1, w2⟩ := H.w op (hT.issued_of_result hr)
  exact (hT.ram_write H.lanes (fun t ht => H.mem_ok (by omega)) H.size H.wNodup w1 w2 hr).2

/-- **C76, writes.** When a write has completed, all its transfers were answered OKAY, and each byte of the data was stored at
an instant at which the write was outstanding: bytes of one bus word together, words in ascending order. -/
theorem C76_write {wc : Nat → WCall} {rc : Nat → RCall} {n : Nat} (H : Calls c m0 evs wc rc n) (op : Op WXfer)
    (got : List (Py Resp)) (hr : (op, some got) ∈ (ramAt c m0 evs n).w.m.results) :
    let A := (wc op.key).address.toNat
    let d := (wc op.key).data
    (∀ r ∈ got, r = .ok .okay) ∧ ∃ t : Nat → Nat, ∀ i < d.length,
      t i < n ∧ Outstanding (ramAt c m0 evs (t i)).w.m op ∧
      some ((ramAt c m0 evs (t i + 1)).mem.contents (A + i)) = d[i]? ∧
      ∀ j < d.length, (t i < t j ↔ (A + i) / c.lanes < (A + j) / c.lanes) := by
  intro A d
  obtain ⟨h1, t, h2⟩ := H.write op got hr
  exact ⟨h1, t, fun i hi => ⟨(h2 i hi).1, (h2 i hi).2.1.1, (h2 i hi).2.2⟩⟩

/-- **C76, reads.** When a read has completed, its caller gets OKAY and the requested number of bytes, each of them what the
RAM contained at an instant at which the read was outstanding: bytes of one bus word at the same instant, words in ascending
order. -/
theorem C76_read {wc : Nat → WCall} {rc : Nat → RCall} {n : Nat} (H : Calls c m0 evs wc rc n) (op : Op RXfer)
    (got : List (Nat × Resp)) (hr : (op, some got) ∈ (ramAt c m0 evs n).r.m.results) :
    let A := (rc op.key).address.toNat
    let N := (rc op.key).length.toNat
    ∃ data : Bytes, (rc op.key).returns c got data .okay ∧ data.length = N ∧ ∃ t : Nat → Nat, ∀ i < N,
      t i < n ∧ Outstanding (ramAt c m0 evs (t i)).r.m op ∧
      data[i]? = some ((ramAt c m0 evs (t i)).mem.contents (A + i)) ∧
      ∀ j < N, (t i < t j ↔ (A + i) / c.lanes < (A + j) / c.lanes) := by
  have hT := Duo.traceR (slaveWrite ramTarget c.lanes true) (slaveRead ramTarget c.lanes) m0 evs
  obtain ⟨w1, w2⟩ := H.r op (hT.issued_of_result hr)
  exact hT.ram_read H.lanes (fun t ht => H.mem_ok (by omega)) H.size H.rNodup w1 w2 hr

/-- See `C76_changes`; also, the write was at the front then. -/
theorem Calls.change {wc : Nat → WCall} {rc : Nat → RCall} {n : Nat} (H : Calls c m0 evs wc rc n) (t b : Nat) (ht : t < n)
    (hne : (ramAt c m0 evs (t + 1)).mem.contents b ≠ (ramAt c m0 evs t).mem.contents b) :
    ∃ op, (Outstanding (ramAt c m0 evs t).w.m op ∧ (ramAt c m0 evs t).w.front = some op) ∧ (wc op.key).address.toNat ≤ b ∧
      (wc op.key).data[b - (wc op.key).address.toNat]? = some ((ramAt c m0 evs (t + 1)).mem.contents b) := by
  obtain ⟨h1, h2⟩ := H.mem_ok (t := t) (by omega)
  have hS := H.size
  rcases Duo.change (slaveWrite ramTarget c.lanes true) (slaveRead ramTarget c.lanes) m0 evs t
      (H.wNodup.sublist (issuedW_le (by omega)).sublist) (H.rNodup.sublist (issuedR_le (by omega)).sublist) with
    h | ⟨op, x, ho, hx, h⟩ | ⟨op, x, ho, hx, h⟩
  · exact absurd (congrArg (fun m => Memory.contents m b) h) hne
  · obtain ⟨g1, g2⟩ := H.w op ((issuedW_le (by omega)).subset ho.1.1)
    obtain ⟨cmd, e1, e2, e3, _⟩ := WCall.makes_xs H.lanes g1
    rw [e3] at hx
    obtain ⟨k, hk, rfl⟩ := List.mem_map.1 hx
    rw [List.mem_range] at hk
    obtain ⟨m', f1, f2, f3, f4⟩ := write_one c H.lanes cmd _ e2.symm k hk (ramAt c m0 evs t).mem h1 (by omega) (by omega)
    have h' : (ramAt c m0 evs (t + 1)).mem = m' := by
      refine Eq.trans h ?_
      show (slaveWrite ramTarget c.lanes true _ (ramAt c m0 evs t).mem).2 = m'
      rw [f1]
    rw [h', f4] at hne ⊢
    obtain ⟨k1, k2⟩ := write_change H.lanes e2.symm hk hne
    rw [e1] at k1 k2
    exact ⟨op, ho, k1, k2⟩
  · exfalso
    apply hne
    have h' : (ramAt c m0 evs (t + 1)).mem = (ramAt c m0 evs t).mem := by
      refine Eq.trans h ?_
      show (slaveRead ramTarget c.lanes _ (ramAt c m0 evs t).mem).2 = _
      rw [read_one c x _ h1 (by omega)]
    rw [h']

/-- **C76, nothing else.** A RAM byte changes only at an instant at which a write covering it is outstanding, and to the byte
that this write has for it. -/
theorem C76_changes {wc : Nat → WCall} {rc : Nat → RCall} {n : Nat} (H : Calls c m0 evs wc rc n) (t b : Nat) (ht : t < n)
    (hne : (ramAt c m0 evs (t + 1)).mem.contents b ≠ (ramAt c m0 evs t).mem.contents b) :
    ∃ op, Outstanding (ramAt c m0 evs t).w.m op ∧ (wc op.key).address.toNat ≤ b ∧
      (wc op.key).data[b - (wc op.key).address.toNat]? = some ((ramAt c m0 evs (t + 1)).mem.contents b) := by
  obtain ⟨op, h1, h2⟩ := H.change t b ht hne
  exact ⟨op, h1.1, h2⟩

theorem Calls.mono {wc : Nat → WCall} {rc : Nat → RCall} {n k : Nat} (H : Calls c m0 evs wc rc n) (hk : k ≤ n) :
    Calls c m0 evs wc rc k :=
  ⟨H.lanes, H.wf, H.size, fun op ho => H.w op ((issuedW_le hk).subset ho), fun op ho => H.r op ((issuedR_le hk).subset ho),
    H.wNodup.sublist (issuedW_le hk).sublist, H.rNodup.sublist (issuedR_le hk).sublist⟩

/-- The byte keeps the value that the last write issued gave it. -/
theorem Calls.stays {wc : Nat → WCall} {rc : Nat → RCall} {n : Nat} (H : Calls c m0 evs wc rc n)
    (wop : Op WXfer) (wgot : List (Py Resp)) (k : Nat) (hk : k ≤ n)
    (hw : (wop, some wgot) ∈ (ramAt c m0 evs k).w.m.results) (b : Nat) (hb : (wc wop.key).covers b)
    (hlast : ∀ op ∈ (ramAt c m0 evs n).w.m.issued, (wc op.key).covers b →
      op = wop ∨ Before (ramAt c m0 evs n).w.m op wop) (q : Nat) (hq : k ≤ q) (hqn : q ≤ n) :
    some ((ramAt c m0 evs q).mem.contents b) = (wc wop.key).data[b - (wc wop.key).address.toNat]? := by
  obtain ⟨hb1, hb2⟩ := hb
  obtain ⟨_, tw, W⟩ := (H.mono hk).write wop wgot hw
  obtain ⟨w1, ⟨w2, w0⟩, w3, _⟩ := W (b - (wc wop.key).address.toNat) (by omega)
  rw [show (wc wop.key).address.toNat + (b - (wc wop.key).address.toNat) = b by omega] at w3
  generalize htw : tw (b - (wc wop.key).address.toNat) = a at *
  obtain ⟨d, rfl⟩ := Nat.exists_eq_add_of_le (show a + 1 ≤ q by omega)
  clear hq
  induction d with
  | zero => exact w3
  | succ d ih =>
    have ih := ih (by omega)
    by_cases hch : (ramAt c m0 evs (a + 1 + d + 1)).mem.contents b = (ramAt c m0 evs (a + 1 + d)).mem.contents b
    · rw [← Nat.add_assoc, hch]; exact ih
    · obtain ⟨op, ⟨o1, o0⟩, o2, o3⟩ := H.change (a + 1 + d) b (by omega) hch
      have hlt : b < (wc op.key).address.toNat + (wc op.key).data.length := by
        have := (List.getElem?_eq_some_iff.1 o3).1; omega
      rcases hlast op ((issuedW_le (by omega)).subset o1.1) ⟨o2, hlt⟩ with heq | hbef
      · subst heq
        rw [← Nat.add_assoc, ← o3]
      · exfalso
        have := (Duo.traceW (slaveWrite ramTarget c.lanes true) (slaveRead ramTarget c.lanes) m0 evs).order o0 w0 (N := n)
          (by omega) (by omega) H.wNodup hbef
        omega

/-- **C77: a read returns what was written.** Let a write have completed by instant `k`, and a read be issued after `k` and have
completed. Byte `b` of both spans: if every other write covering `b` was issued before that write (complete or not), the read
returns that byte of the written data. -/
theorem C77_read_your_writes {wc : Nat → WCall} {rc : Nat → RCall} {n : Nat} (H : Calls c m0 evs wc rc n)
    (wop : Op WXfer) (wgot : List (Py Resp)) (k : Nat) (hk : k ≤ n)
    (hw : (wop, some wgot) ∈ (ramAt c m0 evs k).w.m.results)
    (rop : Op RXfer) (rgot : List (Nat × Resp)) (hlate : rop ∉ (ramAt c m0 evs k).r.m.issued)
    (hr : (rop, some rgot) ∈ (ramAt c m0 evs n).r.m.results) (b : Nat) (hb : (wc wop.key).covers b)
    (hb3 : (rc rop.key).address.toNat ≤ b) (hb4 : b < (rc rop.key).address.toNat + (rc rop.key).length.toNat)
    (hlast : ∀ op ∈ (ramAt c m0 evs n).w.m.issued, (wc op.key).covers b →
      op = wop ∨ Before (ramAt c m0 evs n).w.m op wop) :
    ∃ data, (rc rop.key).returns c rgot data .okay ∧
      data[b - (rc rop.key).address.toNat]? = (wc wop.key).data[b - (wc wop.key).address.toNat]? := by
  obtain ⟨data, d1, d2, tr, R⟩ := C76_read H rop rgot hr
  obtain ⟨r1, r2, r3, _⟩ := R (b - (rc rop.key).address.toNat) (by omega)
  refine ⟨data, d1, ?_⟩
  rw [show (rc rop.key).address.toNat + (b - (rc rop.key).address.toNat) = b by omega] at r3
  rw [r3]
  refine H.stays wop wgot k hk hw b hb hlast _ ?_ (by omega)
  rcases Nat.lt_or_ge k (tr (b - (rc rop.key).address.toNat)) with h | h
  · omega
  · exact absurd ((issuedR_le h).subset r2.1) hlate

theorem last_covering (wc : Nat → WCall) (b : Nat) (l : List (Op WXfer)) :
    (∀ op ∈ l, ¬ (wc op.key).covers b) ∨
      ∃ l1 w l2, l = l1 ++ w :: l2 ∧ (wc w.key).covers b ∧ ∀ op ∈ l2, ¬ (wc op.key).covers b := by
  induction l with
  | nil => exact .inl (by simp)
  | cons x l ih =>
    rcases ih with ih | ⟨l1, w, l2, rfl, h1, h2⟩
    · by_cases hx : (wc x.key).covers b
      · exact .inr ⟨[], x, l, rfl, hx, ih⟩
      · left
        intro op hop
        rcases List.mem_cons.1 hop with rfl | hop
        · exact hx
        · exact ih op hop
    · exact .inr ⟨x :: l1, w, l2, rfl, h1, h2⟩

theorem fold_not_covered {wc : Nat → WCall} {b : Nat} (l : List (Op WXfer)) (h : ∀ op ∈ l, ¬ (wc op.key).covers b)
    (f : FlatMem) :
    (l.foldl (fun f op => f.store (wc op.key).address.toNat (wc op.key).data) f) b = f b := by
  induction l generalizing f with
  | nil => rfl
  | cons x l ih =>
    rw [List.foldl_cons, ih fun op hop => h op (List.mem_cons_of_mem _ hop)]
    exact store_else (h x List.mem_cons_self)

/-- **C96: writes take effect in the order in which they were issued.** When the writes covering a byte have all completed, the
RAM contains there what performing all issued writes one after the other, in the order of the calls, leaves. -/
theorem C96_sequential {wc : Nat → WCall} {rc : Nat → RCall} {n : Nat} (H : Calls c m0 evs wc rc n) (b : Nat)
    (hdone : ∀ op ∈ (ramAt c m0 evs n).w.m.issued, (wc op.key).covers b →
      ∃ got, (op, some got) ∈ (ramAt c m0 evs n).w.m.results) :
    (ramAt c m0 evs n).mem.contents b = ((ramAt c m0 evs n).w.m.issued.foldl
      (fun f op => f.store (wc op.key).address.toNat (wc op.key).data) m0.contents) b := by
  rcases last_covering wc b (ramAt c m0 evs n).w.m.issued with hno | ⟨l1, w, l2, he, h1, h2⟩
  · rw [fold_not_covered _ hno]
    have : ∀ q, q ≤ n → (ramAt c m0 evs q).mem.contents b = m0.contents b := by
      intro q
      induction q with
      | zero => intro _; rfl
      | succ q ih =>
        intro hq
        by_cases hch : (ramAt c m0 evs (q + 1)).mem.contents b = (ramAt c m0 evs q).mem.contents b
        · rw [hch]; exact ih (by omega)
        · obtain ⟨op, o1, o2, o3⟩ := C76_changes H q b (by omega) hch
          have hlt : b < (wc op.key).address.toNat + (wc op.key).data.length := by
            have := (List.getElem?_eq_some_iff.1 o3).1; omega
          exact absurd ⟨o2, hlt⟩ (hno op ((issuedW_le (by omega)).subset o1.1))
    exact this n (Nat.le_refl _)
  · obtain ⟨got, hgot⟩ := hdone w (by rw [he]; simp) h1
    have hs := H.stays w got n (Nat.le_refl _) hgot b h1 (by
      intro op hop hcov
      rw [he] at hop
      rcases List.mem_append.1 hop with hop | hop
      · refine .inr ?_
        unfold Before
        rw [he]
        exact (List.singleton_sublist.2 hop).append (List.singleton_sublist.2 List.mem_cons_self)
      · rcases List.mem_cons.1 hop with hop | hop
        · exact .inl hop
        · exact absurd hcov (h2 op hop)) n (Nat.le_refl _) (Nat.le_refl _)
    rw [he, List.foldl_append, List.foldl_cons, fold_not_covered _ h2]
    rw [← Option.some.injEq, hs]
    obtain ⟨c1, c2⟩ := h1
    have := store_at (m := l1.foldl (fun f op => f.store (wc op.key).address.toNat (wc op.key).data) m0.contents)
      (a := (wc w.key).address.toNat) (d := (wc w.key).data) (x := b) ⟨c1, c2⟩
    rw [this]

/-! ### A concrete history

Writes `[2, 6)` and `[4, 8)` and read `[1, 6)` on a 4 byte wide bus: the second write is issued before the first is completed;
the read is issued after the first write has completed and overlaps the second. -/

def exC : Cfg := { lanes := 4, addrWidth := 16 }
def exM : Memory := { size := 16, mem := .buf (List.replicate 16 7) }
def exW : Nat → WCall
  | 0 => { address := 2, data := [1, 2, 3, 4] }
  | _ => { address := 4, data := [5, 6, 7, 8] }
def exR : Nat → RCall := fun _ => { address := 1, length := 5 }
def exW0 : Op WXfer := ⟨0, [⟨2, 2, 0x02010000, 12⟩, ⟨4, 2, 0x0403, 3⟩]⟩
def exW1 : Op WXfer := ⟨1, [⟨4, 2, 0x08070605, 15⟩]⟩
def exR0 : Op RXfer := ⟨0, [⟨1, 2⟩, ⟨4, 2⟩]⟩

def exEvs : List RamEv :=
  [.w (.reset false), .r (.reset false), .w (.master (.write exW0)), .w (.master .take), .w .send, .w (.master (.write exW1)),
   .w .serve, .w .send, .w .serve, .w .deliver, .w .deliver, .w (.master .respTake), .w (.master .respGet),
   .w (.master .respGet), .w (.master .respDone), .r (.master (.write exR0)), .r (.master .take), .w (.master .take), .w .send,
   .r .send, .r .send, .r .serve, .w .serve, .r .serve, .r .deliver, .r .deliver, .r (.master .respTake), .r (.master .respGet),
   .r (.master .respGet), .r (.master .respDone)]

theorem exCalls : Calls exC exM exEvs exW exR 30 := by
  have hW : (ramAt exC exM exEvs 30).w.m.issued = [exW0, exW1] := by decide +kernel
  have hR : (ramAt exC exM exEvs 30).r.m.issued = [exR0] := by decide +kernel
  refine ⟨by decide, ⟨rfl, trivial⟩, by decide, ?_, ?_, ?_, ?_⟩
  · rw [hW]
    intro op hop
    rw [List.mem_cons, List.mem_singleton] at hop
    rcases hop with rfl | rfl
    · exact ⟨⟨{ address := 2, length := 4, prot := 2 }, (C36_accept_iff ..).2 ⟨rfl, by decide, by decide, by decide,
        by simp [exW, exW0], rfl⟩, by decide +kernel⟩, by decide⟩
    · exact ⟨⟨{ address := 4, length := 4, prot := 2 }, (C36_accept_iff ..).2 ⟨rfl, by decide, by decide, by decide,
        by simp [exW, exW1], rfl⟩, by decide +kernel⟩, by decide⟩
  · rw [hR]
    intro op hop
    rw [List.mem_singleton] at hop
    subst hop
    exact ⟨⟨{ address := 1, length := 5, prot := 2 }, (C37_accept_iff ..).2 ⟨by decide, by decide, by decide, by decide,
        by simp [exR], rfl⟩, by decide +kernel⟩, by decide⟩
  · rw [hW]; decide
  · rw [hR]; decide

/-- The read was served on both sides of the second write, and saw it: it completed with bytes of both. -/
example : (ramAt exC exM exEvs 30).r.m.results = [(exR0, some [(0x02010707, .okay), (0x08070605, .okay)])] ∧
    (ramAt exC exM exEvs 15).w.m.results = [(exW0, some [.ok .okay, .ok .okay])] ∧
    exR0 ∉ (ramAt exC exM exEvs 15).r.m.issued := by decide +kernel

/-- C77 applies to address 2 (covered by the first write only). -/
example : ∃ data, (exR 0).returns exC [(0x02010707, .okay), (0x08070605, .okay)] data .okay ∧ data[1]? = some 1 := by
  have h := C77_read_your_writes exCalls exW0 [.ok .okay, .ok .okay] 15 (by decide) (by decide +kernel) exR0
    [(0x02010707, .okay), (0x08070605, .okay)] (by decide +kernel) (by decide +kernel) 2 ⟨by decide, by decide⟩ (by decide)
    (by decide) (by
      have hW : (ramAt exC exM exEvs 30).w.m.issued = [exW0, exW1] := by decide +kernel
      rw [hW]
      intro op hop hc
      rw [List.mem_cons, List.mem_singleton] at hop
      rcases hop with rfl | rfl
      · exact .inl rfl
      · exact absurd hc.1 (by decide))
  exact h

/-- The same history, and the second write completes too. -/
def exMore : List RamEv := exEvs ++ [.w .deliver, .w (.master .respTake), .w (.master .respGet), .w (.master .respDone)]

theorem exCallsMore : Calls exC exM exMore exW exR 34 := by
  have hW : (ramAt exC exM exMore 34).w.m.issued = [exW0, exW1] := by decide +kernel
  have hR : (ramAt exC exM exMore 34).r.m.issued = [exR0] := by decide +kernel
  have hW' : (ramAt exC exM exEvs 30).w.m.issued = [exW0, exW1] := by decide +kernel
  have hR' : (ramAt exC exM exEvs 30).r.m.issued = [exR0] := by decide +kernel
  obtain ⟨h1, h2, h3, h4, h5, h6, h7⟩ := exCalls
  exact ⟨h1, h2, h3, by rw [hW, ← hW']; exact h4, by rw [hR, ← hR']; exact h5, by rw [hW, ← hW']; exact h6,
    by rw [hR, ← hR']; exact h7⟩

/-- C96 applies to all bytes; bytes 4 and 5 were written twice, and both writes have completed, the first one first. -/
example : (ramAt exC exM exMore 34).mem.contents 4 = 5 ∧ (ramAt exC exM exMore 34).mem.contents 2 = 1 := by
  have hW : (ramAt exC exM exMore 34).w.m.issued = [exW0, exW1] := by decide +kernel
  have hd : ∀ b, ∀ op ∈ (ramAt exC exM exMore 34).w.m.issued, (exW op.key).covers b →
      ∃ got, (op, some got) ∈ (ramAt exC exM exMore 34).w.m.results := by
    rw [hW]
    intro b op hop _
    rw [List.mem_cons, List.mem_singleton] at hop
    rcases hop with rfl | rfl
    · exact ⟨[.ok .okay, .ok .okay], by decide +kernel⟩
    · exact ⟨[.ok .okay], by decide +kernel⟩
  rw [C96_sequential exCallsMore 4 (hd 4), C96_sequential exCallsMore 2 (hd 2), hW]
  exact ⟨rfl, rfl⟩

example : ∃ ex : Op WXfer → List (Py Resp) → List Nat,
    ∀ t1 ∈ ex exW0 [.ok .okay, .ok .okay], ∀ t2 ∈ ex exW1 [.ok .okay], t1 < t2 := by
  obtain ⟨ex, h1, h2⟩ := C96_write_order (slaveWrite ramTarget exC.lanes true) (slaveRead ramTarget exC.lanes) exM exMore 34
    exCallsMore.wNodup
  refine ⟨ex, h2 exW0 _ exW1 _ ?_ ?_ ?_⟩
  · show _ ∈ (ramAt exC exM exMore 34).w.m.results
    decide +kernel
  · show _ ∈ (ramAt exC exM exMore 34).w.m.results
    decide +kernel
  · have hW : (ramAt exC exM exMore 34).w.m.issued = [exW0, exW1] := by decide +kernel
    show [exW0, exW1].Sublist (ramAt exC exM exMore 34).w.m.issued
    rw [hW]; exact List.Sublist.refl _

end ram
end Verif.LiteOps
