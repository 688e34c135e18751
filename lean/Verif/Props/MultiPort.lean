import Verif.Proof.MultiPort

/-!
# C115, C116: several interfaces on one target

Masters of all three kinds, any number of each, connected to slaves on the same target: multi-port memories and shared targets. All
ports run concurrently and in any interleaving, each with any number of outstanding operations; each may be reset at any time; the
test bench may access the target directly at any time.
-/

namespace Verif.Multi

variable {σ : Type}

/-- The AXI ports have proper widths, and the requested IDs can be driven on the ID signals. -/
structure PortsOK (E : Ports σ) : Prop where
  std : ∀ i, (E.axi i).Std
  idsW : ∀ i k, (E.wa i k).req.id ≠ some (2 ^ (E.axi i).idWidth)
  idsR : ∀ i k, (E.ra i k).id ≠ some (2 ^ (E.axi i).idWidth)

/-- No operation is issued twice on an AXI-lite or APB port (two calls are two operations). -/
structure Once (S : Multi σ) : Prop where
  liteW : ∀ i, (S.liteW i).m.issued.Nodup
  liteR : ∀ i, (S.liteR i).m.issued.Nodup
  apb : ∀ i, (S.apb i).m.issued.Nodup

section generic

variable {E : Ports σ} (hE : PortsOK E) {st : σ} {evs : List MultiEv} {n : Nat}

include hE in
/-- Operations stay issued, and ended. -/
theorem issued_mono {x : Tx} {i j : Nat} (hij : i ≤ j) (h : x.issued (at_ E st evs i)) : x.issued (at_ E st evs j) := by
  cases x with
  | axiW p op => exact ((traceAxiW p (hE.std p) (hE.idsW p)).seq.grows hij).1.subset h
  | axiR p op => exact ((traceAxiR p (hE.std p) (hE.idsR p)).seq.grows hij).1.subset h
  | liteW p op => exact ((traceLiteW p).grows hij).subset h
  | liteR p op => exact ((traceLiteR p).grows hij).subset h
  | apb p op => exact ((traceApb p).grows hij).subset h

include hE in
theorem ended_mono {x : Tx} {i j : Nat} (hij : i ≤ j) (h : x.ended (at_ E st evs i)) : x.ended (at_ E st evs j) := by
  cases x with
  | axiW p op => obtain ⟨r, h⟩ := h; exact ⟨r, ((traceAxiW p (hE.std p) (hE.idsW p)).seq.grows hij).2.subset h⟩
  | axiR p op => obtain ⟨r, h⟩ := h; exact ⟨r, ((traceAxiR p (hE.std p) (hE.idsR p)).seq.grows hij).2.subset h⟩
  | liteW p op => obtain ⟨r, h⟩ := h; exact ⟨r, ((traceLiteW p).results_le hij).subset h⟩
  | liteR p op => obtain ⟨r, h⟩ := h; exact ⟨r, ((traceLiteR p).results_le hij).subset h⟩
  | apb p op => obtain ⟨r, h⟩ := h; exact ⟨r, ((traceApb p).results_le hij).subset h⟩

theorem Once.mono (h : Once (at_ E st evs n)) {k : Nat} (hk : k ≤ n) : Once (at_ E st evs k) where
  liteW i := (h.liteW i).sublist ((traceLiteW i).grows hk).sublist
  liteR i := (h.liteR i).sublist ((traceLiteR i).grows hk).sublist
  apb i := (h.apb i).sublist ((traceApb i).grows hk).sublist

/-- The operation that a slave is working on. -/
def front (E : Ports σ) (S : Multi σ) : Tx → Prop
  | .axiW i op => ∃ g, (AxiSys.wOpen (E.axi i) (E.wa i) (S.axiW i)).head? = some g ∧ g.op = op
  | .axiR i op => ∃ g, (AxiSys.rOpen (E.axi i) (E.ra i) (S.axiR i)).head? = some g ∧ g.op = op
  | .liteW i op => (S.liteW i).front = some op
  | .liteR i op => (S.liteR i).front = some op
  | .apb i op => (S.apb i).m.active = [op]

include hE in
theorem front_order (ho : Once (at_ E st evs n)) {x y : Tx} {i j : Nat} (hx : front E (at_ E st evs i) x)
    (hy : front E (at_ E st evs j) y) (hi : i ≤ n) (hj : j ≤ n) (hb : Tx.before (at_ E st evs n) x y) : i < j := by
  cases x <;> cases y <;> simp only [Tx.before] at hb <;> obtain ⟨rfl, hb⟩ := hb
  · obtain ⟨g, hx, rfl⟩ := hx
    obtain ⟨g', hy, rfl⟩ := hy
    exact (traceAxiW (E := E) _ (hE.std _) (hE.idsW _)).served.order hx hy hj hb
  · obtain ⟨g, hx, rfl⟩ := hx
    obtain ⟨g', hy, rfl⟩ := hy
    exact (traceAxiR (E := E) _ (hE.std _) (hE.idsR _)).served.order hx hy hj hb
  · exact (traceLiteW (E := E) _).order hx hy hi hj (ho.liteW _) hb
  · exact (traceLiteR (E := E) _).order hx hy hi hj (ho.liteR _) hb
  · exact (traceApb (E := E) _).order hx hy hi hj (ho.apb _) hb


/-! ### C115: any target -/

include hE in
/-- **C115, AXI writes.** On every AXI port, every write that completed was executed exactly (see `WriteDone`: beat by beat in order, each at an
instant at which it was outstanding, with the response that says so), whatever the other ports do; and the writes of a port were
executed one after the other in the order in which they were issued. -/
theorem C115_axi_writes (i : Nat) :
    let S := at_ E st evs
    ∃ ex : AxiOps.Op → List Axi.BBeat → List ((Axi.ABeat × List Axi.WBeat) × List (Nat × Bool)),
      (∀ op got, (op, some got) ∈ ((S n).axiW i).m.results →
        AxiSys.WriteDone (E.axi i) (E.wa i) E.t (fun k => (S k).axi i) n op got (ex op got)) ∧
      ∀ op1 got1 op2 got2, (op1, some got1) ∈ ((S n).axiW i).m.results → (op2, some got2) ∈ ((S n).axiW i).m.results →
        Tx.before (S n) (.axiW i op1) (.axiW i op2) →
          ∀ x1 ∈ (ex op1 got1).flatMap (·.2), ∀ x2 ∈ (ex op2 got2).flatMap (·.2), x1.1 < x2.1 := by
  intro S
  obtain ⟨ex, h1, h2⟩ := (traceAxiW (E := E) (st := st) (evs := evs) i (hE.std i) (hE.idsW i)).ordered n
  exact ⟨ex, h1, fun op1 got1 op2 got2 r1 r2 hb => h2 op1 got1 op2 got2 r1 r2 hb.2⟩

include hE in
/-- **C115, AXI reads.** -/
theorem C115_axi_reads (i : Nat) :
    let S := at_ E st evs
    ∃ ex : AxiOps.Op → List Axi.RBeat → List Nat,
      (∀ op got, (op, some got) ∈ ((S n).axiR i).m.results →
        AxiSys.ReadDone (E.axi i) (E.ra i) E.t (fun k => (S k).axi i) n op got (ex op got)) ∧
      ∀ op1 got1 op2 got2, (op1, some got1) ∈ ((S n).axiR i).m.results → (op2, some got2) ∈ ((S n).axiR i).m.results →
        Tx.before (S n) (.axiR i op1) (.axiR i op2) → ∀ x1 ∈ ex op1 got1, ∀ x2 ∈ ex op2 got2, x1 < x2 := by
  intro S
  obtain ⟨ex, h1, h2⟩ := (traceAxiR (E := E) (st := st) (evs := evs) i (hE.std i) (hE.idsR i)).ordered n
  exact ⟨ex, h1, fun op1 got1 op2 got2 r1 r2 hb => h2 op1 got1 op2 got2 r1 r2 hb.2⟩

/-- **C115, AXI-lite writes.** On every AXI-lite port, every write that completed was executed exactly: its transfers one by one in order, each at
an instant at which it was outstanding, and it got their responses, whatever the other ports do; and the writes of a port were
executed in the order in which they were issued. -/
theorem C115_lite_writes (ho : Once (at_ E st evs n)) (i : Nat) :
    let S := at_ E st evs
    ∃ ex : LiteOps.Op Word.WXfer → List (Py Resp) → List Nat,
      (∀ op got, (op, some got) ∈ ((S n).liteW i).m.results →
        LiteOps.Executed (Word.slaveWrite E.t (E.lite i).lanes true) (fun k => ((S k).liteW i).m) (fun k => (S k).mem) n op got
          (ex op got)) ∧
      ∀ op1 got1 op2 got2, (op1, some got1) ∈ ((S n).liteW i).m.results → (op2, some got2) ∈ ((S n).liteW i).m.results →
        Tx.before (S n) (.liteW i op1) (.liteW i op2) → ∀ t1 ∈ ex op1 got1, ∀ t2 ∈ ex op2 got2, t1 < t2 := by
  intro S
  obtain ⟨ex, h1, h2⟩ := (traceLiteW (E := E) (st := st) (evs := evs) i).ordered n (ho.liteW i)
  exact ⟨ex, h1, fun op1 got1 op2 got2 r1 r2 hb => h2 op1 got1 op2 got2 r1 r2 hb.2⟩

/-- **C115, AXI-lite reads.** -/
theorem C115_lite_reads (ho : Once (at_ E st evs n)) (i : Nat) :
    let S := at_ E st evs
    ∃ ex : LiteOps.Op Word.RXfer → List (Nat × Resp) → List Nat,
      (∀ op got, (op, some got) ∈ ((S n).liteR i).m.results →
        LiteOps.Executed (Word.slaveRead E.t (E.lite i).lanes) (fun k => ((S k).liteR i).m) (fun k => (S k).mem) n op got
          (ex op got)) ∧
      ∀ op1 got1 op2 got2, (op1, some got1) ∈ ((S n).liteR i).m.results → (op2, some got2) ∈ ((S n).liteR i).m.results →
        Tx.before (S n) (.liteR i op1) (.liteR i op2) → ∀ t1 ∈ ex op1 got1, ∀ t2 ∈ ex op2 got2, t1 < t2 := by
  intro S
  obtain ⟨ex, h1, h2⟩ := (traceLiteR (E := E) (st := st) (evs := evs) i).ordered n (ho.liteR i)
  exact ⟨ex, h1, fun op1 got1 op2 got2 r1 r2 hb => h2 op1 got1 op2 got2 r1 r2 hb.2⟩

/-- **C115, APB.** The same for the reads and writes of an APB port, which are executed in one order. -/
theorem C115_apb (ho : Once (at_ E st evs n)) (i : Nat) :
    let S := at_ E st evs
    ∃ ex : Apb.Op → List Apb.Rsp → List Nat,
      (∀ op got, (op, some got) ∈ ((S n).apb i).m.results →
        Apb.Executed (E.slverr i) (Apb.access E.t (E.apb i).lanes true) (fun k => ((S k).apb i).m) (fun k => (S k).mem) n op got
          (ex op got)) ∧
      ∀ op1 got1 op2 got2, (op1, some got1) ∈ ((S n).apb i).m.results → (op2, some got2) ∈ ((S n).apb i).m.results →
        Tx.before (S n) (.apb i op1) (.apb i op2) → ∀ t1 ∈ ex op1 got1, ∀ t2 ∈ ex op2 got2, t1 < t2 := by
  intro S
  obtain ⟨ex, h1, h2⟩ := (traceApb (E := E) (st := st) (evs := evs) i).ordered n (ho.apb i)
  exact ⟨ex, h1, fun op1 got1 op2 got2 r1 r2 hb => h2 op1 got1 op2 got2 r1 r2 hb.2⟩

include hE in
/-- **C115, nothing else.** The target only changes when a beat of an outstanding operation is executed, or by a direct access. -/
theorem C115_nothing_else (ho : Once (at_ E st evs n)) :
    let S := at_ E st evs
    (S (n + 1)).mem = (S n).mem ∨
    (∃ x : Tx, x.outstanding (S n) ∧ x.beat E (S n).mem (S (n + 1)).mem) ∨
    (∃ a d, evs[n]? = some (.direct a d) ∧ (S (n + 1)).mem = E.direct a d (S n).mem) := by
  intro S
  rcases at_step (E := E) (st := st) (evs := evs) n with h | ⟨e, he, h⟩
  · exact .inl (by simp only [S, h])
  · have h' : S (n + 1) = step E (S n) e := h
    cases e with
    | axiW i e =>
      have hT := traceAxiW (E := E) (st := st) (evs := evs) i (hE.std i) (hE.idsW i)
      have hm : (S (n + 1)).mem = (((S n).axiW i).step (E.axi i) (E.wa i) E.t (S n).mem e).2 := by rw [h']; rfl
      rw [hm]
      rcases hT.only n e with h1 | ⟨op, l, b, k, w, ok, h1, h2⟩
      · exact .inl h1
      · exact .inr (.inl ⟨.axiW i op, ⟨h1.1, fun ⟨r, hr⟩ => h1.2 r hr⟩, l, b, k, w, ok, h2⟩)
    | axiR i e =>
      have hT := traceAxiR (E := E) (st := st) (evs := evs) i (hE.std i) (hE.idsR i)
      have hm : (S (n + 1)).mem = (((S n).axiR i).step (E.axi i) (E.ra i) E.t (S n).mem e).2 := by rw [h']; rfl
      rw [hm]
      rcases hT.only n e with h1 | ⟨op, l, a, k, r, h1, h2⟩
      · exact .inl h1
      · exact .inr (.inl ⟨.axiR i op, ⟨h1.1, fun ⟨r, hr⟩ => h1.2 r hr⟩, l, a, k, r, h2⟩)
    | liteW i e =>
      have hT := traceLiteW (E := E) (st := st) (evs := evs) i
      have hm : (S (n + 1)).mem = (((S n).liteW i).step (Word.slaveWrite E.t (E.lite i).lanes true) (S n).mem e).2 := by
        rw [h']; rfl
      rw [hm]
      rcases hT.mem_step n e (ho.liteW i) with h1 | ⟨op, x, h1, hx, h2⟩
      · exact .inl h1
      · exact .inr (.inl ⟨.liteW i op, ⟨h1.1.1, fun ⟨r, hr⟩ => h1.1.2 r hr⟩, x, hx, h2⟩)
    | liteR i e =>
      have hT := traceLiteR (E := E) (st := st) (evs := evs) i
      have hm : (S (n + 1)).mem = (((S n).liteR i).step (Word.slaveRead E.t (E.lite i).lanes) (S n).mem e).2 := by
        rw [h']; rfl
      rw [hm]
      rcases hT.mem_step n e (ho.liteR i) with h1 | ⟨op, x, h1, hx, h2⟩
      · exact .inl h1
      · exact .inr (.inl ⟨.liteR i op, ⟨h1.1.1, fun ⟨r, hr⟩ => h1.1.2 r hr⟩, x, hx, h2⟩)
    | apb i e =>
      have hT := traceApb (E := E) (st := st) (evs := evs) i
      have hy : (S (n + 1)).apb i = (((S n).apb i).put (S n).mem).step (E.slverr i) (Apb.access E.t (E.apb i).lanes true) e := by
        rw [h']; simp only [step, setAt_self]
      have hm : (S (n + 1)).mem = ((S (n + 1)).apb i).s.mem := by
        rw [hy, h']; rfl
      rcases hT.mem_step hy (ho.apb i) with h1 | ⟨op, x, h1, hx, h2⟩
      · exact .inl (hm.trans h1)
      · exact .inr (.inl ⟨.apb i op, ⟨h1.1.1, fun ⟨r, hr⟩ => h1.1.2 r hr⟩, x, hx, hm.trans h2⟩)
    | direct a d => exact .inr (.inr ⟨a, d, he, by rw [h']; rfl⟩)

include hE in
/-- **C115, no failure.** No assertion fails and no coroutine of an AXI master or slave dies because of what the other ports do. -/
theorem C115_no_failure (i : Nat) :
    let S := at_ E st evs
    ((S n).axiW i).died = false ∧ ((S n).axiW i).m.respFailed = false ∧ ((S n).axiW i).m.workFailed = false ∧
    ((S n).axiR i).died = false ∧ ((S n).axiR i).m.respFailed = false ∧ ((S n).axiR i).m.workFailed = false := by
  intro S
  obtain ⟨w, hw, _⟩ := (traceAxiW (E := E) (st := st) (evs := evs) i (hE.std i) (hE.idsW i)).inv n
  obtain ⟨r, hr, _⟩ := (traceAxiR (E := E) (st := st) (evs := evs) i (hE.std i) (hE.idsR i)).inv n
  exact ⟨hw.died, hw.ok, hw.m.inv.ok, hr.died, hr.ok, hr.m.inv.ok⟩

end generic

/-! ### C116: a memory -/

/-- The hypotheses on a history of a multi-port memory: all operations come from accepted calls (each from its own) with spans
inside the memory, those of AXI use incrementing bursts, and the direct accesses are writes inside the memory. -/
structure RamCalls (E : Ports Memory) (m0 : Memory) (evs : List MultiEv) (n : Nat) : Prop where
  ram : E.t = ramTarget
  poke : E.direct = poke
  ports : PortsOK E
  lite : ∀ i, 0 < (E.lite i).lanes
  apb : ∀ i, 0 < (E.apb i).lanes
  wf : m0.WF
  size : 0 < m0.size
  once : Once (at_ E m0 evs n)
  incrW : ∀ i, ∀ op ∈ ((at_ E m0 evs n).axiW i).m.issued, (E.wa i op.key).req.burst = 1
  incrR : ∀ i, ∀ op ∈ ((at_ E m0 evs n).axiR i).m.issued, (E.ra i op.key).burst = 1
  makesW : ∀ i, ∀ op ∈ ((at_ E m0 evs n).liteW i).m.issued, (E.lw i op.key).makes (E.lite i) op
  makesR : ∀ i, ∀ op ∈ ((at_ E m0 evs n).liteR i).m.issued, (E.lr i op.key).makes (E.lite i) op
  makesA : ∀ i, ∀ op ∈ ((at_ E m0 evs n).apb i).m.issued, (E.ac i op.key).makes (E.apb i) op
  fitW : ∀ (x : Tx) A d, x.issued (at_ E m0 evs n) → x.writes E = some (A, d) → A + d.length ≤ m0.size
  fitR : ∀ (x : Tx) A N, x.issued (at_ E m0 evs n) → x.reads E = some (A, N) → A + N ≤ m0.size
  direct : ∀ t a d, t < n → evs[t]? = some (.direct a d) → a < m0.size ∧ a + d.length ≤ m0.size

section ram

variable {E : Ports Memory} {m0 : Memory} {evs : List MultiEv} {n : Nat}

theorem RamCalls.mono (H : RamCalls E m0 evs n) {k : Nat} (hk : k ≤ n) : RamCalls E m0 evs k where
  ram := H.ram
  poke := H.poke
  ports := H.ports
  lite := H.lite
  apb := H.apb
  wf := H.wf
  size := H.size
  once := H.once.mono hk
  incrW i op h := H.incrW i op (issued_mono H.ports (x := .axiW i op) hk h)
  incrR i op h := H.incrR i op (issued_mono H.ports (x := .axiR i op) hk h)
  makesW i op h := H.makesW i op (issued_mono H.ports (x := .liteW i op) hk h)
  makesR i op h := H.makesR i op (issued_mono H.ports (x := .liteR i op) hk h)
  makesA i op h := H.makesA i op (issued_mono H.ports (x := .apb i op) hk h)
  fitW x A d h := H.fitW x A d (issued_mono H.ports hk h)
  fitR x A N h := H.fitR x A N (issued_mono H.ports hk h)
  direct t a d h := H.direct t a d (by omega)

theorem RamCalls.axiW (H : RamCalls E m0 evs n) (i : Nat) : AxiSys.WTrace (E.axi i) (E.wa i) ramTarget
    (fun k => (at_ E m0 evs k).axiW i) (fun k => (at_ E m0 evs k).mem) := by
  have := traceAxiW (E := E) (st := m0) (evs := evs) i (H.ports.std i) (H.ports.idsW i)
  rwa [H.ram] at this

theorem RamCalls.axiR (H : RamCalls E m0 evs n) (i : Nat) : AxiSys.RTrace (E.axi i) (E.ra i) ramTarget
    (fun k => (at_ E m0 evs k).axiR i) (fun k => (at_ E m0 evs k).mem) := by
  have := traceAxiR (E := E) (st := m0) (evs := evs) i (H.ports.std i) (H.ports.idsR i)
  rwa [H.ram] at this

theorem RamCalls.liteW (H : RamCalls E m0 evs n) (i : Nat) : LiteOps.Trace (Word.slaveWrite ramTarget (E.lite i).lanes true)
    (fun k => (at_ E m0 evs k).liteW i) (fun k => (at_ E m0 evs k).mem) := by
  have := traceLiteW (E := E) (st := m0) (evs := evs) i
  rwa [H.ram] at this

theorem RamCalls.liteR (H : RamCalls E m0 evs n) (i : Nat) : LiteOps.Trace (Word.slaveRead ramTarget (E.lite i).lanes)
    (fun k => (at_ E m0 evs k).liteR i) (fun k => (at_ E m0 evs k).mem) := by
  have := traceLiteR (E := E) (st := m0) (evs := evs) i
  rwa [H.ram] at this

theorem RamCalls.apbT (H : RamCalls E m0 evs n) (i : Nat) : Apb.ATrace (E.slverr i) (Apb.access ramTarget (E.apb i).lanes true)
    (fun k => (at_ E m0 evs k).apb i) (fun k => (at_ E m0 evs k).mem) := by
  have := traceApb (E := E) (st := m0) (evs := evs) i
  rwa [H.ram] at this

/-- What one event does to the memory. -/
theorem RamCalls.step (H : RamCalls E m0 evs n) {t : Nat} (ht : t < n) (h1 : (at_ E m0 evs t).mem.WF)
    (h2 : (at_ E m0 evs t).mem.size = m0.size) :
    let S := at_ E m0 evs
    (S (t + 1)).mem = (S t).mem ∨ ((S (t + 1)).mem.WF ∧ (S (t + 1)).mem.size = m0.size ∧
      ∃ A d, ((∃ x : Tx, x.outstanding (S t) ∧ front E (S t) x ∧ x.writes E = some (A, d)) ∨
          evs[t]? = some (.direct A d)) ∧
        ∀ b, (S (t + 1)).mem.contents b ≠ (S t).mem.contents b → A ≤ b ∧ d[b - A]? = some ((S (t + 1)).mem.contents b)) := by
  intro S
  have Ht := H.mono (Nat.le_of_lt ht)
  have hs := H.size
  rcases at_step (E := E) (st := m0) (evs := evs) t with h | ⟨e, he, h⟩
  · exact .inl (by simp only [S, h])
  · have h' : S (t + 1) = Multi.step E (S t) e := h
    cases e with
    | axiW i e =>
      have hm : (S (t + 1)).mem = (((S t).axiW i).step (E.axi i) (E.wa i) ramTarget (S t).mem e).2 := by
        rw [h', ← H.ram]; rfl
      rw [hm]
      rcases (H.axiW i).ram_step (n := t) h1 h2 hs
          (fun op ho => ⟨Ht.incrW i op ho, Ht.fitW (.axiW i op) _ _ ho rfl⟩) e with h3 | ⟨h3, h4, op, h5, h6⟩
      · exact .inl h3
      · exact .inr ⟨h3, h4, _, _, .inl ⟨.axiW i op, ⟨h5.1.1, fun ⟨r, hr⟩ => h5.1.2 r hr⟩, h5.2, rfl⟩, h6⟩
    | axiR i e =>
      have hm : (S (t + 1)).mem = (((S t).axiR i).step (E.axi i) (E.ra i) ramTarget (S t).mem e).2 := by
        rw [h', ← H.ram]; rfl
      exact .inl (hm.trans ((H.axiR i).ram_step (n := t) h1 (by rw [h2]; exact hs) e))
    | liteW i e =>
      have hm : (S (t + 1)).mem = (((S t).liteW i).step (Word.slaveWrite ramTarget (E.lite i).lanes true) (S t).mem e).2 := by
        rw [h', ← H.ram]; rfl
      rw [hm]
      rcases (H.liteW i).ram_stepW (n := t) (H.lite i) h1 h2 hs (Ht.once.liteW i) (wc := E.lw i)
          (fun op ho => ⟨Ht.makesW i op ho, Ht.fitW (.liteW i op) _ _ ho rfl⟩) e with h3 | ⟨h3, h4, op, h5, h6⟩
      · exact .inl h3
      · exact .inr ⟨h3, h4, _, _, .inl ⟨.liteW i op, ⟨h5.1.1, fun ⟨r, hr⟩ => h5.1.2 r hr⟩, h5.2, rfl⟩, h6⟩
    | liteR i e =>
      have hm : (S (t + 1)).mem = (((S t).liteR i).step (Word.slaveRead ramTarget (E.lite i).lanes) (S t).mem e).2 := by
        rw [h', ← H.ram]; rfl
      exact .inl (hm.trans ((H.liteR i).ram_stepR (n := t) h1 (by rw [h2]; exact hs) (Ht.once.liteR i) e))
    | apb i e =>
      have hy : (S (t + 1)).apb i = (((S t).apb i).put (S t).mem).step (E.slverr i) (Apb.access ramTarget (E.apb i).lanes true) e := by
        rw [h', ← H.ram]; simp only [Multi.step, setAt_self]
      have hm : (S (t + 1)).mem = ((S (t + 1)).apb i).s.mem := by
        rw [hy, h', ← H.ram]; rfl
      rw [hm]
      rcases (H.apbT i).ram_step (n := t) (H.apb i) h1 h2 hs (Ht.once.apb i) (call := E.ac i)
          (fun op ho => ⟨Ht.makesA i op ho, by
            cases hc : E.ac i op.key with
            | write a d p =>
              exact Ht.fitW (.apb i op) a.toNat d ho (by simp only [Tx.writes, hc])
            | read a l p =>
              exact Ht.fitR (.apb i op) a.toNat l.toNat ho (by simp only [Tx.reads, hc])⟩) hy with
        h3 | ⟨h3, h4, op, a, d, p, h5, h6, h7⟩
      · exact .inl h3
      · exact .inr ⟨h3, h4, a.toNat, d, .inl ⟨.apb i op, ⟨h6.1.1, fun ⟨r, hr⟩ => h6.1.2 r hr⟩, h6.2, by
          simp only [Tx.writes, h5]⟩, h7⟩
    | direct a d =>
      obtain ⟨ha, hd⟩ := H.direct t a d ht he
      obtain ⟨m', f1, f2, f3, f4⟩ := Memory.write_ok (S t).mem h1 a d (by simp only [S]; omega) (by simp only [S]; omega)
      have hm : (S (t + 1)).mem = m' := by
        rw [h']; simp only [Multi.step, H.poke, Verif.poke, f1]
      rw [hm]
      refine .inr ⟨f2, f3.trans h2, a, d, .inr he, ?_⟩
      intro b hne
      rw [f4] at hne ⊢
      by_cases hin : a ≤ b ∧ b < a + d.length
      · exact ⟨hin.1, (LiteOps.store_at hin).symm⟩
      · exact absurd (LiteOps.store_else hin) hne

theorem RamCalls.mem_ok (H : RamCalls E m0 evs n) {t : Nat} (ht : t ≤ n) :
    (at_ E m0 evs t).mem.WF ∧ (at_ E m0 evs t).mem.size = m0.size := by
  induction t with
  | zero => exact ⟨H.wf, rfl⟩
  | succ t ih =>
    obtain ⟨h1, h2⟩ := ih (by omega)
    rcases H.step (by omega) h1 h2 with h | ⟨h3, h4, _⟩
    · rw [h]; exact ⟨h1, h2⟩
    · exact ⟨h3, h4⟩

/-- See `C116_changes`; also, the write was at the front then. -/
theorem RamCalls.change (H : RamCalls E m0 evs n) {t b : Nat} (ht : t < n)
    (hne : (at_ E m0 evs (t + 1)).mem.contents b ≠ (at_ E m0 evs t).mem.contents b) :
    ∃ A d, ((∃ x : Tx, x.outstanding (at_ E m0 evs t) ∧ front E (at_ E m0 evs t) x ∧ x.writes E = some (A, d)) ∨
        evs[t]? = some (.direct A d)) ∧
      A ≤ b ∧ d[b - A]? = some ((at_ E m0 evs (t + 1)).mem.contents b) := by
  obtain ⟨h1, h2⟩ := H.mem_ok (t := t) (by omega)
  rcases H.step ht h1 h2 with h | ⟨_, _, A, d, h3, h4⟩
  · exact absurd (congrArg (fun m => Memory.contents m b) h) hne
  · exact ⟨A, d, h3, h4 b hne⟩

/-- **C116, nothing else.** A byte of the memory changes only at an instant at which a write covering it, of some port, is
outstanding, or when the test bench writes it directly, and to the byte that this write has for it. -/
theorem C116_changes (H : RamCalls E m0 evs n) (t b : Nat) (ht : t < n)
    (hne : (at_ E m0 evs (t + 1)).mem.contents b ≠ (at_ E m0 evs t).mem.contents b) :
    ∃ A d, ((∃ x : Tx, x.outstanding (at_ E m0 evs t) ∧ x.writes E = some (A, d)) ∨
        evs[t]? = some (.direct A d)) ∧
      A ≤ b ∧ d[b - A]? = some ((at_ E m0 evs (t + 1)).mem.contents b) := by
  obtain ⟨A, d, h1, h2⟩ := H.change ht hne
  refine ⟨A, d, ?_, h2⟩
  rcases h1 with ⟨x, h3, _, h4⟩ | h1
  · exact .inl ⟨x, h3, h4⟩
  · exact .inr h1

/-- See `C116_write`. -/
theorem RamCalls.write (H : RamCalls E m0 evs n) {x : Tx} {A : Nat} {d : Bytes} (hx : x.writes E = some (A, d))
    (hd : x.done (at_ E m0 evs n)) :
    let S := at_ E m0 evs
    x.issued (S n) ∧ x.gaveResp E (S n) .okay ∧ (∀ r, x.gaveResp E (S n) r → r = .okay) ∧ ∃ t : Nat → Nat, ∀ i < d.length,
      t i < n ∧ x.outstanding (S (t i)) ∧ front E (S (t i)) x ∧ some ((S (t i + 1)).mem.contents (A + i)) = d[i]? ∧
      ∀ j < d.length, (t i < t j ↔ (A + i) / x.unit E < (A + j) / x.unit E) := by
  intro S
  have hm : ∀ t < n, (S t).mem.WF ∧ (S t).mem.size = m0.size := fun t ht => H.mem_ok (by omega)
  cases x with
  | axiW i op =>
    simp only [Tx.writes, Option.some.injEq, Prod.mk.injEq] at hx
    obtain ⟨rfl, rfl⟩ := hx
    obtain ⟨got, hr⟩ := hd
    have hi := (H.axiW i).issued_of_result hr
    have hfit := H.fitW (.axiW i op) _ _ hi rfl
    obtain ⟨h1, t, h2⟩ := (H.axiW i).ram_write hm H.size (H.incrW i op hi) hfit hr
    refine ⟨hi, ⟨got, hr, h1⟩, ?_, t, ?_⟩
    · rintro r ⟨got', hr', h'⟩
      have := ((H.axiW i).ram_write hm H.size (H.incrW i op hi) hfit hr').1
      exact AxiSys.WArgs.returns_unique (H.ports.std i) h' this
    · intro j hj
      obtain ⟨⟨g1, g2⟩, g3, g4, g5⟩ := h2 j hj
      exact ⟨g1, ⟨g3.1, fun ⟨r, hr⟩ => g3.2 r hr⟩, g2, g4, g5⟩
  | liteW i op =>
    simp only [Tx.writes, Option.some.injEq, Prod.mk.injEq] at hx
    obtain ⟨rfl, rfl⟩ := hx
    obtain ⟨got, hr⟩ := hd
    have hi := (H.liteW i).issued_of_result hr
    have hfit := H.fitW (.liteW i op) _ _ hi rfl
    obtain ⟨h1, _, t, h2⟩ := (H.liteW i).ram_write (H.lite i) hm H.size (H.once.liteW i) (H.makesW i op hi) hfit hr
    refine ⟨hi, ⟨got, hr, h1⟩, ?_, t, ?_⟩
    · rintro r ⟨got', hr', h'⟩
      have := ((H.liteW i).ram_write (H.lite i) hm H.size (H.once.liteW i) (H.makesW i op hi) hfit hr').1
      exact LiteOps.WCall.returns_unique h' this
    · intro j hj
      obtain ⟨g1, g3, g4, g5⟩ := h2 j hj
      exact ⟨g1, ⟨g3.1.1, fun ⟨r, hr⟩ => g3.1.2 r hr⟩, g3.2, g4, g5⟩
  | apb i op =>
    obtain ⟨got, hr⟩ := hd
    have hi : op ∈ ((S n).apb i).m.issued := (H.apbT i).issued_of_result hr
    have hmk := H.makesA i op hi
    have hfit := H.fitW (.apb i op) _ _ hi hx
    cases hc : E.ac i op.key with
    | read a l p => simp only [Tx.writes, hc] at hx; cases hx
    | write a d' p =>
      simp only [Tx.writes, hc, Option.some.injEq, Prod.mk.injEq] at hx
      obtain ⟨rfl, rfl⟩ := hx
      rw [hc] at hmk
      obtain ⟨h1, t, h2⟩ := (H.apbT i).ram_write (H.apb i) hm H.size (H.once.apb i) hmk hfit hr
      refine ⟨hi, ⟨got, hr, by rw [hc]; exact h1⟩, ?_, t, ?_⟩
      · rintro r ⟨got', hr', h'⟩
        have := ((H.apbT i).ram_write (H.apb i) hm H.size (H.once.apb i) hmk hfit hr').1
        rw [hc, this] at h'
        simp only [Option.some.injEq, Apb.Outcome.written.injEq] at h'
        exact h'.symm
      · intro j hj
        obtain ⟨g1, g3, g4, g5⟩ := h2 j hj
        exact ⟨g1, ⟨g3.1.1, fun ⟨r, hr⟩ => g3.1.2 r hr⟩, g3.2, g4, g5⟩
  | axiR i op => cases hx
  | liteR i op => cases hx

/-- **C116, writes.** When a write of any port has completed, its caller was given OKAY and nothing else, and each byte of the data
was stored at an instant at which the write was outstanding: bytes of one beat together, beats in ascending order. -/
theorem C116_write (H : RamCalls E m0 evs n) (x : Tx) (A : Nat) (d : Bytes) (hx : x.writes E = some (A, d))
    (hd : x.done (at_ E m0 evs n)) :
    let S := at_ E m0 evs
    x.gaveResp E (S n) .okay ∧ (∀ r, x.gaveResp E (S n) r → r = .okay) ∧ ∃ t : Nat → Nat, ∀ i < d.length,
      t i < n ∧ x.outstanding (S (t i)) ∧ some ((S (t i + 1)).mem.contents (A + i)) = d[i]? ∧
      ∀ j < d.length, (t i < t j ↔ (A + i) / x.unit E < (A + j) / x.unit E) := by
  obtain ⟨_, h1, h2, t, h3⟩ := H.write hx hd
  refine ⟨h1, h2, t, fun i hi => ?_⟩
  obtain ⟨g1, g2, _, g3⟩ := h3 i hi
  exact ⟨g1, g2, g3⟩

/-- **C116, reads.** When a read of any port has completed, its caller was given OKAY and the requested number of bytes. Whatever
data its caller was given, each byte is what the memory contained at an instant at which the read was outstanding: bytes of one beat
at the same instant, beats in ascending order. -/
theorem C116_read (H : RamCalls E m0 evs n) (x : Tx) (A N : Nat) (hx : x.reads E = some (A, N)) (hd : x.done (at_ E m0 evs n)) :
    let S := at_ E m0 evs
    (∃ data, x.gaveData E (S n) data .okay) ∧ ∀ data r, x.gaveData E (S n) data r → r = .okay ∧ data.length = N ∧
      ∃ t : Nat → Nat, ∀ i < N, t i < n ∧ x.outstanding (S (t i)) ∧ data[i]? = some ((S (t i)).mem.contents (A + i)) ∧
        ∀ j < N, (t i < t j ↔ (A + i) / x.unit E < (A + j) / x.unit E) := by
  intro S
  have hm : ∀ t < n, (S t).mem.WF ∧ (S t).mem.size = m0.size := fun t ht => H.mem_ok (by omega)
  cases x with
  | axiR i op =>
    simp only [Tx.reads, Option.some.injEq, Prod.mk.injEq] at hx
    obtain ⟨rfl, rfl⟩ := hx
    have key : ∀ got, (op, some got) ∈ ((S n).axiR i).m.results → _ := fun got hr =>
      (H.axiR i).ram_read hm H.size (H.incrR i op ((H.axiR i).issued_of_result hr))
        (H.fitR (.axiR i op) _ _ ((H.axiR i).issued_of_result hr) rfl) hr
    constructor
    · obtain ⟨got, hr⟩ := hd
      obtain ⟨data, h1, _⟩ := key got hr
      exact ⟨data, got, hr, h1⟩
    · rintro data r ⟨got, hr, hg⟩
      obtain ⟨data', h1, h2, t, h3⟩ := key got hr
      obtain ⟨rfl, rfl⟩ := AxiSys.returnsR_unique hg h1
      refine ⟨rfl, h2, t, fun j hj => ?_⟩
      obtain ⟨g1, g2, g3⟩ := h3 j hj
      exact ⟨g1, ⟨g2.1, fun ⟨r, hr⟩ => g2.2 r hr⟩, g3⟩
  | liteR i op =>
    simp only [Tx.reads, Option.some.injEq, Prod.mk.injEq] at hx
    obtain ⟨rfl, rfl⟩ := hx
    have key : ∀ got, (op, some got) ∈ ((S n).liteR i).m.results → _ := fun got hr =>
      (H.liteR i).ram_read (H.lite i) hm H.size (H.once.liteR i) (H.makesR i op ((H.liteR i).issued_of_result hr))
        (H.fitR (.liteR i op) _ _ ((H.liteR i).issued_of_result hr) rfl) hr
    constructor
    · obtain ⟨got, hr⟩ := hd
      obtain ⟨data, h1, _⟩ := key got hr
      exact ⟨data, got, hr, h1⟩
    · rintro data r ⟨got, hr, hg⟩
      obtain ⟨data', h1, h2, t, h3⟩ := key got hr
      obtain ⟨rfl, rfl⟩ := LiteOps.RCall.returns_unique hg h1
      refine ⟨rfl, h2, t, fun j hj => ?_⟩
      obtain ⟨g1, g2, g3⟩ := h3 j hj
      exact ⟨g1, ⟨g2.1, fun ⟨r, hr⟩ => g2.2 r hr⟩, g3⟩
  | apb i op =>
    cases hc : E.ac i op.key with
    | write a d' p => simp only [Tx.reads, hc] at hx; cases hx
    | read a l p =>
      have key : ∀ got, (op, some got) ∈ ((S n).apb i).m.results → _ := fun got hr =>
        have hi : op ∈ ((S n).apb i).m.issued := (H.apbT i).issued_of_result hr
        (H.apbT i).ram_read (H.apb i) hm H.size (H.once.apb i) (hc ▸ H.makesA i op hi)
          (H.fitR (.apb i op) a.toNat l.toNat hi (by simp only [Tx.reads, hc])) hr
      simp only [Tx.reads, hc, Option.some.injEq, Prod.mk.injEq] at hx
      obtain ⟨rfl, rfl⟩ := hx
      constructor
      · obtain ⟨got, hr⟩ := hd
        obtain ⟨data, h1, _⟩ := key got hr
        exact ⟨data, got, hr, by rw [hc]; exact h1⟩
      · rintro data r ⟨got, hr, hg⟩
        obtain ⟨data', h1, h2, t, h3⟩ := key got hr
        rw [hc, h1] at hg
        simp only [Option.some.injEq, Apb.Outcome.data.injEq] at hg
        obtain ⟨rfl, rfl⟩ := hg
        refine ⟨rfl, h2, t, fun j hj => ?_⟩
        obtain ⟨g1, g2, g3⟩ := h3 j hj
        exact ⟨g1, ⟨g2.1, fun ⟨r, hr⟩ => g2.2 r hr⟩, g3⟩
  | axiW i op => cases hx
  | liteW i op => cases hx

/-- The write `w` is the last word on the byte `b`, at instant `n`: every other write that covers `b` was issued before it on the
same side of the same port, or had ended when it was issued; and the test bench has not written `b` directly since it was issued. -/
structure LastWord (E : Ports Memory) (m0 : Memory) (evs : List MultiEv) (n : Nat) (w : Tx) (b : Nat) : Prop where
  writes : ∀ (x : Tx) A d, x.issued (at_ E m0 evs n) → x.writes E = some (A, d) → A ≤ b → b < A + d.length →
    x = w ∨ x.before (at_ E m0 evs n) w ∨ ∃ k, x.ended (at_ E m0 evs k) ∧ ¬ w.issued (at_ E m0 evs k)
  direct : ∀ t A d, t < n → w.issued (at_ E m0 evs t) → evs[t]? = some (.direct A d) → ¬ (A ≤ b ∧ b < A + d.length)

/-- **C116, written bytes stay.** Let a write of any port have completed by instant `k`. While it is the last word on the byte `b`
of its span, the memory contains that byte of the written data. -/
theorem C116_stays (H : RamCalls E m0 evs n) (w : Tx) (A : Nat) (d : Bytes) (hw : w.writes E = some (A, d)) (k : Nat)
    (hd : w.done (at_ E m0 evs k)) (b : Nat) (hb1 : A ≤ b) (hb2 : b < A + d.length) (hlast : LastWord E m0 evs n w b)
    (q : Nat) (hk : k ≤ q) (hq : q ≤ n) : some ((at_ E m0 evs q).mem.contents b) = d[b - A]? := by
  obtain ⟨_, _, _, tw, W⟩ := (H.mono (Nat.le_trans hk hq)).write hw hd
  obtain ⟨w1, w2, w3, w4, _⟩ := W (b - A) (by omega)
  rw [show A + (b - A) = b by omega] at w4
  generalize tw (b - A) = a at *
  obtain ⟨e, rfl⟩ := Nat.exists_eq_add_of_le (show a + 1 ≤ q by omega)
  clear hk
  induction e with
  | zero => exact w4
  | succ e ih =>
    have ih := ih (by omega)
    by_cases hch : (at_ E m0 evs (a + 1 + e + 1)).mem.contents b = (at_ E m0 evs (a + 1 + e)).mem.contents b
    · rw [← Nat.add_assoc, hch]; exact ih
    · obtain ⟨A', d', hx, h2, h3⟩ := H.change (t := a + 1 + e) (by omega) hch
      have hlt : b < A' + d'.length := by
        have := (List.getElem?_eq_some_iff.1 h3).1; omega
      rcases hx with ⟨x, x1, x2, x3⟩ | hx
      · rcases hlast.writes x A' d' (issued_mono H.ports (by omega) x1.1) x3 h2 hlt with rfl | hbef | ⟨j, j1, j2⟩
        · rw [hw] at x3
          cases x3
          rw [← Nat.add_assoc, ← h3]
        · have := front_order H.ports H.once x2 w3 (by omega) (by omega) hbef
          omega
        · exfalso
          have hj : j ≤ a := by
            rcases Nat.lt_or_ge a j with h | h
            · exact absurd (issued_mono H.ports (Nat.le_of_lt h) w2.1) j2
            · exact h
          exact x1.2 (ended_mono H.ports (by omega) j1)
      · exact absurd ⟨h2, hlt⟩ (hlast.direct (a + 1 + e) A' d' (by omega) (issued_mono H.ports (by omega) w2.1) hx)

/-- **C116, a read returns what was written, across ports.** Let a write of any port have completed by instant `k`, and let a read,
of any port, be issued after `k` and have completed. If the write is the last word on the byte `b` of both spans, the read gives
that byte of the written data. -/
theorem C116_read_your_writes (H : RamCalls E m0 evs n) (w : Tx) (A : Nat) (d : Bytes) (hw : w.writes E = some (A, d)) (k : Nat)
    (hd : w.done (at_ E m0 evs k)) (x : Tx) (B N : Nat) (hx : x.reads E = some (B, N)) (hlate : ¬ x.issued (at_ E m0 evs k))
    (hr : x.done (at_ E m0 evs n)) (b : Nat) (hb1 : A ≤ b) (hb2 : b < A + d.length) (hb3 : B ≤ b) (hb4 : b < B + N)
    (hlast : LastWord E m0 evs n w b) (data : Bytes) (r : Resp) (hg : x.gaveData E (at_ E m0 evs n) data r) :
    r = .okay ∧ data[b - B]? = d[b - A]? := by
  obtain ⟨h1, h2, t, R⟩ := (C116_read H x B N hx hr).2 data r hg
  refine ⟨h1, ?_⟩
  obtain ⟨r1, r2, r3, _⟩ := R (b - B) (by omega)
  rw [show B + (b - B) = b by omega] at r3
  rw [r3]
  refine C116_stays H w A d hw k hd b hb1 hb2 hlast _ ?_ (by omega)
  rcases Nat.lt_or_ge k (t (b - B)) with h | h
  · omega
  · exact absurd (issued_mono H.ports h r2.1) hlate

end ram

/-! A concrete history, with an AXI, an AXI-lite and an APB port. The AXI port writes nine bytes in two bursts, while the test bench
writes a byte directly; a second write has been issued there but is not served. Afterwards the AXI-lite port writes four bytes, which
overlap with those, and then the APB port reads bytes of both. -/

def exE : Ports Memory where
  t := ramTarget
  axi _ := AxiSys.exC
  wa _ := AxiSys.exW
  ra _ := AxiSys.exR
  lite _ := LiteOps.exC
  lw _ := LiteOps.exW
  lr _ := LiteOps.exR
  apb _ := LiteOps.exC
  ac _ _ := .read 3 5 0
  slverr _ := true
  direct := poke

def exRd : Apb.Op := ⟨0, [.read ⟨3, 0⟩, .read ⟨4, 0⟩]⟩

def exEvs : List MultiEv :=
  [.liteW 1 (.reset false), .apb 0 (.reset false), .axiW 0 (.reset false), .axiW 0 .write, .axiW 0 .take, .axiW 0 .sendAW,
   .axiW 0 .slaveAW, .axiW 0 .write, .axiW 0 .sendW, .axiW 0 .slaveW, .direct 15 [99], .axiW 0 .sendW, .axiW 0 .sendAW,
   .axiW 0 .slaveW, .axiW 0 .slaveB, .axiW 0 .slaveAW, .axiW 0 .sendW, .axiW 0 .start, .axiW 0 .slaveW, .axiW 0 .deliver,
   .axiW 0 .slaveB, .axiW 0 .deliver, .axiW 0 (.workTake 0), .axiW 0 (.workGet 0), .axiW 0 (.workGet 0), .axiW 0 (.workDone 0),
   .liteW 1 (.master (.write LiteOps.exW1)), .liteW 1 (.master .take), .liteW 1 .send, .liteW 1 .serve, .liteW 1 .deliver,
   .liteW 1 (.master .respTake), .liteW 1 (.master .respGet), .liteW 1 (.master .respDone), .apb 0 (.call exRd)] ++
  List.replicate 8 (.apb 0 (.edge false false false))

abbrev exAt (n : Nat) : Multi Memory := at_ exE LiteOps.exM exEvs n

/-- The ports that take part. -/
def exUses : MultiEv → Bool
  | .axiW i _ => i == 0
  | .liteW i _ => i == 1
  | .apb i _ => i == 0
  | .direct _ _ => true
  | _ => false

theorem exUsed : ∀ e ∈ exEvs, exUses e = true := by
  intro e he
  exact List.all_eq_true.1 (show exEvs.all exUses = true by decide +kernel) e he

theorem exAxiW (i : Nat) (n : Nat) (h : i ≠ 0) : (exAt n).axiW i = {} :=
  unused_axiW (fun j e he => by have := exUsed _ he; simp only [exUses, beq_iff_eq] at this; omega) n
theorem exAxiR (i : Nat) (n : Nat) : (exAt n).axiR i = {} :=
  unused_axiR (fun j e he => by have := exUsed _ he; simp [exUses] at this) n
theorem exLiteW (i : Nat) (n : Nat) (h : i ≠ 1) : (exAt n).liteW i = {} :=
  unused_liteW (fun j e he => by have := exUsed _ he; simp only [exUses, beq_iff_eq] at this; omega) n
theorem exLiteR (i : Nat) (n : Nat) : (exAt n).liteR i = {} :=
  unused_liteR (fun j e he => by have := exUsed _ he; simp [exUses] at this) n
theorem exApb (i : Nat) (n : Nat) (h : i ≠ 0) : (exAt n).apb i = Apb.Sys.start LiteOps.exM :=
  unused_apb (fun j e he => by have := exUsed _ he; simp only [exUses, beq_iff_eq] at this; omega) n

theorem exIssuedA : ((exAt 43).axiW 0).m.issued = [AxiSys.exW0, AxiSys.exW1] := by decide +kernel
theorem exIssuedL : ((exAt 43).liteW 1).m.issued = [LiteOps.exW1] := by decide +kernel
theorem exIssuedP : ((exAt 43).apb 0).m.issued = [exRd] := by decide +kernel

/-- The operations of the history. -/
theorem exIssued {x : Tx} (h : x.issued (exAt 43)) :
    x = .axiW 0 AxiSys.exW0 ∨ x = .axiW 0 AxiSys.exW1 ∨ x = .liteW 1 LiteOps.exW1 ∨ x = .apb 0 exRd := by
  cases x with
  | axiW i op =>
    simp only [Tx.issued] at h
    by_cases hi : i = 0
    · subst hi
      rw [exIssuedA] at h
      simpa using h
    · rw [exAxiW i _ hi] at h; cases h
  | axiR i op => simp only [Tx.issued] at h; rw [exAxiR] at h; cases h
  | liteW i op =>
    simp only [Tx.issued] at h
    by_cases hi : i = 1
    · subst hi
      rw [exIssuedL] at h
      simpa using h
    · rw [exLiteW i _ hi] at h; cases h
  | liteR i op => simp only [Tx.issued] at h; rw [exLiteR] at h; cases h
  | apb i op =>
    simp only [Tx.issued] at h
    by_cases hi : i = 0
    · subst hi
      rw [exIssuedP] at h
      simpa using h
    · rw [exApb i _ hi] at h; cases h

theorem exPorts : PortsOK exE where
  std _ := AxiSys.exC_std
  idsW _ := AxiSys.exIds.w
  idsR _ := AxiSys.exIds.r

theorem exOnce : Once (exAt 43) where
  liteW i := by
    by_cases hi : i = 1
    · subst hi; rw [exIssuedL]; decide
    · rw [exLiteW i _ hi]; exact List.nodup_nil
  liteR i := by rw [exLiteR]; exact List.nodup_nil
  apb i := by
    by_cases hi : i = 0
    · subst hi; rw [exIssuedP]; decide
    · rw [exApb i _ hi]; exact List.nodup_nil

theorem exDirect : ∀ t a d, exEvs[t]? = some (.direct a d) → t = 10 ∧ a = 15 ∧ d = [99] := by
  intro t a d h
  have hl : t < 43 := (List.getElem?_eq_some_iff.1 h).1
  have h1 : ∀ t < 43, t = 10 ∨ (match exEvs[t]? with | some (.direct _ _) => false | _ => true) = true := by decide +kernel
  rcases h1 t hl with rfl | h1
  · simp only [exEvs] at h
    simp at h
    exact ⟨rfl, h.1.symm, h.2.symm⟩
  · rw [h] at h1; cases h1

theorem exCalls : RamCalls exE LiteOps.exM exEvs 43 where
  ram := rfl
  poke := rfl
  ports := exPorts
  lite _ := by show 0 < 4; decide
  apb _ := by show 0 < 4; decide
  wf := ⟨rfl, trivial⟩
  size := by decide
  once := exOnce
  incrW i op h := by
    rcases exIssued (x := .axiW i op) h with h | h | h | h <;> cases h <;> decide
  incrR i op h := by
    rcases exIssued (x := .axiR i op) h with h | h | h | h <;> cases h
  makesW i op h := by
    rcases exIssued (x := .liteW i op) h with h | h | h | h <;> cases h
    exact ⟨⟨4, 4, 2⟩, by decide +kernel, by decide +kernel⟩
  makesR i op h := by
    rcases exIssued (x := .liteR i op) h with h | h | h | h <;> cases h
  makesA i op h := by
    rcases exIssued (x := .apb i op) h with h | h | h | h <;> cases h
    exact ⟨⟨3, 5, 0⟩, by decide +kernel, by decide +kernel⟩
  fitW x A d h hw := by
    rcases exIssued h with h | h | h | h <;> subst h <;> cases hw <;> decide
  fitR x A N h hw := by
    rcases exIssued h with h | h | h | h <;> subst h <;> cases hw <;> decide
  direct t a d _ h := by
    obtain ⟨_, rfl, rfl⟩ := exDirect t a d h
    exact ⟨by decide, by decide⟩

/-- The write of the AXI port is the last word on byte 3. -/
theorem exLast3 : LastWord exE LiteOps.exM exEvs 43 (.axiW 0 AxiSys.exW0) 3 where
  writes x A d h hw h1 h2 := by
    rcases exIssued h with h | h | h | h
    · exact .inl h
    · subst h; cases hw; exact absurd h1 (by decide)
    · subst h; cases hw; exact absurd h1 (by decide)
    · subst h; cases hw
  direct t A d _ _ h := by
    obtain ⟨_, rfl, rfl⟩ := exDirect t A d h
    decide

/-- The write of the AXI-lite port is the last word on byte 7, which the AXI port had written before. -/
theorem exLast7 : LastWord exE LiteOps.exM exEvs 43 (.liteW 1 LiteOps.exW1) 7 where
  writes x A d h hw h1 h2 := by
    rcases exIssued h with h | h | h | h
    · subst h
      refine .inr (.inr ⟨26, ⟨some [⟨0, .okay, 0⟩, ⟨0, .okay, 0⟩], ?_⟩, ?_⟩)
      · show _ ∈ ((exAt 26).axiW 0).m.results
        decide +kernel
      · show ¬ _ ∈ ((exAt 26).liteW 1).m.issued
        decide +kernel
    · subst h; cases hw; exact absurd h2 (by decide)
    · exact .inl h
    · subst h; cases hw
  direct t A d _ _ h := by
    obtain ⟨_, rfl, rfl⟩ := exDirect t A d h
    decide

theorem exRead : Tx.gaveData exE (exAt 43) (.apb 0 exRd) [2, 5, 6, 7, 8] .okay :=
  ⟨[(0x02010707, .okay), (0x08070605, .okay)], by decide +kernel, by decide +kernel⟩

theorem exReadDone : Tx.done (exAt 43) (.apb 0 exRd) := ⟨[(0x02010707, .okay), (0x08070605, .okay)], by
  show _ ∈ ((exAt 43).apb 0).m.results
  decide +kernel⟩

/-- C116 on byte 3, written by the AXI port and read by the APB port. -/
example : ([2, 5, 6, 7, 8] : Bytes)[3 - 3]? = ([1, 2, 3, 4, 5, 6, 7, 8, 9] : Bytes)[3 - 2]? :=
  (C116_read_your_writes exCalls (.axiW 0 AxiSys.exW0) 2 [1, 2, 3, 4, 5, 6, 7, 8, 9] rfl 26
    ⟨[⟨0, .okay, 0⟩, ⟨0, .okay, 0⟩], by show _ ∈ ((exAt 26).axiW 0).m.results; decide +kernel⟩ (.apb 0 exRd) 3 5 rfl
    (by show ¬ _ ∈ ((exAt 26).apb 0).m.issued; decide +kernel) exReadDone 3 (by decide) (by decide) (by decide) (by decide)
    exLast3 _ _ exRead).2

/-- C116 on byte 7, written by the AXI port, then by the AXI-lite port, and read by the APB port. -/
example : ([2, 5, 6, 7, 8] : Bytes)[7 - 3]? = ([5, 6, 7, 8] : Bytes)[7 - 4]? :=
  (C116_read_your_writes exCalls (.liteW 1 LiteOps.exW1) 4 [5, 6, 7, 8] rfl 34
    ⟨[.ok .okay], by show _ ∈ ((exAt 34).liteW 1).m.results; decide +kernel⟩ (.apb 0 exRd) 3 5 rfl
    (by show ¬ _ ∈ ((exAt 34).apb 0).m.issued; decide +kernel) exReadDone 7 (by decide) (by decide) (by decide) (by decide)
    exLast7 _ _ exRead).2

/-- The hypotheses of C115 are met by the same history. -/
example := C115_axi_writes exPorts (st := LiteOps.exM) (evs := exEvs) (n := 43) 0
example := C115_apb (E := exE) (st := LiteOps.exM) (evs := exEvs) exOnce 0
example : (exAt 43).mem.contents 15 = 99 ∧ (exAt 43).mem.contents 3 = 2 ∧ (exAt 43).mem.contents 7 = 8 := by decide +kernel

end Verif.Multi
