import Verif.Props.Apb
import Verif.Props.LiteSystem

/-!
# C41, C78: an APB master connected to an APB RAM

`C36`, `C37` and `C73`, `C74` (`Props/AxiLite.lean`) are about the data path that the APB code shares with the AXI-lite code:
acceptance of arguments, transfers, single accesses. Here they are put together with the clock-level behaviour (`C40`).
-/

namespace Verif.Apb
open Word Master

variable {σ : Type}

/-! ## One operation -/

/-- Write transfers, one after the other. -/
theorem serveAll_writes (slverr : Bool) (t : Target σ) (lanes : Nat) (sp : Bool) (pd : Nat) :
    ∀ (xs : List WXfer) (m m' : σ), slaveWrites t lanes sp xs m = (.ok (xs.map fun _ => .okay), m') →
      serveAll slverr (access t lanes sp) (xs.map .write) (m, pd) = (xs.map fun _ => (pd, .okay), (m', pd))
  | [], m, m', h => by simp only [slaveWrites, Prod.mk.injEq] at h; simp [serveAll, h.2]
  | x :: xs, m, m', h => by
    simp only [slaveWrites] at h
    revert h
    rcases hw : slaveWrite t lanes sp x m with ⟨r, m1⟩
    cases r with
    | error e => intro h; cases h
    | ok r =>
      simp only
      rcases hws : slaveWrites t lanes sp xs m1 with ⟨rs, m2⟩
      cases rs with
      | error e => intro h; cases h
      | ok rs =>
        intro h
        simp only [List.map_cons, Prod.mk.injEq, Except.ok.injEq, List.cons.injEq] at h
        obtain ⟨⟨rfl, rfl⟩, rfl⟩ := h
        have ih := serveAll_writes slverr t lanes sp pd xs m1 m2 hws
        have h1 : serveOne slverr (access t lanes sp) (.write x) (m, pd) = ((pd, .okay), (m1, pd)) := by
          simp [serveOne, access, hw]
        simp only [List.map_cons, serveAll, h1, ih]

/-- Read transfers on a target that a read does not change. -/
theorem serveAll_reads (slverr : Bool) (t : Target σ) (lanes : Nat) (sp : Bool) (m : σ) :
    ∀ (xs : List RXfer) (pd : Nat) (rs : List (Nat × Resp)), slaveReads t lanes xs m = (rs, m) →
      (∀ x ∈ xs, (slaveRead t lanes x m).2 = m) → (∀ r ∈ rs, r.2 = .okay) →
      ∃ pd', serveAll slverr (access t lanes sp) (xs.map .read) (m, pd) = (rs, (m, pd'))
  | [], pd, rs, h, _, _ => by simp only [slaveReads, Prod.mk.injEq] at h; exact ⟨pd, by simp [serveAll, ← h.1]⟩
  | x :: xs, pd, rs, h, hm, hr => by
    simp only [slaveReads] at h
    have hmx := hm x (List.mem_cons_self ..)
    rcases hx : slaveRead t lanes x m with ⟨r, m1⟩
    rw [hx] at h hmx
    simp only at h hmx
    subst hmx
    rcases hxs : slaveReads t lanes xs m1 with ⟨rs', m2⟩
    rw [hxs] at h
    simp only [Prod.mk.injEq] at h
    obtain ⟨rfl, rfl⟩ := h
    obtain ⟨pd', ih⟩ := serveAll_reads slverr t lanes sp m2 xs r.1 rs' hxs (fun x hx => hm x (List.mem_cons_of_mem _ hx))
      (fun r hr' => hr r (List.mem_cons_of_mem _ hr'))
    refine ⟨pd', ?_⟩
    have hok : r.2 = .okay := hr r (List.mem_cons_self ..)
    have h1 : serveOne slverr (access t lanes sp) (.read x) (m2, pd) = (r, (m2, r.1)) := by
      obtain ⟨r1, r2⟩ := r
      simp only at hok
      subst hok
      simp [serveOne, access, hx]
    simp only [List.map_cons, serveAll, h1, ih]

/-- **C41, one call.** The operation of an accepted call within the RAM, executed on the RAM (with any content of the
`prdata` register): a write stores exactly the data, a read returns exactly the memory bytes and changes nothing; both report
OKAY. -/
theorem C41_one (c : Cfg) (hl : 0 < c.lanes) (slverr : Bool) (a : Call) (op : Op) (ha : a.makes c op) (m : Memory)
    (hm : m.WF) (hs : 0 < m.size) (hfit : a.within m.size) (pd : Nat) :
    ∃ rs m' pd', serveAll slverr (access ramTarget c.lanes true) op.xs (m, pd) = (rs, (m', pd')) ∧
      m'.WF ∧ m'.size = m.size ∧ a.outcome c rs = some (a.onFlat m.contents).1 ∧
      m'.contents = (a.onFlat m.contents).2 := by
  cases a with
  | write addr d prot =>
    obtain ⟨cmd, xs, h1, h2, h3⟩ := ha
    obtain ⟨xs', m', g1, g2, g3, g4, g5, g6⟩ := C36_write_stores c hl addr (.bytes d) prot cmd d h1 m hm hs hfit []
    rw [h2] at g1
    cases g1
    refine ⟨_, m', pd, by rw [h3]; exact serveAll_writes slverr ramTarget c.lanes true pd xs m m' g2, g3, g4, ?_, g5⟩
    simp only [Call.outcome, h1, List.map_map]
    rw [List.append_nil] at g6
    rw [show (List.map ((fun x : Rsp => x.2) ∘ fun _ : WXfer => (pd, Resp.okay)) xs) = xs.map fun _ => Resp.okay from rfl, g6]
    rfl
  | read addr n prot =>
    obtain ⟨cmd, h1, h3⟩ := ha
    obtain ⟨rs, g1, g2, g3⟩ := C37_read_exact c hl addr n prot cmd h1 m hm hs hfit []
    have hrd : ∀ x, slaveRead ramTarget c.lanes x m = ((Axi.ramWord c.lanes m (x.addr / c.lanes * c.lanes), .okay), m) :=
      fun x => LiteOps.read_one c x m hm hs
    have hok : ∀ r ∈ rs, r.2 = .okay := by
      have := slaveReads_ram c.lanes (readXfers c cmd) m hm hs
      rw [this] at g1
      simp only [Prod.mk.injEq, and_true] at g1
      subst g1
      intro r hr
      obtain ⟨_, _, rfl⟩ := List.mem_map.1 hr
      rfl
    obtain ⟨pd', h5⟩ := serveAll_reads slverr ramTarget c.lanes true m (readXfers c cmd) pd rs g1
      (fun x _ => by rw [hrd x]) hok
    refine ⟨rs, m, pd', by rw [h3]; exact h5, hm, rfl, ?_, rfl⟩
    simp only [Call.outcome, h1]
    rw [List.append_nil] at g3
    rw [g3]
    rfl

/-! ## A sequence of operations -/

theorem serial_ram (c : Cfg) (hl : 0 < c.lanes) (slverr : Bool) (call : Nat → Call) :
    ∀ (ops : List Op) (m : Memory) (pd : Nat), m.WF → 0 < m.size →
      (∀ op ∈ ops, (call op.key).makes c op ∧ (call op.key).within m.size) →
      ∃ l m' pd', serial slverr (access ramTarget c.lanes true) ops (m, pd) = (l, (m', pd')) ∧ m'.WF ∧ m'.size = m.size ∧
        l.map (fun d => (call d.1.key).outcome c d.2) =
          ((flatRun (ops.map fun op => call op.key) m.contents).1).map some ∧
        m'.contents = (flatRun (ops.map fun op => call op.key) m.contents).2
  | [], m, pd, hm, hs, h => ⟨[], m, pd, rfl, hm, rfl, rfl, rfl⟩
  | op :: ops, m, pd, hm, hs, h => by
    obtain ⟨ha, hw⟩ := h op (List.mem_cons_self ..)
    obtain ⟨rs, m1, pd1, e1, e2, e3, e4, e5⟩ := C41_one c hl slverr (call op.key) op ha m hm hs hw pd
    obtain ⟨l, m2, pd2, f1, f2, f3, f4, f5⟩ := serial_ram c hl slverr call ops m1 pd1 e2 (by omega)
      (fun o ho => by rw [e3]; exact h o (List.mem_cons_of_mem _ ho))
    refine ⟨(op, rs) :: l, m2, pd2, by simp only [serial, e1, f1], f2, by omega, ?_, ?_⟩
    · simp only [List.map_cons, flatRun, f4, e4, e5]
    · simp only [List.map_cons, flatRun, f5, e5]

/-- The hypotheses on a history: all operations come from accepted calls, with spans inside the RAM. -/
structure Calls (c : Cfg) (slverr : Bool) (m0 : Memory) (evs : List Ev) (call : Nat → Call) : Prop where
  lanes : 0 < c.lanes
  wf : m0.WF
  size : 0 < m0.size
  made : ∀ op ∈ (Sys.exec slverr (access ramTarget c.lanes true) m0 evs).m.issued,
    (call op.key).makes c op ∧ (call op.key).within m0.size

theorem Calls.prefix {c : Cfg} {slverr : Bool} {m0 : Memory} {evs : List Ev} {call : Nat → Call} {e : Ev}
    (h : Calls c slverr m0 (evs ++ [e]) call) : Calls c slverr m0 evs call := by
  refine ⟨h.lanes, h.wf, h.size, fun op ho => h.made op ?_⟩
  obtain ⟨e', h1, _⟩ := sys_master slverr (access ramTarget c.lanes true)
    (Sys.exec slverr (access ramTarget c.lanes true) m0 evs) e
  have : (Sys.exec slverr (access ramTarget c.lanes true) m0 (evs ++ [e])).m =
      (Sys.exec slverr (access ramTarget c.lanes true) m0 evs).m.step slverr e' := by
    rw [← h1, Sys.exec, List.foldl_append]; rfl
  rw [this]
  exact (issued_step slverr _ e').subset ho

/-- Part of an operation leaves the RAM in order, and every byte either old or new. -/
theorem serve_part (c : Cfg) (hl : 0 < c.lanes) (slverr : Bool) (a : Call) (op : Op) (ha : a.makes c op) (m : Memory)
    (hm : m.WF) (hs : 0 < m.size) (hfit : a.within m.size) (pd : Nat) (pre : List Xfer) (hp : pre <+: op.xs) :
    (serveAll slverr (access ramTarget c.lanes true) pre (m, pd)).2.1.WF ∧
    (serveAll slverr (access ramTarget c.lanes true) pre (m, pd)).2.1.size = m.size ∧
    ∀ b, (serveAll slverr (access ramTarget c.lanes true) pre (m, pd)).2.1.contents b = m.contents b ∨
      (serveAll slverr (access ramTarget c.lanes true) pre (m, pd)).2.1.contents b = (a.onFlat m.contents).2 b := by
  cases a with
  | write addr d prot =>
    obtain ⟨cmd, xs, h1, h2, h3⟩ := ha
    obtain ⟨_, _, _, _, _, h5⟩ := (C36_accept_iff ..).1 h1
    have hA : cmd.address = addr.toNat := by rw [h5]
    have hN : cmd.length = d.length := by rw [h5]
    rw [writeXfers_spec c cmd d hl hN.symm] at h2
    have h2 := Except.ok.inj h2
    have hall : ∀ x ∈ pre, ∃ k < cycles c cmd, x = .write (xAt c cmd d k) := by
      intro x hx
      have := hp.subset hx
      rw [h3, ← h2, List.map_map, List.mem_map] at this
      obtain ⟨k, hk, rfl⟩ := this
      exact ⟨k, List.mem_range.1 hk, rfl⟩
    clear hp
    simp only [Call.within] at hfit
    have key : ∀ (l : List Xfer) (m1 : Memory) (pd : Nat), (∀ x ∈ l, ∃ k < cycles c cmd, x = .write (xAt c cmd d k)) →
        m1.WF → m1.size = m.size →
        (∀ b, m1.contents b = m.contents b ∨ m1.contents b = (m.contents.store addr.toNat d) b) →
        (serveAll slverr (access ramTarget c.lanes true) l (m1, pd)).2.1.WF ∧
        (serveAll slverr (access ramTarget c.lanes true) l (m1, pd)).2.1.size = m.size ∧
        ∀ b, (serveAll slverr (access ramTarget c.lanes true) l (m1, pd)).2.1.contents b = m.contents b ∨
          (serveAll slverr (access ramTarget c.lanes true) l (m1, pd)).2.1.contents b =
            (m.contents.store addr.toNat d) b := by
      intro l
      induction l with
      | nil => intro m1 pd _ k1 k2 k3; exact ⟨k1, k2, k3⟩
      | cons x l ih =>
        intro m1 pd hx k1 k2 k3
        obtain ⟨k, hk, rfl⟩ := hx x (List.mem_cons_self ..)
        obtain ⟨m2, q1, q2, q3, q4⟩ := LiteOps.write_one c hl cmd d hN.symm k hk m1 k1 (by omega) (by omega)
        have hone : serveOne slverr (access ramTarget c.lanes true) (.write (xAt c cmd d k)) (m1, pd) =
            ((pd, .okay), (m2, pd)) := by simp [serveOne, access, q1]
        simp only [serveAll, hone]
        refine ih m2 pd (fun x hx' => hx x (List.mem_cons_of_mem _ hx')) q2 (by omega) ?_
        intro b
        have hb := bounds c cmd hl k hk
        have hbl := bytesOf_length c cmd d hl hN.symm k hk
        rw [q4]
        by_cases hin : loOf c cmd k ≤ b ∧ b < loOf c cmd k + (bytesOf c cmd d k).length
        · right
          have e1 := LiteOps.store_at (m := m1.contents) hin
          have e2 := LiteOps.store_at (m := m.contents) (a := addr.toNat) (d := d) (x := b) (by omega)
          refine Option.some.inj (e1.trans (Eq.trans ?_ e2.symm))
          simp only [bytesOf]
          rw [List.getElem?_take, if_pos (by omega), List.getElem?_drop]
          congr 1
          omega
        · rw [LiteOps.store_else hin]
          exact k3 b
    exact key pre m pd hall hm rfl (fun b => .inl rfl)
  | read addr n prot =>
    obtain ⟨cmd, h1, h3⟩ := ha
    have hall : ∀ x ∈ pre, ∃ y, x = .read y := by
      intro x hx
      have := hp.subset hx
      rw [h3, List.mem_map] at this
      obtain ⟨k, _, rfl⟩ := this
      exact ⟨k, rfl⟩
    clear hp
    have key : ∀ (l : List Xfer) (pd : Nat), (∀ x ∈ l, ∃ y, x = .read y) →
        (serveAll slverr (access ramTarget c.lanes true) l (m, pd)).2.1 = m := by
      intro l
      induction l with
      | nil => intro pd _; rfl
      | cons x l ih =>
        intro pd hx
        obtain ⟨y, rfl⟩ := hx x (List.mem_cons_self ..)
        have hone : (serveOne slverr (access ramTarget c.lanes true) (.read y) (m, pd)).2 =
            (m, Axi.ramWord c.lanes m (y.addr / c.lanes * c.lanes)) := by
          simp [serveOne, access, LiteOps.read_one c y m hm hs]
        simp only [serveAll, hone]
        exact ih _ (fun x hx' => hx x (List.mem_cons_of_mem _ hx'))
    rw [key pre pd hall]
    exact ⟨hm, rfl, fun b => .inl rfl⟩

theorem flatRun_append : ∀ (l r : List Call) (m : FlatMem),
    flatRun (l ++ r) m = ((flatRun l m).1 ++ (flatRun r (flatRun l m).2).1, (flatRun r (flatRun l m).2).2)
  | [], r, m => rfl
  | a :: l, r, m => by simp only [List.cons_append, flatRun, flatRun_append l r]

theorem epoch_issued {s : Master} (h : s.Inv) : ∀ op ∈ s.epoch, op ∈ s.issued := by
  intro op ho
  obtain ⟨st, h1, h2⟩ := h.book.acct
  rw [h.book.epoch, List.mem_append] at ho
  apply h1.mem_iff.2
  rcases ho with ho | ho
  · obtain ⟨d, hd, rfl⟩ := List.mem_map.1 ho
    exact List.mem_append_left _ (List.mem_append_left _ ((h2 _).2 ⟨_, h.book.doneRes d hd⟩))
  · exact List.mem_append_left _ (List.mem_append_right _ ho)

theorem active_cases (s : Master) : s.active = [] ∨ ∃ op, s.active = [op] := by
  unfold active; split <;> simp

theorem sound_of {c : Cfg} {slverr : Bool} {y : Sys Memory} {call : Nat → Call} (hl : 0 < c.lanes)
    (h : y.Inv slverr (access ramTarget c.lanes true)) (hb : y.base.1.WF) (hs : 0 < y.base.1.size)
    (hmade : ∀ op ∈ y.m.epoch, (call op.key).makes c op ∧ (call op.key).within y.base.1.size) :
    y.s.mem.WF ∧ y.s.mem.size = y.base.1.size ∧
    y.m.done.map (fun d => (call d.1.key).outcome c d.2) =
      ((flatRun (y.m.done.map fun d => call d.1.key) y.base.1.contents).1).map some ∧
    ∀ b, y.s.mem.contents b = (flatRun (y.m.done.map fun d => call d.1.key) y.base.1.contents).2 b ∨
      y.s.mem.contents b =
        (flatRun ((y.m.done.map (·.1) ++ y.m.active).map fun op => call op.key) y.base.1.contents).2 b := by
  obtain ⟨pre, h1, h2, h3, h4⟩ := h.parts
  have hep := h.m.book.epoch
  obtain ⟨l, m1, pd1, e1, e2, e3, e4, e5⟩ := serial_ram c hl slverr call (y.m.done.map (·.1)) y.base.1 y.base.2 hb hs
    (fun op ho => hmade op (by rw [hep]; exact List.mem_append_left _ ho))
  have e1' : serial slverr (access ramTarget c.lanes true) (y.m.done.map (·.1)) y.base = (l, (m1, pd1)) := e1
  have hle : y.m.done = l := by rw [e1'] at h2; exact (congrArg Prod.fst h2).symm
  rw [e1'] at h3
  rw [← hle] at e4
  rw [List.map_map] at e4 e5
  have hmem : y.s.mem = (serveAll slverr (access ramTarget c.lanes true) pre (m1, pd1)).2.1 := congrArg Prod.fst h3
  rcases active_cases y.m with ha | ⟨op, ha⟩
  · rw [ha] at h4
    have hp : pre = [] := by simpa using h4
    subst hp
    rw [hmem]
    exact ⟨e2, e3, e4, fun b => .inl (by simp only [serveAll]; rw [e5]; rfl)⟩
  · rw [ha] at h4
    simp only [List.flatMap_cons, List.flatMap_nil, List.append_nil] at h4
    obtain ⟨g1, g2⟩ := hmade op (by rw [hep, ha]; simp)
    obtain ⟨k1, k2, k3⟩ := serve_part c hl slverr (call op.key) op g1 m1 e2 (by omega) (by rw [e3]; exact g2) pd1 pre h4
    rw [hmem]
    refine ⟨k1, by omega, e4, ?_⟩
    intro b
    rcases k3 b with k | k
    · left; rw [k, e5]; rfl
    · right
      rw [k, ha, List.map_append, flatRun_append, List.map_map, e5]
      rfl

theorem Calls.sound {c : Cfg} {slverr : Bool} {m0 : Memory} {call : Nat → Call} (evs : List Ev)
    (H : Calls c slverr m0 evs call) :
    let y := Sys.exec slverr (access ramTarget c.lanes true) m0 evs
    (y.base.1.WF ∧ y.base.1.size = m0.size) ∧ y.s.mem.WF ∧ y.s.mem.size = m0.size ∧
    y.m.done.map (fun d => (call d.1.key).outcome c d.2) =
      ((flatRun (y.m.done.map fun d => call d.1.key) y.base.1.contents).1).map some ∧
    ∀ b, y.s.mem.contents b = (flatRun (y.m.done.map fun d => call d.1.key) y.base.1.contents).2 b ∨
      y.s.mem.contents b =
        (flatRun ((y.m.done.map (·.1) ++ y.m.active).map fun op => call op.key) y.base.1.contents).2 b := by
  have fin : ∀ (evs : List Ev) (H : Calls c slverr m0 evs call),
      let y := Sys.exec slverr (access ramTarget c.lanes true) m0 evs
      (y.base.1.WF ∧ y.base.1.size = m0.size) → y.s.mem.WF ∧ y.s.mem.size = y.base.1.size ∧
      y.m.done.map (fun d => (call d.1.key).outcome c d.2) =
        ((flatRun (y.m.done.map fun d => call d.1.key) y.base.1.contents).1).map some ∧
      ∀ b, y.s.mem.contents b = (flatRun (y.m.done.map fun d => call d.1.key) y.base.1.contents).2 b ∨
        y.s.mem.contents b =
          (flatRun ((y.m.done.map (·.1) ++ y.m.active).map fun op => call op.key) y.base.1.contents).2 b := by
    intro evs H y hb
    have hI : y.Inv slverr (access ramTarget c.lanes true) := Sys.exec_inv slverr _ m0 evs
    have hs := H.size
    exact sound_of H.lanes hI hb.1 (by omega) (fun op ho => by rw [hb.2]; exact H.made op (epoch_issued hI.m op ho))
  have hbase : ∀ (k : Nat) (evs : List Ev), evs.length = k → Calls c slverr m0 evs call →
      let y := Sys.exec slverr (access ramTarget c.lanes true) m0 evs
      y.base.1.WF ∧ y.base.1.size = m0.size := by
    intro k
    induction k with
    | zero =>
      intro evs hk H
      rw [List.length_eq_zero_iff.1 hk]
      exact ⟨H.wf, rfl⟩
    | succ k ih =>
      intro evs hk H
      have hs : evs = evs.take k ++ [evs[k]] := by
        rw [← List.take_succ_eq_append_getElem (by omega), List.take_of_length_le (by omega)]
      generalize evs.take k = pre at hs
      generalize evs[k] = e at hs
      subst hs
      have hpl : pre.length = k := by simpa using hk
      have ih := ih pre hpl H.prefix
      have he : Sys.exec slverr (access ramTarget c.lanes true) m0 (pre ++ [e]) =
          (Sys.exec slverr (access ramTarget c.lanes true) m0 pre).step slverr (access ramTarget c.lanes true) e := by
        rw [Sys.exec, List.foldl_append]; rfl
      rw [he]
      cases e with
      | reset v =>
        cases v with
        | true =>
          obtain ⟨f1, f2, _⟩ := fin pre H.prefix ih
          exact ⟨f1, f2.trans ih.2⟩
        | false => exact ih
      | _ => exact ih
  have hb := hbase _ evs rfl H
  obtain ⟨f1, f2, f3, f4⟩ := fin evs H hb
  exact ⟨hb, f1, f2.trans hb.2, f3, f4⟩

/-- **C41, results.** Whatever the schedule of calls, pauses and resets: the callers whose operations completed since the last
reset got exactly what executing the calls one after the other on a flat memory yields. -/
theorem C41_results {c : Cfg} {slverr : Bool} {m0 : Memory} {call : Nat → Call} (evs : List Ev)
    (H : Calls c slverr m0 evs call) :
    let y := Sys.exec slverr (access ramTarget c.lanes true) m0 evs
    y.m.done.map (fun d => (call d.1.key).outcome c d.2) =
      ((flatRun (y.m.done.map fun d => call d.1.key) y.base.1.contents).1).map some :=
  (H.sound evs).2.2.2.1

/-- **C41, the RAM at rest.** When no operation is in flight, the RAM contains exactly what the calls made since the last reset,
executed one after the other, leave there. -/
theorem C41_memory {c : Cfg} {slverr : Bool} {m0 : Memory} {call : Nat → Call} (evs : List Ev)
    (H : Calls c slverr m0 evs call) :
    let y := Sys.exec slverr (access ramTarget c.lanes true) m0 evs
    y.m.idle = true → y.m.done.map (·.1) = y.m.epoch ∧
      y.s.mem.contents = (flatRun (y.m.epoch.map fun op => call op.key) y.base.1.contents).2 := by
  intro y hidle
  obtain ⟨_, _, _, _, h⟩ := H.sound evs
  have hI : y.Inv slverr (access ramTarget c.lanes true) := Sys.exec_inv slverr _ m0 evs
  have hfl := hI.m.book.flight
  simp only [idle, decide_eq_true_eq] at hidle
  have hz : y.m.active ++ y.m.queue = [] := by
    apply List.length_eq_zero_iff.1; omega
  have ha : y.m.active = [] := (List.append_eq_nil_iff.1 hz).1
  have hep := hI.m.book.epoch
  rw [hz, List.append_nil] at hep
  refine ⟨hep.symm, ?_⟩
  funext b
  rw [hep, List.map_map]
  rcases h b with h | h
  · exact h
  · have h' : y.s.mem.contents b = (flatRun ((y.m.done.map (·.1) ++ y.m.active).map fun op => call op.key) y.base.1.contents).2 b := h
    rw [ha, List.append_nil, List.map_map] at h'
    exact h'

/-- **C41, the RAM at any instant** (and so what a reset in the middle of an operation leaves): all completed operations have
had their effect, the one under way has changed some of its bytes, the others have not changed anything. -/
theorem C41_torn {c : Cfg} {slverr : Bool} {m0 : Memory} {call : Nat → Call} (evs : List Ev)
    (H : Calls c slverr m0 evs call) :
    let y := Sys.exec slverr (access ramTarget c.lanes true) m0 evs
    ∃ k ≤ 1, ∀ b,
      y.s.mem.contents b = (flatRun ((y.m.epoch.take y.m.done.length).map fun op => call op.key) y.base.1.contents).2 b ∨
      y.s.mem.contents b =
        (flatRun ((y.m.epoch.take (y.m.done.length + k)).map fun op => call op.key) y.base.1.contents).2 b := by
  intro y
  obtain ⟨_, _, _, _, h⟩ := H.sound evs
  have hI : y.Inv slverr (access ramTarget c.lanes true) := Sys.exec_inv slverr _ m0 evs
  have hep := hI.m.book.epoch
  refine ⟨y.m.active.length, by rcases active_cases y.m with ha | ⟨op, ha⟩ <;> simp [ha], fun b => ?_⟩
  have e1 : y.m.epoch.take y.m.done.length = y.m.done.map (·.1) := by
    rw [hep, List.take_append_of_le_length (by simp), List.take_of_length_le (by simp)]
  have e2 : y.m.epoch.take (y.m.done.length + y.m.active.length) = y.m.done.map (·.1) ++ y.m.active := by
    rw [hep, ← List.append_assoc, List.take_append_of_le_length (by simp), List.take_of_length_le (by simp)]
  rw [e1, e2, List.map_map]
  exact h b

/-! ## C78: progress -/

/-- Clock edges that are needed without pauses. -/
def cost (y : Sys σ) : Nat :=
  (2 * y.m.todo.length +
    match y.m.pc with
    | .setup .. => 0
    | .access .. => 0
    | .stopped => 0
    | _ => if y.m.active ++ y.m.queue = [] then 0 else 1) - if y.s.pc = .ready then 1 else 0

theorem next_todo (p : Bool) : ∀ (q : List Op) (s : Master), (next p q s).todo = q.flatMap (·.xs) ∧
    (((next p q s).pc = .get ∧ (next p q s).queue = []) ∨
     (∃ op x xs rs, (next p q s).pc = .setup op x xs rs) ∨
     (p = true ∧ ∃ op x xs rs, (next p q s).pc = .pause op x xs rs))
  | [], s => by simp [next, todo, MPc.rem]
  | op :: rest, s => by
    unfold next
    split
    · rename_i hx
      obtain ⟨h1, h2⟩ := next_todo p rest (({ s with cur := some op } : Master).finish op [])
      exact ⟨by rw [h1]; simp [hx], h2⟩
    · rename_i x xs hx
      unfold enter
      split
      · rename_i hp
        exact ⟨by simp [todo, MPc.rem, hx], .inr (.inr ⟨hp, _, _, _, _, rfl⟩)⟩
      · exact ⟨by simp [todo, MPc.rem, hx], .inr (.inl ⟨_, _, _, _, rfl⟩)⟩

/-- The cost of a state whose master has just gone through the head of the loop. -/
theorem cost_next (p : Bool) (q : List Op) (s : Master) (sl : Slave σ) (b : σ × Nat) (hsl : sl.pc ≠ .ready) :
    cost ({ m := next p q s, s := sl, base := b } : Sys σ) ≤ 2 * (q.flatMap (·.xs)).length + (if p then 1 else 0) := by
  obtain ⟨h1, h2⟩ := next_todo p q s
  unfold cost
  simp only [h1, hsl, if_false]
  rcases h2 with ⟨h2, h3⟩ | ⟨op, x, xs, rs, h2⟩ | ⟨hp, op, x, xs, rs, h2⟩
  · simp [h2, h3, active]
  · simp [h2]
  · rw [h2]; simp only [hp, if_true]; split <;> omega

theorem cost_enter (p : Bool) (s : Master) (op : Op) (x : Xfer) (xs : List Xfer) (rs : List Rsp) (sl : Slave σ) (b : σ × Nat)
    (hsl : sl.pc ≠ .ready) :
    cost ({ m := s.enter p op x xs rs, s := sl, base := b } : Sys σ) ≤
      2 * ((x :: xs) ++ s.queue.flatMap (·.xs)).length + (if p then 1 else 0) := by
  unfold enter cost
  cases p <;> simp [hsl, todo, MPc.rem]
  split <;> omega

/-- A clock cycle: the master that waits for its queue wakes up if it can, then comes an edge. -/
def cycle (slverr : Bool) (f : Access σ) (y : Sys σ) (p : Bool × Bool × Bool) : Sys σ :=
  (y.step slverr f .resume).step slverr f (.edge p.1 p.2.1 p.2.2)

theorem cost_resume (slverr : Bool) (f : Access σ) (y : Sys σ) :
    cost (y.step slverr f .resume) = cost y ∧
    ((y.step slverr f .resume).m.active ++ (y.step slverr f .resume).m.queue) = y.m.active ++ y.m.queue ∧
    ((y.step slverr f .resume).m.pc = .get → y.m.queue = [] ∧ y.m.pc = .get) ∧
    ((y.step slverr f .resume).m.pc = .stopped → y.m.pc = .stopped) := by
  simp only [Sys.step, Master.step, resume]
  split
  · rename_i op rest hpc hq
    simp [cost, todo, hpc, hq, MPc.rem, active]
  · rename_i hno
    refine ⟨rfl, rfl, ?_, fun h => h⟩
    intro h
    refine ⟨?_, h⟩
    cases hq : y.m.queue with
    | nil => rfl
    | cons op rest => exact absurd hq (hno op rest h)

theorem cost_close {z N C : Nat} {a : Bool} {P Q R : Prop} (h : z ≤ N + (if a then 1 else 0)) (hc : N + 1 ≤ C) :
    z ≤ C ∧ (a = false → P → Q → R → z < C) := by
  cases a with
  | true => simp only [if_true] at h; exact ⟨by omega, by intro h; cases h⟩
  | false => simp only [Bool.false_eq_true, if_false] at h; exact ⟨by omega, fun _ _ _ _ => by omega⟩

theorem cost_edge {slverr : Bool} {f : Access σ} {y : Sys σ} (h : y.Inv slverr f) (hst : y.m.pc ≠ .stopped)
    (hget : y.m.pc = .get → y.m.queue = []) (a b c : Bool) :
    cost (y.step slverr f (.edge a b c)) ≤ cost y ∧
    (a = false → b = false → c = false → y.m.active ++ y.m.queue ≠ [] →
      cost (y.step slverr f (.edge a b c)) < cost y) := by
  simp only [Sys.step, Master.step]
  by_cases hacc : y.m.pc.isAccess = true
  · have ⟨op, x, xs, rs, hpc⟩ : ∃ op x xs rs, y.m.pc = .access op x xs rs := by
      cases hp : y.m.pc <;> simp [MPc.isAccess, hp] at hacc ⊢
    rcases h.acc hacc with hs | hs | hs
    · have hr : y.s.pready = false := by rw [h.rdy]; simp [hs]
      have hm : y.m.edge slverr a y.s.pready y.s.prdata y.s.pslverr = y.m := by simp [Master.edge, hpc, hr]
      rw [hm]
      simp only [Slave.edge, hs]
      have hc : cost y = 2 * y.m.todo.length := by simp [cost, hpc, hs]
      have hl : 0 < y.m.todo.length := by simp [todo, hpc, MPc.rem]
      rw [hc]
      cases b with
      | true => simp [cost, hpc, hs]
      | false => cases c <;> simp [cost, hpc, Slave.perform] <;> omega
    · have hr : y.s.pready = false := by rw [h.rdy]; simp [hs]
      have hm : y.m.edge slverr a y.s.pready y.s.prdata y.s.pslverr = y.m := by simp [Master.edge, hpc, hr]
      rw [hm]
      simp only [Slave.edge, hs]
      have hc : cost y = 2 * y.m.todo.length := by simp [cost, hpc, hs]
      have hl : 0 < y.m.todo.length := by simp [todo, hpc, MPc.rem]
      rw [hc]
      cases c with
      | true => simp [cost, hpc, hs]
      | false => simp [cost, hpc]; omega
    · have hr : y.s.pready = true := by rw [h.rdy]; simp [hs]
      have hc : cost y = 2 * ((x :: xs) ++ y.m.queue.flatMap (·.xs)).length - 1 := by
        simp [cost, hpc, hs, todo, MPc.rem]
      simp only [Slave.edge, hs, Master.edge, hpc, hr, if_true]
      rw [hc]
      cases xs with
      | nil =>
        refine cost_close (cost_next a y.m.queue _ _ y.base (by simp)) ?_
        simp only [List.cons_append, List.nil_append, List.length_cons]
        omega
      | cons x' xs' =>
        refine cost_close (cost_enter a _ op x' xs' _ _ y.base (by simp)) ?_
        simp only [List.cons_append, List.length_cons]
        omega
  · simp only [Bool.not_eq_true] at hacc
    have hs : y.s.pc = .idle := by
      rcases h.nacc hacc with hs | hs
      · exact hs
      · exact absurd (h.stop.2 hs) hst
    have hnr : ∀ m : Master, m.bus = y.m.bus → (∀ op x xs rs, y.m.pc ≠ .setup op x xs rs) →
        y.s.edge f b c m.bus = y.s := by
      intro m hm hset
      have hsel : y.m.bus.psel = false := by
        refine (h.m.ctl.low ?_).1
        intro op x xs rs
        refine ⟨hset _ _ _ _, fun hh => ?_⟩
        simp [hh, MPc.isAccess] at hacc
      simp [Slave.edge, hs, hm, hsel]
    cases hpc : y.m.pc with
    | stopped => exact absurd hpc hst
    | access => simp [hpc, MPc.isAccess] at hacc
    | get =>
      have hq := hget hpc
      rw [hnr y.m rfl (by simp [hpc])]
      simp [Master.edge, hpc, hq, active]
    | init =>
      rw [hnr y.m rfl (by simp [hpc])]
      simp only [Master.edge, hpc]
      have ha : y.m.active = [] := by simp [active, hpc]
      by_cases hq : y.m.queue = []
      · have hn := cost_next a y.m.queue y.m y.s y.base (by simp [hs])
        have : cost ({ m := next a y.m.queue y.m, s := y.s, base := y.base } : Sys σ) = 0 := by
          simp [hq, next, cost, todo, MPc.rem, active]
        rw [this, hq, ha]
        simp
      · refine cost_close (cost_next a y.m.queue _ _ y.base (by simp [hs])) ?_
        simp [cost, hpc, hs, ha, hq, todo, MPc.rem]
    | got op =>
      rw [hnr y.m rfl (by simp [hpc])]
      simp only [Master.edge, hpc]
      refine cost_close (cost_next a (op :: y.m.queue) _ _ y.base (by simp [hs])) ?_
      simp [cost, hpc, hs, active, todo, MPc.rem]
    | pause op x xs rs =>
      rw [hnr y.m rfl (by simp [hpc])]
      simp only [Master.edge, hpc]
      refine cost_close (cost_enter a _ op x xs rs _ y.base (by simp [hs])) ?_
      simp [cost, hpc, hs, active, todo, MPc.rem]
    | setup op x xs rs =>
      obtain ⟨_, hd⟩ := h.m.ctl.setup _ _ _ _ hpc
      have hsel : y.m.bus.psel = true := by rw [← hd]; exact Master.drive_sel _ _
      have hc : cost y = 2 * ((x :: xs) ++ y.m.queue.flatMap (·.xs)).length := by
        simp [cost, hpc, hs, todo, MPc.rem]
      rw [hc]
      simp only [Master.edge, hpc, Slave.edge, hs, hsel, if_true]
      cases b with
      | true => simp [cost, todo, MPc.rem]
      | false => cases c <;> simp [cost, todo, MPc.rem, Slave.perform]; omega

theorem pend_edge (slverr : Bool) (f : Access σ) (y : Sys σ) (e : Ev)
    (he : ∀ op v i, e ≠ .call op ∧ e ≠ .init op ∧ e ≠ .runInit i ∧ e ≠ .reset v)
    (hz : y.m.active ++ y.m.queue = []) :
    (y.step slverr f e).m.active ++ (y.step slverr f e).m.queue = [] := by
  have ha := (List.append_eq_nil_iff.1 hz).1
  have hq := (List.append_eq_nil_iff.1 hz).2
  cases e with
  | call op => exact absurd rfl (he op true 0).1
  | init op => exact absurd rfl (he op true 0).2.1
  | runInit i => exact absurd rfl (he ⟨0, []⟩ true i).2.2.1
  | reset v => exact absurd rfl (he ⟨0, []⟩ v 0).2.2.2
  | resume =>
    rw [(cost_resume slverr f y).2.1]; exact hz
  | edge a b c =>
    simp only [Sys.step, Master.step]
    cases hpc : y.m.pc <;> simp [active, hpc] at ha <;> simp [Master.edge, hpc, hq, next, active]

/-- **C78: progress, with a bound.** Let the connected master and slave be out of reset, with any operations called and in
any phase. If from there on no reset happens and no further call is made, then after clock cycles of which enough are without
pauses and without delay of the target (twice the number of transfers called since the last reset, plus one), with any
other cycles among them, all operations have completed. -/
theorem C78_progress (slverr : Bool) (f : Access σ) (st : σ) (evs : List Ev)
    (hrun : (Sys.exec slverr f st evs).m.pc ≠ .stopped) (cycles : List (Bool × Bool × Bool))
    (hn : 2 * ((Sys.exec slverr f st evs).m.epoch.flatMap (·.xs)).length + 1 ≤
      (cycles.filter (· = (false, false, false))).length) :
    (Sys.exec slverr f st (evs ++ cycles.flatMap fun p => [.resume, .edge p.1 p.2.1 p.2.2])).m.idle = true := by
  have key : ∀ (cs : List (Bool × Bool × Bool)) (y : Sys σ), y.Inv slverr f → y.m.pc ≠ .stopped →
      cost y ≤ (cs.filter (· = (false, false, false))).length →
      ((cs.flatMap fun p => [Ev.resume, .edge p.1 p.2.1 p.2.2]).foldl (Sys.step slverr f) y).m.idle = true := by
    intro cs
    induction cs with
    | nil =>
      intro y hI hst hc
      have h0 : cost y = 0 := by simpa using hc
      show y.m.idle = true
      have hz : y.m.active ++ y.m.queue = [] := by
        unfold cost at h0
        have hrd : y.s.pc = .ready → y.m.pc.isAccess = true := by
          intro hr
          cases hx : y.m.pc.isAccess with
          | true => rfl
          | false => rcases hI.nacc hx with h | h <;> simp [hr] at h
        cases hpc : y.m.pc with
        | stopped => exact absurd hpc hst
        | setup op x xs rs =>
          simp [hpc, todo, MPc.rem] at h0
          have : y.s.pc ≠ .ready := by
            intro hr; have := hrd hr; simp [hpc, MPc.isAccess] at this
          simp [this] at h0
        | access op x xs rs =>
          simp [hpc, todo, MPc.rem] at h0
          split at h0 <;> omega
        | _ =>
          have : y.s.pc ≠ .ready := by
            intro hr; have := hrd hr; simp [hpc, MPc.isAccess] at this
          rw [hpc] at h0
          simp only [this, if_false] at h0
          by_cases hz : y.m.active ++ y.m.queue = []
          · exact hz
          · rw [if_neg hz] at h0; omega
      have hfl := hI.m.book.flight
      rw [hz] at hfl
      simp [idle, hfl]
    | cons p cs ih =>
      intro y hI hst hc
      simp only [List.flatMap_cons, List.cons_append, List.nil_append, List.foldl_cons]
      obtain ⟨r1, r2, r3, r4⟩ := cost_resume slverr f y
      have hI1 := Sys.step_inv hI .resume (slverr := slverr) (f := f)
      have hst1 : (y.step slverr f .resume).m.pc ≠ .stopped := fun h => hst (r4 h)
      have hget : (y.step slverr f .resume).m.pc = .get → (y.step slverr f .resume).m.queue = [] := by
        intro h
        obtain ⟨h1, h2⟩ := r3 h
        simp [Sys.step, Master.step, resume, h1, h2]
      obtain ⟨c1, c2⟩ := cost_edge hI1 hst1 hget p.1 p.2.1 p.2.2
      have hst2 : ((y.step slverr f .resume).step slverr f (.edge p.1 p.2.1 p.2.2)).m.pc ≠ .stopped := by
        intro h
        exact hst1 ((edge_facts _ _ _ _ _ _).2.2.1 h)
      refine ih _ (Sys.step_inv hI1 _) hst2 ?_
      by_cases hp : p = (false, false, false)
      · subst hp
        simp only [decide_true, List.filter_cons_of_pos, List.length_cons] at hc
        by_cases hz : (y.step slverr f .resume).m.active ++ (y.step slverr f .resume).m.queue = []
        · have hz2 := pend_edge slverr f _ (.edge false false false) (by simp) hz
          have hcz : cost ((y.step slverr f .resume).step slverr f (.edge false false false)) = 0 := by
            have hr : ((y.step slverr f .resume).step slverr f (.edge false false false)).m.todo = [] := by
              have ha := (List.append_eq_nil_iff.1 hz2).1
              have hq := (List.append_eq_nil_iff.1 hz2).2
              unfold todo
              rw [hq]
              cases hpc : ((y.step slverr f .resume).step slverr f (.edge false false false)).m.pc <;>
                simp [active, hpc] at ha <;> simp [MPc.rem]
            unfold cost
            rw [hr, hz2]
            split <;> simp
          show cost ((y.step slverr f .resume).step slverr f (.edge false false false)) ≤ _
          omega
        · have := c2 rfl rfl rfl hz
          omega
      · have : (List.filter (· = (false, false, false)) (p :: cs)) = List.filter (· = (false, false, false)) cs := by
          rw [List.filter_cons_of_neg (by simpa using hp)]
        rw [this] at hc
        omega
  have hI := Sys.exec_inv slverr f st evs
  have := key cycles (Sys.exec slverr f st evs) hI hrun (by
    refine Nat.le_trans ?_ hn
    obtain ⟨P, h1, h2⟩ := hI.m.split
    have hl := congrArg List.length h1
    rw [List.length_append] at hl
    have hle : cost (Sys.exec slverr f st evs) ≤ 2 * (Sys.exec slverr f st evs).m.todo.length + 1 := by
      unfold cost
      split
      · omega
      · omega
      · omega
      · split <;> omega
    omega)
  rw [Sys.exec, List.foldl_append]
  exact this

/-- **C78, with results.** Under the same conditions every operation called since the last reset has completed, with the
results of executing the operations one after the other. -/
theorem C78_complete (slverr : Bool) (f : Access σ) (st : σ) (evs : List Ev)
    (hrun : (Sys.exec slverr f st evs).m.pc ≠ .stopped) (cycles : List (Bool × Bool × Bool))
    (hn : 2 * ((Sys.exec slverr f st evs).m.epoch.flatMap (·.xs)).length + 1 ≤
      (cycles.filter (· = (false, false, false))).length) :
    let y := Sys.exec slverr f st (evs ++ cycles.flatMap fun p => [.resume, .edge p.1 p.2.1 p.2.2])
    serial slverr f y.m.epoch y.base = (y.m.done, (y.s.mem, y.s.prdata)) :=
  C40_idle slverr f st _ (C78_progress slverr f st evs hrun cycles hn)

/-- the hypotheses of C78: running, two transfers called, five cycles without pauses among seven -/
example :
    let y := Sys.exec true register 3 [.reset false, .call opW, .call opR]
    let cycles := [(true, false, false), (false, false, false), (false, false, false), (false, true, true),
      (false, false, false), (false, false, false), (false, false, false)]
    y.m.pc ≠ .stopped ∧ y.m.idle = false ∧ 2 * (y.m.epoch.flatMap (·.xs)).length + 1 ≤
      (cycles.filter (· = (false, false, false))).length := by
  decide

/-! ### A concrete history for C41

A write of `[2, 6)` and a read of `[1, 6)` on a 4 byte wide bus. -/

def exC : Cfg := { lanes := 4, addrWidth := 16 }
def exM : Memory := { size := 16, mem := .buf (List.replicate 16 7) }
def exCall : Nat → Call
  | 0 => .write 2 [1, 2, 3, 4] 0
  | _ => .read 1 5 0
def exW : Op := ⟨0, [.write ⟨2, 0, 0x02010000, 12⟩, .write ⟨4, 0, 0x0403, 3⟩]⟩
def exR : Op := ⟨1, [.read ⟨1, 0⟩, .read ⟨4, 0⟩]⟩
def exEvs : List Ev := [.reset false, .call exW, .call exR] ++ List.replicate 10 (.edge false false false)

theorem exCalls : Calls exC true exM exEvs exCall := by
  have hI : (Sys.exec true (access ramTarget exC.lanes true) exM exEvs).m.issued = [exW, exR] := by decide +kernel
  refine ⟨by decide, ⟨rfl, trivial⟩, by decide, ?_⟩
  rw [hI]
  intro op hop
  rw [List.mem_cons, List.mem_singleton] at hop
  rcases hop with rfl | rfl
  · exact ⟨⟨{ address := 2, length := 4, prot := 0 }, _, (C36_accept_iff ..).2 ⟨rfl, by decide, by decide, by decide,
      by simp [exC], rfl⟩, (by decide +kernel : writeXfers exC _ _ = .ok [⟨2, 0, 0x02010000, 12⟩, ⟨4, 0, 0x0403, 3⟩]), rfl⟩,
      by simp [exCall, exW, Call.within, exM]⟩
  · exact ⟨⟨{ address := 1, length := 5, prot := 0 }, (C37_accept_iff ..).2 ⟨by decide, by decide, by decide, by decide,
      by simp [exC], rfl⟩, by decide +kernel⟩, by simp [exCall, exR, Call.within, exM]⟩

/-- both completed, and the read returned the old byte at 1 and the four new ones -/
example :
    let y := Sys.exec true (access ramTarget exC.lanes true) exM exEvs
    y.m.idle = true ∧ y.m.done.map (fun d => (exCall d.1.key).outcome exC d.2) =
      [some (.written .okay), some (.data [7, 1, 2, 3, 4] .okay)] := by
  decide +kernel

end Verif.Apb
