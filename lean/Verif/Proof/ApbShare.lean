import Verif.Props.Apb
import Verif.Proof.AxiSysOrder

/-!
# An APB master and slave on a target that others may access too
-/

namespace Verif.Apb

variable {σ : Type}

/-- The transfers of a list of operations, with their operation and number. -/
def labels (ops : List Op) : List (Op × Xfer × Nat) := ops.flatMap fun o => o.xs.zipIdx.map fun p => (o, p)

theorem labels_append (a b : List Op) : labels (a ++ b) = labels a ++ labels b := by simp [labels]

theorem labels_length (ops : List Op) : (labels ops).length = (ops.flatMap (·.xs)).length := by
  induction ops with
  | nil => rfl
  | cons o os ih =>
    have : labels (o :: os) = (o.xs.zipIdx.map fun p => (o, p)) ++ labels os := by simp [labels]
    rw [this, List.length_append, ih, List.flatMap_cons]
    simp

theorem mem_labels {ops : List Op} {o : Op} {x : Xfer} {i : Nat} (h : (o, x, i) ∈ labels ops) :
    o ∈ ops ∧ o.xs[i]? = some x := by
  simp only [labels, List.mem_flatMap, List.mem_map] at h
  obtain ⟨o', ho, ⟨x', i'⟩, hp, he⟩ := h
  simp only [Prod.mk.injEq] at he
  obtain ⟨rfl, rfl, rfl⟩ := he
  exact ⟨ho, List.mem_zipIdx_iff_getElem?.1 hp⟩

/-- The label of the transfer that is being made. -/
theorem Master.Inv.label {s : Master} (h : s.Inv) {op : Op} {x : Xfer} {xs : List Xfer} {rs : List Rsp}
    (hpc : s.pc = .setup op x xs rs ∨ s.pc = .access op x xs rs) :
    (labels s.epoch)[s.consumed.length]? = some (op, x, rs.length) ∧ s.active = [op] := by
  have ha : s.active = [op] := by rcases hpc with h | h <;> simp [active, h]
  have hg : s.pc.got' = rs := by rcases hpc with h | h <;> simp [MPc.got', h]
  refine ⟨?_, ha⟩
  obtain ⟨_, pre, h1, h2⟩ := h.ctl.beat op x xs rs (.inr hpc)
  rw [h.book.epoch, labels_append, labels_append, ha, consumed, hg, List.length_append]
  have hl : (labels (s.done.map (·.1))).length = (s.done.flatMap (·.2)).length := by
    rw [labels_length, flatMap_len h.book.doneLen]
  rw [List.getElem?_append_right (by omega), hl, Nat.add_sub_cancel_left]
  have : labels [op] = op.xs.zipIdx.map fun p => (op, p) := by simp [labels]
  rw [this, List.getElem?_append_left (by simp [h1]; omega), List.getElem?_map, List.getElem?_zipIdx, h1,
    List.getElem?_append_right (by omega), h2]
  simp

namespace Sys

/-- What does not depend on the target. -/
structure SInv (slverr : Bool) (y : Sys σ) (rs : List Rsp) : Prop where
  m : y.m.Inv
  stop : y.m.pc = .stopped ↔ y.s.pc = .stopped
  acc : y.m.pc.isAccess = true → y.s.pc = .paused y.m.bus.paddr ∨ y.s.pc = .busy ∨ y.s.pc = .ready
  nacc : y.m.pc.isAccess = false → y.s.pc = .idle ∨ y.s.pc = .stopped
  rdy : y.s.pready = decide (y.s.pc = .ready)
  srv : rs = y.m.consumed ++ answer slverr y.s

theorem SInv.put {slverr : Bool} {y : Sys σ} {rs : List Rsp} (h : y.SInv slverr rs) (st : σ) : (y.put st).SInv slverr rs :=
  ⟨h.m, h.stop, h.acc, h.nacc, h.rdy, h.srv⟩

theorem SInv.frame {slverr : Bool} {y : Sys σ} {rs : List Rsp} (h : y.SInv slverr rs) {m : Master} (hm : m.Inv)
    (h1 : m.pc.isAccess = y.m.pc.isAccess) (h2 : m.pc = .stopped ↔ y.m.pc = .stopped) (h3 : m.bus = y.m.bus)
    (h5 : m.consumed = y.m.consumed) : ({ y with m := m } : Sys σ).SInv slverr rs := by
  obtain ⟨i1, i2, i3, i4, i5, i7⟩ := h
  refine ⟨hm, h2.trans i2, ?_, by rw [h1]; exact i4, i5, ?_⟩
  · intro h; rw [h1] at h; rw [h3]; exact i3 h
  · simp only [h5]; exact i7

/-- What an event does, as far as the target is concerned. -/
inductive Move (slverr : Bool) (f : Access σ) (y : Sys σ) (rs : List Rsp) (z : Sys σ) : Prop
  | none (h : z.SInv slverr rs) (hm : z.s.mem = y.s.mem) (he : ∃ l, z.m.epoch = y.m.epoch ++ l)
  | clear (h : z.SInv slverr []) (hm : z.s.mem = y.s.mem) (he : z.m.epoch = [])
  | did (op : Op) (x : Xfer) (i : Nat) (r : Rsp) (h : z.SInv slverr (rs ++ [r])) (he : z.m.epoch = y.m.epoch)
      (ha : y.m.active = [op]) (hl : (labels y.m.epoch)[rs.length]? = some (op, x, i)) (hd : Did slverr f x y.s.mem r z.s.mem)

/-- The slave performs the transfer that the master drives. -/
theorem perform_move {slverr : Bool} {f : Access σ} {y : Sys σ} {rs : List Rsp} (h : y.SInv slverr rs) {m : Master} (hm : m.Inv)
    {op : Op} {x : Xfer} {xs : List Xfer} {got : List Rsp} (hpc : y.m.pc = .setup op x xs got ∨ y.m.pc = .access op x xs got)
    {b : Bus} {slow : Bool} (hb : b.request = x)
    (hn : answer slverr y.s = []) (hacc : m.pc.isAccess = true) (hep : m.epoch = y.m.epoch)
    (hc : m.consumed = y.m.consumed) :
    Move slverr f y rs ({ y with m := m, s := y.s.perform f slow b } : Sys σ) := by
  obtain ⟨i1, i2, i3, i4, i5, i7⟩ := h
  rw [hn, List.append_nil] at i7
  obtain ⟨l1, l2⟩ := i1.label hpc
  have hst : m.pc ≠ .stopped := by intro h; simp [h, MPc.isAccess] at hacc
  have hp : (y.s.perform f slow b).pc = .busy ∧ slow = true ∨ (y.s.perform f slow b).pc = .ready ∧ slow = false := by
    cases slow <;> simp [Slave.perform]
  refine .did op x got.length ((f x y.s.mem).1.1.getD y.s.prdata, if slverr && (f x y.s.mem).1.2 then Resp.slverr else Resp.okay)
    ⟨hm, ?_, ?_, ?_, ?_, ?_⟩ hep l2 (by rw [i7]; exact l1) ⟨by simp [Slave.perform, hb], rfl, ?_⟩
  · rcases hp with hp | hp <;> simp [hst, hp.1]
  · intro _
    rcases hp with hp | hp <;> simp [hp.1]
  · intro h; simp [hacc] at h
  · cases slow <;> simp [Slave.perform]
  · simp only [hc, i7]
    cases slow <;> simp [Slave.perform, answer, hb]
  · intro d hd
    rw [hd]; rfl

theorem edge_move {slverr : Bool} {f : Access σ} {y : Sys σ} {rs : List Rsp} (h : y.SInv slverr rs) (mp sp slow : Bool) :
    Move slverr f y rs (y.step slverr f (.edge mp sp slow)) := by
  have hm := Master.edge_inv h.m slverr mp y.s.pready y.s.prdata y.s.pslverr
  obtain ⟨e1, e2, e3⟩ := Master.edge_facts y.m slverr mp y.s.pready y.s.prdata y.s.pslverr
  have e4 := Master.edge_access y.m slverr mp y.s.pready y.s.prdata y.s.pslverr
  have e5 := Master.edge_bus y.m slverr mp y.s.pready y.s.prdata y.s.pslverr
  simp only [step, Master.step]
  generalize hms : y.m.edge slverr mp y.s.pready y.s.prdata y.s.pslverr = m at *
  by_cases hacc : y.m.pc.isAccess = true
  · have ⟨op, x, xs, got, hpc⟩ : ∃ op x xs rs, y.m.pc = .access op x xs rs := by
      cases hp : y.m.pc <;> simp [MPc.isAccess, hp] at hacc ⊢
    have hreq := request_of_drive (h.m.ctl.access _ _ _ _ hpc).2
    rcases h.acc hacc with hs | hs | hs
    · -- the slave is paused
      have hr : y.s.pready = false := by rw [h.rdy]; simp [hs]
      have hma : m.pc.isAccess = true := e4.2 (.inr ⟨hacc, hr⟩)
      have hsam : y.m.sample slverr y.s.pready y.s.prdata y.s.pslverr = [] := by simp [Master.sample, hr]
      rw [hsam, List.append_nil] at e2
      have hbus : m.bus = y.m.bus := by rw [← hms]; simp [Master.edge, hpc, hr]
      have hn : answer slverr y.s = [] := by simp [answer, hs]
      simp only [Slave.edge, hs]
      split
      · exact .none (h.frame hm (by rw [hma, hacc]) e3 hbus e2) rfl ⟨[], by simp [e1]⟩
      · refine perform_move h hm (.inr hpc) ?_ hn hma e1 e2
        show ({ y.m.bus with paddr := y.m.bus.paddr } : Bus).request = x
        exact hreq
    · -- the target is busy
      have hr : y.s.pready = false := by rw [h.rdy]; simp [hs]
      have hma : m.pc.isAccess = true := e4.2 (.inr ⟨hacc, hr⟩)
      have hsam : y.m.sample slverr y.s.pready y.s.prdata y.s.pslverr = [] := by simp [Master.sample, hr]
      rw [hsam, List.append_nil] at e2
      have hbus : m.bus = y.m.bus := by rw [← hms]; simp [Master.edge, hpc, hr]
      have hf := h.frame hm (by rw [hma, hacc]) e3 hbus e2
      simp only [Slave.edge, hs]
      split
      · exact .none hf rfl ⟨[], by simp [e1]⟩
      · obtain ⟨i1, i2, i3, i4, i5, i7⟩ := hf
        have hst : m.pc ≠ .stopped := by intro h; simp [h, MPc.isAccess] at hma
        refine .none ⟨i1, by simp [hst], by simp, by simp [hma], by simp, ?_⟩ rfl ⟨[], by simp [e1]⟩
        simp only [answer, hs] at i7 ⊢
        exact i7
    · -- the slave answers
      have hr : y.s.pready = true := by rw [h.rdy]; simp [hs]
      have hma : m.pc.isAccess = false := by
        cases hx : m.pc.isAccess with
        | false => rfl
        | true =>
          rcases e4.1 hx with ⟨_, _, _, _, h'⟩ | ⟨_, h'⟩
          · simp [hpc] at h'
          · simp [hr] at h'
      have hst : m.pc ≠ .stopped := by intro h; simp [e3.1 h] at hpc
      obtain ⟨i1, i2, i3, i4, i5, i7⟩ := h
      simp only [Slave.edge, hs]
      refine .none ⟨hm, by simp [hst], by simp [hma], by simp, by simp, ?_⟩ rfl ⟨[], by simp [e1]⟩
      simp only [answer, hs, List.append_nil] at i7 ⊢
      rw [i7, e2]
      simp [Master.sample, hacc, hr]
  · simp only [Bool.not_eq_true] at hacc
    have hsam : y.m.sample slverr y.s.pready y.s.prdata y.s.pslverr = [] := by simp [Master.sample, hacc]
    rw [hsam, List.append_nil] at e2
    rcases h.nacc hacc with hs | hs
    · -- the slave is idle
      have hn : answer slverr y.s = [] := by simp [answer, hs]
      simp only [Slave.edge, hs]
      by_cases hset : ∃ op x xs rs, y.m.pc = .setup op x xs rs
      · obtain ⟨op, x, xs, got, hpc⟩ := hset
        obtain ⟨_, hd⟩ := h.m.ctl.setup _ _ _ _ hpc
        have hsel : y.m.bus.psel = true := by rw [← hd]; exact Master.drive_sel _ _
        have hreq := request_of_drive hd
        have hma : m.pc.isAccess = true := e4.2 (.inl ⟨op, x, xs, got, hpc⟩)
        simp only [hsel, if_true]
        split
        · have hst : m.pc ≠ .stopped := by intro h; simp [h, MPc.isAccess] at hma
          have hbus : m.bus.paddr = y.m.bus.paddr := by
            rcases e5 hma with h | h <;> rw [h]
          obtain ⟨i1, i2, i3, i4, i5, i7⟩ := h
          refine .none ⟨hm, by simp [hst], by simp [hbus], by simp [hma], by simp [i5, hs], ?_⟩ rfl ⟨[], by simp [e1]⟩
          simp only [answer, e2]
          rw [hn] at i7
          exact i7
        · exact perform_move h hm (.inl hpc) hreq hn hma e1 e2
      · have hsel : y.m.bus.psel = false := by
          refine (h.m.ctl.low ?_).1
          intro op x xs rs
          refine ⟨fun hh => hset ⟨_, _, _, _, hh⟩, fun hh => ?_⟩
          simp [hh, MPc.isAccess] at hacc
        have hma : m.pc.isAccess = false := by
          cases hx : m.pc.isAccess with
          | false => rfl
          | true =>
            rcases e4.1 hx with h' | ⟨h', _⟩
            · exact absurd h' hset
            · simp [hacc] at h'
        simp only [hsel, Bool.false_eq_true, if_false]
        obtain ⟨i1, i2, i3, i4, i5, i7⟩ := h
        refine .none ⟨hm, e3.trans i2, by simp [hma], by simp [hs], i5, ?_⟩ rfl ⟨[], by simp [e1]⟩
        simp only [e2]; exact i7
    · -- both are in reset
      have hst : y.m.pc = .stopped := h.stop.2 hs
      have : m = y.m := by rw [← hms]; simp [Master.edge, hst]
      rw [this]
      simp only [Slave.edge, hs]
      exact .none h rfl ⟨[], by simp⟩

theorem reset_move {slverr : Bool} {f : Access σ} {y : Sys σ} {rs : List Rsp} (h : y.SInv slverr rs) (v : Bool) :
    Move slverr f y rs (y.step slverr f (.reset v)) := by
  have hm := Master.reset_inv h.m v
  cases v with
  | true =>
    simp only [step, Master.step, if_true]
    refine .clear ⟨hm, by simp [Master.reset, Slave.reset], by simp [Master.reset, MPc.isAccess], by simp [Slave.reset],
      by simp [Slave.reset], ?_⟩ (by simp [Slave.reset]) (by simp [Master.reset])
    simp [Slave.reset, Master.reset, Master.consumed, MPc.got', answer]
  | false =>
    simp only [step, Master.step, Bool.false_eq_true, if_false]
    by_cases hst : y.m.pc = .stopped
    · have hs := h.stop.1 hst
      obtain ⟨i1, i2, i3, i4, i5, i7⟩ := h
      have e1 : y.m.reset false = { y.m with pc := .init } := by simp [Master.reset, hst]
      have e2 : y.s.reset false = { y.s with pc := .idle, pready := false } := by simp [Slave.reset, hs]
      rw [e1] at hm ⊢
      rw [e2]
      refine .none ⟨hm, by simp, by simp [MPc.isAccess], by simp, by simp, ?_⟩ rfl ⟨[], by simp⟩
      simp only [Master.consumed, hst, MPc.got', answer, hs] at i7 ⊢
      exact i7
    · have hs : y.s.pc ≠ .stopped := fun h' => hst (h.stop.2 h')
      have e1 : y.m.reset false = y.m := by simp [Master.reset, hst]
      have e2 : y.s.reset false = y.s := by simp [Slave.reset, hs]
      rw [e1, e2]
      exact .none h rfl ⟨[], by simp⟩

theorem step_move {slverr : Bool} {f : Access σ} {y : Sys σ} {rs : List Rsp} (h : y.SInv slverr rs) (e : Ev) :
    Move slverr f y rs (y.step slverr f e) := by
  cases e with
  | call op => exact .none (h.frame (Master.step_inv h.m slverr _) rfl Iff.rfl rfl rfl) rfl ⟨[op], rfl⟩
  | init op => exact .none (h.frame (Master.step_inv h.m slverr _) rfl Iff.rfl rfl rfl) rfl ⟨[], by simp [step, Master.step]⟩
  | runInit i =>
    refine .none (h.frame (Master.step_inv h.m slverr _) ?_ ?_ ?_ ?_) rfl ?_ <;> simp only [step, Master.step] <;> split
    · rfl
    · rfl
    · exact Iff.rfl
    · exact Iff.rfl
    · rfl
    · rfl
    · rfl
    · rfl
    · exact ⟨[_], rfl⟩
    · exact ⟨[], by simp⟩
  | resume =>
    refine .none (h.frame (Master.step_inv h.m slverr _) ?_ ?_ ?_ ?_) rfl ?_ <;> simp only [step, Master.step, Master.resume] <;>
      split <;> rename_i hpc _ <;> simp_all [MPc.isAccess, Master.consumed, MPc.got']
  | edge mp sp slow => exact edge_move h mp sp slow
  | reset v => exact reset_move h v

end Sys

/-- A served transfer: number `i` of operation `op`, its sample and when it was served. -/
structure Served where
  op : Op
  x : Xfer
  i : Nat
  r : Rsp
  t : Nat

def Served.lab (e : Served) : Op × Xfer × Nat := (e.op, e.x, e.i)

/-- A history of a master and slave on a target that may also be changed by others: their state and the target's at every
instant. -/
structure ATrace (slverr : Bool) (f : Access σ) (y : Nat → Sys σ) (μ : Nat → σ) : Prop where
  start : ∃ st, y 0 = Sys.start st
  next : ∀ n, (∃ e, y (n + 1) = ((y n).put (μ n)).step slverr f e ∧ μ (n + 1) = (y (n + 1)).s.mem) ∨ y (n + 1) = y n

structure AInv (slverr : Bool) (f : Access σ) (y : Nat → Sys σ) (μ : Nat → σ) (n : Nat) (sv : List Served) : Prop where
  inv : (y n).SInv slverr (sv.map (·.r))
  lab : sv.map (·.lab) = (labels (y n).m.epoch).take sv.length
  good : ∀ e ∈ sv, e.t < n ∧ (y e.t).m.active = [e.op] ∧ Did slverr f e.x (μ e.t) e.r (μ (e.t + 1))
  mono : (sv.map (·.t)).Pairwise (· < ·)

variable {slverr : Bool} {f : Access σ} {y : Nat → Sys σ} {μ : Nat → σ}

theorem AInv.later {n : Nat} {sv : List Served} (h : AInv slverr f y μ n sv) :
    ∀ e ∈ sv, e.t < n + 1 ∧ (y e.t).m.active = [e.op] ∧ Did slverr f e.x (μ e.t) e.r (μ (e.t + 1)) := by
  intro e he
  obtain ⟨h1, h2⟩ := h.good e he
  exact ⟨by omega, h2⟩

theorem ATrace.inv (h : ATrace slverr f y μ) (n : Nat) : ∃ sv, AInv slverr f y μ n sv := by
  induction n with
  | zero =>
    obtain ⟨st, hs⟩ := h.start
    refine ⟨[], ?_, rfl, by simp, by simp⟩
    rw [hs]
    have := Sys.inv_start slverr f st
    exact ⟨this.m, this.stop, this.acc, this.nacc, this.rdy, rfl⟩
  | succ n ih =>
    obtain ⟨sv, ih⟩ := ih
    rcases h.next n with ⟨e, hy, hμ⟩ | hy
    · have hmv := Sys.step_move (f := f) (ih.inv.put (μ n)) e
      rw [← hy] at hmv
      cases hmv with
      | none hi hm he =>
        obtain ⟨l, he⟩ := he
        have he : (y (n + 1)).m.epoch = (y n).m.epoch ++ l := he
        have hle : sv.length ≤ (labels (y n).m.epoch).length := by
          have := congrArg List.length ih.lab
          simp only [List.length_map, List.length_take] at this
          omega
        refine ⟨sv, hi, ?_, ih.later, ih.mono⟩
        rw [he, labels_append, List.take_append_of_le_length hle]; exact ih.lab
      | clear hi hm he =>
        exact ⟨[], hi, by simp, by simp, by simp⟩
      | did op x i r hi he ha hl hd =>
        refine ⟨sv ++ [⟨op, x, i, r, n⟩], by simpa using hi, ?_, ?_, ?_⟩
        · have hl : (labels (y n).m.epoch)[sv.length]? = some (op, x, i) := by
            rw [List.length_map] at hl; exact hl
          have he : (y (n + 1)).m.epoch = (y n).m.epoch := he
          simp only [List.map_append, List.map_cons, List.map_nil, List.length_append, List.length_cons, List.length_nil]
          obtain ⟨hl1, hl2⟩ := List.getElem?_eq_some_iff.1 hl
          rw [he, List.take_succ_eq_append_getElem hl1, ih.lab, hl2]
          rfl
        · intro e he
          rcases List.mem_append.1 he with he | he
          · exact ih.later e he
          · rw [List.mem_singleton] at he
            subst he
            refine ⟨Nat.lt_succ_self n, ha, ?_⟩
            rw [hμ]; exact hd
        · rw [List.map_append, List.pairwise_append]
          refine ⟨ih.mono, by simp, ?_⟩
          intro a ha' b hb
          simp only [List.map_cons, List.map_nil, List.mem_singleton] at hb
          subst hb
          obtain ⟨e, he, rfl⟩ := List.mem_map.1 ha'
          exact (ih.good e he).1
    · refine ⟨sv, ?_, ?_, ih.later, ih.mono⟩ <;> rw [hy]
      · exact ih.inv
      · exact ih.lab

/-- The master's states form a sequence of master steps. -/
theorem ATrace.master (h : ATrace slverr f y μ) (n : Nat) :
    (y (n + 1)).m = (y n).m ∨ ∃ e, (y (n + 1)).m = (y n).m.step slverr e := by
  rcases h.next n with ⟨e, hy, _⟩ | hy
  · obtain ⟨e', h1, _⟩ := sys_master slverr f ((y n).put (μ n)) e
    exact .inr ⟨e', by rw [hy]; exact h1⟩
  · exact .inl (by rw [hy])

theorem ATrace.minv (h : ATrace slverr f y μ) (n : Nat) : (y n).m.Inv := (h.inv n).choose_spec.inv.m

theorem ATrace.grows (h : ATrace slverr f y μ) {i j : Nat} (hij : i ≤ j) : (y i).m.issued <+: (y j).m.issued := by
  obtain ⟨d, rfl⟩ := Nat.exists_eq_add_of_le hij
  clear hij
  induction d with
  | zero => exact List.prefix_rfl
  | succ d ih =>
    refine ih.trans ?_
    rw [← Nat.add_assoc]
    rcases h.master (i + d) with hs | ⟨e, hs⟩
    · rw [hs]; exact List.prefix_rfl
    · rw [hs]; exact issued_step slverr _ e

/-- An operation under way is outstanding. -/
theorem Master.Inv.outstanding {s : Master} (h : s.Inv) (hk : s.issued.Nodup) {op : Op} (hp : op ∈ s.active ++ s.queue) :
    op ∈ s.issued ∧ ∀ r, (op, r) ∉ s.results := by
  obtain ⟨st, h1, h2⟩ := h.book.acct
  have hn := h1.nodup_iff.1 hk
  rw [List.append_assoc, List.nodup_append] at hn
  refine ⟨h1.mem_iff.2 (List.mem_append_left _ (List.mem_append_right _ hp)), fun r hr => ?_⟩
  exact hn.2.2 op ((h2 op).2 ⟨r, hr⟩) op (List.mem_append_left _ hp) rfl

/-- The instants at which the transfers of a completed operation were served. -/
theorem ATrace.done (h : ATrace slverr f y μ) (n : Nat) (op : Op) (got : List Rsp) (hd : (op, got) ∈ (y n).m.done) :
    got.length = op.xs.length ∧ ∃ ts : List Nat, ts.length = op.xs.length ∧ ts.Pairwise (· < ·) ∧
      ∀ (i : Nat) (x : Xfer) (r : Rsp) (t : Nat), op.xs[i]? = some x → got[i]? = some r → ts[i]? = some t →
        t < n ∧ (y t).m.active = [op] ∧ Did slverr f x (μ t) r (μ (t + 1)) := by
  obtain ⟨sv, hi⟩ := h.inv n
  have hb := hi.inv.m.book
  obtain ⟨d1, d2, hd12⟩ := List.append_of_mem hd
  have hlen := hb.doneLen (op, got) hd
  simp only at hlen
  refine ⟨hlen, ?_⟩
  have hr : sv.map (·.r) = d1.flatMap (·.2) ++ (got ++ (d2.flatMap (·.2) ++ (y n).m.pc.got' ++ Sys.answer slverr (y n).s)) := by
    rw [hi.inv.srv, Master.consumed, hd12]; simp
  have hE : labels (y n).m.epoch = labels (d1.map (·.1)) ++ ((op.xs.zipIdx.map fun q => (op, q)) ++
      labels (d2.map (·.1) ++ ((y n).m.active ++ (y n).m.queue))) := by
    rw [hb.epoch, hd12]; simp [labels]
  have hoff : (labels (d1.map (·.1))).length = (d1.flatMap (·.2)).length := by
    have hdl : ∀ d ∈ d1, d.2.length = d.1.xs.length := fun d hd => hb.doneLen d (by rw [hd12]; simp [hd])
    rw [labels_length, Master.flatMap_len hdl]
  have hsv : (d1.flatMap (·.2)).length + got.length ≤ sv.length := by
    have := congrArg List.length hr
    simp only [List.length_append, List.length_map] at this
    omega
  refine ⟨((sv.drop (d1.flatMap (·.2)).length).take got.length).map (·.t), ?_, ?_, ?_⟩
  · simp only [List.length_map, List.length_take, List.length_drop]; omega
  · have h1 := hi.mono
    rw [List.map_take, List.map_drop]
    exact (h1.sublist (List.drop_sublist _ _)).sublist (List.take_sublist _ _)
  · intro i x r t hx hgr ht
    have hil : i < got.length := by
      rw [hlen]; exact (List.getElem?_eq_some_iff.1 hx).1
    rw [List.getElem?_map, List.getElem?_take, if_pos hil, List.getElem?_drop] at ht
    cases he : sv[(d1.flatMap (·.2)).length + i]? with
    | none => rw [he] at ht; cases ht
    | some e =>
      rw [he] at ht
      simp only [Option.map_some, Option.some.injEq] at ht
      have hmem := List.mem_of_getElem? he
      have hrr : e.r = r := by
        have : (sv.map (·.r))[(d1.flatMap (·.2)).length + i]? = some e.r := by rw [List.getElem?_map, he]; rfl
        rw [hr, List.getElem?_append_right (by omega), Nat.add_sub_cancel_left,
          List.getElem?_append_left hil, hgr] at this
        exact (Option.some.inj this).symm
      have hlab : e.lab = (op, x, i) := by
        have : (sv.map (·.lab))[(d1.flatMap (·.2)).length + i]? = some e.lab := by rw [List.getElem?_map, he]; rfl
        rw [hi.lab, List.getElem?_take, if_pos (by omega), hE, List.getElem?_append_right (by omega), hoff,
          Nat.add_sub_cancel_left, List.getElem?_append_left (by simp; omega), List.getElem?_map,
          List.getElem?_zipIdx, hx] at this
        simpa using this.symm
      simp only [Served.lab, Prod.mk.injEq] at hlab
      have := hi.good e hmem
      rw [hlab.1, hlab.2.1, hrr, ht] at this
      exact this

/-- A result other than `None` was given by a completion. -/
theorem ATrace.result (h : ATrace slverr f y μ) (n : Nat) (op : Op) (got : List Rsp)
    (hr : (op, some got) ∈ (y n).m.results) : ∃ k ≤ n, (op, got) ∈ (y k).m.done := by
  induction n with
  | zero =>
    obtain ⟨st, hs⟩ := h.start
    rw [hs] at hr; cases hr
  | succ n ih =>
    rcases h.master n with hs | ⟨e, hs⟩
    · rw [hs] at hr
      obtain ⟨k, hk, hd⟩ := ih hr
      exact ⟨k, by omega, hd⟩
    · obtain ⟨l, h2, h3, _⟩ := step_results slverr (y n).m e
      rw [hs, h2] at hr
      rcases List.mem_append.1 hr with hr | hr
      · obtain ⟨k, hk, hd⟩ := ih hr
        exact ⟨k, by omega, hd⟩
      · exact ⟨n + 1, Nat.le_refl _, by rw [hs]; exact h3 op got hr⟩

theorem ATrace.served (h : ATrace slverr f y μ) (n : Nat) (hk : (y n).m.issued.Nodup) (op : Op) (got : List Rsp)
    (hr : (op, some got) ∈ (y n).m.results) :
    got.length = op.xs.length ∧ ∃ ts : List Nat, ts.length = op.xs.length ∧ ts.Pairwise (· < ·) ∧
      ∀ (i : Nat) (x : Xfer) (r : Rsp) (t : Nat), op.xs[i]? = some x → got[i]? = some r → ts[i]? = some t →
        t < n ∧ ((op ∈ (y t).m.issued ∧ ∀ r, (op, r) ∉ (y t).m.results) ∧ (y t).m.active = [op]) ∧
        Did slverr f x (μ t) r (μ (t + 1)) := by
  obtain ⟨k, hk1, hd⟩ := h.result n op got hr
  obtain ⟨h1, ts, h2, h3, h4⟩ := h.done k op got hd
  refine ⟨h1, ts, h2, h3, ?_⟩
  intro i x r t hx hg ht
  obtain ⟨g1, g2, g3⟩ := h4 i x r t hx hg ht
  refine ⟨by omega, ⟨?_, g2⟩, g3⟩
  exact (h.minv t).outstanding (hk.sublist (h.grows (by omega)).sublist) (by rw [g2]; simp)

/-- Every change of the target by this port is a transfer of the operation under way. -/
theorem ATrace.mem_step (h : ATrace slverr f y μ) {n : Nat} {e : Ev} (hy : y (n + 1) = ((y n).put (μ n)).step slverr f e)
    (hk : (y n).m.issued.Nodup) :
    (y (n + 1)).s.mem = μ n ∨ ∃ op x, ((op ∈ (y n).m.issued ∧ ∀ r, (op, r) ∉ (y n).m.results) ∧ (y n).m.active = [op]) ∧
      x ∈ op.xs ∧ (y (n + 1)).s.mem = (f x (μ n)).2 := by
  obtain ⟨sv, hi⟩ := h.inv n
  have hmv := Sys.step_move (f := f) (hi.inv.put (μ n)) e
  rw [← hy] at hmv
  cases hmv with
  | none _ hm _ => exact .inl hm
  | clear _ hm _ => exact .inl hm
  | did op x i r _ _ ha hl hd =>
    refine .inr ⟨op, x, ⟨(h.minv n).outstanding hk ?_, ha⟩, ?_, hd.1⟩
    · have ha : (y n).m.active = [op] := ha
      rw [ha]; simp
    · exact List.mem_of_getElem? (mem_labels (List.mem_of_getElem? hl)).2

/-! ## Order -/

/-- The operations issued since the last reset are the last ones issued. -/
theorem Master.step_epoch (slverr : Bool) {s : Master} (h : s.epoch <:+ s.issued) (e : MEv) :
    (s.step slverr e).epoch <:+ (s.step slverr e).issued := by
  have hc : ∀ (s : Master) (op : Op), s.epoch <:+ s.issued → (s.call op).epoch <:+ (s.call op).issued := by
    intro s op ⟨l, hl⟩
    exact ⟨l, by simp only [Master.call]; rw [← hl, List.append_assoc]⟩
  have hnext : ∀ (p : Bool) (q : List Op) (s : Master), (next p q s).issued = s.issued := by
    intro p q
    induction q with
    | nil => intro s; rfl
    | cons op q ih =>
      intro s
      unfold next
      split
      · rw [ih]; rfl
      · unfold enter; split <;> rfl
  cases e with
  | call op => exact hc s op h
  | init op => exact h
  | runInit i =>
    simp only [Master.step]; split
    · exact hc _ _ h
    · exact h
  | resume => simp only [Master.step, Master.resume]; split <;> exact h
  | reset v =>
    cases v with
    | true => simp only [Master.step, Master.reset, if_true]; exact List.nil_suffix
    | false => simp only [Master.step, Master.reset, Bool.false_eq_true, if_false]; split <;> exact h
  | edge p r d er =>
    have h1 : (s.step slverr (.edge p r d er)).epoch = s.epoch := (Master.edge_facts s slverr p r d er).1
    have h2 : (s.step slverr (.edge p r d er)).issued = s.issued := by
      simp only [Master.step, Master.edge]
      split
      · rfl
      · rfl
      · rw [hnext]
      · rw [hnext]
      · unfold enter; split <;> rfl
      · rfl
      · split
        · split
          · unfold enter; split <;> rfl
          · rw [hnext]; rfl
        · rfl
    rw [h1, h2]; exact h

theorem ATrace.epoch (h : ATrace slverr f y μ) (n : Nat) : (y n).m.epoch <:+ (y n).m.issued := by
  induction n with
  | zero =>
    obtain ⟨st, hs⟩ := h.start
    rw [hs]; exact List.suffix_refl _
  | succ n ih =>
    rcases h.master n with hs | ⟨e, hs⟩
    · rw [hs]; exact ih
    · rw [hs]; exact Master.step_epoch slverr ih e

/-- Results are never taken back. -/
theorem ATrace.results_le (h : ATrace slverr f y μ) {i j : Nat} (hij : i ≤ j) : (y i).m.results <+: (y j).m.results := by
  obtain ⟨d, rfl⟩ := Nat.exists_eq_add_of_le hij
  clear hij
  induction d with
  | zero => exact List.prefix_rfl
  | succ d ih =>
    refine ih.trans ?_
    rw [← Nat.add_assoc]
    rcases h.master (i + d) with hs | ⟨e, hs⟩
    · rw [hs]; exact List.prefix_rfl
    · obtain ⟨l, h2, _⟩ := step_results slverr (y (i + d)).m e
      rw [hs, h2]; exact ⟨l, rfl⟩

theorem ATrace.lost_le (h : ATrace slverr f y μ) {i j : Nat} (hij : i ≤ j) : (y i).m.lost <+: (y j).m.lost := by
  obtain ⟨d, rfl⟩ := Nat.exists_eq_add_of_le hij
  clear hij
  induction d with
  | zero => exact List.prefix_rfl
  | succ d ih =>
    refine ih.trans ?_
    rw [← Nat.add_assoc]
    rcases h.master (i + d) with hs | ⟨e, hs⟩
    · rw [hs]; exact List.prefix_rfl
    · rw [hs]; exact lost_mono slverr _ [e]

/-- An operation that is over stays over. -/
theorem ATrace.past (h : ATrace slverr f y μ) {o : Op} {i j : Nat} (hij : i ≤ j) (hn : (y j).m.issued.Nodup)
    (hi : o ∈ (y i).m.issued) (hp : o ∉ (y i).m.active ++ (y i).m.queue) : o ∉ (y j).m.active ++ (y j).m.queue := by
  obtain ⟨st, h1, h2⟩ := (h.minv i).book.acct
  obtain ⟨st', h1', h2'⟩ := (h.minv j).book.acct
  intro hj
  rw [h1'.nodup_iff] at hn
  have hm := h1.mem_iff.1 hi
  rw [List.append_assoc, List.mem_append, List.mem_append] at hm
  rcases hm with hm | hm | hm
  · obtain ⟨r, hr⟩ := (h2 o).1 hm
    have := (h2' o).2 ⟨r, (h.results_le hij).subset hr⟩
    rw [List.append_assoc, List.nodup_append] at hn
    exact hn.2.2 o this o (List.mem_append_left _ hj) rfl
  · exact hp hm
  · rw [List.nodup_append] at hn
    exact hn.2.2 o (List.mem_append_right _ hj) o ((h.lost_le hij).subset hm) rfl

/-- The slave serves the operations in the order in which they were issued. -/
theorem ATrace.order (h : ATrace slverr f y μ) {i j N : Nat} {o1 o2 : Op} (h1 : (y i).m.active = [o1])
    (h2 : (y j).m.active = [o2]) (hi : i ≤ N) (hj : j ≤ N) (hn : (y N).m.issued.Nodup)
    (ho : [o1, o2].Sublist (y N).m.issued) : i < j := by
  rcases Nat.lt_or_ge i j with hlt | hge
  · exact hlt
  · exfalso
    have hnj := hn.sublist (h.grows hj).sublist
    have hb := (h.minv j).book.epoch
    rw [h2] at hb
    obtain ⟨old, he⟩ := h.epoch j
    rw [hb] at he
    have he : (old ++ (y j).m.done.map (·.1)) ++ o2 :: (y j).m.queue = (y j).m.issued := by rw [← he]; simp
    have hs := AxiSys.before_prefix (h.grows hj) hn (by rw [← he]; simp) ho
    have hnp : o1 ∉ (y j).m.active ++ (y j).m.queue := by
      rw [← he] at hs hnj
      have hmem := AxiSys.before_of_split hnj hs
      rw [List.nodup_append] at hnj
      intro hh
      rw [h2] at hh
      exact hnj.2.2 o1 hmem o1 hh rfl
    exact h.past hge (hn.sublist (h.grows hi).sublist) (hs.subset (by simp)) hnp (by rw [h1]; simp)

end Verif.Apb
