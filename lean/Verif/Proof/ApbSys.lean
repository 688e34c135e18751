import Verif.Proof.Apb

/-!
# Invariants of an APB master connected to an APB slave
-/

namespace Verif.Apb

/-- The transfers an operation under way has still to complete. -/
def MPc.rem : MPc → List Xfer
  | .got op => op.xs
  | .pause _ x xs _ | .setup _ x xs _ | .access _ x xs _ => x :: xs
  | _ => []

/-- The samples of the operation under way. -/
def MPc.got' : MPc → List Rsp
  | .pause _ _ _ rs | .setup _ _ _ rs | .access _ _ _ rs => rs
  | _ => []

def MPc.isAccess : MPc → Bool
  | .access _ _ _ _ => true
  | _ => false

namespace Master

def todo (s : Master) : List Xfer := s.pc.rem ++ s.queue.flatMap (·.xs)
def consumed (s : Master) : List Rsp := s.done.flatMap (·.2) ++ s.pc.got'

theorem flatMap_len {l : List (Op × List Rsp)} (h : ∀ d ∈ l, d.2.length = d.1.xs.length) :
    ((l.map (·.1)).flatMap (·.xs)).length = (l.flatMap (·.2)).length := by
  induction l with
  | nil => rfl
  | cons d l ih =>
    simp only [List.map_cons, List.flatMap_cons, List.length_append]
    rw [ih (fun d hd => h d (List.mem_cons_of_mem _ hd)), h d (List.mem_cons_self ..)]

theorem Inv.split {s : Master} (h : s.Inv) :
    ∃ P, s.epoch.flatMap (·.xs) = P ++ s.todo ∧ P.length = s.consumed.length := by
  have hl := flatMap_len h.book.doneLen
  have key : ∃ pre, s.active.flatMap (·.xs) = pre ++ s.pc.rem ∧ pre.length = s.pc.got'.length := by
    cases hpc : s.pc with
    | pause op x xs rs =>
      obtain ⟨_, pre, h1, h2⟩ := h.ctl.beat op x xs rs (.inl hpc)
      exact ⟨pre, by simp [active, hpc, h1, MPc.rem], h2⟩
    | setup op x xs rs =>
      obtain ⟨_, pre, h1, h2⟩ := h.ctl.beat op x xs rs (.inr (.inl hpc))
      exact ⟨pre, by simp [active, hpc, h1, MPc.rem], h2⟩
    | access op x xs rs =>
      obtain ⟨_, pre, h1, h2⟩ := h.ctl.beat op x xs rs (.inr (.inr hpc))
      exact ⟨pre, by simp [active, hpc, h1, MPc.rem], h2⟩
    | _ => exact ⟨[], by simp [active, hpc, MPc.rem], rfl⟩
  obtain ⟨pre, k1, k2⟩ := key
  refine ⟨(s.done.map (·.1)).flatMap (·.xs) ++ pre, ?_, ?_⟩
  · rw [h.book.epoch, List.flatMap_append, List.flatMap_append, k1]
    simp [todo, List.append_assoc]
  · rw [List.length_append, hl, k2, consumed, List.length_append]

theorem enter_facts (s : Master) (p : Bool) (op : Op) (x : Xfer) (xs : List Xfer) (rs : List Rsp) :
    (s.enter p op x xs rs).epoch = s.epoch ∧ (s.enter p op x xs rs).done = s.done ∧
    (s.enter p op x xs rs).pc.got' = rs ∧ (s.enter p op x xs rs).pc.isAccess = false ∧
    (s.enter p op x xs rs).pc ≠ .stopped := by
  unfold enter; split <;> simp [MPc.got', MPc.isAccess]

theorem next_facts (p : Bool) : ∀ (q : List Op) (s : Master),
    (next p q s).epoch = s.epoch ∧ (next p q s).consumed = s.done.flatMap (·.2) ∧
    (next p q s).pc.isAccess = false ∧ (next p q s).pc ≠ .stopped
  | [], s => by simp [next, consumed, MPc.got', MPc.isAccess]
  | op :: rest, s => by
    unfold next
    split
    · have := next_facts p rest (({ s with cur := some op } : Master).finish op [])
      simpa [finish] using this
    · rename_i x xs _
      obtain ⟨h1, h2, h3, h4, h5⟩ := enter_facts ({ s with queue := rest, cur := some op }) p op x xs []
      refine ⟨h1, ?_, h4, h5⟩
      rw [consumed, h2, h3]; simp

/-- The sample the master takes at an edge, if any. -/
def sample (slverr : Bool) (s : Master) (pready : Bool) (prdata : Nat) (pslverr : Bool) : List Rsp :=
  if s.pc.isAccess && pready then [(prdata, if slverr && pslverr then Resp.slverr else Resp.okay)] else []

theorem edge_facts (s : Master) (slverr p pready : Bool) (prdata : Nat) (pslverr : Bool) :
    (s.edge slverr p pready prdata pslverr).epoch = s.epoch ∧
    (s.edge slverr p pready prdata pslverr).consumed = s.consumed ++ s.sample slverr pready prdata pslverr ∧
    ((s.edge slverr p pready prdata pslverr).pc = .stopped ↔ s.pc = .stopped) := by
  unfold edge
  split
  · rename_i hpc; simp [sample, hpc, MPc.isAccess]
  · rename_i hpc; simp [sample, hpc, MPc.isAccess]
  · rename_i hpc
    obtain ⟨h1, h2, h3, h4⟩ := next_facts p s.queue s
    refine ⟨h1, ?_, by simp [h4, hpc]⟩
    rw [h2]; simp [consumed, sample, hpc, MPc.isAccess, MPc.got']
  · rename_i op hpc
    obtain ⟨h1, h2, h3, h4⟩ := next_facts p (op :: s.queue) s
    refine ⟨h1, ?_, by simp [h4, hpc]⟩
    rw [h2]; simp [consumed, sample, hpc, MPc.isAccess, MPc.got']
  · rename_i op x xs rs hpc
    obtain ⟨h1, h2, h3, h4, h5⟩ := enter_facts s p op x xs rs
    refine ⟨h1, ?_, by simp [h5, hpc]⟩
    rw [consumed, h2, h3]; simp [consumed, sample, hpc, MPc.isAccess, MPc.got']
  · rename_i op x xs rs hpc
    simp [consumed, sample, hpc, MPc.isAccess, MPc.got']
  · rename_i op x xs rs hpc
    split
    · rename_i hr
      simp only
      split
      · rename_i x' xs'
        obtain ⟨h1, h2, h3, h4, h5⟩ := enter_facts ({ s with bus := { s.bus with penable := false, psel := false } }) p op x' xs'
          (rs ++ [(prdata, if slverr && pslverr then Resp.slverr else Resp.okay)])
        refine ⟨h1, ?_, fun h => absurd h h5, fun h => by rw [hpc] at h; cases h⟩
        rw [consumed, h2, h3]
        simp [consumed, sample, hpc, hr, MPc.isAccess, MPc.got']
      · obtain ⟨h1, h2, h3, h4⟩ := next_facts p s.queue
          (({ s with bus := { s.bus with penable := false, psel := false } } : Master).finish op
            (rs ++ [(prdata, if slverr && pslverr then Resp.slverr else Resp.okay)]))
        refine ⟨h1, ?_, fun h => absurd h h4, fun h => by rw [hpc] at h; cases h⟩
        rw [h2]
        simp [finish, consumed, sample, hpc, hr, MPc.isAccess, MPc.got']
    · rename_i hr
      simp [sample, hr]

/-- When the master is in an access phase after an edge. -/
theorem edge_access (s : Master) (slverr p pready : Bool) (prdata : Nat) (pslverr : Bool) :
    (s.edge slverr p pready prdata pslverr).pc.isAccess = true ↔
      (∃ op x xs rs, s.pc = .setup op x xs rs) ∨ (s.pc.isAccess = true ∧ pready = false) := by
  unfold edge
  split
  · rename_i hpc; simp [hpc, MPc.isAccess]
  · rename_i hpc; simp [hpc, MPc.isAccess]
  · rename_i hpc
    obtain ⟨h1, h2, h3, h4⟩ := next_facts p s.queue s
    rw [h3, hpc]; simp [MPc.isAccess]
  · rename_i op hpc
    obtain ⟨h1, h2, h3, h4⟩ := next_facts p (op :: s.queue) s
    rw [h3, hpc]; simp [MPc.isAccess]
  · rename_i op x xs rs hpc
    obtain ⟨h1, h2, h3, h4, h5⟩ := enter_facts s p op x xs rs
    rw [h4, hpc]; simp [MPc.isAccess]
  · rename_i op x xs rs hpc
    simp [hpc, MPc.isAccess]
  · rename_i op x xs rs hpc
    split
    · rename_i hr
      simp only
      split
      · rename_i x' xs'
        obtain ⟨h1, h2, h3, h4, h5⟩ := enter_facts ({ s with bus := { s.bus with penable := false, psel := false } }) p op x' xs'
          (rs ++ [(prdata, if slverr && pslverr then Resp.slverr else Resp.okay)])
        rw [h4, hpc, hr]; simp
      · obtain ⟨h1, h2, h3, h4⟩ := next_facts p s.queue
          (({ s with bus := { s.bus with penable := false, psel := false } } : Master).finish op
            (rs ++ [(prdata, if slverr && pslverr then Resp.slverr else Resp.okay)]))
        rw [h3, hpc, hr]; simp
    · rename_i hr
      simp only [Bool.not_eq_true] at hr
      simp [hpc, hr, MPc.isAccess]

/-- The bus during an access phase is what it was. -/
theorem edge_bus (s : Master) (slverr p pready : Bool) (prdata : Nat) (pslverr : Bool)
    (h : (s.edge slverr p pready prdata pslverr).pc.isAccess = true) :
    (s.edge slverr p pready prdata pslverr).bus = { s.bus with penable := true } ∨
      (s.edge slverr p pready prdata pslverr).bus = s.bus := by
  rcases (edge_access ..).1 h with ⟨op, x, xs, rs, hpc⟩ | ⟨hpc, hr⟩
  · left; simp [edge, hpc]
  · right
    cases hp : s.pc <;> simp [MPc.isAccess, hp] at hpc
    simp [edge, hp, hr]

end Master

/-- A driven request is read back. -/
theorem request_of_drive {b : Bus} {x : Xfer} (h : b.drive x = b) : b.request = x := by
  cases x <;> (rw [← h]; rfl)

variable {σ : Type}

theorem serveAll_snoc (slverr : Bool) (f : Access σ) (x : Xfer) : ∀ (xs : List Xfer) (st : σ × Nat),
    serveAll slverr f (xs ++ [x]) st =
      ((serveAll slverr f xs st).1 ++ [(serveOne slverr f x (serveAll slverr f xs st).2).1],
        (serveOne slverr f x (serveAll slverr f xs st).2).2)
  | [], st => rfl
  | y :: xs, st => by
    simp only [List.cons_append, serveAll, serveAll_snoc slverr f x xs]

theorem serveAll_append (slverr : Bool) (f : Access σ) : ∀ (xs ys : List Xfer) (st : σ × Nat),
    serveAll slverr f (xs ++ ys) st =
      ((serveAll slverr f xs st).1 ++ (serveAll slverr f ys (serveAll slverr f xs st).2).1,
        (serveAll slverr f ys (serveAll slverr f xs st).2).2)
  | [], ys, st => rfl
  | y :: xs, ys, st => by
    simp only [List.cons_append, serveAll, serveAll_append slverr f xs ys]

theorem serveAll_length (slverr : Bool) (f : Access σ) : ∀ (xs : List Xfer) (st : σ × Nat),
    (serveAll slverr f xs st).1.length = xs.length
  | [], st => rfl
  | y :: xs, st => by
    simp only [serveAll, List.length_cons, serveAll_length slverr f xs]

namespace Sys

/-- The answer the slave has given or is about to give, not sampled by the master yet. -/
def answer (slverr : Bool) (s : Slave σ) : List Rsp :=
  match s.pc with
  | .busy | .ready => [(s.prdata, if slverr && s.pslverr then Resp.slverr else Resp.okay)]
  | _ => []

structure Inv (slverr : Bool) (f : Access σ) (y : Sys σ) : Prop where
  m : y.m.Inv
  stop : y.m.pc = .stopped ↔ y.s.pc = .stopped
  acc : y.m.pc.isAccess = true → y.s.pc = .paused y.m.bus.paddr ∨ y.s.pc = .busy ∨ y.s.pc = .ready
  nacc : y.m.pc.isAccess = false → y.s.pc = .idle ∨ y.s.pc = .stopped
  rdy : y.s.pready = decide (y.s.pc = .ready)
  pre : ∃ rest, y.m.epoch.flatMap (·.xs) = y.s.log ++ rest
  srv : serveAll slverr f y.s.log y.base = (y.m.consumed ++ answer slverr y.s, (y.s.mem, y.s.prdata))

theorem inv_start (slverr : Bool) (f : Access σ) (st : σ) : (start st).Inv slverr f where
  m := Master.inv_init
  stop := by simp [start]
  acc := by simp [start, MPc.isAccess]
  nacc := by simp [start]
  rdy := by simp [start]
  pre := ⟨[], rfl⟩
  srv := rfl

/-- Events that leave the slave, the state of `_run` and the samples alone. -/
theorem Inv.frame {slverr : Bool} {f : Access σ} {y : Sys σ} (h : y.Inv slverr f) {m : Master} (hm : m.Inv)
    (h1 : m.pc.isAccess = y.m.pc.isAccess) (h2 : m.pc = .stopped ↔ y.m.pc = .stopped) (h3 : m.bus = y.m.bus)
    (h4 : ∃ l, m.epoch = y.m.epoch ++ l) (h5 : m.consumed = y.m.consumed) :
    ({ y with m := m } : Sys σ).Inv slverr f := by
  obtain ⟨i1, i2, i3, i4, i5, ⟨rest, i6⟩, i7⟩ := h
  obtain ⟨l, h4⟩ := h4
  refine ⟨hm, h2.trans i2, ?_, by rw [h1]; exact i4, i5, ⟨rest ++ l.flatMap (·.xs), ?_⟩, ?_⟩
  · intro h; rw [h1] at h; rw [h3]; exact i3 h
  · simp only [h4, List.flatMap_append, i6, List.append_assoc]
  · simp only [h5]; exact i7

/-- The slave performs the transfer that the master drives. -/
theorem perform_inv {slverr : Bool} {f : Access σ} {y : Sys σ} (h : y.Inv slverr f) {m : Master} (hm : m.Inv)
    {x : Xfer} {b : Bus} {slow : Bool} {t : List Xfer} (ht : y.m.todo = x :: t) (hb : b.request = x)
    (hn : answer slverr y.s = []) (hacc : m.pc.isAccess = true) (hep : m.epoch = y.m.epoch)
    (hc : m.consumed = y.m.consumed) :
    ({ y with m := m, s := y.s.perform f slow b } : Sys σ).Inv slverr f := by
  obtain ⟨i1, i2, i3, i4, i5, ⟨rest, i6⟩, i7⟩ := h
  obtain ⟨P, hP, hPl⟩ := i1.split
  have hlen : y.s.log.length = y.m.consumed.length := by
    have := congrArg (fun z => z.1.length) i7
    simp only [serveAll_length, hn, List.append_nil] at this
    exact this
  have hlog : y.s.log = P ∧ rest = x :: t := by
    rw [hP, ht] at i6
    exact (List.append_inj i6 (by rw [hPl, hlen])).imp Eq.symm Eq.symm
  have hst : m.pc ≠ .stopped := by intro h; simp [h, MPc.isAccess] at hacc
  have hp : (y.s.perform f slow b).pc = .busy ∧ slow = true ∨ (y.s.perform f slow b).pc = .ready ∧ slow = false := by
    cases slow <;> simp [Slave.perform]
  have hpl : (y.s.perform f slow b).log = y.s.log ++ [x] := by simp [Slave.perform, hb]
  refine ⟨hm, ?_, ?_, ?_, ?_, ⟨t, ?_⟩, ?_⟩
  · rcases hp with hp | hp <;> simp [hst, hp.1]
  · intro _
    rcases hp with hp | hp <;> simp [hp.1]
  · intro h; simp [hacc] at h
  · cases slow <;> simp [Slave.perform]
  · simp only [hep, hpl]
    rw [i6, hlog.2]; simp
  · simp only [hpl, hc, serveAll_snoc, i7, hn, List.append_nil]
    cases slow <;> simp [Slave.perform, serveOne, answer, hb]

theorem edge_inv {slverr : Bool} {f : Access σ} {y : Sys σ} (h : y.Inv slverr f) (mp sp slow : Bool) :
    (y.step slverr f (.edge mp sp slow)).Inv slverr f := by
  have hm := Master.edge_inv h.m slverr mp y.s.pready y.s.prdata y.s.pslverr
  obtain ⟨e1, e2, e3⟩ := Master.edge_facts y.m slverr mp y.s.pready y.s.prdata y.s.pslverr
  have e4 := Master.edge_access y.m slverr mp y.s.pready y.s.prdata y.s.pslverr
  have e5 := Master.edge_bus y.m slverr mp y.s.pready y.s.prdata y.s.pslverr
  simp only [step, Master.step]
  generalize hms : y.m.edge slverr mp y.s.pready y.s.prdata y.s.pslverr = m at *
  by_cases hacc : y.m.pc.isAccess = true
  · have ⟨op, x, xs, rs, hpc⟩ : ∃ op x xs rs, y.m.pc = .access op x xs rs := by
      cases hp : y.m.pc <;> simp [MPc.isAccess, hp] at hacc ⊢
    have hreq := request_of_drive (h.m.ctl.access _ _ _ _ hpc).2
    have htodo : y.m.todo = x :: (xs ++ y.m.queue.flatMap (·.xs)) := by simp [Master.todo, hpc, MPc.rem]
    rcases h.acc hacc with hs | hs | hs
    · -- the slave is paused
      have hr : y.s.pready = false := by rw [h.rdy]; simp [hs]
      have hma : m.pc.isAccess = true := e4.2 (.inr ⟨hacc, hr⟩)
      have hsam : y.m.sample slverr y.s.pready y.s.prdata y.s.pslverr = [] := by simp [Master.sample, hr]
      rw [hsam, List.append_nil] at e2
      have hbus : m.bus = y.m.bus := by rw [← hms]; simp [Master.edge, hpc, hr]
      have hn : answer slverr y.s = [] := by simp [answer, hs]
      simp only [Slave.edge, hs]
      split
      · exact h.frame hm (by rw [hma, hacc]) e3 hbus ⟨[], by simp [e1]⟩ e2
      · refine perform_inv h hm htodo ?_ hn hma e1 e2
        show ({ y.m.bus with paddr := y.m.bus.paddr } : Bus).request = x
        exact hreq
    · -- the target is busy
      have hr : y.s.pready = false := by rw [h.rdy]; simp [hs]
      have hma : m.pc.isAccess = true := e4.2 (.inr ⟨hacc, hr⟩)
      have hsam : y.m.sample slverr y.s.pready y.s.prdata y.s.pslverr = [] := by simp [Master.sample, hr]
      rw [hsam, List.append_nil] at e2
      have hbus : m.bus = y.m.bus := by rw [← hms]; simp [Master.edge, hpc, hr]
      have hf := h.frame hm (by rw [hma, hacc]) e3 hbus ⟨[], by simp [e1]⟩ e2
      simp only [Slave.edge, hs]
      split
      · exact hf
      · obtain ⟨i1, i2, i3, i4, i5, i6, i7⟩ := hf
        have hst : m.pc ≠ .stopped := by intro h; simp [h, MPc.isAccess] at hma
        refine ⟨i1, by simp [hst], by simp, by simp [hma], by simp, i6, ?_⟩
        simp only [answer, hs] at i7 ⊢
        exact i7
    · -- the slave answers
      have hr : y.s.pready = true := by rw [h.rdy]; simp [hs]
      have hma : m.pc.isAccess = false := by
        cases hx : m.pc.isAccess with
        | false => rfl
        | true =>
          rcases e4.1 hx with ⟨_, _, _, _, h'⟩ | ⟨_, h'⟩
          · simp [hpc] at h'
          · simp [hr] at h'
      have hst : m.pc ≠ .stopped := by intro h; simp [e3.1 h] at hpc
      obtain ⟨i1, i2, i3, i4, i5, ⟨rest, i6⟩, i7⟩ := h
      simp only [Slave.edge, hs]
      refine ⟨hm, by simp [hst], by simp [hma], by simp, by simp, ⟨rest, by simp only [e1, i6]⟩, ?_⟩
      simp only [answer, hs, List.append_nil] at i7 ⊢
      rw [i7, e2]
      simp [Master.sample, hacc, hr]
  · simp only [Bool.not_eq_true] at hacc
    have hsam : y.m.sample slverr y.s.pready y.s.prdata y.s.pslverr = [] := by simp [Master.sample, hacc]
    rw [hsam, List.append_nil] at e2
    rcases h.nacc hacc with hs | hs
    · -- the slave is idle
      have hn : answer slverr y.s = [] := by simp [answer, hs]
      simp only [Slave.edge, hs]
      by_cases hset : ∃ op x xs rs, y.m.pc = .setup op x xs rs
      · obtain ⟨op, x, xs, rs, hpc⟩ := hset
        obtain ⟨_, hd⟩ := h.m.ctl.setup _ _ _ _ hpc
        have hsel : y.m.bus.psel = true := by rw [← hd]; exact Master.drive_sel _ _
        have hreq := request_of_drive hd
        have htodo : y.m.todo = x :: (xs ++ y.m.queue.flatMap (·.xs)) := by simp [Master.todo, hpc, MPc.rem]
        have hma : m.pc.isAccess = true := e4.2 (.inl ⟨op, x, xs, rs, hpc⟩)
        simp only [hsel, if_true]
        split
        · have hst : m.pc ≠ .stopped := by intro h; simp [h, MPc.isAccess] at hma
          have hbus : m.bus.paddr = y.m.bus.paddr := by
            rcases e5 hma with h | h <;> rw [h]
          obtain ⟨i1, i2, i3, i4, i5, ⟨rest, i6⟩, i7⟩ := h
          refine ⟨hm, by simp [hst], by simp [hbus], by simp [hma], by simp [i5, hs], ⟨rest, by simp only [e1, i6]⟩, ?_⟩
          simp only [answer, e2]
          rw [hn] at i7
          exact i7
        · exact perform_inv h hm htodo hreq hn hma e1 e2
      · have hsel : y.m.bus.psel = false := by
          refine (h.m.ctl.low ?_).1
          intro op x xs rs
          refine ⟨fun hh => hset ⟨_, _, _, _, hh⟩, fun hh => ?_⟩
          simp [hh, MPc.isAccess] at hacc
        have hma : m.pc.isAccess = false := by
          cases hx : m.pc.isAccess with
          | false => rfl
          | true =>
            rcases e4.1 hx with h' | ⟨h', _⟩
            · exact absurd h' hset
            · simp [hacc] at h'
        simp only [hsel, Bool.false_eq_true, if_false]
        obtain ⟨i1, i2, i3, i4, i5, ⟨rest, i6⟩, i7⟩ := h
        refine ⟨hm, e3.trans i2, by simp [hma], by simp [hs], i5, ⟨rest, by simp only [e1, i6]⟩, ?_⟩
        simp only [e2]; exact i7
    · -- both are in reset
      have hst : y.m.pc = .stopped := h.stop.2 hs
      have : m = y.m := by rw [← hms]; simp [Master.edge, hst]
      rw [this]
      simp only [Slave.edge, hs]
      exact h

theorem reset_inv {slverr : Bool} {f : Access σ} {y : Sys σ} (h : y.Inv slverr f) (v : Bool) :
    (y.step slverr f (.reset v)).Inv slverr f := by
  have hm := Master.reset_inv h.m v
  cases v with
  | true =>
    simp only [step, Master.step, if_true]
    refine ⟨hm, by simp [Master.reset, Slave.reset], by simp [Master.reset, MPc.isAccess], by simp [Slave.reset],
      by simp [Slave.reset], ⟨[], by simp [Master.reset, Slave.reset]⟩, ?_⟩
    simp [Slave.reset, serveAll, Master.reset, Master.consumed, MPc.got', answer]
  | false =>
    simp only [step, Master.step, Bool.false_eq_true, if_false]
    by_cases hst : y.m.pc = .stopped
    · have hs := h.stop.1 hst
      obtain ⟨i1, i2, i3, i4, i5, ⟨rest, i6⟩, i7⟩ := h
      have e1 : y.m.reset false = { y.m with pc := .init } := by simp [Master.reset, hst]
      have e2 : y.s.reset false = { y.s with pc := .idle, pready := false } := by simp [Slave.reset, hs]
      rw [e1] at hm ⊢
      rw [e2]
      refine ⟨hm, by simp, by simp [MPc.isAccess], by simp, by simp, ⟨rest, i6⟩, ?_⟩
      simp only [Master.consumed, hst, MPc.got', answer, hs] at i7 ⊢
      exact i7
    · have hs : y.s.pc ≠ .stopped := fun h' => hst (h.stop.2 h')
      have e1 : y.m.reset false = y.m := by simp [Master.reset, hst]
      have e2 : y.s.reset false = y.s := by simp [Slave.reset, hs]
      rw [e1, e2]
      exact h

theorem step_inv {slverr : Bool} {f : Access σ} {y : Sys σ} (h : y.Inv slverr f) (e : Ev) :
    (y.step slverr f e).Inv slverr f := by
  cases e with
  | call op => exact h.frame (Master.step_inv h.m slverr _) rfl Iff.rfl rfl ⟨[op], rfl⟩ rfl
  | init op => exact h.frame (Master.step_inv h.m slverr _) rfl Iff.rfl rfl ⟨[], by simp [Master.step]⟩ rfl
  | runInit i =>
    refine h.frame (Master.step_inv h.m slverr _) ?_ ?_ ?_ ?_ ?_ <;> simp only [Master.step] <;> split
    · rfl
    · rfl
    · exact Iff.rfl
    · exact Iff.rfl
    · rfl
    · rfl
    · exact ⟨[_], rfl⟩
    · exact ⟨[], by simp⟩
    · rfl
    · rfl
  | resume =>
    refine h.frame (Master.step_inv h.m slverr _) ?_ ?_ ?_ ?_ ?_ <;> simp only [Master.step, Master.resume] <;> split <;>
      rename_i hpc _ <;> simp_all [MPc.isAccess, Master.consumed, MPc.got']
  | edge mp sp slow => exact edge_inv h mp sp slow
  | reset v => exact reset_inv h v

theorem exec_inv (slverr : Bool) (f : Access σ) (st : σ) (evs : List Ev) : (exec slverr f st evs).Inv slverr f := by
  suffices H : ∀ y : Sys σ, y.Inv slverr f → (evs.foldl (step slverr f) y).Inv slverr f from H _ (inv_start slverr f st)
  induction evs with
  | nil => intro s h; exact h
  | cons e evs ih => intro s h; exact ih _ (step_inv h e)

end Sys
end Verif.Apb
