import Verif.Proof.ApbClockLive
import Verif.Props.ApbRam

/-!
# C120, C121: APB with the coroutines of both sides run one by one

`CSys.exec slverr f st evs` is the state after an arbitrary history `evs` of a master connected to a slave whose target is in state `st` at the
beginning: calls, turns of the two coroutines after a clock edge in either order, changes of `pause` at any time (also between the two turns),
accesses of the target that return at any time, signal writes taking effect, clock edges and resets.
-/

namespace Verif.Apb

open Verif.Word Verif.Axi Master

variable {σ : Type}

/-! ## C120: the order of the coroutines does not matter -/

theorem edge_held (f : Access σ) (s : Slave σ) (slow : Bool) (b : Bus) :
    (s.edge f true slow b).log = s.log ∧ (s.edge f true slow b).mem = s.mem ∧ (s.edge f true slow b).prdata = s.prdata := by
  unfold Slave.edge
  split
  · exact ⟨rfl, rfl, rfl⟩
  · split <;> exact ⟨rfl, rfl, rfl⟩
  · exact ⟨rfl, rfl, rfl⟩
  · split <;> exact ⟨rfl, rfl, rfl⟩
  · exact ⟨rfl, rfl, rfl⟩

theorem edge_rest {m : Master} (slverr paused rdy : Bool) (d : Nat) (e : Bool) (hz : m.active ++ m.queue = []) :
    (m.edge slverr paused rdy d e).done = m.done ∧ (m.edge slverr paused rdy d e).idle = m.idle := by
  obtain ⟨ha, hq⟩ := List.append_eq_nil_iff.1 hz
  cases hpc : m.pc <;> simp [active, hpc] at ha <;> simp [Master.edge, hpc, hq, next, idle]

/-- **C120, at rest.** Whenever no coroutine is about to run, master, slave and target are in a state that the system with one indivisible event
for each clock edge (C39, C40, C41) can be in: nothing can be observed of the order in which the coroutines had their turns. -/
theorem C120_refines (slverr : Bool) (f : Access σ) (st : σ) (evs : List CEv) :
    let c := CSys.exec slverr f st evs
    c.mdue = false → c.sdue = false → ∃ evs', Sys.exec slverr f st evs' = c.y := by
  intro c hm hs
  obtain ⟨_, h⟩ := CSys.abs_exec slverr f st evs
  rw [show CSys.mdue _ = false from hm, show CSys.sdue _ = false from hs] at h
  exact h _ (.inl rfl)

/-- What the master and the target look like in a state of the other system, at any time. -/
theorem any_time (slverr : Bool) (f : Access σ) (st : σ) (evs : List CEv) :
    let c := CSys.exec slverr f st evs
    (∃ s' evs', Sys.exec slverr f st evs' = { c.y with s := s' }) ∧
    ∃ m' s' evs', Sys.exec slverr f st evs' = { m := m', s := s', base := c.y.base } ∧ m'.epoch = c.y.m.epoch ∧
      s'.log = c.y.s.log ∧ s'.mem = c.y.s.mem ∧ s'.prdata = c.y.s.prdata ∧
      (c.y.m.active ++ c.y.m.queue = [] → m'.done = c.y.m.done ∧ m'.idle = c.y.m.idle) := by
  intro c
  have hI := (CSys.abs_exec slverr f st evs).inv_m
  obtain ⟨_, h⟩ := CSys.abs_exec slverr f st evs
  change match c.mdue, c.sdue with
    | false, false => _
    | true, true => _
    | true, false => _
    | false, true => _ at h
  cases hm : c.mdue <;> cases hs : c.sdue <;> rw [hm, hs] at h <;> dsimp only at h
  · obtain ⟨evs', h⟩ := h _ (.inl rfl)
    exact ⟨⟨_, evs', h⟩, _, _, evs', h, rfl, rfl, rfl, rfl, fun _ => ⟨rfl, rfl⟩⟩
  · obtain ⟨evs', h⟩ := h.2 true true
    obtain ⟨e1, e2, e3⟩ := edge_held f c.y.s true c.bus
    exact ⟨⟨_, evs', h⟩, _, _, evs', h, rfl, e1, e2, e3, fun _ => ⟨rfl, rfl⟩⟩
  · obtain ⟨s0, hf, h1, h2⟩ := h
    refine ⟨⟨s0, h1⟩, ?_⟩
    obtain ⟨sp, slow, he⟩ := h2 _ (.inl rfl)
    obtain ⟨evs', h3⟩ := h1.step (.edge true sp slow)
    refine ⟨_, _, evs', h3, (edge_facts ..).1, ?_, ?_, ?_, fun hz => ?_⟩
    · show (s0.edge f sp slow c.y.m.bus).log = _
      rw [← hf.1, ← he]
    · show (s0.edge f sp slow c.y.m.bus).mem = _
      rw [← hf.1, ← he]
    · show (s0.edge f sp slow c.y.m.bus).prdata = _
      rw [← hf.1, ← he]
    · exact edge_rest _ _ _ _ _ hz
  · obtain ⟨evs', h⟩ := h.2.2
    exact ⟨⟨_, evs', h⟩, _, _, evs', h, rfl, rfl, rfl, rfl, fun _ => ⟨rfl, rfl⟩⟩

/-- **C120, exactly once and in order.** At any time, also between the turns of the two coroutines: the accesses that the slave has performed on its
target since the last reset are the transfers of the operations called since then, in order, each once, up to some point, and the target is in
the state that they lead to. -/
theorem C120_exactly_once (slverr : Bool) (f : Access σ) (st : σ) (evs : List CEv) :
    let y := (CSys.exec slverr f st evs).y
    y.s.log <+: y.m.epoch.flatMap (·.xs) ∧ (serveAll slverr f y.s.log y.base).2 = (y.s.mem, y.s.prdata) := by
  intro y
  obtain ⟨_, m', s', evs', h, h1, h2, h3, h4, _⟩ := any_time slverr f st evs
  have := C40_exactly_once slverr f st evs'
  rw [h] at this
  simp only [h1, h2, h3, h4] at this
  exact this

/-- **C120, the answers.** At any time the operations completed since the last reset are the first ones called since then, each with the samples that
it gets when they are executed one after the other. -/
theorem C120_answers (slverr : Bool) (f : Access σ) (st : σ) (evs : List CEv) :
    let y := (CSys.exec slverr f st evs).y
    y.m.done <+: (serial slverr f y.m.epoch y.base).1 := by
  intro y
  obtain ⟨⟨s', evs', h⟩, _⟩ := any_time slverr f st evs
  have := C40_answers slverr f st evs'
  rw [h] at this
  exact this

/-- **C120, when the master is idle.** All operations called since the last reset have completed with the results of executing them one after the other,
and the target is in the state this leads to. -/
theorem C120_idle (slverr : Bool) (f : Access σ) (st : σ) (evs : List CEv) :
    let y := (CSys.exec slverr f st evs).y
    y.m.idle = true → serial slverr f y.m.epoch y.base = (y.m.done, (y.s.mem, y.s.prdata)) := by
  intro y hidle
  have hI : y.m.Inv := (CSys.abs_exec slverr f st evs).inv_m
  have hz : y.m.active ++ y.m.queue = [] := by
    have := hI.book.flight
    simp only [idle, decide_eq_true_eq] at hidle
    apply List.length_eq_zero_iff.1
    omega
  obtain ⟨_, m', s', evs', h, h1, h2, h3, h4, h5⟩ := any_time slverr f st evs
  obtain ⟨h5, h6⟩ := h5 hz
  have := C40_idle slverr f st evs'
  rw [h] at this
  simp only [h1, h3, h4, h5, h6] at this
  exact this hidle

/-- **C120, a RAM.** With calls of `read()`/`write()` whose spans are in the RAM: the calls completed since the last reset have returned what they return
on a flat memory, executed one after the other. -/
theorem C120_ram {c : Word.Cfg} {slverr : Bool} {m0 : Memory} {call : Nat → Call} (hl : 0 < c.lanes) (hm : m0.WF) (hs : 0 < m0.size)
    (evs : List CEv) :
    let y := (CSys.exec slverr (access ramTarget c.lanes true) m0 evs).y
    (∀ op ∈ y.m.issued, (call op.key).makes c op ∧ (call op.key).within m0.size) →
    y.m.done.map (fun d => (call d.1.key).outcome c d.2) =
      ((flatRun (y.m.done.map fun d => call d.1.key) y.base.1.contents).1).map some := by
  intro y hc
  obtain ⟨⟨s', evs', h⟩, _⟩ := any_time slverr (access ramTarget c.lanes true) m0 evs
  have := C41_results (c := c) (slverr := slverr) (m0 := m0) (call := call) evs' ⟨hl, hm, hs, by rw [h]; exact hc⟩
  rw [h] at this
  exact this

/-- A cycle in which the master's coroutine runs first, and one in which the slave's does. -/
def masterFirst : List CEv := [.commit, .tick, .mrun, .srun, .back]
def slaveFirst : List CEv := [.commit, .tick, .srun, .back, .mrun]

/-- In the midst of a cycle: the slave has performed the write, the master has not had its turn. -/
example :
    let c := CSys.exec true register 3 ([.reset false, .call opW, .call opR] ++ masterFirst ++ [.commit, .tick, .srun])
    c.mdue = true ∧ c.sdue = false ∧ c.y.s.log.length = 1 ∧ c.y.s.mem = 7 ∧ c.y.m.done.length = 0 := by decide +kernel

/-- Either order leads to the same results (the premise of `C120_idle`, and that of `C120_refines`). -/
example :
    let c := CSys.exec true register 3 ([.reset false, .call opW, .call opR] ++ (List.replicate 8 masterFirst).flatten)
    let d := CSys.exec true register 3 ([.reset false, .call opW, .call opR] ++ (List.replicate 8 slaveFirst).flatten)
    c.y.m.idle = true ∧ d.y.m.idle = true ∧ c.mdue = false ∧ c.sdue = false ∧
    c.y.m.done = [(opW, [(0, .okay)]), (opR, [(7, .okay)])] ∧ d.y.m.done = c.y.m.done := by decide +kernel

/-! ## C121: operations complete -/

section

variable (slverr : Bool) (f : Access σ) (st : σ) (evs : List CEv) (sched : Nat → CEv)

theorem run_of (hr : ∀ n v, sched n ≠ .reset v)
    (hf : CFair slverr f (fun n => CSys.exec slverr f st (evs ++ (List.range n).map sched)) sched)
    (h0 : (CSys.exec slverr f st evs).y.m.pc ≠ .stopped) :
    CSys.Run slverr f st (fun n => CSys.exec slverr f st (evs ++ (List.range n).map sched)) sched where
  succ n := by
    simp only [CSys.exec]
    rw [List.range_succ, List.map_append, ← List.append_assoc, List.foldl_append]
    rfl
  abs n := CSys.abs_exec slverr f st _
  noReset := hr
  fair := hf
  on := by simpa using h0

/-- **C121.** After any history `evs` at whose end the reset is deasserted, let things go on for ever (`sched`): without reset, but with any
further calls, pauses and releases, in any order that does not ignore for ever what can go on, and with neither side held up by `pause`
for ever. Then the operations called by any instant `n` (since the last reset) have all completed from some instant on: at least as many have
completed as had been called. -/
theorem C121_completes :
    let S : Nat → CSys σ := fun n => CSys.exec slverr f st (evs ++ (List.range n).map sched)
    (∀ n v, sched n ≠ .reset v) → CFair slverr f S sched → Unheld S sched → (S 0).y.m.pc ≠ .stopped →
    ∀ n, ∃ N, ∀ k, N ≤ k → (S n).y.m.epoch.length ≤ (S k).y.m.done.length ∧
      (S n).y.m.epoch <+: (S k).y.m.done.map (·.1) := by
  intro S hr hf hU h0 n
  have R := run_of slverr f st evs sched hr hf (by simpa [S] using h0)
  obtain ⟨N, h1, h2⟩ := R.all_done hU n
  refine ⟨N, fun k hk => ⟨h2 k hk, ?_⟩⟩
  have hep := (R.abs k).inv_m.book.epoch
  obtain ⟨d, rfl⟩ := Nat.exists_eq_add_of_le (show n ≤ k by omega)
  obtain ⟨l, l', h3, _⟩ := R.mono n d
  refine List.prefix_of_prefix_length_le (l₃ := (S (n + d)).y.m.epoch) ⟨l, h3.symm⟩ ⟨_, hep.symm⟩ ?_
  rw [List.length_map]
  exact h2 _ hk

/-- **C121, each operation.** Every operation called, also with `init_read()`/`init_write()`, at whatever instant, completes with a result. -/
theorem C121_each :
    let S : Nat → CSys σ := fun n => CSys.exec slverr f st (evs ++ (List.range n).map sched)
    (∀ n v, sched n ≠ .reset v) → CFair slverr f S sched → Unheld S sched → (S 0).y.m.pc ≠ .stopped →
    ∀ n, ∀ op ∈ (S n).y.m.epoch ++ (S n).y.m.wrappers, ∃ N, ∀ k, N ≤ k →
      ∃ rs, (op, rs) ∈ (S k).y.m.done ∧ (op, some rs) ∈ (S k).y.m.results ∧ rs.length = op.xs.length := by
  intro S hr hf hU h0 n op hop
  have R := run_of slverr f st evs sched hr hf (by simpa [S] using h0)
  obtain ⟨n', hop⟩ : ∃ n', op ∈ (S n').y.m.epoch := by
    rcases List.mem_append.1 hop with h | h
    · exact ⟨n, h⟩
    · obtain ⟨i, hi⟩ := List.mem_iff_getElem?.1 h
      obtain ⟨k, _, h1⟩ := R.begins i n hi
      exact ⟨k, h1⟩
  obtain ⟨N, hN⟩ := C121_completes slverr f st evs sched hr hf hU h0 n'
  refine ⟨N, fun k hk => ?_⟩
  obtain ⟨t, ht⟩ := (hN k hk).2
  have : op ∈ (S k).y.m.done.map (·.1) := by rw [← ht]; exact List.mem_append_left _ hop
  obtain ⟨d, hd, rfl⟩ := List.mem_map.1 this
  have hb := (R.abs k).inv_m.book
  exact ⟨d.2, hd, hb.doneRes d hd, hb.doneLen d hd⟩

theorem calls_left (c : CSys σ) {e : CEv} (h1 : ∀ op, e ≠ .call op) (h2 : ∀ op, e ≠ .init op) (h3 : ∀ v, e ≠ .reset v) :
    (c.step slverr f e).y.m.epoch.length + (c.step slverr f e).y.m.wrappers.length = c.y.m.epoch.length + c.y.m.wrappers.length ∧
    (c.step slverr f e).y.m.wrappers.length ≤ c.y.m.wrappers.length := by
  cases e with
  | call op => exact absurd rfl (h1 op)
  | init op => exact absurd rfl (h2 op)
  | reset v => exact absurd rfl (h3 v)
  | runInit i =>
    simp only [CSys.step, CSys.side, Master.step]
    split
    case h_2 => exact ⟨rfl, Nat.le_refl _⟩
    case h_1 =>
      rename_i op hop
      have := (List.getElem?_eq_some_iff.1 hop).1
      simp only [Master.call, List.length_append, List.length_eraseIdx, if_pos this, List.length_singleton]
      omega
  | tick => simp only [CSys.step]; split <;> exact ⟨rfl, Nat.le_refl _⟩
  | mrun =>
    simp only [CSys.step]
    split
    · dsimp only
      rw [(edge_facts ..).1, CSys.edge_wrappers]
      exact ⟨rfl, Nat.le_refl _⟩
    · exact ⟨rfl, Nat.le_refl _⟩
  | srun => simp only [CSys.step]; split <;> exact ⟨rfl, Nat.le_refl _⟩
  | commit => simp only [CSys.step]; split <;> exact ⟨rfl, Nat.le_refl _⟩
  | resume => simp only [CSys.step, CSys.side, Master.step, Master.resume]; split <;> exact ⟨rfl, Nat.le_refl _⟩
  | _ => exact ⟨rfl, Nat.le_refl _⟩

theorem first_wrapper (c : CSys σ) (h : c.y.m.wrappers ≠ []) :
    (c.step slverr f (.runInit 0)).y.m.wrappers.length < c.y.m.wrappers.length := by
  cases hw : c.y.m.wrappers with
  | nil => exact absurd hw h
  | cons a l => simp [CSys.step, CSys.side, Master.step, Master.call, hw]

/-- **C121, idle.** If there are no further calls, then from some instant on the master is idle, all operations called have completed, and the target is
in the state that the operations, executed one after the other, lead to. -/
theorem C121_idle :
    let S : Nat → CSys σ := fun n => CSys.exec slverr f st (evs ++ (List.range n).map sched)
    (∀ n v, sched n ≠ .reset v) → CFair slverr f S sched → Unheld S sched → (S 0).y.m.pc ≠ .stopped →
    (∀ n op, sched n ≠ .call op ∧ sched n ≠ .init op) →
    ∃ N, ∀ k, N ≤ k → (S k).y.m.wrappers = [] ∧ (S k).y.m.idle = true ∧
      (S k).y.m.done.length = (S 0).y.m.epoch.length + (S 0).y.m.wrappers.length ∧
      serial slverr f (S k).y.m.epoch (S k).y.base = ((S k).y.m.done, ((S k).y.s.mem, (S k).y.s.prdata)) := by
  intro S hr hf hU h0 hc
  have R := run_of slverr f st evs sched hr hf (by simpa [S] using h0)
  have hs : ∀ k, S (k + 1) = (S k).step slverr f (sched k) := R.succ
  have hstep : ∀ k, (S (k + 1)).y.m.epoch.length + (S (k + 1)).y.m.wrappers.length =
      (S k).y.m.epoch.length + (S k).y.m.wrappers.length ∧ (S (k + 1)).y.m.wrappers.length ≤ (S k).y.m.wrappers.length := by
    intro k
    rw [hs]
    exact calls_left slverr f _ (fun op => (hc k op).1) (fun op => (hc k op).2) (hr k)
  have hsum : ∀ k, (S k).y.m.epoch.length + (S k).y.m.wrappers.length = (S 0).y.m.epoch.length + (S 0).y.m.wrappers.length := by
    intro k
    induction k with
    | zero => rfl
    | succ k ih => rw [(hstep k).1, ih]
  have hle : ∀ n d, (S (n + d)).y.m.wrappers.length ≤ (S n).y.m.wrappers.length := by
    intro n d
    induction d with
    | zero => exact Nat.le_refl _
    | succ d ih => exact Nat.le_trans (hstep _).2 ih
  have hnil : ∀ L n, (S n).y.m.wrappers.length ≤ L → ∃ N, (S N).y.m.wrappers = [] := by
    intro L
    induction L with
    | zero => exact fun n h => ⟨n, List.length_eq_zero_iff.1 (by omega)⟩
    | succ L ih =>
      intro n h
      obtain ⟨k, hk, hkk⟩ := hf (.runInit 0) rfl n
      by_cases hw : (S k).y.m.wrappers = []
      · exact ⟨k, hw⟩
      · have hlt := first_wrapper slverr f (S k) hw
        rcases hkk with hkk | hkk
        · refine ih (k + 1) ?_
          rw [hs, hkk]
          obtain ⟨d, rfl⟩ := Nat.exists_eq_add_of_le hk
          have := hle n d
          omega
        · rw [show CSys.step slverr f (S k) _ = S k from hkk] at hlt
          omega
  obtain ⟨N1, hN1⟩ := hnil _ 0 (Nat.le_refl _)
  obtain ⟨N2, hN2⟩ := C121_completes slverr f st evs sched hr hf hU h0 N1
  refine ⟨N1 + N2, fun k hk => ?_⟩
  have hw : (S k).y.m.wrappers = [] := by
    obtain ⟨d, rfl⟩ := Nat.exists_eq_add_of_le (show N1 ≤ k by omega)
    have := hle N1 d
    rw [hN1] at this
    exact List.length_eq_zero_iff.1 (by simpa using this)
  have hb := (R.abs k).inv_m.book
  have h1 : (S k).y.m.epoch = (S k).y.m.done.map (·.1) ++ ((S k).y.m.active ++ (S k).y.m.queue) := hb.epoch
  have h2 : (S N1).y.m.epoch.length ≤ (S k).y.m.done.length := (hN2 k (by omega)).1
  have h3 := congrArg List.length h1
  have h4 : (S k).y.m.inFlight = ((S k).y.m.active ++ (S k).y.m.queue).length := hb.flight
  rw [List.length_append, List.length_map] at h3
  have h5 := hsum k
  have h6 := hsum N1
  rw [hw, List.length_nil] at h5
  rw [hN1, List.length_nil] at h6
  have hi : (S k).y.m.idle = true := by
    simp only [idle, decide_eq_true_eq]
    omega
  exact ⟨hw, hi, by omega, C120_idle slverr f st (evs ++ (List.range k).map sched) hi⟩

end

/-! ### A run that meets the premises: the slave goes first, and each side is paused in every other cycle -/

def exSched (n : Nat) : CEv :=
  match n % 9 with
  | 0 => .commit
  | 1 => .tick
  | 2 => .mpause (n / 9 % 2 == 0)
  | 3 => .spause (n / 9 % 2 == 1)
  | 4 => .srun
  | 5 => .back
  | 6 => .mrun
  | 7 => .resume
  | _ => .runInit 0

/-- A write is under way, a read is queued, and another write has been called with `init_write()`. -/
def exBegin : List CEv := [.reset false, .call opW, .call opR, .init opW] ++ masterFirst

def exRun (n : Nat) : CSys Nat := CSys.exec true register 3 (exBegin ++ (List.range n).map exSched)

theorem exRun_succ (n : Nat) : exRun (n + 1) = (exRun n).step true register (exSched n) := by
  simp only [exRun, CSys.exec]
  rw [List.range_succ, List.map_append, ← List.append_assoc, List.foldl_append]
  rfl

theorem exSched_period (n d : Nat) : exSched (n + 18 * d) = exSched n := by
  have h1 : (n + 18 * d) % 9 = n % 9 := by omega
  have h2 : (n + 18 * d) / 9 % 2 = n / 9 % 2 := by omega
  simp only [exSched, h1, h2]

deriving instance DecidableEq for Master, Slave, Sys, CSys

theorem exRun_back : exRun (234 + 18) = exRun 234 := by decide +kernel

theorem exRun_period (n d : Nat) (h : 234 ≤ n) : exRun (n + 18 * d) = exRun n := by
  induction d with
  | zero => rfl
  | succ d ih =>
    rw [← ih]
    have : ∀ j, exRun (234 + j + 18) = exRun (234 + j) := by
      intro j
      induction j with
      | zero => exact exRun_back
      | succ j ih =>
        rw [show 234 + (j + 1) + 18 = (234 + j + 18) + 1 by omega, exRun_succ, ih, show 234 + j + 18 = 234 + j + 18 * 1 by omega,
          exSched_period, ← exRun_succ]
        rfl
    obtain ⟨j, hj⟩ := Nat.exists_eq_add_of_le (show 234 ≤ n + 18 * d by omega)
    rw [show n + 18 * (d + 1) = n + 18 * d + 18 by omega, hj]
    exact this j

theorem exRun_end :
    let c := exRun 234
    c.y.m.pc = .get ∧ c.y.s.pc = .idle ∧ c.y.m.wrappers = [] := by decide +kernel

/-- After the instant `n` there is one at which the run is in the same state as at 234. -/
theorem exRun_later (n : Nat) : exRun (234 + 18 * n) = exRun 234 := exRun_period 234 n (Nat.le_refl _)

theorem exRun_fair : CFair true register exRun exSched := by
  have pick : ∀ (e : CEv) (j : Nat), exSched j = e → ∀ n, ∃ k, n ≤ k ∧ (exSched k = e ∨ (exRun k).step true register e = exRun k) :=
    fun e j hj n => ⟨j + 18 * n, by omega, .inl (by rw [exSched_period]; exact hj)⟩
  intro e he
  cases e with
  | commit => exact pick _ 0 rfl
  | tick => exact pick _ 1 rfl
  | srun => exact pick _ 4 rfl
  | back => exact pick _ 5 rfl
  | mrun => exact pick _ 6 rfl
  | resume => exact pick _ 7 rfl
  | runInit i =>
    intro n
    refine ⟨234 + 18 * n, by omega, .inr ?_⟩
    rw [exRun_later]
    have := exRun_end.2.2
    simp only [CSys.step, CSys.side, Master.step, this, List.getElem?_nil]
  | _ => cases he

theorem exRun_unheld : Unheld exRun exSched where
  m n := ⟨234 + 18 * n, by omega, .inl (by rw [exRun_later, exRun_end.1]; rfl)⟩
  s n := ⟨234 + 18 * n, by omega, .inl (by rw [exRun_later, exRun_end.2.1]; rfl)⟩

theorem exSched_only (n : Nat) : (∀ v, exSched n ≠ .reset v) ∧ ∀ op, exSched n ≠ .call op ∧ exSched n ≠ .init op := by
  unfold exSched
  split <;> simp

/-- All three operations complete. -/
example : ∃ N, ∀ k, N ≤ k → (exRun k).y.m.idle = true ∧ (exRun k).y.m.done.length = 3 := by
  obtain ⟨N, h⟩ := C121_idle true register 3 exBegin exSched (fun n => (exSched_only n).1) exRun_fair exRun_unheld
    (by decide +kernel) (fun n => (exSched_only n).2)
  exact ⟨N, fun k hk => ⟨(h k hk).2.1, by rw [show (exRun k).y.m.done.length = _ from (h k hk).2.2.1]; decide +kernel⟩⟩

/-- The premises of the theorems are not met by a run whose master is paused for ever, and there the write does not complete. -/
example :
    let c := CSys.exec true register 3 ([.reset false, .mpause true, .call opW] ++ (List.replicate 9 masterFirst).flatten)
    c.y.m.done = [] ∧ c.y.m.pc.held = true := by decide +kernel

end Verif.Apb
