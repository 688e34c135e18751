import Verif.Spec.AxiClock
import Verif.Proof.AxiClock

/-!
# Progress of a channel
-/

namespace Verif.AxiSys

open Verif.Axi Verif.AxiOps
open Verif.Stream (Net NetCfg NetEv NetInv Src Snk SrcInv SnkInv SnkLive Pc)

section

variable {α : Type}

/-- A sleeping sink has nothing to do. -/
structure ChanLive (s : Net α) : Prop where
  live : SnkLive chanCfg.snk s.snk
  sample : s.snk.pc = .asleep → s.snk.pauseSample = s.snk.pause

/-- Both coroutines of the channel run. -/
def ChanOn (s : Net α) : Prop := s.src.pc ≠ .off ∧ s.snk.pc ≠ .off

theorem finish_sample_asleep {c : Stream.Cfg} (hr : c.hasReady = true) {s : Snk α} {v : Bool}
    (hp : (s.finish c v).pc = .asleep) : (s.finish c v).pauseSample = (s.finish c v).pause := by
  unfold Snk.finish at hp ⊢
  simp only [hr, if_true] at hp ⊢
  split at hp
  · rename_i hc
    rw [if_pos hc]
    simp only [Bool.and_eq_true, decide_eq_true_eq] at hc
    exact hc.2
  · simp [Snk.top] at hp

theorem ChanLive.step {s : Net α} (h : ChanLive s) (e : NetEv α) (he : e ≠ .snkClear) : ChanLive (s.step chanCfg e) := by
  have woke : ∀ t : Net α, t.snk.pc ≠ .asleep → ChanLive t := fun t ht => ⟨fun hp => absurd hp ht, fun hp => absurd hp ht⟩
  have same : ∀ t : Net α, t.snk = s.snk → ChanLive t := fun t ht => ⟨by rw [ht]; exact h.live, by rw [ht]; exact h.sample⟩
  cases e
  case tick =>
    simp only [Net.step]
    split
    · exact ⟨fun hp hr => h.live (by simpa only [Stream.tick_asleep] using hp) hr,
        fun hp => h.sample (by simpa only [Stream.tick_asleep] using hp)⟩
    · exact h
  case snkRun =>
    simp only [Net.step]
    split
    · exact ⟨SnkLive.finish, finish_sample_asleep rfl⟩
    · exact h
  case snkWake => simp only [Net.step]; split; (exact woke _ (by simp [Snk.top])); exact h
  case snkSpurious => simp only [Net.step]; split; (exact woke _ (by simp [Snk.top])); exact h
  case commit =>
    simp only [Net.step]
    split
    · split
      · exact woke _ Stream.wakeUp_ne
      · exact ⟨h.live, h.sample⟩
    · exact h
  case recv =>
    simp only [Net.step]
    unfold Snk.recv
    split
    · exact same _ rfl
    · exact woke _ Stream.wakeUp_ne
  case snkPause v =>
    simp only [Net.step]
    unfold Snk.setPause
    simp only
    split
    · exact woke _ Stream.wakeUp_ne
    · rename_i hh
      have : s.snk.pause = v := Classical.byContradiction fun hne => hh hne
      subst this
      exact same _ rfl
  case snkClear => exact absurd rfl he
  case snkReset v =>
    simp only [Net.step, Snk.reset]
    repeat' split
    · exact woke _ (by simp)
    · exact woke _ (by simp)
    · exact same _ rfl
  case srcRun => simp only [Net.step]; split <;> exact same _ rfl
  case srcWake => simp only [Net.step]; split <;> exact same _ rfl
  all_goals exact same _ rfl

theorem ChanLive.init : ChanLive ({} : Net α) := ⟨fun hp => by simp at hp, fun hp => by simp at hp⟩

theorem ChanLive.reset (s : Net α) : ChanLive (resetNet s) :=
  ⟨fun hp => by simp [resetNet, Snk.clear, Snk.reset] at hp, fun hp => by simp [resetNet, Snk.clear, Snk.reset] at hp⟩

theorem ChanLive.started {s : Net α} (h : ChanLive s) : ChanLive (startNet s) :=
  (h.step (.srcReset false) (by simp)).step (.snkReset false) (by simp)

theorem ChanLive.inner {s : Net α} (h : ChanLive s) (e : Inner) : ChanLive (e.step s) := by
  cases e <;> simp only [Inner.step]
  case resume => split; (exact h.step _ (by simp)); exact h
  all_goals exact h.step _ (by simp)

theorem finish_on {c : Stream.Cfg} {s : Snk α} {v : Bool} : (s.finish c v).pc ≠ .off := Stream.finish_off

theorem ChanOn.step {s : Net α} (h : ChanOn s) (e : NetEv α) (h1 : e ≠ .srcReset true) (h2 : e ≠ .snkReset true) :
    ChanOn (s.step chanCfg e) := by
  obtain ⟨ha, hb⟩ := h
  cases e
  case tick => simp only [Net.step]; split; (exact ⟨by rwa [Ne, Stream.tick_off], by rwa [Ne, Stream.tick_off]⟩); exact ⟨ha, hb⟩
  case srcRun =>
    simp only [Net.step]
    split
    · refine ⟨?_, hb⟩
      simp only
      unfold Src.run
      simp only
      repeat' split
      all_goals simp
    · exact ⟨ha, hb⟩
  case srcWake => simp only [Net.step]; split; (exact ⟨by simp, hb⟩); exact ⟨ha, hb⟩
  case snkRun => simp only [Net.step]; split; (exact ⟨ha, finish_on⟩); exact ⟨ha, hb⟩
  case snkWake => simp only [Net.step]; split; (exact ⟨ha, by simp [Snk.top]⟩); exact ⟨ha, hb⟩
  case snkSpurious => simp only [Net.step]; split; (exact ⟨ha, by simp [Snk.top]⟩); exact ⟨ha, hb⟩
  case commit =>
    simp only [Net.step]
    split
    · refine ⟨ha, ?_⟩
      simp only
      split
      · exact fun hh => hb (Stream.setWake_off.1 hh)
      · exact hb
    · exact ⟨ha, hb⟩
  case recv => exact ⟨ha, fun hh => hb ((Stream.recv_facts s.snk).2.1.1 hh)⟩
  case snkPause v => exact ⟨ha, fun hh => hb ((Stream.setPause_facts s.snk v).2.1.1 hh)⟩
  case snkReset v =>
    cases v
    · refine ⟨ha, ?_⟩
      simp only [Net.step, Snk.reset, Bool.false_eq_true, if_false]
      split
      · simp
      · exact hb
    · exact absurd rfl h2
  case srcReset v =>
    cases v
    · refine ⟨?_, hb⟩
      simp only [Net.step, Src.reset, Bool.false_eq_true, if_false]
      split
      · simp
      · exact ha
    · exact absurd rfl h1
  case send x =>
    refine ⟨?_, hb⟩
    simp only [Net.step, Src.send]
    split
    · exact ha
    · simpa [Src.put, Stream.wakeUp_off] using ha
  case sendNowait x =>
    refine ⟨?_, hb⟩
    simp only [Net.step, Src.sendNowait]
    split
    · exact ha
    · simpa [Src.put, Stream.wakeUp_off] using ha
  case resume i =>
    refine ⟨?_, hb⟩
    simp only [Net.step, Src.resume]
    repeat' split
    · exact ha
    · simpa [Src.put, Stream.wakeUp_off] using ha
    · exact ha
  all_goals exact ⟨ha, hb⟩

theorem ChanOn.started (s : Net α) : ChanOn (startNet s) := by
  constructor
  · simp only [startNet, Src.reset, Bool.false_eq_true, if_false]
    split
    · simp
    · assumption
  · simp only [startNet, Snk.reset, Bool.false_eq_true, if_false]
    split
    · simp
    · assumption

theorem ChanOn.inner {s : Net α} (h : ChanOn s) (e : Inner) : ChanOn (e.step s) := by
  cases e <;> simp only [Inner.step]
  case resume => split; (exact h.step _ (by simp) (by simp)); exact h
  all_goals exact h.step _ (by simp) (by simp)

/-! ## What a channel does by itself -/

/-- One event in a channel, other than a call. -/
inductive Quiet (s : Net α) : Net α → Prop
  | stay : Quiet s s
  | inner (e : Inner) : Quiet s (e.step s)
  | commit (h : canCommit s = true) : Quiet s (s.step chanCfg .commit)
  | tick (h : canTick s = true) : Quiet s (s.step chanCfg .tick)

theorem ChanInv.quiet {s t : Net α} (h : ChanInv s) (q : Quiet s t) : ChanInv t ∧ content t = content s := by
  cases q with
  | stay => exact ⟨h, rfl⟩
  | inner e => exact h.inner e
  | commit _ => exact h.commit
  | tick _ => exact h.tick

/-- How far the transactions in the channel are from the queue of the sink. -/
def far (s : Net α) : Nat :=
  4 * s.src.waiters.length + 3 * s.src.queue.length + 2 * (s.onBus chanCfg).length + (s.pend chanCfg).length

/-- The state of a channel while nobody calls anything. -/
structure Phase (s : Net α) : Prop where
  inv : ChanInv s
  live : ChanLive s
  on : ChanOn s

theorem Phase.quiet {s t : Net α} (h : Phase s) (q : Quiet s t) : Phase t := by
  cases q with
  | stay => exact h
  | inner e => exact ⟨(h.inv.inner e).1, h.live.inner e, h.on.inner e⟩
  | commit _ => exact ⟨h.inv.commit.1, h.live.step _ (by simp), h.on.step _ (by simp) (by simp)⟩
  | tick _ => exact ⟨h.inv.tick.1, h.live.step _ (by simp), h.on.step _ (by simp) (by simp)⟩

theorem run_length_waiters {c : Stream.Cfg} (s : Src α) (r : Bool) : (s.run c r).waiters.length = s.waiters.length := by
  have := congrArg List.length (run_waiters (c := c) s r).1
  simpa using this

theorem xfer_eq (s : Net α) : s.xfer chanCfg = (s.src.valid && s.snk.ready) := by simp [Net.xfer, chanCfg]

/-- The transactions are where they were. -/
structure Still (s t : Net α) : Prop where
  w : t.src.waiters.length = s.src.waiters.length
  q : t.src.queue = s.src.queue
  bus : t.onBus chanCfg = s.onBus chanCfg
  pend : t.pend chanCfg = s.pend chanCfg

theorem Still.far {s t : Net α} (h : Still s t) : far t = far s := by
  simp only [AxiSys.far, h.w, h.q, h.bus, h.pend]

theorem Still.refl (s : Net α) : Still s s := ⟨rfl, rfl, rfl, rfl⟩

theorem Still.trans {s t u : Net α} (h : Still s t) (h' : Still t u) : Still s u :=
  ⟨h'.w.trans h.w, h'.q.trans h.q, h'.bus.trans h.bus, h'.pend.trans h.pend⟩

theorem still_src {s t : Net α} (h1 : t.src.valid = s.src.valid) (h2 : t.src.data = s.src.data) (h3 : t.src.nvalid = s.src.nvalid)
    (h4 : t.src.ndata = s.src.ndata) (h5 : t.src.queue = s.src.queue) (h6 : t.src.waiters.length = s.src.waiters.length)
    (h7 : t.src.pc = .due ↔ s.src.pc = .due) (h8 : t.snk.ready = s.snk.ready)
    (h10 : t.snk.pc = .due ↔ s.snk.pc = .due) : Still s t := by
  have hx : t.xfer chanCfg = s.xfer chanCfg := by unfold Net.xfer; rw [h1, h8]
  refine ⟨h6, h5, ?_, ?_⟩
  · unfold Net.onBus
    rw [hx, h3, h4]
    simp only [h7]
  · unfold Net.pend
    rw [hx, h2]
    simp only [h10]

/-- What the source does after an edge. -/
theorem Phase.srcRun {s : Net α} (h : Phase s) (hd : s.src.pc = .due) :
    (far (s.step chanCfg .srcRun) < far s ∨ Still s (s.step chanCfg .srcRun)) ∧
    (s.src.pause = false → s.onBus chanCfg = [] → s.src.queue ≠ [] → far (s.step chanCfg .srcRun) < far s) := by
  obtain ⟨e1, e2⟩ := h.inv.net.due hd
  have hw := run_length_waiters (c := chanCfg.src) s.src s.snk.ready
  have hs : s.step chanCfg .srcRun = { s with src := s.src.run chanCfg.src s.snk.ready, settled := false } := by
    simp only [Net.step, if_pos hd]
  have hx := xfer_eq s
  rw [hs]
  obtain ⟨r1, r2⟩ := Stream.run_signals (c := chanCfg.src) s.src s.snk.ready
  have hp : Net.pend chanCfg { s with src := s.src.run chanCfg.src s.snk.ready, settled := false } = s.pend chanCfg := by
    unfold Net.pend Net.xfer
    simp only [r1, r2]
  have hb := Stream.net_bus_not_due chanCfg { s with src := s.src.run chanCfg.src s.snk.ready, settled := false }
    (Stream.run_due _ _)
  simp only at hb
  have ho : s.onBus chanCfg = if (s.src.valid && s.snk.ready) = true then [] else if s.src.valid then s.src.data.toList else [] := by
    unfold Net.onBus
    rw [hx, ← e1, ← e2]
    simp only [hd, true_and]
  have hst : (s.src.run chanCfg.src s.snk.ready).queue = s.src.queue →
      (if (s.src.run chanCfg.src s.snk.ready).nvalid then (s.src.run chanCfg.src s.snk.ready).ndata.toList else []) = s.onBus chanCfg →
      Still s { s with src := s.src.run chanCfg.src s.snk.ready, settled := false } :=
    fun a b => ⟨hw, a, by rw [hb, b], hp⟩
  have hlt : 3 * (s.src.run chanCfg.src s.snk.ready).queue.length +
      2 * (if (s.src.run chanCfg.src s.snk.ready).nvalid then (s.src.run chanCfg.src s.snk.ready).ndata.toList else []).length <
      3 * s.src.queue.length + 2 * (s.onBus chanCfg).length →
      far { s with src := s.src.run chanCfg.src s.snk.ready, settled := false } < far s := by
    intro a
    simp only [far, hp, hb, hw]
    omega
  have main : ((s.src.run chanCfg.src s.snk.ready).queue = s.src.queue ∧
      (if (s.src.run chanCfg.src s.snk.ready).nvalid then (s.src.run chanCfg.src s.snk.ready).ndata.toList else []) = s.onBus chanCfg ∧
      (s.src.pause = false → s.onBus chanCfg = [] → s.src.queue = [])) ∨
      3 * (s.src.run chanCfg.src s.snk.ready).queue.length +
      2 * (if (s.src.run chanCfg.src s.snk.ready).nvalid then (s.src.run chanCfg.src s.snk.ready).ndata.toList else []).length <
      3 * s.src.queue.length + 2 * (s.onBus chanCfg).length := by
    rw [ho]
    unfold Src.run
    simp only [NetCfg.src, chanCfg, Bool.not_true, Bool.false_or, if_true]
    cases hv : s.src.valid <;> cases hr : s.snk.ready <;> simp only [Bool.and_true, Bool.and_false, Bool.or_false,
      Bool.not_true, Bool.not_false, if_true, Bool.false_eq_true, if_false, true_and, Bool.or_true]
    case true.false =>
      left
      obtain ⟨x, hx⟩ := h.inv.net.src.data (by rw [← e1]; exact hv)
      rw [← e1, hv, e2, hx]
      simp
    all_goals
      cases hq : s.src.queue with
      | nil => left; simp
      | cons x l =>
        cases hpa : s.src.pause
        · right
          simp
          omega
        · left
          simp
  rcases main with ⟨a, b, d⟩ | a
  · exact ⟨.inr (hst a b), fun h1 h2 h3 => absurd (d h1 h2) h3⟩
  · exact ⟨.inl (hlt a), fun _ _ _ => hlt a⟩

/-- What the sink does after an edge. -/
theorem Phase.snkRun {s : Net α} (hd : s.snk.pc = .due) :
    (far (s.step chanCfg .snkRun) < far s ∨ Still s (s.step chanCfg .snkRun)) ∧
    ((s.step chanCfg .snkRun).snk.queue = [] → s.snk.pauseSample = false → (s.step chanCfg .snkRun).snk.nready = true) ∧
    ((s.step chanCfg .snkRun).snk.pause = s.snk.pause) ∧
    ((s.step chanCfg .snkRun).snk.pauseSample = s.snk.pause) := by
  have hs : s.step chanCfg .snkRun = { s with snk := s.snk.run chanCfg.snk s.src.valid s.src.data, settled := false } := by
    simp only [Net.step, if_pos hd]
  rw [hs]
  have hready : (s.snk.run chanCfg.snk s.src.valid s.src.data).ready = s.snk.ready := by
    unfold Snk.run
    rw [Stream.finish_ready]
    unfold Snk.capture
    simp only
    split <;> rfl
  have hb : Net.onBus chanCfg { s with snk := s.snk.run chanCfg.snk s.src.valid s.src.data, settled := false } = s.onBus chanCfg := by
    unfold Net.onBus Net.xfer
    simp only [hready]
  have hp : Net.pend chanCfg { s with snk := s.snk.run chanCfg.snk s.src.valid s.src.data, settled := false } = [] :=
    Stream.net_pend_not_due _ _ Stream.finish_due
  have hcap : (s.snk.capture chanCfg.snk s.src.valid s.src.data).pauseSample = s.snk.pauseSample ∧
      (s.snk.capture chanCfg.snk s.src.valid s.src.data).pause = s.snk.pause := by
    unfold Snk.capture
    simp only
    split <;> exact ⟨rfl, rfl⟩
  refine ⟨?_, ?_, ?_, ?_⟩
  · by_cases hpe : s.pend chanCfg = []
    · exact .inr ⟨rfl, rfl, hb, by rw [hp, hpe]⟩
    · left
      have : (s.pend chanCfg).length ≠ 0 := fun hh => hpe (List.length_eq_zero_iff.1 hh)
      simp only [far, hb, hp, List.length_nil]
      omega
  · intro hq hps
    simp only [Snk.run, Stream.finish_queue] at hq
    simp only [Snk.run]
    generalize s.snk.capture chanCfg.snk s.src.valid s.src.data = k at hcap hq
    rw [hps] at hcap
    have hhr : chanCfg.snk.hasReady = true := rfl
    unfold Snk.finish
    simp only [hhr, if_true, hcap.1, hq, Bool.or_false]
    split <;> simp [Snk.top, Stream.isFull, chanCfg, NetCfg.snk]
  · simp only [Snk.run, Stream.finish_pause, hcap.2]
  · simp only [Snk.run]
    by_cases hsl : (Snk.finish chanCfg.snk (s.snk.capture chanCfg.snk s.src.valid s.src.data) s.src.valid).pc = .asleep
    · rw [finish_sample_asleep rfl hsl, Stream.finish_pause, hcap.2]
    · generalize s.snk.capture chanCfg.snk s.src.valid s.src.data = k at hcap hsl
      unfold Snk.finish at hsl ⊢
      have hhr : chanCfg.snk.hasReady = true := rfl
      simp only [hhr, if_true] at hsl ⊢
      split
      · rename_i hc
        rw [if_pos hc] at hsl
        exact absurd rfl hsl
      · simp [Snk.top, hcap.2]

/-- The edge. -/
theorem Phase.tick {s : Net α} (h : Phase s) (hc : canTick s = true) :
    let t := s.step chanCfg .tick
    t.src.queue = s.src.queue ∧ t.src.waiters = s.src.waiters ∧ t.snk.queue = s.snk.queue ∧ s.pend chanCfg = [] ∧
    (s.src.nvalid = false → s.onBus chanCfg = [] ∧ t.onBus chanCfg = [] ∧ t.pend chanCfg = []) ∧
    (s.src.nvalid = true → s.src.pc = .edge ∧ (s.onBus chanCfg).length = 1 ∧
      ((s.snk.nready = true ∧ t.onBus chanCfg = [] ∧ (t.pend chanCfg).length = 1) ∨
       (s.snk.nready = false ∧ t.onBus chanCfg = s.onBus chanCfg ∧ t.pend chanCfg = []))) := by
  intro t
  simp only [canTick, Bool.and_eq_true] at hc
  obtain ⟨⟨hset, h1⟩, h2⟩ := hc
  rw [Stream.still_iff] at h1 h2
  obtain ⟨e1, e2, e3⟩ := h.inv.net.set hset
  have ht : t = { s with src := { s.src with pc := s.src.pc.tick }, snk := { s.snk with pc := s.snk.pc.tick }, settled := false } := by
    show s.step chanCfg .tick = _
    simp only [Net.step]
    rw [if_pos]
    rw [hset, Stream.still_iff.2 h1, Stream.still_iff.2 h2]; rfl
  have hb := Stream.net_bus_not_due chanCfg s h1.1
  have hx : t.xfer chanCfg = (s.src.nvalid && s.snk.nready) := by
    rw [xfer_eq, ht, ← e1, ← e3]
  refine ⟨by rw [ht], by rw [ht], by rw [ht], Stream.net_pend_not_due _ _ h2.1, ?_, ?_⟩
  · intro hv
    refine ⟨by rw [hb, hv]; rfl, ?_, ?_⟩
    · unfold Net.onBus
      rw [hx, hv]
      rw [ht]
      simp [hv]
    · unfold Net.pend
      rw [hx, hv]
      simp
  · intro hv
    have hpc : s.src.pc = .edge := by
      have := h.inv.net.src.quiet
      rw [hv] at this
      have g1 := h1.1
      have g2 := h1.2
      cases hpc : s.src.pc <;> simp_all
    obtain ⟨x, hx1⟩ := h.inv.net.src.data hv
    refine ⟨hpc, by rw [hb, hv, hx1]; rfl, ?_⟩
    cases hr : s.snk.nready
    · refine .inr ⟨rfl, ?_, ?_⟩
      · rw [hb]
        unfold Net.onBus
        rw [hx, hr, ht]
        simp
      · unfold Net.pend
        rw [hx, hr]
        simp
    · refine .inl ⟨rfl, ?_, ?_⟩
      · unfold Net.onBus
        rw [hx, hr, hv, ht]
        simp [hpc, Pc.tick]
      · have hk : s.snk.pc = .edge := by
          have g := h.inv.net.snk.sleep
          simp only [chanCfg, NetCfg.snk, Bool.not_true, Bool.false_or] at g
          rw [e1, hv, hr] at g
          have g1 := h2.1
          have g2 := h2.2
          have g3 := h.on.2
          cases hk : s.snk.pc <;> simp_all
        unfold Net.pend
        rw [hx, hr, hv, ht]
        simp [hk, Pc.tick, e2, hx1]


/-- What an event other than an edge does in a channel. -/
theorem Phase.piece {s : Net α} (h : Phase s) (e : Inner) : far (e.step s) < far s ∨ Still s (e.step s) := by
  cases e
  case srcRun =>
    by_cases hd : s.src.pc = .due
    · exact (h.srcRun hd).1
    · right
      simp only [Inner.step, Net.step, if_neg hd]
      exact .refl s
  case snkRun =>
    by_cases hd : s.snk.pc = .due
    · exact (Phase.snkRun hd).1
    · right
      simp only [Inner.step, Net.step, if_neg hd]
      exact .refl s
  case srcWake =>
    right
    simp only [Inner.step, Net.step]
    split
    · rename_i hw
      exact still_src rfl rfl rfl rfl rfl rfl (by simp [hw]) rfl Iff.rfl
    · exact .refl s
  case snkWake =>
    right
    simp only [Inner.step, Net.step]
    split
    · rename_i hw
      exact still_src rfl rfl rfl rfl rfl rfl Iff.rfl rfl (by simp [Snk.top, hw])
    · exact .refl s
  case snkSpurious =>
    right
    simp only [Inner.step, Net.step]
    split
    · rename_i hw
      exact still_src rfl rfl rfl rfl rfl rfl Iff.rfl rfl (by simp [Snk.top, hw])
    · exact .refl s
  case resume =>
    simp only [Inner.step]
    split
    · rename_i hany
      have h1 := h.inv.one
      cases hw : s.src.waiters with
      | nil => rw [hw] at hany; simp at hany
      | cons x l =>
        have : l = [] := by rw [hw] at h1; simpa using h1
        subst this
        obtain ⟨x, f⟩ := x
        have hf : f = true := by rw [hw] at hany; simpa using hany
        subst hf
        simp only [Net.step, Src.resume, hw, List.getElem?_cons_zero]
        split
        · right
          exact still_src rfl rfl rfl rfl rfl (by simp [hw]) Iff.rfl rfl Iff.rfl
        · left
          have hb : ∀ u : Src α, u.nvalid = s.src.nvalid → u.ndata = s.src.ndata → u.valid = s.src.valid → (u.pc = .due ↔ s.src.pc = .due) →
              Net.onBus chanCfg { s with src := u, settled := false } = s.onBus chanCfg := by
            intro u a1 a2 a3 a4
            unfold Net.onBus Net.xfer
            simp only [a1, a2, a3, a4]
          have hp : ∀ u : Src α, u.data = s.src.data → u.valid = s.src.valid →
              Net.pend chanCfg { s with src := u, settled := false } = s.pend chanCfg := by
            intro u a1 a2
            unfold Net.pend Net.xfer
            simp only [a1, a2]
          simp only [far]
          rw [hb (Src.put { s.src with waiters := [(x, true)].eraseIdx 0 } x) rfl rfl rfl Stream.wakeUp_due,
            hp (Src.put { s.src with waiters := [(x, true)].eraseIdx 0 } x) rfl rfl]
          simp [Src.put, hw]
          omega
    · exact .inr (.refl s)
  case srcPause v => exact .inr (still_src rfl rfl rfl rfl rfl rfl Iff.rfl rfl Iff.rfl)
  case snkPause v =>
    have f := Stream.setPause_facts s.snk v
    exact .inr (still_src rfl rfl rfl rfl rfl rfl Iff.rfl f.2.2.2.1 f.1)

theorem Phase.commit {s : Net α} (h : canCommit s = true) : Still s (s.step chanCfg .commit) := by
  have h' := h
  simp only [canCommit, Bool.and_eq_true] at h'
  obtain ⟨h1, h2⟩ := h'
  rw [Stream.still_iff] at h1 h2
  have hs : s.step chanCfg .commit =
      { src := { s.src with valid := s.src.nvalid, data := s.src.ndata }
        snk := if (s.src.nvalid && !s.src.valid) || (s.snk.nready && !s.snk.ready) then ({ s.snk with ready := s.snk.nready } : Snk α).setWake
          else { s.snk with ready := s.snk.nready }
        settled := true } := by
    simp only [Net.step]
    rw [if_pos (by exact h)]
  rw [hs]
  have hk : ({ s.snk with ready := s.snk.nready } : Snk α).setWake.pc = .due → False := fun hh => h2.1 (Stream.setWake_due.1 hh)
  cases (s.src.nvalid && !s.src.valid) || (s.snk.nready && !s.snk.ready)
  · refine ⟨rfl, rfl, ?_, ?_⟩
    · rw [Stream.net_bus_not_due _ _ (by exact h1.1), Stream.net_bus_not_due _ _ h1.1]
    · rw [Stream.net_pend_not_due _ _ (by exact h2.1), Stream.net_pend_not_due _ _ h2.1]
  · refine ⟨rfl, rfl, ?_, ?_⟩
    · rw [Stream.net_bus_not_due _ _ (by exact h1.1), Stream.net_bus_not_due _ _ h1.1]
    · rw [Stream.net_pend_not_due _ _ (by exact hk), Stream.net_pend_not_due _ _ h2.1]

theorem Phase.edge {s : Net α} (h : Phase s) (hc : canTick s = true) :
    far (s.step chanCfg .tick) < far s ∨ (Still s (s.step chanCfg .tick) ∧ (s.onBus chanCfg ≠ [] → s.snk.nready = false)) := by
  obtain ⟨t1, t2, t3, t4, t5, t6⟩ := h.tick hc
  cases hv : s.src.nvalid with
  | false =>
    obtain ⟨u1, u2, u3⟩ := t5 hv
    exact .inr ⟨⟨by rw [t2], t1, by rw [u1, u2], by rw [t4, u3]⟩, fun hh => absurd u1 hh⟩
  | true =>
    obtain ⟨v1, v2, v3⟩ := t6 hv
    rcases v3 with ⟨w1, w2, w3⟩ | ⟨w1, w2, w3⟩
    · left
      simp only [far, t1, t2, t4, w2, w3, v2, List.length_nil]
      omega
    · exact .inr ⟨⟨by rw [t2], t1, w2, by rw [t4, w3]⟩, fun _ => w1⟩

/-- Without calls the transactions in a channel never move away from the queue of the sink. -/
theorem Phase.rank {s t : Net α} (h : Phase s) (q : Quiet s t) : far t < far s ∨ Still s t := by
  cases q with
  | stay => exact .inr (.refl s)
  | inner e => exact h.piece e
  | commit hc => exact .inr (Phase.commit hc)
  | tick hc => exact (h.edge hc).imp id And.left

theorem content_length {s : Net α} : (content s).length =
    s.snk.queue.length + (s.pend chanCfg).length + (s.onBus chanCfg).length + s.src.queue.length + s.src.waiters.length := by
  simp only [content, Net.pend, Net.onBus, Net.xfer, chanCfg, Bool.not_true, Bool.false_or, List.length_append, List.length_map]

/-- What the sink has queued stays. -/
theorem quiet_queue {s t : Net α} (q : Quiet s t) : s.snk.queue <+: t.snk.queue := by
  cases q with
  | stay => exact List.prefix_refl _
  | inner e =>
    cases e <;> simp only [Inner.step, Net.step]
    case snkRun =>
      split
      · unfold Snk.run
        rw [Stream.finish_queue]
        unfold Snk.capture
        simp only
        split
        · exact List.prefix_append _ _
        · exact List.prefix_refl _
      · exact List.prefix_refl _
    case snkPause v => rw [(Stream.setPause_facts s.snk v).2.2.2.2.2.2]; exact List.prefix_refl _
    all_goals first | exact List.prefix_refl _ | (split <;> exact List.prefix_refl _)
  | commit _ =>
    simp only [Net.step]
    split
    · split <;> exact List.prefix_refl _
    · exact List.prefix_refl _
  | tick _ => simp only [Net.step]; split <;> exact List.prefix_refl _

/-- The source, once an edge has woken it, waits for its turn. -/
theorem quiet_due {s t : Net α} (q : Quiet s t) (hd : s.src.pc = .due) : t.src.pc = .due ∨ t = s.step chanCfg .srcRun := by
  cases q with
  | stay => exact .inl hd
  | inner e =>
    cases e <;> simp only [Inner.step]
    case srcRun => exact .inr trivial
    case resume =>
      left
      split
      · simp only [Net.step, Src.resume]
        repeat' split
        all_goals first | exact hd | exact Stream.wakeUp_due.2 hd
      · exact hd
    all_goals
      left
      simp only [Net.step]
      first | exact hd | (split <;> first | exact hd | (rename_i hh; rw [hd] at hh; cases hh))
  | commit _ =>
    left
    simp only [Net.step]
    split <;> exact hd
  | tick hc =>
    simp only [canTick, Bool.and_eq_true, Stream.still_iff] at hc
    exact absurd hd hc.1.2.1

/-- The sink is going to assert `ready`. -/
def Armed (s : Net α) : Prop := (s.snk.pc = .due ∧ s.snk.pauseSample = false) ∨ (s.snk.pc ≠ .due ∧ s.snk.nready = true)

theorem armed_of {s t : Net α} (h : Armed s) (h1 : t.snk.pc = .due ↔ s.snk.pc = .due) (h2 : t.snk.nready = s.snk.nready)
    (h3 : s.snk.pc = .due → t.snk.pauseSample = s.snk.pauseSample) : Armed t := by
  rcases h with ⟨a, b⟩ | ⟨a, b⟩
  · exact .inl ⟨h1.2 a, by rw [h3 a, b]⟩
  · exact .inr ⟨fun hh => a (h1.1 hh), by rw [h2, b]⟩

theorem quiet_armed {s t : Net α} (q : Quiet s t) (h : Armed s) (hq : t.snk.queue = []) :
    Armed t ∨ (canTick s = true ∧ t = s.step chanCfg .tick) := by
  cases q with
  | stay => exact .inl h
  | inner e =>
    left
    cases e <;> simp only [Inner.step] at hq ⊢
    case snkRun =>
      by_cases hd : s.snk.pc = .due
      · rcases h with ⟨_, a⟩ | ⟨a, _⟩
        · refine .inr ⟨?_, (Phase.snkRun hd).2.1 hq a⟩
          simp only [Net.step, if_pos hd]
          exact Stream.finish_due
        · exact absurd hd a
      · simp only [Net.step, if_neg hd]; exact h
    case snkWake =>
      simp only [Net.step]
      split
      · rename_i hw
        exact armed_of h (by simp [Snk.top, hw]) rfl (fun hd => by rw [hd] at hw; cases hw)
      · exact h
    case snkSpurious =>
      simp only [Net.step]
      split
      · rename_i hw
        exact armed_of h (by simp [Snk.top, hw]) rfl (fun hd => by rw [hd] at hw; cases hw)
      · exact h
    case snkPause v =>
      have f := Stream.setPause_facts s.snk v
      refine armed_of h f.1 f.2.2.2.2.1 (fun _ => ?_)
      simp only [Net.step]
      unfold Snk.setPause
      simp only
      split <;> rfl
    case resume => split <;> exact armed_of h Iff.rfl rfl (fun _ => rfl)
    all_goals
      simp only [Net.step]
      first | exact armed_of h Iff.rfl rfl (fun _ => rfl) | (split <;> exact armed_of h Iff.rfl rfl (fun _ => rfl))
  | commit _ =>
    left
    simp only [Net.step]
    split
    · split
      · exact armed_of h (Stream.setWake_due (s := { s.snk with ready := s.snk.nready })) rfl (fun _ => rfl)
      · exact armed_of h Iff.rfl rfl (fun _ => rfl)
    · exact h
  | tick hc => exact .inr ⟨hc, rfl⟩

/-- Unless it is about to run, the sink knows that it is not paused. -/
def Knows (s : Net α) : Prop := s.snk.pc = .due ∨ s.snk.pauseSample = false

theorem quiet_knows {s t : Net α} (q : Quiet s t) (h : Knows s) (hp : t.snk.pause = false) : Knows t := by
  have key : ∀ {t : Net α}, (s.snk.pc = .due → t.snk.pc = .due) → t.snk.pauseSample = s.snk.pauseSample → Knows t :=
    fun h1 h2 => h.imp h1 (fun hh => by rw [h2, hh])
  cases q with
  | stay => exact h
  | inner e =>
    cases e <;> simp only [Inner.step] at hp ⊢
    case snkRun =>
      by_cases hd : s.snk.pc = .due
      · have f := Phase.snkRun hd
        right
        rw [f.2.2.2, ← f.2.2.1, hp]
      · simp only [Net.step, if_neg hd]; exact h
    case snkWake =>
      simp only [Net.step] at hp ⊢
      split
      · rename_i hw
        rw [if_pos hw] at hp
        exact .inr hp
      · exact h
    case snkSpurious =>
      simp only [Net.step] at hp ⊢
      split
      · rename_i hw
        rw [if_pos hw] at hp
        exact .inr hp
      · exact h
    case snkPause v =>
      have f := Stream.setPause_facts s.snk v
      refine key f.1.2 ?_
      simp only [Net.step]
      unfold Snk.setPause
      simp only
      split <;> rfl
    case resume => split <;> exact h
    all_goals
      simp only [Net.step]
      first | exact h | (split <;> exact h)
  | commit _ =>
    simp only [Net.step]
    split
    · split
      · exact key (Stream.setWake_due (s := { s.snk with ready := s.snk.nready })).2 rfl
      · exact h
    · exact h
  | tick hc =>
    simp only [Net.step]
    split
    · rcases h with h | h
      · simp only [canTick, Bool.and_eq_true, Stream.still_iff] at hc
        exact absurd h hc.2.1
      · exact .inr h
    · exact h

/-- A channel while nobody calls anything: again and again, the source runs and is not paused (or has nothing to send), an edge comes and
the sink knows that it is not paused, and a `send()` that can go on does. -/
structure NetSeq (s : Nat → Net α) : Prop where
  start : Phase (s 0)
  quiet : ∀ n, Quiet (s n) (s (n + 1))
  src : ∀ n, ∃ k, n ≤ k ∧ SrcTurn (s k) (s (k + 1))
  snk : ∀ n, ∃ k, n ≤ k ∧ canTick (s k) = true ∧ s (k + 1) = (s k).step chanCfg .tick ∧ (s k).snk.pauseSample = false
  resume : ∀ n, ∃ k, n ≤ k ∧ (s (k + 1) = Inner.resume.step (s k) ∨ Inner.resume.step (s k) = s k)

theorem NetSeq.phase {s : Nat → Net α} (h : NetSeq s) : ∀ n, Phase (s n) := by
  intro n
  induction n with
  | zero => exact h.start
  | succ n ih => exact ih.quiet (h.quiet n)

theorem NetSeq.content {s : Nat → Net α} (h : NetSeq s) (n : Nat) : content (s n) = content (s 0) := by
  induction n with
  | zero => rfl
  | succ n ih => rw [((h.phase n).inv.quiet (h.quiet n)).2, ih]

/-- A value that never grows does not change from some instant on. -/
theorem settles (f : Nat → Nat) (h : ∀ n, f (n + 1) ≤ f n) : ∃ N, ∀ n, N ≤ n → f n = f N := by
  have anti : ∀ n d, f (n + d) ≤ f n := by
    intro n d
    induction d with
    | zero => exact Nat.le_refl _
    | succ d ih => exact Nat.le_trans (h (n + d)) ih
  have key : ∀ k n0, f n0 ≤ k → ∃ N, ∀ n, N ≤ n → f n = f N := by
    intro k
    induction k with
    | zero =>
      intro n0 hk
      refine ⟨n0, fun n hn => ?_⟩
      obtain ⟨d, rfl⟩ := Nat.exists_eq_add_of_le hn
      have := anti n0 d
      omega
    | succ k ih =>
      intro n0 hk
      by_cases hd : ∃ d, f (n0 + d) < f n0
      · obtain ⟨d, hd⟩ := hd
        exact ih (n0 + d) (by omega)
      · refine ⟨n0, fun n hn => ?_⟩
        obtain ⟨d, rfl⟩ := Nat.exists_eq_add_of_le hn
        have h1 := anti n0 d
        have h2 : ¬ _ := fun hh => hd ⟨d, hh⟩
        omega
  exact key _ 0 (Nat.le_refl _)

/-- What was sent arrives. -/
theorem NetSeq.arrives {s : Nat → Net α} (h : NetSeq s) (hne : AxiSys.content (s 0) ≠ []) :
    ∃ N, ∀ n, N ≤ n → (s n).snk.queue ≠ [] := by
  have mono : ∀ n d, (s n).snk.queue ≠ [] → (s (n + d)).snk.queue ≠ [] := by
    intro n d hn
    induction d with
    | zero => exact hn
    | succ d ih =>
      intro hh
      have := quiet_queue (h.quiet (n + d))
      rw [← Nat.add_assoc] at hh
      rw [hh] at this
      exact ih (List.prefix_nil.1 this)
  by_cases hex : ∃ n, (s n).snk.queue ≠ []
  · obtain ⟨n, hn⟩ := hex
    refine ⟨n, fun m hm => ?_⟩
    obtain ⟨d, rfl⟩ := Nat.exists_eq_add_of_le hm
    exact mono n d hn
  · exfalso
    have hq : ∀ n, (s n).snk.queue = [] := fun n => Classical.byContradiction fun hh => hex ⟨n, hh⟩
    have hlen : ∀ n, ((s n).pend chanCfg).length + ((s n).onBus chanCfg).length + (s n).src.queue.length +
        (s n).src.waiters.length = (AxiSys.content (s 0)).length := by
      intro n
      rw [← h.content n, content_length, hq n]
      simp
    /- nothing moves from some point on -/
    obtain ⟨N, hN⟩ := settles (fun n => far (s n)) (fun n => by
      rcases (h.phase n).rank (h.quiet n) with h1 | h1
      · exact Nat.le_of_lt h1
      · exact Nat.le_of_eq h1.far)
    have hfar : ∀ n, N ≤ n → far (s (n + 1)) = far (s n) := by
      intro n hn
      have h1 := hN n hn
      have h2 := hN (n + 1) (by omega)
      omega
    have hstill1 : ∀ n, N ≤ n → Still (s n) (s (n + 1)) := by
      intro n hn
      have := hfar n hn
      rcases (h.phase n).rank (h.quiet n) with h1 | h1
      · omega
      · exact h1
    have hstill : ∀ n, N ≤ n → Still (s N) (s n) := by
      intro n hn
      obtain ⟨d, rfl⟩ := Nat.exists_eq_add_of_le hn
      induction d with
      | zero => exact .refl _
      | succ d ih => exact (ih (by omega)).trans (hstill1 (N + d) (by omega))
    have hedge : ∀ k, N ≤ k → canTick (s k) = true → s (k + 1) = (s k).step chanCfg .tick → (s N).onBus chanCfg ≠ [] →
        (s k).snk.nready = false := by
      intro k hk hc hs hb
      have h0 := hfar k hk
      rw [hs] at h0
      rcases (h.phase k).edge hc with h1 | h1
      · omega
      · exact h1.2 (by rw [(hstill k hk).bus]; exact hb)
    obtain ⟨k, hk, hc, hs, hps⟩ := h.snk N
    have hc' := hc
    simp only [canTick, Bool.and_eq_true, Stream.still_iff] at hc'
    obtain ⟨⟨hset, g1⟩, g2⟩ := hc'
    have hpend : (s N).pend chanCfg = [] := by
      rw [← (hstill k hk).pend]
      exact Stream.net_pend_not_due _ _ g2.1
    /- nothing is on the bus -/
    have hbus : (s N).onBus chanCfg = [] := by
      refine Classical.byContradiction fun hb => ?_
      have hnr := hedge k hk hc hs hb
      have hpc : (s k).snk.pc = .edge := by
        have a1 := (h.phase k).live.live
        have a0 := (h.phase k).live.sample
        simp only [SnkLive, hq] at a1
        have a2 := (h.phase k).on.2
        have a3 := g2.1
        have a4 := g2.2
        cases hpc : (s k).snk.pc <;> simp_all [chanCfg, NetCfg.snk, Stream.isFull]
      have harm : ∀ d, Armed (s (k + 1 + d)) := by
        intro d
        induction d with
        | zero =>
          left
          show (s (k + 1)).snk.pc = .due ∧ (s (k + 1)).snk.pauseSample = false
          rw [hs]
          simp only [Net.step]
          rw [if_pos (by exact hc)]
          exact ⟨by simp [hpc, Pc.tick], hps⟩
        | succ d ih =>
          rcases quiet_armed (h.quiet (k + 1 + d)) ih (hq _) with h1 | ⟨h1, h2⟩
          · exact h1
          · exfalso
            have h3 := hedge (k + 1 + d) (by omega) h1 h2 hb
            simp only [canTick, Bool.and_eq_true, Stream.still_iff] at h1
            rcases ih with ⟨h4, _⟩ | ⟨_, h4⟩
            · exact h1.2.1 h4
            · rw [h3] at h4; cases h4
      obtain ⟨j, hj, hcj, hsj, _⟩ := h.snk (k + 1)
      obtain ⟨d, rfl⟩ := Nat.exists_eq_add_of_le hj
      have h3 := hedge (k + 1 + d) (by omega) hcj hsj hb
      simp only [canTick, Bool.and_eq_true, Stream.still_iff] at hcj
      rcases harm d with ⟨h4, _⟩ | ⟨_, h4⟩
      · exact hcj.2.1 h4
      · rw [h3] at h4; cases h4
    /- and nothing in the queue of the source -/
    have hqueue : (s N).src.queue = [] := by
      refine Classical.byContradiction fun hne => ?_
      obtain ⟨j, hj, h1⟩ := h.src N
      have hqj : (s j).src.queue ≠ [] := by rw [(hstill j hj).q]; exact hne
      rcases h1 with h1 | ⟨h1, h2, h3⟩
      · exact hqj ((h.phase j).inv.net.src.sleep h1)
      · rcases quiet_due (h.quiet j) h1 with h4 | h4
        · exact h2 h4
        · have h5 := ((h.phase j).srcRun h1).2 h3 (by rw [(hstill j hj).bus]; exact hbus) hqj
          rw [← h4, hfar j hj] at h5
          omega
    /- so a blocked `send()` is left, and it can go on -/
    obtain ⟨j, hj, hr⟩ := h.resume N
    have hst := hstill j hj
    have hwj : (s j).src.waiters.length = 1 := by
      have h1 := hlen j
      have h2 := (h.phase j).inv.one
      have h3 : (AxiSys.content (s 0)).length ≠ 0 := fun hh => hne (List.length_eq_zero_iff.1 hh)
      rw [hst.pend, hst.bus, hst.q, hpend, hbus, hqueue] at h1
      simp only [List.length_nil] at h1
      omega
    have hq0 : (s j).src.queue = [] := by rw [hst.q, hqueue]
    have hlt : far (Inner.resume.step (s j)) < far (s j) := by
      cases hw : (s j).src.waiters with
      | nil => rw [hw] at hwj; simp at hwj
      | cons x l =>
        have : l = [] := by rw [hw] at hwj; simpa using hwj
        subst this
        obtain ⟨x, f⟩ := x
        have hf : f = true := by
          cases f with
          | true => rfl
          | false =>
            have := (h.phase j).inv.net.src.wait x (by rw [hw]; simp)
            rw [hq0] at this
            simp [Stream.isFull, chanCfg, NetCfg.src] at this
        subst hf
        rcases (h.phase j).piece .resume with h4 | h4
        · exact h4
        · exfalso
          have h5 := h4.w
          have hfull : ¬ Stream.isFull chanCfg.src.limit (s j).src.queue.length = true := by
            rw [hq0]; simp [Stream.isFull, chanCfg, NetCfg.src]
          simp only [Inner.step, hw, List.any_cons, Bool.true_or, if_true, Net.step, Src.resume, List.getElem?_cons_zero] at h5
          rw [if_neg hfull] at h5
          simp [Src.put] at h5
    have h6 := hfar j hj
    rcases hr with hr | hr
    · rw [← hr] at hlt; omega
    · rw [hr] at hlt; omega

/-! ## A clock cycle without pause -/

/-- A source that is not paused during a clock cycle sends something in it, or has nothing to send. -/
theorem src_cycle {s : Nat → Net α} (hon : ∀ n, ChanOn (s n)) {i j : Nat} (hij : i < j)
    (h1 : canTick (s i) = true) (h2 : s (i + 1) = (s i).step chanCfg .tick) (h3 : canTick (s j) = true)
    (hp : ∀ m, i < m → m ≤ j → (s m).src.pause = false) : ∃ k, i ≤ k ∧ SrcTurn (s k) (s (k + 1)) := by
  refine Classical.byContradiction fun hno => ?_
  have hno' : ∀ k, i ≤ k → ¬ SrcTurn (s k) (s (k + 1)) := fun k hk hh => hno ⟨k, hk, hh⟩
  have c1 := h1
  simp only [canTick, Bool.and_eq_true, Stream.still_iff] at c1 h3
  have hpc : (s i).src.pc = .edge := by
    have a1 := c1.1.2.1
    have a2 := c1.1.2.2
    have a3 := (hon i).1
    have a4 : (s i).src.pc ≠ .asleep := fun hh => hno' i (Nat.le_refl _) (.inl hh)
    cases hpc : (s i).src.pc <;> simp_all
  have hdue : ∀ d, i + 1 + d ≤ j → (s (i + 1 + d)).src.pc = .due := by
    intro d
    induction d with
    | zero =>
      intro _
      show (s (i + 1)).src.pc = .due
      rw [h2]
      simp only [Net.step]
      rw [if_pos (by exact h1)]
      simp [hpc, Pc.tick]
    | succ d ih =>
      intro hd
      have h4 := ih (by omega)
      refine Classical.byContradiction fun h5 => ?_
      exact hno' (i + 1 + d) (by omega) (.inr ⟨h4, h5, hp _ (by omega) (by omega)⟩)
  have h5 := hdue (j - (i + 1)) (by omega)
  have e : i + 1 + (j - (i + 1)) = j := by omega
  rw [e] at h5
  exact h3.1.2.1 h5

/-- A sink that is not paused during a clock cycle knows it at the end of that cycle. -/
theorem snk_cycle {s : Nat → Net α} (hq : ∀ n, Quiet (s n) (s (n + 1))) (hph : ∀ n, Phase (s n)) {i j : Nat} (hij : i < j)
    (h1 : canTick (s i) = true) (h2 : s (i + 1) = (s i).step chanCfg .tick) (h3 : canTick (s j) = true)
    (hp : ∀ m, i < m → m ≤ j → (s m).snk.pause = false) : (s j).snk.pauseSample = false := by
  have c1 := h1
  simp only [canTick, Bool.and_eq_true, Stream.still_iff] at c1 h3
  have hk : ∀ d, i + 1 + d ≤ j → Knows (s (i + 1 + d)) := by
    intro d
    induction d with
    | zero =>
      intro _
      show Knows (s (i + 1))
      have h4 := hp (i + 1) (by omega) (by omega)
      have a3 := (hph (i + 1)).on.2
      have a4 := (hph (i + 1)).live.sample
      have a5 : (s (i + 1)).snk.pc = (s i).snk.pc.tick := by
        rw [h2]
        simp only [Net.step]
        rw [if_pos (by exact h1)]
      have a1 := c1.2.1
      have a2 := c1.2.2
      cases hpc : (s i).snk.pc with
      | due => exact absurd hpc a1
      | woken => exact absurd hpc a2
      | edge => left; rw [a5, hpc]; rfl
      | off => rw [hpc] at a5; exact absurd a5 a3
      | asleep => right; rw [hpc] at a5; rw [a4 a5, h4]
    | succ d ih =>
      intro hd
      exact quiet_knows (hq _) (ih (by omega)) (hp _ (by omega) (by omega))
  have h5 := hk (j - (i + 1)) (by omega)
  have e : i + 1 + (j - (i + 1)) = j := by omega
  rw [e] at h5
  rcases h5 with h5 | h5
  · exact absurd h5 h3.2.1
  · exact h5

end

end Verif.AxiSys
