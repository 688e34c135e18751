import Verif.Proof.AxisProgress
import Verif.Proof.AxisPause

/-!
# What one event does to an AXI stream source connected to a sink
-/

namespace Verif.Axis

open Verif.Stream (Pc wakeUp_ne wakeUp_off wakeUp_woken wakeUp_due wakeUp_edge tick_due tick_off tick_asleep tick_woken tick_edge
  still_iff foldl_inv foldl_inv')

/-! ## The source -/

/-- What holds of a source before and after anything but its own turn. -/
structure SrcKeep (s t : Src) : Prop where
  sent : s.sent <+: t.sent
  queue : s.queue <+: t.queue
  frame : t.frame = s.frame
  off : t.off = s.off
  nvalid : t.nvalid = s.nvalid
  nbeat : t.nbeat = s.nbeat
  crashed : t.crashed = s.crashed
  on : t.pc = .off → s.pc = .off
  due : s.pc = .due → t.pc = .due
  active : t.active = s.active
  len : t.queue.length + s.sent.length = s.queue.length + t.sent.length
  rests : s.pc = .asleep → t.sent = s.sent → t.pc = .asleep
  slept : t.pc = .asleep → s.pc = .asleep
  more : ∃ x : List (Nat × Frame), t.queue = s.queue ++ x ∧ t.sent = s.sent ++ x.map (·.2)

theorem SrcKeep.same {s t : Src} (h1 : t.sent = s.sent) (h2 : t.queue = s.queue) (h3 : t.frame = s.frame) (h4 : t.off = s.off)
    (h5 : t.nvalid = s.nvalid) (h6 : t.nbeat = s.nbeat) (h7 : t.crashed = s.crashed) (h8 : t.pc = .off → s.pc = .off)
    (h9 : s.pc = .due → t.pc = .due) (h10 : t.active = s.active) (h11 : s.pc = .asleep ↔ t.pc = .asleep) : SrcKeep s t :=
  ⟨by rw [h1]; exact List.prefix_refl _, by rw [h2]; exact List.prefix_refl _, h3, h4, h5, h6, h7, h8, h9, h10, by rw [h1, h2], fun a _ => h11.1 a, h11.2,
    [], by simp [h2], by simp [h1]⟩

theorem SrcKeep.refl (s : Src) : SrcKeep s s := SrcKeep.same rfl rfl rfl rfl rfl rfl rfl id id rfl Iff.rfl

theorem put_keep (s : Src) (f : Frame) : SrcKeep s (s.put f) :=
  ⟨List.prefix_append _ _, List.prefix_append _ _, rfl, rfl, rfl, rfl, rfl, wakeUp_off.1, wakeUp_due.2, rfl, by simp [Src.put]; omega,
    fun _ h => (by simp [Src.put] at h), fun h => absurd h wakeUp_ne, [_], rfl, rfl⟩

theorem accept_keep (s : Src) (f : Frame) : SrcKeep s (s.accept f).2 := by
  unfold Src.accept
  split
  · exact SrcKeep.refl s
  · exact put_keep s _

theorem send_keep (c : Cfg) (s : Src) (f : Frame) : SrcKeep s (s.send c f) := by
  unfold Src.send
  split
  · exact SrcKeep.same rfl rfl rfl rfl rfl rfl rfl id id rfl Iff.rfl
  · exact accept_keep s f

theorem sendNowait_keep (c : Cfg) (s : Src) (f : Frame) : SrcKeep s (s.sendNowait c f).2 := by
  unfold Src.sendNowait
  split
  · exact SrcKeep.refl s
  · exact accept_keep s f

theorem resume_keep (c : Cfg) (s : Src) (i : Nat) : SrcKeep s (s.resume c i) := by
  unfold Src.resume
  split
  · split
    · exact SrcKeep.same rfl rfl rfl rfl rfl rfl rfl id id rfl Iff.rfl
    · have h := accept_keep { s with waiters := s.waiters.eraseIdx i } ‹_›
      exact ⟨h.sent, h.queue, h.frame, h.off, h.nvalid, h.nbeat, h.crashed, h.on, h.due, h.active, h.len, h.rests, h.slept, h.more⟩
  · exact SrcKeep.refl s

/-! ## The sink -/

/-- What holds of a sink before and after anything but its own turn. -/
structure RxKeep (s t : Rx) : Prop where
  captured : t.captured = s.captured
  queue : t.queue <:+ s.queue
  nready : t.nready = s.nready
  on : t.pc = .off → s.pc = .off
  due : s.pc = .due → t.pc = .due
  sample : s.pc = .due → t.pauseSample = s.pauseSample

theorem RxKeep.same {s t : Rx} (h1 : t.captured = s.captured) (h2 : t.queue = s.queue) (h3 : t.nready = s.nready)
    (h4 : t.pc = .off → s.pc = .off) (h5 : s.pc = .due → t.pc = .due) (h6 : s.pc = .due → t.pauseSample = s.pauseSample) : RxKeep s t :=
  ⟨h1, by rw [h2]; exact List.suffix_refl _, h3, h4, h5, h6⟩

theorem RxKeep.refl (s : Rx) : RxKeep s s := RxKeep.same rfl rfl rfl id id (fun _ => rfl)

theorem RxKeep.popped {s t : Rx} (h : RxKeep s t) (r : Bool) (f : Frame) (rest : List Frame) (hq : t.queue = f :: rest) :
    RxKeep s (t.popped true r f rest) := by
  obtain ⟨e1, e2, e3, _, e5, _, _, _, _⟩ := popped_facts true t r f rest hq
  refine ⟨e3.trans h.captured, ?_, e5.trans h.nready, fun hh => h.on (e2.1 hh), fun hh => e1.2 (h.due hh), fun hh => h.sample hh⟩
  refine List.IsSuffix.trans ?_ h.queue
  rw [hq]
  exact List.suffix_cons f rest

theorem recv_keep (s : Rx) (k : Bool) : RxKeep s (s.recv true k).2 :=
  recv_ind true (RxKeep s) (fun _ f rest hq h => h.popped false f rest hq) s k (RxKeep.refl s)

theorem read_keep (s : Rx) (n : Int) : RxKeep s (s.readNowait true n).2 :=
  read_ind true (RxKeep s) (fun _ f rest hq h => h.popped true f rest hq)
    (fun _ _ h => ⟨h.captured, h.queue, h.nready, h.on, h.due, h.sample⟩)
    (fun _ _ h => ⟨h.captured, h.queue, h.nready, h.on, h.due, h.sample⟩) s n (RxKeep.refl s)

theorem setPause_keep (s : Rx) (v : Bool) : RxKeep s (s.setPause v) := by
  unfold Rx.setPause
  simp only
  split
  · exact RxKeep.same rfl rfl rfl wakeUp_off.1 wakeUp_due.2 (fun _ => rfl)
  · exact RxKeep.same rfl rfl rfl id id (fun _ => rfl)

theorem top_keep (s : Rx) (h : s.pc ≠ .due) : RxKeep s s.top :=
  RxKeep.same rfl rfl rfl (fun hh => by simp [Rx.top] at hh) (fun hh => absurd hh h) (fun hh => absurd hh h)

/-- The sink's turn adds what was on the bus. -/
theorem runSnk_captured (c : Cfg) (s : Rx) (v : Bool) (b : Beat) : (s.runSnk c v b).captured =
    s.captured ++ (if ((!c.hasReady || s.ready) && (!c.hasValid || v)) = true then [b] else []) := by
  unfold Rx.runSnk
  rw [(finish_same c _ v).2.2.2.2.1, (capture_same c s v b).2.2.2.2.2.2]

theorem runSnk_queue (c : Cfg) (s : Rx) (v : Bool) (b : Beat) (h : (s.runSnk c v b).captured = s.captured) :
    (s.runSnk c v b).queue = s.queue := by
  rw [runSnk_captured] at h
  unfold Rx.runSnk
  rw [(finish_same c _ v).1]
  unfold Rx.capture
  split
  · rename_i hc
    rw [if_pos hc] at h
    simp at h
  · rfl

/-! ## One event -/

theorem step_src (c : NetCfg) (s : Net) (e : NetEv) (hcl : e.clean = true) :
    (e = .srcRun ∧ s.src.pc = .due ∧ (s.step c e).src = s.src.run c.bus s.snk.ready ∧ (s.step c e).snk = s.snk) ∨
    SrcKeep s.src (s.step c e).src := by
  by_cases hcr : s.src.crashed = true
  · right; unfold Net.step; rw [if_pos hcr]; exact SrcKeep.refl _
  rw [Bool.not_eq_true] at hcr
  cases e <;> simp only [Net.step, hcr, Bool.false_eq_true, if_false]
  case tick =>
    right
    split
    · rename_i h
      simp only [Bool.and_eq_true, still_iff] at h
      exact SrcKeep.same rfl rfl rfl rfl rfl rfl (by first | rfl | exact hcr.symm) tick_off.1 (fun hh => absurd hh h.1.2.1) rfl tick_asleep.symm
    · exact SrcKeep.refl _
  case srcRun =>
    split
    · rename_i h; exact .inl ⟨trivial, h, rfl, rfl⟩
    · exact .inr (SrcKeep.refl _)
  case srcWake =>
    right
    split
    · rename_i h
      exact SrcKeep.same rfl rfl rfl rfl rfl rfl (by first | rfl | exact hcr.symm) (fun hh => by cases hh) (fun hh => by rw [h] at hh; cases hh) rfl
          (by rw [h]; simp)
    · exact SrcKeep.refl _
  case commit =>
    right
    split
    · exact SrcKeep.same rfl rfl rfl rfl rfl rfl (by first | rfl | exact hcr.symm) id id rfl Iff.rfl
    · exact SrcKeep.refl _
  case send f => exact .inr (send_keep _ _ _)
  case resume i => exact .inr (resume_keep _ _ _)
  case sendNowait f => exact .inr (sendNowait_keep _ _ _)
  case srcPause v => exact .inr (SrcKeep.same rfl rfl rfl rfl rfl rfl (by first | rfl | exact hcr.symm) id id rfl Iff.rfl)
  case srcClear => simp [NetEv.clean] at hcl
  case srcReset v =>
    right
    cases v
    · unfold Src.reset
      simp only [Bool.false_eq_true, if_false]
      split
      · rename_i h
        exact SrcKeep.same rfl rfl rfl rfl rfl rfl (by first | rfl | exact hcr.symm) (fun hh => by cases hh) (fun hh => by rw [h] at hh; cases hh) rfl
          (by rw [h]; simp)
      · exact SrcKeep.refl _
    · simp [NetEv.clean] at hcl
  all_goals
    right
    first | exact SrcKeep.refl _ | (split <;> exact SrcKeep.refl _)

theorem step_snk (c : NetCfg) (s : Net) (e : NetEv) (hcl : e.clean = true) :
    (e = .snkRun ∧ s.snk.pc = .due ∧ (s.step c e).snk = s.snk.runSnk c.snk s.src.valid s.src.beat ∧ (s.step c e).src = s.src) ∨
    RxKeep s.snk (s.step c e).snk := by
  by_cases hcr : s.src.crashed = true
  · right; unfold Net.step; rw [if_pos hcr]; exact RxKeep.refl _
  rw [Bool.not_eq_true] at hcr
  cases e <;> simp only [Net.step, hcr, Bool.false_eq_true, if_false]
  case tick =>
    right
    split
    · rename_i h
      simp only [Bool.and_eq_true, still_iff] at h
      exact RxKeep.same rfl rfl rfl tick_off.1 (fun hh => absurd hh h.2.1) (fun _ => rfl)
    · exact RxKeep.refl _
  case snkRun =>
    split
    · rename_i h; exact .inl ⟨trivial, h, rfl, rfl⟩
    · exact .inr (RxKeep.refl _)
  case snkWake =>
    right
    split
    · rename_i h; exact top_keep _ (by rw [h]; simp)
    · exact RxKeep.refl _
  case snkSpurious =>
    right
    split
    · rename_i h; exact top_keep _ (by rw [h]; simp)
    · exact RxKeep.refl _
  case commit =>
    right
    split
    · split
      · exact RxKeep.same rfl rfl rfl wakeUp_off.1 wakeUp_due.2 (fun _ => rfl)
      · exact RxKeep.same rfl rfl rfl id id (fun _ => rfl)
    · exact RxKeep.refl _
  case recv k => exact .inr (recv_keep _ _)
  case readNowait n => exact .inr (read_keep _ _)
  case snkPause v => exact .inr (setPause_keep _ _)
  case snkClear => simp [NetEv.clean] at hcl
  case snkReset v =>
    right
    cases v
    · unfold Rx.reset
      simp only [Bool.false_eq_true, if_false]
      split
      · rename_i h
        exact RxKeep.same rfl rfl rfl (fun hh => by cases hh) (fun hh => by rw [h] at hh; cases hh) (fun _ => rfl)
      · exact RxKeep.refl _
    · simp [NetEv.clean] at hcl
  all_goals
    right
    first | exact RxKeep.refl _ | (split <;> exact RxKeep.refl _)

theorem setPause_ready (s : Rx) (v : Bool) : (s.setPause v).ready = s.ready := by
  unfold Rx.setPause
  simp only
  split <;> rfl

theorem reset_ready (s : Rx) (v : Bool) : (s.reset v).ready = s.ready := by
  unfold Rx.reset
  repeat' split
  all_goals rfl

theorem accept_valid (s : Src) (f : Frame) : (s.accept f).2.valid = s.valid ∧ (s.accept f).2.beat = s.beat := by
  unfold Src.accept
  split <;> exact ⟨rfl, rfl⟩

theorem reset_valid (s : Src) (v : Bool) : (s.reset v).valid = s.valid ∧ (s.reset v).beat = s.beat := by
  unfold Src.reset
  simp only
  repeat' split
  all_goals exact ⟨rfl, rfl⟩

/-- The signals change only when writes take effect. -/
theorem step_signals (c : NetCfg) (s : Net) (e : NetEv) (h : s.src.pc = .due ∨ s.snk.pc = .due ∨ e ≠ .commit) :
    (s.step c e).src.valid = s.src.valid ∧ (s.step c e).src.beat = s.src.beat ∧ (s.step c e).snk.ready = s.snk.ready := by
  by_cases hcr : s.src.crashed = true
  · unfold Net.step; rw [if_pos hcr]; exact ⟨rfl, rfl, rfl⟩
  rw [Bool.not_eq_true] at hcr
  cases e <;> simp only [Net.step, hcr, Bool.false_eq_true, if_false]
  case srcRun =>
    split
    · exact ⟨(run_signals _ _ _).1, (run_signals _ _ _).2, by trivial⟩
    · exact ⟨by trivial, by trivial, by trivial⟩
  case snkRun =>
    split
    · exact ⟨by trivial, by trivial, runSnk_ready _ _ _ _⟩
    · exact ⟨by trivial, by trivial, by trivial⟩
  case commit =>
    split
    · rename_i hc
      simp only [Bool.and_eq_true, still_iff] at hc
      rcases h with h | h | h
      · exact absurd h hc.1.1
      · exact absurd h hc.2.1
      · exact absurd rfl h
    · exact ⟨by trivial, by trivial, by trivial⟩
  case send f =>
    unfold Src.send
    split
    · exact ⟨by trivial, by trivial, by trivial⟩
    · exact ⟨(accept_valid _ _).1, (accept_valid _ _).2, by trivial⟩
  case resume i =>
    unfold Src.resume
    split
    · split
      · exact ⟨by trivial, by trivial, by trivial⟩
      · exact ⟨(accept_valid _ _).1, (accept_valid _ _).2, by trivial⟩
    · exact ⟨by trivial, by trivial, by trivial⟩
  case sendNowait f =>
    unfold Src.sendNowait
    split
    · exact ⟨by trivial, by trivial, by trivial⟩
    · exact ⟨(accept_valid _ _).1, (accept_valid _ _).2, by trivial⟩
  case srcReset v => exact ⟨(reset_valid _ _).1, (reset_valid _ _).2, by trivial⟩
  case recv k => exact ⟨by trivial, by trivial, (recv_woke _ _).ready⟩
  case readNowait n => exact ⟨by trivial, by trivial, (read_woke _ _).ready⟩
  case snkPause v => exact ⟨by trivial, by trivial, setPause_ready _ _⟩
  case snkReset v => exact ⟨by trivial, by trivial, reset_ready _ _⟩
  all_goals first | exact ⟨by trivial, by trivial, by trivial⟩ | (split <;> exact ⟨by trivial, by trivial, by trivial⟩)

theorem accept_due (s : Src) (f : Frame) : (s.accept f).2.pc = .due → s.pc = .due := by
  unfold Src.accept
  split
  · exact id
  · exact wakeUp_due.1

/-- A coroutine becomes due only at a clock edge. -/
theorem step_due (c : NetCfg) (s : Net) (e : NetEv) (h : s.src.pc ≠ .due ∧ (s.step c e).src.pc = .due ∨
    s.snk.pc ≠ .due ∧ (s.step c e).snk.pc = .due) : e = .tick ∧ s.settled = true ∧ s.src.pc.still = true ∧ s.snk.pc.still = true := by
  by_cases hcr : s.src.crashed = true
  · unfold Net.step at h; rw [if_pos hcr] at h
    rcases h with h | h
    · exact absurd h.2 h.1
    · exact absurd h.2 h.1
  rw [Bool.not_eq_true] at hcr
  have no : ∀ {P : Prop} {t : Net}, (s.src.pc ≠ .due ∧ t.src.pc = .due ∨ s.snk.pc ≠ .due ∧ t.snk.pc = .due) →
      (t.src.pc = .due → s.src.pc = .due) → (t.snk.pc = .due → s.snk.pc = .due) → P := by
    intro P t h3 h1 h2
    rcases h3 with h3 | h3
    · exact absurd (h1 h3.2) h3.1
    · exact absurd (h2 h3.2) h3.1
  cases e <;> simp only [Net.step, hcr, Bool.false_eq_true, if_false] at h
  case tick =>
    split at h
    · rename_i hc
      simp only [Bool.and_eq_true] at hc
      exact ⟨rfl, hc.1.1, hc.1.2, hc.2⟩
    · exact no h id id
  case srcRun =>
    split at h
    · rename_i hd; exact no h (fun _ => hd) id
    · exact no h id id
  case snkRun =>
    split at h
    · rename_i hd; exact no h id (fun _ => hd)
    · exact no h id id
  case srcWake => split at h <;> exact no h (by simp) id
  case snkWake => split at h <;> exact no h id (by simp [Rx.top])
  case snkSpurious => split at h <;> exact no h id (by simp [Rx.top])
  case commit =>
    split at h
    · simp only at h
      split at h
      · rcases h with h | h
        · exact absurd h.2 h.1
        · exact absurd (wakeUp_due.1 h.2) h.1
      · exact no h id id
    · exact no h id id
  case send f =>
    refine no (t := { s with src := s.src.send c.bus f, settled := false }) h ?_ id
    show (s.src.send c.bus f).pc = .due → _
    unfold Src.send
    split
    · exact id
    · exact accept_due _ _
  case resume i =>
    refine no (t := { s with src := s.src.resume c.bus i, settled := false }) h ?_ id
    show (s.src.resume c.bus i).pc = .due → _
    unfold Src.resume
    split
    · split
      · exact id
      · exact accept_due _ _
    · exact id
  case sendNowait f =>
    refine no (t := { s with src := (s.src.sendNowait c.bus f).2, settled := false }) h ?_ id
    show (s.src.sendNowait c.bus f).2.pc = .due → _
    unfold Src.sendNowait
    split
    · exact id
    · exact accept_due _ _
  case srcReset v =>
    refine no (t := { s with src := s.src.reset v, settled := false }) h ?_ id
    show (s.src.reset v).pc = .due → _
    unfold Src.reset
    simp only
    repeat' split
    all_goals simp
  case recv k =>
    refine no (t := { s with snk := (s.snk.recv true k).2, settled := false }) h id ?_
    intro hh
    rcases (recv_woke s.snk k).pc with hp | hp
    · rw [← hp]; exact hh
    · exact wakeUp_due.1 (hp ▸ hh)
  case readNowait n =>
    refine no (t := { s with snk := (s.snk.readNowait true n).2, settled := false }) h id ?_
    intro hh
    rcases (read_woke s.snk n).pc with hp | hp
    · rw [← hp]; exact hh
    · exact wakeUp_due.1 (hp ▸ hh)
  case snkPause v =>
    refine no (t := { s with snk := s.snk.setPause v, settled := false }) h id ?_
    show (s.snk.setPause v).pc = .due → _
    unfold Rx.setPause
    simp only
    split
    · exact wakeUp_due.1
    · exact id
  case snkReset v =>
    refine no (t := { s with snk := s.snk.reset v, settled := false }) h id ?_
    show (s.snk.reset v).pc = .due → _
    unfold Rx.reset
    repeat' split
    all_goals simp
  all_goals exact no h id id

/-! ## More of what is known -/

/-- A sink sleeps only if it knows the value of `pause`. -/
def SnkSlept (c : Cfg) (s : Rx) : Prop := s.pc = .asleep → c.hasReady = true → s.pauseSample = s.pause

theorem SnkSlept.woke {c : Cfg} {s t : Rx} (h : SnkSlept c s) (w : Woke s t) : SnkSlept c t := by
  intro h1 h2
  rw [w.pause, w.sample]
  rcases w.pc with hp | hp
  · exact h (hp ▸ h1) h2
  · exact absurd (hp ▸ h1) wakeUp_ne

theorem SnkSlept.finish {c : Cfg} {s : Rx} {v : Bool} : SnkSlept c (s.finish c v) := by
  intro hp hr
  unfold Rx.finish at hp ⊢
  simp only [hr, if_true] at hp ⊢
  split at hp
  · rename_i hc
    rw [if_pos hc]
    simp only [Bool.and_eq_true, decide_eq_true_eq] at hc
    exact hc.2
  · simp [Rx.top] at hp

theorem SnkSlept.step {c : Cfg} {s : SnkSys} (e : SnkEv) (h : SnkSlept c s.snk) : SnkSlept c (s.step c e).snk := by
  cases e <;> simp only [SnkSys.step]
  case tick =>
    split
    · exact fun hp hr => h (tick_asleep.1 hp) hr
    · exact h
  case run => split; (exact SnkSlept.finish); exact h
  case wake => split; (intro hp; simp [Rx.top] at hp); exact h
  case spurious => split; (intro hp; simp [Rx.top] at hp); exact h
  case commit => split; (simp only; split; (exact fun hp => absurd hp wakeUp_ne); exact h); exact h
  case env v d =>
    split
    · exact h
    · simp only
      split
      · exact fun hp => absurd hp wakeUp_ne
      · exact h
  case recv k => exact h.woke (recv_woke _ _)
  case readNowait n => exact h.woke (read_woke _ _)
  case pause v =>
    unfold Rx.setPause
    simp only
    split
    · exact fun hp => absurd hp wakeUp_ne
    · rename_i hh
      have : s.snk.pause = v := Classical.byContradiction fun hne => hh hne
      subst this
      exact h
  case clear => exact h
  case reset v =>
    unfold Rx.reset
    repeat' split
    · exact fun hp => by simp at hp
    · exact fun hp => by simp at hp
    · exact h

/-- What else is known of a state reached. -/
structure Bus (c : NetCfg) (s : Net) : Prop where
  set : s.settled = true → s.src.valid = s.src.nvalid ∧ s.src.beat = s.src.nbeat ∧ s.snk.ready = s.snk.nready
  due : s.src.pc = .due → s.src.valid = s.src.nvalid
  slept : SnkSlept c.snk s.snk

theorem Reach.bus {c : NetCfg} (hl : 0 < c.bus.lanes) (hv : c.bus.hasValid = true) {s : Net} (h : Reach c s) : Bus c s := by
  obtain ⟨evs, hcl, hs⟩ := h
  obtain ⟨l₁, l₂, sim, hc⟩ := Net.project c evs
  obtain ⟨c1, c2⟩ := hc hcl
  rw [← hs] at sim
  have ha := SrcSys.exec_acc (c := c.bus) hl hv true l₁ (fun _ => c1)
  have hk := SnkSys.exec_acc (c := c.snk) hl true l₂ (fun _ => snk_clean_noReset' c2)
  have hsl : SnkSlept c.snk (SnkSys.exec c.snk (.reset false :: l₂)).snk :=
    foldl_inv _ (fun s : SnkSys => SnkSlept c.snk s.snk) (fun _ e h => SnkSlept.step e h) _ _ (fun hp => by simp at hp)
  refine ⟨fun hset => ?_, fun hd => ?_, by rw [← sim.snk]; exact hsl⟩
  · obtain ⟨h1, h2⟩ := sim.set hset
    have e1 := ha.set h1
    have e2 := hk.set h2
    rw [sim.src] at e1
    rw [sim.snk] at e2
    exact ⟨e1.1, e1.2, e2⟩
  · have := (ha.due (by rw [sim.src]; exact hd)).1
    rw [sim.src] at this
    exact this

end Verif.Axis
