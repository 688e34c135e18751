import Verif.Spec.StreamLive
import Verif.Proof.StreamProgress

/-!
# What one event does to a stream source connected to a sink
-/

namespace Verif.Stream

variable {α : Type}

/-! ## The source -/

/-- What holds of a source before and after anything but its own turn. -/
structure SrcKeep (s t : Src α) : Prop where
  sent : s.sent <+: t.sent
  queue : s.queue <+: t.queue
  nvalid : t.nvalid = s.nvalid
  on : t.pc = .off → s.pc = .off
  due : s.pc = .due → t.pc = .due
  active : t.active = s.active
  len : t.queue.length + s.sent.length = s.queue.length + t.sent.length
  rests : s.pc = .asleep → t.sent = s.sent → t.pc = .asleep
  slept : t.pc = .asleep → s.pc = .asleep

theorem SrcKeep.same {s t : Src α} (h1 : t.sent = s.sent) (h2 : t.queue = s.queue)
    (h5 : t.nvalid = s.nvalid) (h8 : t.pc = .off → s.pc = .off)
    (h9 : s.pc = .due → t.pc = .due) (h10 : t.active = s.active) (h11 : s.pc = .asleep ↔ t.pc = .asleep) : SrcKeep s t :=
  ⟨by rw [h1]; exact List.prefix_refl _, by rw [h2]; exact List.prefix_refl _, h5, h8, h9, h10, by rw [h1, h2], fun a _ => h11.1 a, h11.2⟩

theorem SrcKeep.refl (s : Src α) : SrcKeep s s := SrcKeep.same rfl rfl rfl id id rfl Iff.rfl

theorem put_keep (s : Src α) (x : α) : SrcKeep s (s.put x) :=
  ⟨List.prefix_append _ _, List.prefix_append _ _, rfl, wakeUp_off.1, wakeUp_due.2, rfl, by simp [Src.put]; omega,
    fun _ h => (by simp [Src.put] at h), fun h => absurd h wakeUp_ne⟩

theorem send_keep (c : Cfg) (s : Src α) (x : α) : SrcKeep s (s.send c x) := by
  unfold Src.send
  split
  · exact SrcKeep.same rfl rfl rfl id id rfl Iff.rfl
  · exact put_keep s x

theorem sendNowait_keep (c : Cfg) (s : Src α) (x : α) : SrcKeep s (s.sendNowait c x).2 := by
  unfold Src.sendNowait
  split
  · exact SrcKeep.refl s
  · exact put_keep s x

theorem resume_keep (c : Cfg) (s : Src α) (i : Nat) : SrcKeep s (s.resume c i) := by
  unfold Src.resume
  split
  · split
    · exact SrcKeep.same rfl rfl rfl id id rfl Iff.rfl
    · have h := put_keep { s with waiters := s.waiters.eraseIdx i } ‹_›
      exact ⟨h.sent, h.queue, h.nvalid, h.on, h.due, h.active, h.len, h.rests, h.slept⟩
  · exact SrcKeep.refl s

/-! ## The sink -/

/-- What holds of a sink before and after anything but its own turn. -/
structure SnkKeep (s t : Snk α) : Prop where
  captured : t.captured = s.captured
  queue : t.queue <:+ s.queue
  nready : t.nready = s.nready
  on : t.pc = .off → s.pc = .off
  due : s.pc = .due → t.pc = .due
  sample : s.pc = .due → t.pauseSample = s.pauseSample

theorem SnkKeep.same {s t : Snk α} (h1 : t.captured = s.captured) (h2 : t.queue = s.queue) (h3 : t.nready = s.nready)
    (h4 : t.pc = .off → s.pc = .off) (h5 : s.pc = .due → t.pc = .due) (h6 : s.pc = .due → t.pauseSample = s.pauseSample) : SnkKeep s t :=
  ⟨h1, by rw [h2]; exact List.suffix_refl _, h3, h4, h5, h6⟩

theorem SnkKeep.refl (s : Snk α) : SnkKeep s s := SnkKeep.same rfl rfl rfl id id (fun _ => rfl)

theorem recv_keep (s : Snk α) : SnkKeep s s.recv.2 := by
  unfold Snk.recv
  split
  · exact SnkKeep.refl s
  · rename_i x rest hq
    exact ⟨rfl, by rw [hq]; exact List.suffix_cons x rest, rfl, wakeUp_off.1, wakeUp_due.2, fun _ => rfl⟩

theorem setPause_keep (s : Snk α) (v : Bool) : SnkKeep s (s.setPause v) := by
  unfold Snk.setPause
  simp only
  split
  · exact SnkKeep.same rfl rfl rfl wakeUp_off.1 wakeUp_due.2 (fun _ => rfl)
  · exact SnkKeep.same rfl rfl rfl id id (fun _ => rfl)

theorem top_keep (s : Snk α) (h : s.pc ≠ .due) : SnkKeep s s.top :=
  SnkKeep.same rfl rfl rfl (fun hh => by simp [Snk.top] at hh) (fun hh => absurd hh h) (fun hh => absurd hh h)

/-- The sink's turn adds what was on the bus. -/
theorem snk_run_captured (c : Cfg) (s : Snk α) (v : Bool) (d : Option α) : (s.run c v d).captured =
    s.captured ++ (if ((!c.hasReady || s.ready) && (!c.hasValid || v)) = true then d.toList else []) := by
  unfold Snk.run
  rw [finish_captured]
  unfold Snk.capture
  simp only
  split <;> simp

theorem snk_run_queue (c : Cfg) (s : Snk α) (v : Bool) (d : Option α) (h : (s.run c v d).captured = s.captured) :
    (s.run c v d).queue = s.queue := by
  obtain ⟨_, l, h1, h2⟩ := run_got c s v d
  rw [h2] at h
  have : l = [] := by simpa using h
  rw [h1, this, List.append_nil]

/-! ## One event -/

theorem step_src (c : NetCfg) (s : Net α) (e : NetEv α) (hcl : e.clean = true) :
    (e = .srcRun ∧ s.src.pc = .due ∧ (s.step c e).src = s.src.run c.src s.snk.ready ∧ (s.step c e).snk = s.snk) ∨
    SrcKeep s.src (s.step c e).src := by
  cases e <;> simp only [Net.step]
  case tick =>
    right
    split
    · rename_i h
      simp only [Bool.and_eq_true, still_iff] at h
      exact SrcKeep.same rfl rfl rfl tick_off.1 (fun hh => absurd hh h.1.2.1) rfl tick_asleep.symm
    · exact SrcKeep.refl _
  case srcRun =>
    split
    · rename_i h; exact .inl ⟨trivial, h, rfl, rfl⟩
    · exact .inr (SrcKeep.refl _)
  case srcWake =>
    right
    split
    · rename_i h
      exact SrcKeep.same rfl rfl rfl (fun hh => by cases hh) (fun hh => by rw [h] at hh; cases hh) rfl (by rw [h]; simp)
    · exact SrcKeep.refl _
  case commit =>
    right
    split
    · exact SrcKeep.same rfl rfl rfl id id rfl Iff.rfl
    · exact SrcKeep.refl _
  case send x => exact .inr (send_keep _ _ _)
  case resume i => exact .inr (resume_keep _ _ _)
  case sendNowait x => exact .inr (sendNowait_keep _ _ _)
  case srcPause v => exact .inr (SrcKeep.same rfl rfl rfl id id rfl Iff.rfl)
  case srcClear => simp [NetEv.clean] at hcl
  case srcReset v =>
    right
    cases v
    · unfold Src.reset
      simp only [Bool.false_eq_true, if_false]
      split
      · rename_i h
        exact SrcKeep.same rfl rfl rfl (fun hh => by cases hh) (fun hh => by rw [h] at hh; cases hh) rfl (by rw [h]; simp)
      · exact SrcKeep.refl _
    · simp [NetEv.clean] at hcl
  all_goals
    right
    first | exact SrcKeep.refl _ | (split <;> exact SrcKeep.refl _)

theorem step_snk (c : NetCfg) (s : Net α) (e : NetEv α) (hcl : e.clean = true) :
    (e = .snkRun ∧ s.snk.pc = .due ∧ (s.step c e).snk = s.snk.run c.snk s.src.valid s.src.data ∧ (s.step c e).src = s.src) ∨
    SnkKeep s.snk (s.step c e).snk := by
  cases e <;> simp only [Net.step]
  case tick =>
    right
    split
    · rename_i h
      simp only [Bool.and_eq_true, still_iff] at h
      exact SnkKeep.same rfl rfl rfl tick_off.1 (fun hh => absurd hh h.2.1) (fun _ => rfl)
    · exact SnkKeep.refl _
  case snkRun =>
    split
    · rename_i h; exact .inl ⟨trivial, h, rfl, rfl⟩
    · exact .inr (SnkKeep.refl _)
  case snkWake =>
    right
    split
    · rename_i h; exact top_keep _ (by rw [h]; simp)
    · exact SnkKeep.refl _
  case snkSpurious =>
    right
    split
    · rename_i h; exact top_keep _ (by rw [h]; simp)
    · exact SnkKeep.refl _
  case commit =>
    right
    split
    · split
      · exact SnkKeep.same rfl rfl rfl wakeUp_off.1 wakeUp_due.2 (fun _ => rfl)
      · exact SnkKeep.same rfl rfl rfl id id (fun _ => rfl)
    · exact SnkKeep.refl _
  case recv => exact .inr (recv_keep _)
  case snkPause v => exact .inr (setPause_keep _ _)
  case snkClear => simp [NetEv.clean] at hcl
  case snkReset v =>
    right
    cases v
    · unfold Snk.reset
      simp only [Bool.false_eq_true, if_false]
      split
      · rename_i h
        exact SnkKeep.same rfl rfl rfl (fun hh => by cases hh) (fun hh => by rw [h] at hh; cases hh) (fun _ => rfl)
      · exact SnkKeep.refl _
    · simp [NetEv.clean] at hcl
  all_goals
    right
    first | exact SnkKeep.refl _ | (split <;> exact SnkKeep.refl _)

theorem reset_ready (s : Snk α) (v : Bool) : (s.reset v).ready = s.ready := by
  unfold Snk.reset
  repeat' split
  all_goals rfl

theorem reset_valid (s : Src α) (v : Bool) : (s.reset v).valid = s.valid ∧ (s.reset v).data = s.data := by
  unfold Src.reset
  repeat' split
  all_goals exact ⟨rfl, rfl⟩

/-- The signals change only when writes take effect. -/
theorem step_signals (c : NetCfg) (s : Net α) (e : NetEv α) (h : s.src.pc = .due ∨ s.snk.pc = .due ∨ e ≠ .commit) :
    (s.step c e).src.valid = s.src.valid ∧ (s.step c e).src.data = s.src.data ∧ (s.step c e).snk.ready = s.snk.ready := by
  cases e <;> simp only [Net.step]
  case srcRun =>
    split
    · exact ⟨(run_signals _ _).1, (run_signals _ _).2, by trivial⟩
    · exact ⟨by trivial, by trivial, by trivial⟩
  case snkRun =>
    split
    · exact ⟨by trivial, by trivial, snk_run_ready _ _ _ _⟩
    · exact ⟨by trivial, by trivial, by trivial⟩
  case commit =>
    split
    · rename_i hc
      simp only [Bool.and_eq_true, still_iff] at hc
      rcases h with h | h | h
      · exact absurd h hc.1.1
      · exact absurd h hc.2.1
      · exact absurd rfl h
    · exact ⟨by trivial, by trivial, by trivial⟩
  case send f =>
    unfold Src.send
    split <;> exact ⟨by trivial, by trivial, by trivial⟩
  case resume i =>
    unfold Src.resume
    repeat' split
    all_goals exact ⟨by trivial, by trivial, by trivial⟩
  case sendNowait f =>
    unfold Src.sendNowait
    split <;> exact ⟨by trivial, by trivial, by trivial⟩
  case srcReset v => exact ⟨(reset_valid _ _).1, (reset_valid _ _).2, by trivial⟩
  case recv => exact ⟨by trivial, by trivial, (recv_facts _).2.2.2.1⟩
  case snkPause v => exact ⟨by trivial, by trivial, (setPause_facts _ _).2.2.2.1⟩
  case snkReset v => exact ⟨by trivial, by trivial, reset_ready _ _⟩
  all_goals first | exact ⟨by trivial, by trivial, by trivial⟩ | (split <;> exact ⟨by trivial, by trivial, by trivial⟩)

/-- A coroutine becomes due only at a clock edge. -/
theorem step_due (c : NetCfg) (s : Net α) (e : NetEv α) (h : s.src.pc ≠ .due ∧ (s.step c e).src.pc = .due ∨
    s.snk.pc ≠ .due ∧ (s.step c e).snk.pc = .due) : e = .tick ∧ s.settled = true ∧ s.src.pc.still = true ∧ s.snk.pc.still = true := by
  have no : ∀ {P : Prop} {t : Net α}, (s.src.pc ≠ .due ∧ t.src.pc = .due ∨ s.snk.pc ≠ .due ∧ t.snk.pc = .due) →
      (t.src.pc = .due → s.src.pc = .due) → (t.snk.pc = .due → s.snk.pc = .due) → P := by
    intro P t h3 h1 h2
    rcases h3 with h3 | h3
    · exact absurd (h1 h3.2) h3.1
    · exact absurd (h2 h3.2) h3.1
  cases e <;> simp only [Net.step] at h
  case tick =>
    split at h
    · rename_i hc
      simp only [Bool.and_eq_true] at hc
      exact ⟨rfl, hc.1.1, hc.1.2, hc.2⟩
    · exact no h id id
  case srcRun =>
    split at h
    · rename_i hd; exact no h (fun _ => hd) id
    · exact no h id id
  case snkRun =>
    split at h
    · rename_i hd; exact no h id (fun _ => hd)
    · exact no h id id
  case srcWake => split at h <;> exact no h (by simp) id
  case snkWake => split at h <;> exact no h id (by simp [Snk.top])
  case snkSpurious => split at h <;> exact no h id (by simp [Snk.top])
  case commit =>
    split at h
    · simp only at h
      split at h
      · rcases h with h | h
        · exact absurd h.2 h.1
        · exact absurd (wakeUp_due.1 h.2) h.1
      · exact no h id id
    · exact no h id id
  case send x =>
    refine no (t := { s with src := s.src.send c.src x, settled := false }) h ?_ id
    show (s.src.send c.src x).pc = .due → _
    unfold Src.send
    split
    · exact id
    · exact wakeUp_due.1
  case resume i =>
    refine no (t := { s with src := s.src.resume c.src i, settled := false }) h ?_ id
    show (s.src.resume c.src i).pc = .due → _
    unfold Src.resume
    split
    · split
      · exact id
      · exact wakeUp_due.1
    · exact id
  case sendNowait x =>
    refine no (t := { s with src := (s.src.sendNowait c.src x).2, settled := false }) h ?_ id
    show (s.src.sendNowait c.src x).2.pc = .due → _
    unfold Src.sendNowait
    split
    · exact id
    · exact wakeUp_due.1
  case srcReset v =>
    refine no (t := { s with src := s.src.reset v, settled := false }) h ?_ id
    show (s.src.reset v).pc = .due → _
    unfold Src.reset
    repeat' split
    all_goals simp
  case recv =>
    exact no (t := { s with snk := s.snk.recv.2, settled := false }) h id (recv_facts s.snk).1.1
  case snkPause v =>
    exact no (t := { s with snk := s.snk.setPause v, settled := false }) h id (setPause_facts s.snk v).1.1
  case snkReset v =>
    refine no (t := { s with snk := s.snk.reset v, settled := false }) h id ?_
    show (s.snk.reset v).pc = .due → _
    unfold Snk.reset
    repeat' split
    all_goals simp
  all_goals exact no h id id

/-! ## More of what is known -/

/-- A sink sleeps only if it knows the value of `pause`. -/
def SnkSlept (c : Cfg) (s : Snk α) : Prop := s.pc = .asleep → c.hasReady = true → s.pauseSample = s.pause

theorem SnkSlept.finish {c : Cfg} {s : Snk α} {v : Bool} : SnkSlept c (s.finish c v) := by
  intro hp hr
  unfold Snk.finish at hp ⊢
  simp only [hr, if_true] at hp ⊢
  split at hp
  · rename_i hc
    rw [if_pos hc]
    simp only [Bool.and_eq_true, decide_eq_true_eq] at hc
    exact hc.2
  · simp [Snk.top] at hp

theorem SnkSlept.step {c : NetCfg} {s : Net α} (e : NetEv α) (h : SnkSlept c.snk s.snk) : SnkSlept c.snk (s.step c e).snk := by
  cases e <;> simp only [Net.step]
  case tick =>
    split
    · exact fun hp hr => h (tick_asleep.1 hp) hr
    · exact h
  case snkRun => split; (exact SnkSlept.finish); exact h
  case snkWake => split; (intro hp; simp [Snk.top] at hp); exact h
  case snkSpurious => split; (intro hp; simp [Snk.top] at hp); exact h
  case srcRun => split <;> exact h
  case srcWake => split <;> exact h
  case commit =>
    split
    · simp only
      split
      · exact fun hp => absurd hp wakeUp_ne
      · exact h
    · exact h
  case recv =>
    unfold Snk.recv
    split
    · exact h
    · exact fun hp => absurd hp wakeUp_ne
  case snkPause v =>
    unfold Snk.setPause
    simp only
    split
    · exact fun hp => absurd hp wakeUp_ne
    · rename_i hh
      have : s.snk.pause = v := Classical.byContradiction fun hne => hh hne
      subst this
      exact h
  case snkReset v =>
    unfold Snk.reset
    repeat' split
    · exact fun hp => by simp at hp
    · exact fun hp => by simp at hp
    · exact h
  all_goals exact h

theorem run_rest {c : Cfg} (s : Src α) (r : Bool) : (s.run c r).pc = .asleep → (s.run c r).active = false := by
  unfold Src.run
  simp only
  repeat' split
  all_goals simp_all

/-- A source that sleeps is not active. -/
theorem step_rest {c : NetCfg} {s : Net α} (e : NetEv α) (he : e.clean = true) (h : s.src.pc = .asleep → s.src.active = false) :
    (s.step c e).src.pc = .asleep → (s.step c e).src.active = false := by
  rcases step_src c s e he with ⟨_, _, e', _⟩ | k
  · rw [e']; exact run_rest _ _
  · exact fun hh => k.active.trans (h (k.slept hh))

/-- What is known of a state reached. -/
structure Known (c : NetCfg) (s : Net α) : Prop where
  inv : NetInv c true s
  live : SnkLive c.snk s.snk
  slept : SnkSlept c.snk s.snk
  rest : s.src.pc = .asleep → s.src.active = false

theorem known_exec (c : NetCfg) (evs : List (NetEv α)) (hcl : ∀ e ∈ evs, e.clean = true) : Known c (Net.exec c (.snkReset false :: evs)) := by
  have hcl' : ∀ e ∈ (.snkReset false :: evs : List (NetEv α)), e.clean = true := fun e he => by
    rcases List.mem_cons.1 he with rfl | he
    · rfl
    · exact hcl e he
  refine ⟨Net.exec_inv c true evs (fun _ => hcl), Net.exec_live c _ hcl', ?_, ?_⟩
  · exact foldl_inv _ (fun s : Net α => SnkSlept c.snk s.snk) (fun _ e h => SnkSlept.step e h) _ _ (fun hp => by simp at hp)
  · exact foldl_inv' _ (fun s : Net α => s.src.pc = .asleep → s.src.active = false) (fun e => e.clean = true)
      (fun _ e hq h => step_rest e hq h) _ _ hcl' (fun hp => by simp at hp)

/-- Nothing is lost. -/
theorem Known.acc {c : NetCfg} {s : Net α} (h : Known c s) (h1 : s.src.pc ≠ .due) (h2 : s.snk.pc ≠ .due) :
    s.src.sent = s.snk.captured ++ (if s.src.nvalid then s.src.ndata.toList else []) ++ s.src.queue := by
  have := h.inv.acc
  simp only [Acc, if_true] at this
  rw [this, net_pend_not_due c s h2, net_bus_not_due c s h1, List.append_nil]

theorem Known.data {c : NetCfg} {s : Net α} (h : Known c s) (hv : s.src.nvalid = true) : s.src.ndata.toList.length = 1 := by
  obtain ⟨x, hx⟩ := h.inv.src.data hv
  rw [hx]; rfl

/-- The turn of a source whose item was not transferred. -/
theorem run_idle {c : NetCfg} {s : Src α} {r : Bool} (hv : s.valid = s.nvalid) (hx : (s.valid && (!c.hasReady || r)) = false) :
    (s.nvalid = true → (s.run c.src r).nvalid = true ∧ (s.run c.src r).queue = s.queue) ∧
    (s.nvalid = false → (s.run c.src r).queue = s.queue ∧ (s.run c.src r).nvalid = false ∧ (s.queue = [] ∨ s.pause = true) ∧
        (s.queue = [] → (s.run c.src r).pc = .asleep) ∨ (s.run c.src r).nvalid = true) := by
  have hval : c.src.hasValid = true := rfl
  refine ⟨fun h1 => ?_, fun h1 => ?_⟩
  · rw [hv, h1] at hx
    unfold Src.run
    simp only [hval, hv, h1, Bool.not_true, Bool.false_or, Bool.and_true, Bool.or_false, if_true]
    rw [if_neg (by rw [show c.src.hasReady = c.hasReady from rfl]; simpa using hx)]
    exact ⟨rfl, rfl⟩
  · unfold Src.run
    simp only [hval, hv, h1, Bool.not_true, Bool.false_or, Bool.and_false, Bool.not_false, if_true]
    cases hq : s.queue with
    | nil => left; simp
    | cons x l =>
      cases hp : s.pause
      · right; simp
      · left; simp

end Verif.Stream
