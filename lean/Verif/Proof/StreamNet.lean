import Verif.Proof.Stream

/-!
# Sinks: liveness of `ready`; monitors; a source connected to a sink
-/

namespace Verif.Stream

variable {α : Type}

/-! ## Everything captured is handed out -/

theorem run_got (c : Cfg) (s : Snk α) (v : Bool) (d : Option α) : (s.run c v d).got = s.got ∧
    ∃ l, (s.run c v d).queue = s.queue ++ l ∧ (s.run c v d).captured = s.captured ++ l := by
  unfold Snk.run
  rw [finish_got, finish_queue, finish_captured]
  unfold Snk.capture
  simp only
  split
  · exact ⟨rfl, _, rfl, rfl⟩
  · exact ⟨rfl, [], by simp, by simp⟩

theorem Acc.append {clean : Bool} {a b : List α} (h : Acc clean a b) (l : List α) : Acc clean (a ++ l) (b ++ l) := by
  cases clean
  · exact List.Sublist.append h (List.Sublist.refl _)
  · simp only [Acc, if_true] at h ⊢
    rw [h]

theorem SnkSys.step_got {c : Cfg} {clean : Bool} {s : SnkSys α} (e : SnkEv α) (hcl : clean = true → e.noClear = true)
    (h : Acc clean (s.snk.got ++ s.snk.queue) s.snk.captured) :
    Acc clean ((s.step c e).snk.got ++ (s.step c e).snk.queue) (s.step c e).snk.captured := by
  cases e <;> simp only [SnkSys.step]
  case tick => split <;> exact h
  case run =>
    split
    · obtain ⟨h1, l, h2, h3⟩ := run_got c s.snk s.valid s.data
      rw [h1, h2, h3, ← List.append_assoc]
      exact h.append l
    · exact h
  case wake => split <;> exact h
  case spurious => split <;> exact h
  case commit => split; (simp only; split <;> exact h); exact h
  case env v d => split; exact h; split <;> exact h
  case recv =>
    obtain ⟨_, _, f3, _, _, f6⟩ := recv_facts s.snk
    rw [f3, f6]; exact h
  case pause v =>
    obtain ⟨_, _, f3, _, _, f6, f7⟩ := setPause_facts s.snk v
    rw [f3, f6, f7]; exact h
  case clear =>
    have : clean = false := by
      cases clean
      · rfl
      · exact absurd (hcl rfl) (by simp [SnkEv.noClear])
    subst this
    simpa [Snk.clear] using h.drop_last
  case reset v =>
    unfold Snk.reset
    repeat' split
    all_goals exact h

theorem SnkSys.exec_got (c : Cfg) (clean : Bool) (evs : List (SnkEv α)) (hcl : clean = true → ∀ e ∈ evs, e.noClear = true) :
    Acc clean ((SnkSys.exec c evs).snk.got ++ (SnkSys.exec c evs).snk.queue) (SnkSys.exec c evs).snk.captured :=
  foldl_inv' _ (fun s : SnkSys α => Acc clean (s.snk.got ++ s.snk.queue) s.snk.captured)
    (fun e => clean = true → e.noClear = true) (fun _ e hq h => SnkSys.step_got e hq h) evs _ (fun e he hc => hcl hc e he)
    (by cases clean <;> simp [Acc])

/-! ## `ready` comes back -/

/-- While the sink sleeps its `ready` is what its state calls for. -/
def SnkLive (c : Cfg) (s : Snk α) : Prop :=
  s.pc = .asleep → c.hasReady = true → s.nready = !(isFull c.limit s.queue.length || s.pause)

theorem SnkLive.finish {c : Cfg} {s : Snk α} {v : Bool} : SnkLive c (s.finish c v) := by
  intro hp hr
  unfold Snk.finish at hp ⊢
  simp only [hr, if_true] at hp ⊢
  split at hp
  · rename_i hc
    rw [if_pos hc]
    simp only [Bool.and_eq_true, decide_eq_true_eq] at hc ⊢
    rw [hc.2]
  · simp [Snk.top] at hp

theorem SnkLive.step {c : Cfg} {s : SnkSys α} (e : SnkEv α) (hcl : e.noClear = true) (h : SnkLive c s.snk) :
    SnkLive c (s.step c e).snk := by
  cases e <;> simp only [SnkSys.step]
  case tick =>
    split
    · exact fun hp hr => h (by simpa only [tick_asleep] using hp) hr
    · exact h
  case run => split; (exact SnkLive.finish); exact h
  case wake => split; (intro hp; simp [Snk.top] at hp); exact h
  case spurious => split; (intro hp; simp [Snk.top] at hp); exact h
  case commit => split; (simp only; split; (exact fun hp => absurd hp wakeUp_ne); exact h); exact h
  case env v d =>
    split
    · exact h
    · simp only
      split
      · exact fun hp => absurd hp wakeUp_ne
      · exact h
  case recv =>
    unfold Snk.recv
    split
    · exact h
    · exact fun hp => absurd hp wakeUp_ne
  case pause v =>
    unfold Snk.setPause
    simp only
    split
    · exact fun hp => absurd hp wakeUp_ne
    · rename_i hh
      have : s.snk.pause = v := Classical.byContradiction fun hne => hh hne
      subst this
      exact h
  case clear => exact absurd hcl (by simp [SnkEv.noClear])
  case reset v =>
    unfold Snk.reset
    repeat' split
    · exact fun hp => by simp at hp
    · exact fun hp => by simp at hp
    · exact h

theorem SnkSys.exec_live (c : Cfg) (evs : List (SnkEv α)) (hcl : ∀ e ∈ evs, e.noClear = true) :
    SnkLive c (SnkSys.exec c evs).snk :=
  foldl_inv' _ (fun s : SnkSys α => SnkLive c s.snk) (fun e => e.noClear = true)
    (fun _ e hq h => SnkLive.step e hq h) evs _ hcl (fun hp => by simp at hp)

/-! ## Monitors -/

/-- The item the monitor is about to capture. -/
def MonSys.pend (c : Cfg) (s : MonSys α) : List α :=
  if s.mon.pc = .due ∧ ((!c.hasValid || s.valid) && (!c.hasReady || s.ready)) = true then s.data.toList else []

/-- The accounting invariant of a monitor. -/
structure MonAcc (c : Cfg) (clean : Bool) (s : MonSys α) : Prop where
  sleep : s.mon.pc = .asleep → ((!c.hasValid || s.valid) && (!c.hasReady || s.ready)) = false
  on : clean = true → s.mon.pc ≠ .off
  acc : Acc clean (s.mon.captured ++ s.pend c) (xfers c s.trace)

theorem mon_pend_not_due (c : Cfg) (s : MonSys α) (h : s.mon.pc ≠ .due) : s.pend c = [] := by
  unfold MonSys.pend
  rw [if_neg (fun hh => h hh.1)]

theorem MonAcc.same {c : Cfg} {clean : Bool} {s t : MonSys α} (h : MonAcc c clean s)
    (h1 : t.mon.pc = .asleep → ((!c.hasValid || t.valid) && (!c.hasReady || t.ready)) = false) (h2 : t.trace = s.trace)
    (h5 : t.mon.captured = s.mon.captured)
    (h6 : t.mon.pc = .due ↔ s.mon.pc = .due) (h7 : t.mon.pc = .off → s.mon.pc = .off)
    (h8 : t.mon.pc = .due → t.valid = s.valid ∧ t.ready = s.ready ∧ t.data = s.data) : MonAcc c clean t where
  sleep := h1
  on := fun a hh => h.on a (h7 hh)
  acc := by
    have : t.pend c = s.pend c := by
      by_cases hd : s.mon.pc = .due
      · obtain ⟨e1, e2, e3⟩ := h8 (h6.2 hd)
        unfold MonSys.pend
        rw [e1, e2, e3]
        simp only [h6]
      · rw [mon_pend_not_due c s hd, mon_pend_not_due c t (fun hh => hd (h6.1 hh))]
    rw [h5, h2, this]; exact h.acc

theorem MonAcc.step {c : Cfg} {clean : Bool} {s : MonSys α} (e : MonEv α)
    (hcl : clean = true → e.noReset = true) (h : MonAcc c clean s) : MonAcc c clean (s.step c e) := by
  cases e <;> simp only [MonSys.step]
  case tick =>
    split
    · rename_i hs
      rw [still_iff] at hs
      refine ⟨fun hh => h.sleep (by simpa only [tick_asleep] using hh),
        fun a hh => h.on a (by simpa only [tick_off] using hh), ?_⟩
      have ha := h.acc
      rw [mon_pend_not_due c s hs.1, List.append_nil] at ha
      simp only
      rw [xfers_append]
      by_cases hx : ((!c.hasValid || s.valid) && (!c.hasReady || s.ready)) = true
      · have e1 : xfers c [some (⟨s.valid, s.ready, s.data⟩ : Sample α)] = s.data.toList := by
          simp only [xfers, hx, if_true, List.flatMap_cons, List.flatMap_nil, List.append_nil]
        rw [e1]
        have hpc : s.mon.pc = .edge ∨ (s.mon.pc = .off ∧ clean = false) := by
          have h1 := h.sleep
          rw [hx] at h1
          cases hpc : s.mon.pc
          · right
            refine ⟨rfl, ?_⟩
            cases hcc : clean
            · rfl
            · exact absurd hpc (h.on hcc)
          · left; rfl
          · exact absurd hpc hs.1
          · simp_all
          · exact absurd hpc hs.2
        rcases hpc with hpc | ⟨hpc, hcc⟩
        · have e2 : MonSys.pend c { s with mon := { s.mon with pc := s.mon.pc.tick }
                                           trace := s.trace ++ [some ⟨s.valid, s.ready, s.data⟩] } = s.data.toList := by
            unfold MonSys.pend
            simp only [hpc, Pc.tick, hx, and_self, if_true]
          rw [e2]
          exact ha.append _
        · subst hcc
          rw [mon_pend_not_due _ _ (by simp [hpc, Pc.tick]), List.append_nil]
          exact ha.trans (List.sublist_append_left _ _)
      · have e2 : MonSys.pend c { s with mon := { s.mon with pc := s.mon.pc.tick }
                                         trace := s.trace ++ [some ⟨s.valid, s.ready, s.data⟩] } = [] := by
          unfold MonSys.pend
          rw [if_neg (fun hh => hx hh.2)]
        have e1 : xfers c [some (⟨s.valid, s.ready, s.data⟩ : Sample α)] = [] := by
          simp only [xfers, if_neg hx, List.flatMap_cons, List.flatMap_nil, List.append_nil]
        rw [e1, e2, List.append_nil, List.append_nil]
        exact ha
    · exact h
  case run =>
    split
    · rename_i hd
      have ha := h.acc
      unfold MonSys.pend at ha
      unfold Mon.run
      simp only [hd, true_and] at ha ⊢
      rw [Bool.and_comm (!c.hasReady || s.ready)]
      split
      · rename_i hx
        rw [if_pos hx] at ha
        refine ⟨by simp, by simp, ?_⟩
        rw [mon_pend_not_due _ _ (by simp), List.append_nil]
        exact ha
      · rename_i hx
        rw [if_neg hx, List.append_nil] at ha
        refine ⟨fun _ => by simpa only [Bool.not_eq_true] using hx, by simp, ?_⟩
        rw [mon_pend_not_due _ _ (by simp), List.append_nil]
        exact ha
    · exact h
  case wake =>
    split
    · rename_i hw
      exact h.same (by simp) rfl rfl (by simp [hw]) (by simp) (by simp)
    · exact h
  case spurious =>
    split
    · rename_i hw
      exact h.same (by simp) rfl rfl (by simp [hw]) (by simp) (by simp)
    · exact h
  case env v r d =>
    split
    · exact h
    · rename_i hd
      by_cases hv : ((v && !s.valid) || (r && !s.ready)) = true
      · rw [if_pos hv]
        exact h.same (fun hp => absurd hp wakeUp_ne) rfl rfl wakeUp_due wakeUp_off.1 (fun hh => absurd (wakeUp_due.1 hh) hd)
      · rw [if_neg hv]
        refine h.same (fun hp => ?_) rfl rfl Iff.rfl (fun hh => hh) (fun hh => absurd hh hd)
        have := h.sleep hp
        revert this hv
        cases c.hasValid <;> cases c.hasReady <;> cases v <;> cases r <;> cases s.valid <;> cases s.ready <;> simp
  case recv =>
    unfold Mon.recv
    split
    · exact h
    · exact h.same h.sleep rfl rfl Iff.rfl (fun hh => hh) (fun _ => ⟨rfl, rfl, rfl⟩)
  case clear => exact h.same h.sleep rfl rfl Iff.rfl (fun hh => hh) (fun _ => ⟨rfl, rfl, rfl⟩)
  case reset v =>
    cases v
    · simp only [Mon.reset, Bool.false_eq_true, if_false]
      split
      · rename_i ho
        exact h.same (by simp) rfl rfl (by simp [ho]) (by simp) (by simp)
      · exact h
    · have : clean = false := by
        cases clean
        · rfl
        · exact absurd (hcl rfl) (by simp [MonEv.noReset])
      subst this
      refine ⟨by simp [Mon.reset], by simp, ?_⟩
      rw [mon_pend_not_due _ _ (by simp [Mon.reset])]
      simp only [if_true, xfers_append]
      have := h.acc.drop_last
      simpa [xfers, Mon.reset] using this

theorem MonSys.exec_acc (c : Cfg) (clean : Bool) (evs : List (MonEv α))
    (hcl : clean = true → ∀ e ∈ evs, e.noReset = true) :
    MonAcc c clean (MonSys.exec c (.reset false :: evs)) :=
  foldl_inv' _ (fun s : MonSys α => MonAcc c clean s) (fun e => clean = true → e.noReset = true)
    (fun _ e hq h => h.step e hq) evs _ (fun e he hc => hcl hc e he)
    ⟨by simp [MonSys.step, Mon.reset], by simp [MonSys.step, Mon.reset],
      by cases clean <;> simp [Acc, xfers, MonSys.pend, MonSys.step, Mon.reset]⟩

theorem MonSys.step_got {c : Cfg} {clean : Bool} {s : MonSys α} (e : MonEv α) (hcl : clean = true → e.noClear = true)
    (h : Acc clean (s.mon.got ++ s.mon.queue) s.mon.captured) :
    Acc clean ((s.step c e).mon.got ++ (s.step c e).mon.queue) (s.step c e).mon.captured := by
  cases e <;> simp only [MonSys.step]
  case tick => split <;> exact h
  case run =>
    split
    · unfold Mon.run
      simp only
      split
      · simp only [← List.append_assoc]
        exact h.append _
      · exact h
    · exact h
  case wake => split <;> exact h
  case spurious => split <;> exact h
  case env v r d => split; exact h; simp only; split <;> exact h
  case recv =>
    unfold Mon.recv
    split
    · exact h
    · rename_i x rest hq
      rw [hq] at h
      simpa using h
  case clear =>
    have : clean = false := by
      cases clean
      · rfl
      · exact absurd (hcl rfl) (by simp [MonEv.noClear])
    subst this
    simpa [Mon.clear] using h.drop_last
  case reset v =>
    unfold Mon.reset
    repeat' split
    all_goals exact h

theorem MonSys.exec_got (c : Cfg) (clean : Bool) (evs : List (MonEv α)) (hcl : clean = true → ∀ e ∈ evs, e.noClear = true) :
    Acc clean ((MonSys.exec c evs).mon.got ++ (MonSys.exec c evs).mon.queue) (MonSys.exec c evs).mon.captured :=
  foldl_inv' _ (fun s : MonSys α => Acc clean (s.mon.got ++ s.mon.queue) s.mon.captured)
    (fun e => clean = true → e.noClear = true) (fun _ e hq h => MonSys.step_got e hq h) evs _ (fun e he hc => hcl hc e he)
    (by cases clean <;> simp [Acc])

/-! ## `idle_event` of a source -/

theorem SrcSys.step_idle {c : Cfg} {s : SrcSys α} (e : SrcEv α) (hcl : e.noClear = true)
    (h : s.src.idleEv = true → s.src.queue = [] ∧ s.src.active = false) :
    (s.step c e).src.idleEv = true → (s.step c e).src.queue = [] ∧ (s.step c e).src.active = false := by
  cases e <;> simp only [SrcSys.step]
  case tick => split <;> exact h
  case run =>
    split
    · unfold Src.run
      simp only
      split
      · split
        · rename_i x rest hq hp
          intro hi
          have := (h hi).1
          rw [hq] at this
          exact absurd this (by simp)
        · split
          · rename_i hq
            exact fun _ => ⟨by simpa using hq, by simp [hq]⟩
          · rename_i hq
            intro hi
            have := (h hi).1
            rw [this] at hq
            exact absurd rfl hq
      · exact h
    · exact h
  case wake => split <;> exact h
  case commit => split <;> exact h
  case env => split <;> exact h
  case send x =>
    unfold Src.send
    split
    · exact h
    · exact fun hi => by simp [Src.put] at hi
  case resume i =>
    unfold Src.resume
    split
    · split
      · exact h
      · exact fun hi => by simp [Src.put] at hi
    · exact h
  case sendNowait x =>
    unfold Src.sendNowait
    split
    · exact h
    · exact fun hi => by simp [Src.put] at hi
  case pause => exact h
  case clear => exact absurd hcl (by simp [SrcEv.noClear])
  case reset v =>
    unfold Src.reset
    split
    · intro hi
      simp only at hi
      rw [Bool.or_eq_true] at hi
      rcases hi with hi | hi
      · exact ⟨(h hi).1, rfl⟩
      · exact ⟨by simpa using hi, rfl⟩
    · split <;> exact h

theorem SrcSys.exec_idle (c : Cfg) (evs : List (SrcEv α)) (hcl : ∀ e ∈ evs, e.noClear = true) :
    (SrcSys.exec c evs).src.idleEv = true → (SrcSys.exec c evs).src.queue = [] ∧ (SrcSys.exec c evs).src.active = false :=
  foldl_inv' _ (fun s : SrcSys α => s.src.idleEv = true → s.src.queue = [] ∧ s.src.active = false)
    (fun e => e.noClear = true) (fun _ e hq h => SrcSys.step_idle e hq h) evs _ hcl (by simp)

/-! ## A source connected to a sink -/

/-- A transfer happens at the clock edge that sees the current signals. -/
def Net.xfer (c : NetCfg) (s : Net α) : Bool := s.src.valid && (!c.hasReady || s.snk.ready)

/-- The item seen by the edge and not yet captured by the sink. -/
def Net.pend (c : NetCfg) (s : Net α) : List α :=
  if s.snk.pc = .due ∧ s.xfer c = true then s.src.data.toList else []

/-- The item on the bus that no edge has transferred yet. -/
def Net.onBus (c : NetCfg) (s : Net α) : List α :=
  if s.src.pc = .due ∧ s.xfer c = true then [] else if s.src.nvalid then s.src.ndata.toList else []

/-- The invariant of a source connected to a sink. -/
structure NetInv (c : NetCfg) (clean : Bool) (s : Net α) : Prop where
  src : SrcInv c.src s.src
  snk : SnkInv c.snk s.snk s.src.valid
  set : s.settled = true → s.src.valid = s.src.nvalid ∧ s.src.data = s.src.ndata ∧ s.snk.ready = s.snk.nready
  due : s.src.pc = .due → s.src.valid = s.src.nvalid ∧ s.src.data = s.src.ndata
  on : clean = true → c.hasReady = false → s.snk.pc ≠ .off
  acc : Acc clean (s.snk.captured ++ s.pend c ++ s.onBus c ++ s.src.queue) s.src.sent
  got : Acc clean (s.snk.got ++ s.snk.queue) s.snk.captured

theorem net_pend_not_due (c : NetCfg) (s : Net α) (h : s.snk.pc ≠ .due) : s.pend c = [] := by
  unfold Net.pend
  rw [if_neg (fun hh => h hh.1)]

theorem net_bus_not_due (c : NetCfg) (s : Net α) (h : s.src.pc ≠ .due) :
    s.onBus c = if s.src.nvalid then s.src.ndata.toList else [] := by
  unfold Net.onBus
  rw [if_neg (fun hh => h hh.1)]


theorem NetInv.same {c : NetCfg} {clean : Bool} {s t : Net α} (h : NetInv c clean s) (hi : SrcInv c.src t.src)
    (hk : SnkInv c.snk t.snk t.src.valid) (h1 : t.settled = false)
    (e1 : t.src.valid = s.src.valid) (e2 : t.src.data = s.src.data) (e3 : t.src.nvalid = s.src.nvalid)
    (e4 : t.src.ndata = s.src.ndata) (e5 : t.src.pc = .due ↔ s.src.pc = .due) (e6 : t.snk.ready = s.snk.ready)
    (e7 : t.snk.pc = .due ↔ s.snk.pc = .due) (e8 : t.snk.pc = .off → s.snk.pc = .off)
    (hacc : Acc clean (t.snk.captured ++ s.pend c ++ s.onBus c ++ t.src.queue) t.src.sent)
    (hgot : Acc clean (t.snk.got ++ t.snk.queue) t.snk.captured) : NetInv c clean t where
  src := hi
  snk := hk
  set := by simp [h1]
  due := by rw [e1, e2, e3, e4, e5]; exact h.due
  on := fun a b hh => h.on a b (e8 hh)
  acc := by
    have hx : t.xfer c = s.xfer c := by unfold Net.xfer; rw [e1, e6]
    have h2 : t.pend c = s.pend c := by
      unfold Net.pend
      rw [hx, e2]
      simp only [e7]
    have h3 : t.onBus c = s.onBus c := by
      unfold Net.onBus
      rw [hx, e3, e4]
      simp only [e5]
    rw [h2, h3]; exact hacc
  got := hgot

theorem NetInv.put {c : NetCfg} {clean : Bool} {s : Net α} (h : NetInv c clean s) (t : Src α) (x : α)
    (hi : SrcInv c.src (t.put x)) (e1 : t.valid = s.src.valid) (e2 : t.data = s.src.data) (e3 : t.nvalid = s.src.nvalid)
    (e4 : t.ndata = s.src.ndata) (e5 : t.pc = s.src.pc) (e6 : t.queue = s.src.queue) (e7 : t.sent = s.src.sent) :
    NetInv c clean { s with src := t.put x, settled := false } :=
  h.same hi (by simp only [Src.put, e1]; exact h.snk) rfl e1 e2 e3 e4 (by simp [put_due, e5]) rfl Iff.rfl (fun hh => hh) (by
    simp only [Src.put, e6, e7]
    rw [← List.append_assoc]
    exact h.acc.put x) h.got

theorem NetInv.tick {c : NetCfg} {clean : Bool} {s : Net α} (h : NetInv c clean s)
    (hs : s.settled = true) (h1 : s.src.pc.still = true) (h2 : s.snk.pc.still = true) :
    NetInv c clean { s with src := { s.src with pc := s.src.pc.tick }, snk := { s.snk with pc := s.snk.pc.tick },
                            settled := false } := by
  rw [still_iff] at h1 h2
  obtain ⟨e1, e2, e3⟩ := h.set hs
  refine ⟨h.src.tick, h.snk.tick e3, by simp, fun _ => ⟨e1, e2⟩, fun a b hh => h.on a b (by simpa only [tick_off] using hh), ?_, h.got⟩
  have ha := h.acc
  rw [net_pend_not_due c s h2.1, net_bus_not_due c s h1.1, List.append_nil] at ha
  simp only
  by_cases hx : s.xfer c = true
  · have hx' := hx
    unfold Net.xfer at hx'
    have hval : s.src.nvalid = true := by rw [← e1]; simp at hx'; exact hx'.1
    have hpc : s.src.pc = .edge := by
      have := h.src.quiet
      rw [hval] at this
      cases hpc : s.src.pc <;> simp_all
    have hb : Net.onBus c { s with src := { s.src with pc := s.src.pc.tick }, snk := { s.snk with pc := s.snk.pc.tick },
                                   settled := false } = [] := by
      unfold Net.onBus Net.xfer
      simp only [hpc, Pc.tick, hx', and_self, if_true]
    rw [hb, List.append_nil]
    rw [hval, if_pos rfl] at ha
    have hk : s.snk.pc = .edge ∨ (s.snk.pc = .off ∧ clean = false) := by
      have g1 := h.snk.sleep
      have g2 := h.snk.off
      simp only [NetCfg.snk, Bool.not_true, Bool.false_or] at g1
      rw [← e3, hx'] at g1
      cases hk : s.snk.pc
      · right
        refine ⟨rfl, ?_⟩
        cases hr : c.hasReady
        · cases hcc : clean
          · rfl
          · exact absurd hk (h.on hcc hr)
        · rw [hr, e3, g2 hk] at hx'; simp at hx'
      · left; rfl
      · exact absurd hk h2.1
      · simp_all
      · exact absurd hk h2.2
    rcases hk with hk | ⟨hk, hcc⟩
    · have hp : Net.pend c { s with src := { s.src with pc := s.src.pc.tick }, snk := { s.snk with pc := s.snk.pc.tick },
                                    settled := false } = s.src.data.toList := by
        unfold Net.pend Net.xfer
        simp only [hk, Pc.tick, hx', and_self, if_true]
      rw [hp, e2]
      exact ha
    · subst hcc
      rw [net_pend_not_due _ _ (by simp [hk, Pc.tick]), List.append_nil]
      exact ha.drop_mid
  · have hb : Net.onBus c { s with src := { s.src with pc := s.src.pc.tick }, snk := { s.snk with pc := s.snk.pc.tick },
                                   settled := false } = if s.src.nvalid then s.src.ndata.toList else [] := by
      unfold Net.onBus
      rw [if_neg (fun hh => hx hh.2)]
    have hp : Net.pend c { s with src := { s.src with pc := s.src.pc.tick }, snk := { s.snk with pc := s.snk.pc.tick },
                                  settled := false } = [] := by
      unfold Net.pend
      rw [if_neg (fun hh => hx hh.2)]
    rw [hb, hp, List.append_nil]
    exact ha

theorem run_due {c : Cfg} (s : Src α) (r : Bool) : (s.run c r).pc ≠ .due := by
  unfold Src.run
  simp only
  repeat' split
  all_goals simp

theorem run_signals {c : Cfg} (s : Src α) (r : Bool) : (s.run c r).valid = s.valid ∧ (s.run c r).data = s.data := by
  unfold Src.run
  simp only
  repeat' split
  all_goals simp [Src.setDeq]

theorem NetInv.srcRun {c : NetCfg} {clean : Bool} {s : Net α} (h : NetInv c clean s) (hd : s.src.pc = .due) :
    NetInv c clean { s with src := s.src.run c.src s.snk.ready, settled := false } := by
  obtain ⟨e1, e2⟩ := h.due hd
  obtain ⟨r1, r2⟩ := run_signals (c := c.src) s.src s.snk.ready
  have ha := h.acc
  refine ⟨h.src.run rfl _, by simp only [r1]; exact h.snk, by simp, fun hh => absurd hh (run_due _ _), h.on, ?_, h.got⟩
  have hp : Net.pend c { s with src := s.src.run c.src s.snk.ready, settled := false } = s.pend c := by
    unfold Net.pend Net.xfer
    simp only [r1, r2]
  rw [hp, net_bus_not_due _ _ (by exact run_due _ _)]
  simp only
  unfold Net.onBus at ha
  simp only [hd, true_and] at ha
  unfold Src.run
  simp only [NetCfg.src, Bool.not_true, Bool.false_or, if_true]
  by_cases hcond : ((!c.hasReady || s.snk.ready) && s.src.valid || !s.src.valid) = true
  · rw [if_pos hcond]
    have ha' : Acc clean (s.snk.captured ++ s.pend c ++ s.src.queue) s.src.sent := by
      by_cases hx : s.xfer c = true
      · rw [if_pos hx, List.append_nil] at ha; exact ha
      · rw [if_neg hx] at ha
        have : s.src.nvalid = false := by
          rw [← e1]
          unfold Net.xfer at hx
          cases hval : s.src.valid
          · rfl
          · rw [hval] at hcond hx; simp_all
        rw [this] at ha
        simpa using ha
    split
    · rename_i x rest hq hpz
      rw [hq] at ha'
      simpa [Src.setDeq] using ha'
    · split <;> simpa using ha'
  · rw [if_neg hcond]
    have hx : ¬ s.xfer c = true := by
      intro hx; apply hcond; unfold Net.xfer at hx; rw [Bool.and_comm] at hx; rw [hx]; rfl
    rw [if_neg hx] at ha
    exact ha

theorem NetInv.snkRun {c : NetCfg} {clean : Bool} {s : Net α} (h : NetInv c clean s) (hd : s.snk.pc = .due) :
    NetInv c clean { s with snk := s.snk.run c.snk s.src.valid s.src.data, settled := false } := by
  have ha := h.acc
  refine ⟨h.src, h.snk.run hd _, by simp, h.due, fun _ _ => finish_off, ?_, ?_⟩
  · have hx : Net.xfer c { s with snk := s.snk.run c.snk s.src.valid s.src.data, settled := false } = s.xfer c := by
      have : (s.snk.run c.snk s.src.valid s.src.data).ready = s.snk.ready := by
        unfold Snk.run
        rw [finish_ready]
        unfold Snk.capture
        simp only
        split <;> rfl
      unfold Net.xfer
      simp only [this]
    have hb : Net.onBus c { s with snk := s.snk.run c.snk s.src.valid s.src.data, settled := false } = s.onBus c := by
      unfold Net.onBus
      rw [hx]
    rw [hb, net_pend_not_due _ _ (by exact finish_due), List.append_nil]
    simp only [Snk.run, finish_captured]
    unfold Net.pend Net.xfer at ha
    unfold Snk.capture
    simp only [hd, true_and, NetCfg.snk, Bool.not_true, Bool.false_or] at ha ⊢
    rw [Bool.and_comm (!c.hasReady || s.snk.ready)]
    split
    · rename_i hx
      rw [if_pos hx] at ha
      exact ha
    · rename_i hx
      rw [if_neg hx, List.append_nil] at ha
      exact ha
  · obtain ⟨h1, l, h2, h3⟩ := run_got c.snk s.snk s.src.valid s.src.data
    simp only
    rw [h1, h2, h3, ← List.append_assoc]
    exact h.got.append l

theorem NetInv.commit {c : NetCfg} {clean : Bool} {s : Net α} (h : NetInv c clean s)
    (h1 : s.src.pc.still = true) (h2 : s.snk.pc.still = true) : NetInv c clean (s.step c .commit) := by
  simp only [Net.step]
  rw [if_pos (by rw [h1, h2]; rfl)]
  rw [still_iff] at h1 h2
  have ha := h.acc
  rw [net_pend_not_due c s h2.1, net_bus_not_due c s h1.1] at ha
  by_cases hv : ((s.src.nvalid && !s.src.valid) || (s.snk.nready && !s.snk.ready)) = true
  · simp only [hv, if_true]
    refine ⟨h.src.commit, h.snk.commit.setWake _, fun _ => ⟨rfl, rfl, rfl⟩, fun _ => ⟨rfl, rfl⟩,
      fun a b hh => h.on a b (setWake_off.1 hh), ?_, h.got⟩
    rw [net_pend_not_due _ _ (by exact fun hh => h2.1 (setWake_due.1 hh)), net_bus_not_due _ _ (by exact h1.1)]
    exact ha
  · simp only [hv, Bool.false_eq_true, if_false]
    refine ⟨h.src.commit, ?_, fun _ => ⟨rfl, rfl, rfl⟩, fun _ => ⟨rfl, rfl⟩, h.on, ?_, h.got⟩
    · refine { h.snk.commit with sleep := fun hp => ?_ }
      have := h.snk.sleep hp
      revert this hv
      simp only [NetCfg.snk]
      cases s.src.nvalid <;> cases s.src.valid <;> simp
    · rw [net_pend_not_due _ _ (by exact h2.1), net_bus_not_due _ _ (by exact h1.1)]
      exact ha

theorem NetInv.step {c : NetCfg} {clean : Bool} {s : Net α} (e : NetEv α)
    (hcl : clean = true → e.clean = true) (h : NetInv c clean s) : NetInv c clean (s.step c e) := by
  have dirty : e.clean = false → clean = false := by
    intro he
    cases clean
    · rfl
    · rw [hcl rfl] at he; exact absurd he (by simp)
  cases e
  case commit =>
    by_cases hs : (s.src.pc.still && s.snk.pc.still) = true
    · rw [Bool.and_eq_true] at hs
      exact h.commit hs.1 hs.2
    · simp only [Net.step, if_neg hs]; exact h
  all_goals simp only [Net.step]
  case tick =>
    split
    · rename_i hs
      simp only [Bool.and_eq_true] at hs
      exact h.tick hs.1.1 hs.1.2 hs.2
    · exact h
  case srcRun => split; (rename_i hd; exact h.srcRun hd); exact h
  case snkRun => split; (rename_i hd; exact h.snkRun hd); exact h
  case srcWake =>
    split
    · rename_i hw
      exact h.same h.src.wake h.snk rfl rfl rfl rfl rfl (by simp [hw]) rfl Iff.rfl (fun hh => hh) h.acc h.got
    · exact h
  case snkWake =>
    split
    · rename_i hw
      exact h.same h.src h.snk.top rfl rfl rfl rfl rfl Iff.rfl rfl (by simp [Snk.top, hw]) (by simp [Snk.top]) h.acc h.got
    · exact h
  case snkSpurious =>
    split
    · rename_i hw
      exact h.same h.src h.snk.top rfl rfl rfl rfl rfl Iff.rfl rfl (by simp [Snk.top, hw]) (by simp [Snk.top]) h.acc h.got
    · exact h
  case send x =>
    have hi := h.src.send x
    unfold Src.send at hi ⊢
    split
    · rename_i hf
      rw [if_pos hf] at hi
      exact h.same hi h.snk rfl rfl rfl rfl rfl Iff.rfl rfl Iff.rfl (fun hh => hh) h.acc h.got
    · rename_i hf
      rw [if_neg hf] at hi
      exact h.put s.src x hi rfl rfl rfl rfl rfl rfl rfl
  case resume i =>
    have hi' := h.src
    unfold Src.resume
    split
    · split
      · exact h.same { hi' with wait := fun _ _ => by assumption } h.snk rfl rfl rfl rfl rfl Iff.rfl rfl Iff.rfl
          (fun hh => hh) h.acc h.got
      · rename_i hf
        exact h.put _ _ ((hi'.dropWaiter i).put (by simpa using hf) _) rfl rfl rfl rfl rfl rfl rfl
    · exact h.same hi' h.snk rfl rfl rfl rfl rfl Iff.rfl rfl Iff.rfl (fun hh => hh) h.acc h.got
  case sendNowait x =>
    have hi := h.src.sendNowait x
    unfold Src.sendNowait at hi ⊢
    split
    · exact h.same h.src h.snk rfl rfl rfl rfl rfl Iff.rfl rfl Iff.rfl (fun hh => hh) h.acc h.got
    · rename_i hf
      rw [if_neg hf] at hi
      exact h.put s.src x hi rfl rfl rfl rfl rfl rfl rfl
  case srcPause v =>
    exact h.same (h.src.setPause v) h.snk rfl rfl rfl rfl rfl Iff.rfl rfl Iff.rfl (fun hh => hh) h.acc h.got
  case srcClear =>
    have := dirty rfl
    subst this
    exact h.same h.src.clear h.snk rfl rfl rfl rfl rfl Iff.rfl rfl Iff.rfl (fun hh => hh) h.acc.drop_last h.got
  case srcReset v =>
    cases v
    · have hi := h.src.reset false
      simp only [Src.reset, Bool.false_eq_true, if_false] at hi ⊢
      split
      · rename_i ho
        rw [if_pos ho] at hi
        exact h.same hi h.snk rfl rfl rfl rfl rfl (by simp [ho]) rfl Iff.rfl (fun hh => hh) h.acc h.got
      · exact h.same h.src h.snk rfl rfl rfl rfl rfl Iff.rfl rfl Iff.rfl (fun hh => hh) h.acc h.got
    · have := dirty rfl
      subst this
      refine ⟨h.src.reset true, h.snk, by simp, by simp [Src.reset], by simp, ?_, h.got⟩
      have hb : (⟨s.src.reset true, s.snk, false⟩ : Net α).onBus c = [] := by
        rw [net_bus_not_due]
        · simp [Src.reset]
        · simp [Src.reset]
      have hp : (⟨s.src.reset true, s.snk, false⟩ : Net α).pend c = s.pend c := by
        simp [Net.pend, Net.xfer, Src.reset]
      rw [hb, hp, List.append_nil]
      exact h.acc.drop_mid
  case recv =>
    obtain ⟨f1, f2, f3, f4, f5, f6⟩ := recv_facts s.snk
    refine h.same h.src h.snk.recv rfl rfl rfl rfl rfl Iff.rfl f4 f1 f2.1 ?_ ?_
    · simp only [f3]; exact h.acc
    · simp only [f3, f6]; exact h.got
  case snkPause v =>
    obtain ⟨f1, f2, f3, f4, f5, f6, f7⟩ := setPause_facts s.snk v
    refine h.same h.src (h.snk.setPause v) rfl rfl rfl rfl rfl Iff.rfl f4 f1 f2.1 ?_ ?_
    · simp only [f3]; exact h.acc
    · simp only [f3, f6, f7]; exact h.got
  case snkClear =>
    have := dirty rfl
    subst this
    exact h.same h.src h.snk.clear rfl rfl rfl rfl rfl Iff.rfl rfl Iff.rfl (fun hh => hh) h.acc h.got.drop_last
  case snkReset v =>
    cases v
    · have hi := h.snk.reset false
      simp only [Snk.reset, Bool.false_eq_true, if_false] at hi ⊢
      split
      · rename_i ho
        rw [if_pos ho] at hi
        exact h.same h.src hi rfl rfl rfl rfl rfl Iff.rfl rfl (by simp [ho]) (by simp) h.acc h.got
      · exact h.same h.src h.snk rfl rfl rfl rfl rfl Iff.rfl rfl Iff.rfl (fun hh => hh) h.acc h.got
    · have := dirty rfl
      subst this
      refine ⟨h.src, h.snk.reset true, by simp, h.due, by simp, ?_, h.got⟩
      have hb : (⟨s.src, s.snk.reset true, false⟩ : Net α).onBus c = s.onBus c := by
        simp [Net.onBus, Net.xfer, Snk.reset]
      rw [hb, net_pend_not_due _ _ (by simp [Snk.reset]), List.append_nil]
      have ha := h.acc
      rw [List.append_assoc] at ha
      have := ha.drop_mid
      rw [← List.append_assoc] at this
      exact this

theorem Net.exec_inv (c : NetCfg) (clean : Bool) (evs : List (NetEv α))
    (hcl : clean = true → ∀ e ∈ evs, e.clean = true) :
    NetInv c clean (Net.exec c (.snkReset false :: evs)) :=
  foldl_inv' _ (fun s : Net α => NetInv c clean s) (fun e => clean = true → e.clean = true)
    (fun _ e hq h => h.step e hq) evs _ (fun e he hc => hcl hc e he)
    ⟨SrcInv.init c.src, (SnkInv.init c.snk false).reset false, by simp [Net.step], by simp [Net.step],
      by simp [Net.step, Snk.reset], by cases clean <;> simp [Acc, Net.pend, Net.onBus, Net.step, Snk.reset],
      by cases clean <;> simp [Acc, Net.step, Snk.reset]⟩


/-! ## Progress -/

theorem finish_woken {c : Cfg} {s : Snk α} {v : Bool} : (s.finish c v).pc ≠ .woken := by
  unfold Snk.finish
  simp only
  repeat' split
  all_goals simp [Snk.top]

theorem finish_pause {c : Cfg} {s : Snk α} {v : Bool} : (s.finish c v).pause = s.pause := by
  unfold Snk.finish
  simp only
  repeat' split
  all_goals simp [Snk.top]

theorem finish_sample {c : Cfg} {s : Snk α} {v : Bool} (hp : (s.finish c v).pc = .edge) :
    (s.finish c v).pauseSample = s.pause := by
  revert hp
  unfold Snk.finish
  simp only
  repeat' split
  all_goals simp [Snk.top]

theorem finish_nready {c : Cfg} {s : Snk α} {v : Bool} (hr : c.hasReady = true) :
    (s.finish c v).nready = !(isFull c.limit s.queue.length || s.pauseSample) := by
  unfold Snk.finish
  simp only [hr, if_true]
  repeat' split
  all_goals simp [Snk.top]

theorem run_still {c : Cfg} {s : Snk α} {v : Bool} {d : Option α} : (s.run c v d).pc.still = true := by
  rw [still_iff]; exact ⟨finish_due, finish_woken⟩

/-- What holds of a running, unpaused sink once it has seen a whole cycle unpaused. -/
structure SnkGood (c : Cfg) (s : Snk α) : Prop where
  pause : s.pause = false
  pc : s.pc = .edge ∨ s.pc = .asleep ∨ s.pc = .woken
  sample : s.pc = .edge → s.pauseSample = false
  sleep : s.pc = .asleep → s.nready = !(isFull c.limit s.queue.length)

theorem run_good {c : Cfg} (hr : c.hasReady = true) {s : Snk α} {v : Bool} {d : Option α} (hp : s.pause = false) :
    SnkGood c (s.run c v d) := by
  have hcp : (s.capture c v d).pause = s.pause := by unfold Snk.capture; simp only; split <;> rfl
  have h1 : (s.run c v d).pause = false := by unfold Snk.run; rw [finish_pause, hcp, hp]
  refine ⟨h1, ?_, fun he => ?_, fun ha => ?_⟩
  · cases h : (s.run c v d).pc
    · exact absurd h finish_off
    · left; rfl
    · exact absurd h finish_due
    · right; left; rfl
    · exact absurd h finish_woken
  · rw [← hp, ← hcp]; exact finish_sample he
  · have := SnkLive.finish (c := c) (s := s.capture c v d) (v := v) ha hr
    rw [Snk.run] at h1 ⊢
    rw [this, h1, Bool.or_false]

theorem run_nready {c : Cfg} (hr : c.hasReady = true) {s : Snk α} {v : Bool} {d : Option α} (hp : s.pauseSample = false) :
    (s.run c v d).nready = !(isFull c.limit (s.run c v d).queue.length) := by
  have hcp : (s.capture c v d).pauseSample = s.pauseSample := by unfold Snk.capture; simp only; split <;> rfl
  unfold Snk.run
  rw [finish_nready hr, finish_queue, hcp, hp, Bool.or_false]

theorem still_edge : Pc.edge.still = true := rfl
theorem still_asleep : Pc.asleep.still = true := rfl
theorem still_due : Pc.due.still = false := rfl
theorem tick_of_edge : Pc.edge.tick = .due := rfl
theorem tick_of_asleep : Pc.asleep.tick = .asleep := rfl

/-- The sink after its writes took effect. -/
def Snk.settle (s : Snk α) : Snk α :=
  if s.nready && !s.ready then ({ s with ready := s.nready } : Snk α).setWake else { s with ready := s.nready }

theorem settle_facts (s : Snk α) :
    s.settle.pause = s.pause ∧ s.settle.queue = s.queue ∧ s.settle.nready = s.nready ∧ s.settle.ready = s.nready ∧
      s.settle.pauseSample = s.pauseSample ∧ (s.settle.pc = s.pc ∨ s.pc = .asleep ∧ s.settle.pc = .woken) := by
  unfold Snk.settle
  split
  · refine ⟨rfl, rfl, rfl, rfl, rfl, ?_⟩
    simp only [Snk.setWake]
    cases s.pc <;> simp [Pc.wakeUp]
  · exact ⟨rfl, rfl, rfl, rfl, rfl, Or.inl rfl⟩

theorem SnkSys.commit_settle {c : Cfg} {s : SnkSys α} (h : s.snk.pc.still = true) :
    s.step c .commit = { s with snk := s.snk.settle, settled := true } := by
  simp only [SnkSys.step, h, if_true, Snk.settle]

theorem SnkSys.commit_busy {c : Cfg} {s : SnkSys α} (h : s.snk.pc.still = false) : s.step c .commit = s := by
  simp only [SnkSys.step, h, Bool.false_eq_true, if_false]

theorem SnkSys.tail_edge {c : Cfg} {s : SnkSys α} (h : s.snk.pc = .edge) :
    ∃ s' : SnkSys α, [SnkEv.commit, .tick, .run, .commit].foldl (SnkSys.step c) s = s' ∧
      s'.snk = (({ s.snk.settle with pc := .due } : Snk α).run c s.valid s.data).settle := by
  refine ⟨_, rfl, ?_⟩
  have hp : s.snk.settle.pc = .edge := by
    rcases (settle_facts s.snk).2.2.2.2.2 with hh | ⟨hh, _⟩
    · rw [hh, h]
    · rw [h] at hh; exact absurd hh (by simp)
  simp only [List.foldl_cons, List.foldl_nil]
  rw [SnkSys.commit_settle (s := s) (by rw [h]; rfl)]
  simp only [SnkSys.step, hp, still_edge, tick_of_edge, if_true, Bool.and_self]
  rw [if_pos run_still]; rfl

theorem SnkSys.tail_asleep {c : Cfg} {s : SnkSys α} (h : s.snk.pc = .asleep) :
    ∃ s' : SnkSys α, [SnkEv.commit, .tick, .run, .commit].foldl (SnkSys.step c) s = s' ∧
      s'.snk = s.snk.settle ∧ s'.valid = s.valid ∧ s'.data = s.data := by
  refine ⟨_, rfl, ?_⟩
  simp only [List.foldl_cons, List.foldl_nil]
  rw [SnkSys.commit_settle (s := s) (by rw [h]; rfl)]
  by_cases hr : (s.snk.nready && !s.snk.ready) = true
  · simp [SnkSys.step, Snk.settle, hr, Snk.setWake, h, Pc.wakeUp, Pc.still]
  · simp [SnkSys.step, Snk.settle, hr, h, Pc.still, Pc.tick]

theorem SnkSys.tail_due {c : Cfg} {s : SnkSys α} (h : s.snk.pc = .due) :
    ∃ s' : SnkSys α, [SnkEv.commit, .tick, .run, .commit].foldl (SnkSys.step c) s = s' ∧
      s'.snk = (s.snk.run c s.valid s.data).settle := by
  refine ⟨_, rfl, ?_⟩
  simp only [List.foldl_cons, List.foldl_nil, SnkSys.step, h, still_due, Bool.and_false, Bool.false_eq_true, if_false, if_true]
  rw [if_pos run_still]; rfl

/-- The start of a cycle: only the scheduling state of the sink changes. -/
theorem SnkSys.cycle_head (c : Cfg) (s : SnkSys α) (v : Bool) (d : α) (hoff : s.snk.pc ≠ .off) :
    ∃ s' : SnkSys α, s.cycle c v d = [SnkEv.commit, .tick, .run, .commit].foldl (SnkSys.step c) s' ∧
      s'.snk.pause = s.snk.pause ∧ s'.snk.queue = s.snk.queue ∧ s'.snk.nready = s.snk.nready ∧
      (s'.snk.pc = .due ∧ s.snk.pc = .due ∨ s'.snk.pc = .asleep ∧ s.snk.pc = .asleep ∨
       s'.snk.pc = .edge ∧ (s'.snk.pauseSample = s.snk.pause ∨ s.snk.pc = .edge ∧ s'.snk.pauseSample = s.snk.pauseSample)) := by
  refine ⟨_, rfl, ?_⟩
  have hc : s.snk.pc = .edge ∨ s.snk.pc = .due ∨ s.snk.pc = .asleep ∨ s.snk.pc = .woken := by
    cases h : s.snk.pc <;> simp_all
  simp only [SnkSys.step]
  rcases hc with h | h | h | h
  · by_cases hv : (v && !s.valid) = true
    · simp [hv, Snk.setWake, h, Pc.wakeUp]
    · simp [hv, h]
  · simp [h]
  · by_cases hv : (v && !s.valid) = true
    · simp [hv, Snk.setWake, h, Pc.wakeUp, Snk.top]
    · simp [hv, h]
  · by_cases hv : (v && !s.valid) = true
    · simp [hv, Snk.setWake, h, Pc.wakeUp, Snk.top]
    · simp [hv, h, Snk.top]

theorem SnkGood.settle {c : Cfg} {s : Snk α} (h : SnkGood c s) : SnkGood c s.settle := by
  obtain ⟨h1, h2, h3, _, h5, h6⟩ := settle_facts s
  refine ⟨h1.trans h.pause, ?_, fun he => ?_, fun ha => ?_⟩
  · rcases h6 with h6 | ⟨_, h6⟩
    · rw [h6]; exact h.pc
    · exact Or.inr (Or.inr h6)
  · rcases h6 with h6 | ⟨_, h6⟩
    · rw [h5]; exact h.sample (h6 ▸ he)
    · rw [h6] at he; exact absurd he (by simp)
  · rcases h6 with h6 | ⟨_, h6⟩
    · rw [h3, h2]; exact h.sleep (h6 ▸ ha)
    · rw [h6] at ha; exact absurd ha (by simp)

theorem SnkSys.cycle_good {c : Cfg} (hr : c.hasReady = true) {s : SnkSys α} (v : Bool) (d : α) (hoff : s.snk.pc ≠ .off)
    (hp : s.snk.pause = false) (hl : SnkLive c s.snk) : SnkGood c (s.cycle c v d).snk := by
  obtain ⟨s', h0, h1, h2, h3, h4⟩ := SnkSys.cycle_head c s v d hoff
  rw [h0]
  rcases h4 with ⟨h4, _⟩ | ⟨h4, h5⟩ | ⟨h4, _⟩
  · obtain ⟨t, e1, e2⟩ := SnkSys.tail_due (c := c) h4
    rw [e1, e2]
    exact (run_good (c := c) hr (s := s'.snk) (v := s'.valid) (d := s'.data) (by rw [h1, hp])).settle
  · obtain ⟨t, e1, e2, _⟩ := SnkSys.tail_asleep (c := c) h4
    rw [e1, e2]
    refine SnkGood.settle ⟨by rw [← hp, ← h1], Or.inr (Or.inl h4), fun he => ?_, fun _ => ?_⟩
    · rw [h4] at he; exact absurd he (by simp)
    · rw [h2, h3, hl h5 hr, hp, Bool.or_false]
  · obtain ⟨t, e1, e2⟩ := SnkSys.tail_edge (c := c) h4
    rw [e1, e2]
    exact (run_good (c := c) hr (s := { s'.snk.settle with pc := .due }) (v := s'.valid) (d := s'.data)
      (by simp only; rw [(settle_facts s'.snk).1, h1, hp])).settle

theorem SnkSys.cycle_ready {c : Cfg} (hr : c.hasReady = true) {s : SnkSys α} (v : Bool) (d : α)
    (hg : SnkGood c s.snk) : (s.cycle c v d).snk.ready = !(isFull c.limit (s.cycle c v d).snk.queue.length) := by
  obtain ⟨s', h0, h1, h2, h3, h4⟩ := SnkSys.cycle_head c s v d (by rcases hg.pc with h | h | h <;> simp [h])
  rw [h0]
  rcases h4 with ⟨_, h4⟩ | ⟨h4, h5⟩ | ⟨h4, h5⟩
  · rcases hg.pc with h | h | h <;> simp [h] at h4
  · obtain ⟨t, e1, e2, _⟩ := SnkSys.tail_asleep (c := c) h4
    obtain ⟨_, f2, _, f4, _⟩ := settle_facts s'.snk
    rw [e1, e2, f4, f2, h2, h3]
    exact hg.sleep h5
  · obtain ⟨t, e1, e2⟩ := SnkSys.tail_edge (c := c) h4
    rw [e1, e2]
    obtain ⟨_, f2, _, f4, _⟩ := settle_facts (({ s'.snk.settle with pc := .due } : Snk α).run c s'.valid s'.data)
    rw [f4, f2]
    refine run_nready hr ?_
    simp only
    rw [(settle_facts s'.snk).2.2.2.2.1]
    rcases h5 with h5 | ⟨h5, h6⟩
    · rw [h5, hg.pause]
    · rw [h6, hg.sample h5]

end Verif.Stream
