import Verif.Proof.StreamNet

/-!
# Progress of a source connected to a sink
-/

namespace Verif.Stream

variable {α : Type}

theorem Net.step_live {c : NetCfg} {s : Net α} (e : NetEv α) (hcl : e.clean = true) (h : SnkLive c.snk s.snk) :
    SnkLive c.snk (s.step c e).snk := by
  cases e <;> simp only [Net.step]
  case tick =>
    split
    · exact fun hp hr => h (by simpa only [tick_asleep] using hp) hr
    · exact h
  case snkRun => split; (exact SnkLive.finish); exact h
  case srcRun => split <;> exact h
  case srcWake => split <;> exact h
  case snkWake => split; (intro hp; simp [Snk.top] at hp); exact h
  case snkSpurious => split; (intro hp; simp [Snk.top] at hp); exact h
  case commit =>
    split
    · simp only
      split
      · exact fun hp => absurd hp wakeUp_ne
      · exact h
    · exact h
  case recv =>
    unfold Snk.recv
    split
    · exact h
    · exact fun hp => absurd hp wakeUp_ne
  case snkPause v =>
    unfold Snk.setPause
    simp only
    split
    · exact fun hp => absurd hp wakeUp_ne
    · rename_i hh
      have : s.snk.pause = v := Classical.byContradiction fun hne => hh hne
      subst this
      exact h
  case snkClear => exact absurd hcl (by simp [NetEv.clean])
  case snkReset v =>
    unfold Snk.reset
    repeat' split
    · exact fun hp => by simp at hp
    · exact fun hp => by simp at hp
    · exact h
  all_goals exact h

theorem Net.exec_live (c : NetCfg) (evs : List (NetEv α)) (hcl : ∀ e ∈ evs, e.clean = true) :
    SnkLive c.snk (Net.exec c evs).snk :=
  foldl_inv' _ (fun s : Net α => SnkLive c.snk s.snk) (fun e => e.clean = true)
    (fun _ e hq h => Net.step_live e hq h) evs _ hcl (fun hp => by simp at hp)

/-- The source after the edge of a cycle. -/
def Net.srcAtEdge (s : Net α) : Src α :=
  { s.src with pc := if s.src.pc = .asleep then .asleep else .due, valid := s.src.nvalid, data := s.src.ndata }

/-- What the start of a cycle does to the sink. -/
structure AtEdge (s k : Snk α) : Prop where
  pc : k.pc = .due ∨ k.pc = .asleep ∧ s.pc = .asleep
  ready : k.ready = s.nready
  nready : k.nready = s.nready
  queue : k.queue = s.queue
  captured : k.captured = s.captured
  pause : k.pause = s.pause
  sample : k.pc = .due → k.pauseSample = s.pause ∨ s.pc = .edge ∧ k.pauseSample = s.pauseSample

theorem Net.head (c : NetCfg) (s : Net α) (h1 : s.src.pc ≠ .off) (h2 : s.src.pc ≠ .due) (h3 : s.snk.pc ≠ .off)
    (h4 : s.snk.pc ≠ .due) :
    ∃ k : Snk α, cycleHead.foldl (Net.step c) s = ⟨s.srcAtEdge, k, false⟩ ∧ AtEdge s.snk k := by
  have hs : s.src.pc = .edge ∨ s.src.pc = .asleep ∨ s.src.pc = .woken := by
    cases h : s.src.pc <;> simp_all
  have hk : s.snk.pc = .edge ∨ s.snk.pc = .asleep ∨ s.snk.pc = .woken := by
    cases h : s.snk.pc <;> simp_all
  refine ⟨(cycleHead.foldl (Net.step c) s).snk, ?_, ?_⟩
  · have : ∀ t : Net α, t = ⟨t.src, t.snk, t.settled⟩ := fun _ => rfl
    rw [this (cycleHead.foldl (Net.step c) s)]
    congr 1
    · simp only [cycleHead, List.foldl_cons, List.foldl_nil, Net.step, Net.srcAtEdge]
      by_cases hv : ((s.src.nvalid && !s.src.valid) || (s.snk.nready && !s.snk.ready)) = true
      · rcases hs with h | h | h <;> rcases hk with h' | h' | h' <;>
          simp [h, h', hv, Pc.still, Pc.tick, Snk.top, Snk.setWake, Pc.wakeUp]
      · rcases hs with h | h | h <;> rcases hk with h' | h' | h' <;>
          simp [h, h', hv, Pc.still, Pc.tick, Snk.top]
    · simp only [cycleHead, List.foldl_cons, List.foldl_nil, Net.step]
      by_cases hv : ((s.src.nvalid && !s.src.valid) || (s.snk.nready && !s.snk.ready)) = true
      · rcases hs with h | h | h <;> rcases hk with h' | h' | h' <;>
          simp [h, h', hv, Pc.still, Pc.tick, Snk.top, Snk.setWake, Pc.wakeUp]
      · rcases hs with h | h | h <;> rcases hk with h' | h' | h' <;>
          simp [h, h', hv, Pc.still, Pc.tick, Snk.top]
  · simp only [cycleHead, List.foldl_cons, List.foldl_nil, Net.step]
    by_cases hv : ((s.src.nvalid && !s.src.valid) || (s.snk.nready && !s.snk.ready)) = true
    · rcases hs with h | h | h <;> rcases hk with h' | h' | h' <;> constructor <;>
        simp [h, h', hv, Pc.still, Pc.tick, Snk.top, Snk.setWake, Pc.wakeUp]
    · rcases hs with h | h | h <;> rcases hk with h' | h' | h' <;> constructor <;>
        simp [h, h', hv, Pc.still, Pc.tick, Snk.top]

theorem srun_woken {c : Cfg} (s : Src α) (r : Bool) : (s.run c r).pc.still = true := by
  rw [still_iff]
  unfold Src.run
  simp only
  repeat' split
  all_goals simp

/-- The source after its coroutine has run, if it was due. -/
def srcRan (c : NetCfg) (a : Src α) (k : Snk α) : Src α := if a.pc = .due then a.run c.src k.ready else a
/-- The sink after its coroutine has run, if it was due. -/
def snkRan (c : NetCfg) (a : Src α) (k : Snk α) : Snk α := if k.pc = .due then k.run c.snk a.valid a.data else k

theorem snk_run_ready (c : Cfg) (k : Snk α) (v : Bool) (d : Option α) : (k.run c v d).ready = k.ready := by
  unfold Snk.run
  rw [finish_ready]
  unfold Snk.capture
  simp only
  split <;> rfl

theorem Net.tail (c : NetCfg) (b : Bool) (a : Src α) (k : Snk α) (ha : a.pc = .due ∨ a.pc = .asleep)
    (hk : k.pc = .due ∨ k.pc = .asleep) :
    (cycleTail b).foldl (Net.step c) ⟨a, k, false⟩ =
      ⟨{ srcRan c a k with valid := (srcRan c a k).nvalid, data := (srcRan c a k).ndata },
       if ((srcRan c a k).nvalid && !a.valid) || ((snkRan c a k).nready && !k.ready) then ({ snkRan c a k with ready := (snkRan c a k).nready } : Snk α).setWake
         else { snkRan c a k with ready := (snkRan c a k).nready }, true⟩ := by
  have e1 : (srcRan c a k).pc.still = true := by
    unfold srcRan
    split
    · exact srun_woken _ _
    · rcases ha with h | h
      · contradiction
      · rw [h]; rfl
  have e2 : (snkRan c a k).pc.still = true := by
    unfold snkRan
    split
    · exact run_still
    · rcases hk with h | h
      · contradiction
      · rw [h]; rfl
  have e3 : (srcRan c a k).valid = a.valid ∧ (srcRan c a k).data = a.data := by
    unfold srcRan
    split
    · exact run_signals _ _
    · exact ⟨rfl, rfl⟩
  have e4 : (snkRan c a k).ready = k.ready := by
    unfold snkRan
    split
    · exact snk_run_ready _ _ _ _
    · rfl
  have key : ((if b then [NetEv.srcRun, .snkRun] else [.snkRun, .srcRun]).foldl (Net.step c) ⟨a, k, false⟩ : Net α) =
      ⟨srcRan c a k, snkRan c a k, false⟩ := by
    cases b
    · simp only [Bool.false_eq_true, if_false, List.foldl_cons, List.foldl_nil, Net.step]
      have : (if k.pc = .due then (⟨a, k.run c.snk a.valid a.data, false⟩ : Net α) else ⟨a, k, false⟩) =
          ⟨a, snkRan c a k, false⟩ := by unfold snkRan; split <;> rfl
      rw [this]
      unfold srcRan
      simp only [e4]
      split <;> rfl
    · simp only [if_true, List.foldl_cons, List.foldl_nil, Net.step]
      have : (if a.pc = .due then (⟨a.run c.src k.ready, k, false⟩ : Net α) else ⟨a, k, false⟩) =
          ⟨srcRan c a k, k, false⟩ := by unfold srcRan; split <;> rfl
      rw [this]
      unfold snkRan
      simp only [e3.1, e3.2]
      split <;> rfl
  unfold cycleTail
  rw [List.foldl_append, key]
  simp only [List.foldl_cons, List.foldl_nil, Net.step, e1, e2, Bool.and_self, if_true, e3.1, e4]


/-- What one unpaused cycle establishes for the sink. -/
def SnkFresh (c : NetCfg) (k : Snk α) : Prop :=
  c.hasReady = true → (k.pc = .edge → k.pauseSample = false) ∧
    (k.pc = .asleep → k.nready = !(isFull c.snkLimit k.queue.length))

theorem srun_facts {c : Cfg} (s : Src α) (r : Bool) : (s.run c r).pause = s.pause ∧ (s.run c r).sent = s.sent ∧
    ((s.run c r).pc = .edge ∨ (s.run c r).pc = .asleep) := by
  unfold Src.run
  simp only
  repeat' split
  all_goals simp_all [Src.setDeq]

/-- The events of a cycle drop nothing. -/
theorem cycle_clean (b : Bool) : ∀ e ∈ (cycleHead ++ cycleTail b : List (NetEv α)), e.clean = true := by
  cases b <;> simp [cycleHead, cycleTail, NetEv.clean]

theorem head_clean : ∀ e ∈ (cycleHead : List (NetEv α)), e.clean = true := by
  simp [cycleHead, NetEv.clean]

theorem NetInv.cycle {c : NetCfg} {clean : Bool} {s : Net α} (h : NetInv c clean s) (b : Bool) : NetInv c clean (s.cycle c b) :=
  foldl_inv' _ (fun s : Net α => NetInv c clean s) (fun e => e.clean = true)
    (fun _ e hq h => h.step e (fun _ => hq)) _ _ (cycle_clean b) h

theorem NetInv.head {c : NetCfg} {clean : Bool} {s : Net α} (h : NetInv c clean s) :
    NetInv c clean (cycleHead.foldl (Net.step c) s) :=
  foldl_inv' _ (fun s : Net α => NetInv c clean s) (fun e => e.clean = true)
    (fun _ e hq h => h.step e (fun _ => hq)) _ _ head_clean h

theorem SnkLive.cycle {c : NetCfg} {s : Net α} (h : SnkLive c.snk s.snk) (b : Bool) : SnkLive c.snk (s.cycle c b).snk :=
  foldl_inv' _ (fun s : Net α => SnkLive c.snk s.snk) (fun e => e.clean = true)
    (fun _ e hq h => Net.step_live e hq h) _ _ (cycle_clean b) h

/-- The result of a cycle. -/
theorem Net.cycle_eq (c : NetCfg) (b : Bool) {s : Net α} (h : NetRun s) : ∃ k : Snk α, AtEdge s.snk k ∧
    cycleHead.foldl (Net.step c) s = ⟨s.srcAtEdge, k, false⟩ ∧
    s.cycle c b = ⟨{ srcRan c s.srcAtEdge k with valid := (srcRan c s.srcAtEdge k).nvalid, data := (srcRan c s.srcAtEdge k).ndata },
       if ((srcRan c s.srcAtEdge k).nvalid && !s.srcAtEdge.valid) ||
          ((snkRan c s.srcAtEdge k).nready && !k.ready) then
         ({ snkRan c s.srcAtEdge k with ready := (snkRan c s.srcAtEdge k).nready } : Snk α).setWake
         else { snkRan c s.srcAtEdge k with ready := (snkRan c s.srcAtEdge k).nready }, true⟩ := by
  obtain ⟨k, e1, e2⟩ := Net.head c s h.s1 h.s2 h.k1 h.k2
  refine ⟨k, e2, e1, ?_⟩
  unfold Net.cycle
  rw [List.foldl_append, e1]
  refine Net.tail c b _ k ?_ ?_
  · unfold Net.srcAtEdge; simp only; split <;> simp
  · rcases e2.pc with h | h
    · exact Or.inl h
    · exact Or.inr h.1

theorem snk_run_pause (c : Cfg) (k : Snk α) (v : Bool) (d : Option α) : (k.run c v d).pause = k.pause := by
  unfold Snk.run
  rw [finish_pause]
  unfold Snk.capture
  simp only
  split <;> rfl

/-- What a cycle does, field by field. -/
structure CycleFacts (c : NetCfg) (s t : Net α) (k : Snk α) : Prop where
  sent : t.src.sent = s.src.sent
  spc : t.src.pc = .edge ∨ t.src.pc = .asleep
  spause : t.src.pause = s.src.pause
  kpause : t.snk.pause = s.snk.pause
  koff : t.snk.pc ≠ .off
  kdue : t.snk.pc ≠ .due
  nvalid : t.src.nvalid = (srcRan c s.srcAtEdge k).nvalid
  kqueue : t.snk.queue = (snkRan c s.srcAtEdge k).queue
  kcap : t.snk.captured = (snkRan c s.srcAtEdge k).captured
  kready : t.snk.nready = (snkRan c s.srcAtEdge k).nready
  kedge : t.snk.pc = .edge → (snkRan c s.srcAtEdge k).pc = .edge ∧ t.snk.pauseSample = (snkRan c s.srcAtEdge k).pauseSample

theorem Net.cycle_facts (c : NetCfg) (b : Bool) {s : Net α} (h : NetRun s) : ∃ k : Snk α, AtEdge s.snk k ∧
    cycleHead.foldl (Net.step c) s = ⟨s.srcAtEdge, k, false⟩ ∧ CycleFacts c s (s.cycle c b) k := by
  obtain ⟨k, e1, e2, e3⟩ := Net.cycle_eq c b h
  refine ⟨k, e1, e2, ?_⟩
  have hsrc : (s.cycle c b).src = { srcRan c s.srcAtEdge k with valid := (srcRan c s.srcAtEdge k).nvalid, data := (srcRan c s.srcAtEdge k).ndata } := by
    rw [e3]
  have hran : (srcRan c s.srcAtEdge k).pause = s.src.pause ∧ (srcRan c s.srcAtEdge k).sent = s.src.sent ∧
      ((srcRan c s.srcAtEdge k).pc = .edge ∨ (srcRan c s.srcAtEdge k).pc = .asleep) := by
    unfold srcRan
    split
    · exact srun_facts (c := c.src) s.srcAtEdge k.ready
    · rename_i hh
      refine ⟨rfl, rfl, Or.inr ?_⟩
      unfold Net.srcAtEdge at hh ⊢
      simp only at hh ⊢
      split
      · rfl
      · rename_i hx; rw [if_neg hx] at hh; exact absurd rfl hh
  have hk : (snkRan c s.srcAtEdge k).pause = s.snk.pause ∧ (snkRan c s.srcAtEdge k).pc ≠ .off ∧ (snkRan c s.srcAtEdge k).pc ≠ .due := by
    unfold snkRan
    split
    · exact ⟨by rw [snk_run_pause, e1.pause], finish_off, finish_due⟩
    · rename_i hh
      refine ⟨e1.pause, ?_, hh⟩
      rcases e1.pc with h | h
      · exact absurd h hh
      · rw [h.1]; simp
  have hsnk : (s.cycle c b).snk = if ((srcRan c s.srcAtEdge k).nvalid && !s.srcAtEdge.valid) ||
          ((snkRan c s.srcAtEdge k).nready && !k.ready) then
         ({ snkRan c s.srcAtEdge k with ready := (snkRan c s.srcAtEdge k).nready } : Snk α).setWake
         else { snkRan c s.srcAtEdge k with ready := (snkRan c s.srcAtEdge k).nready } := by rw [e3]
  constructor
  · rw [hsrc]; exact hran.2.1
  · rw [hsrc]; exact hran.2.2
  · rw [hsrc]; exact hran.1
  · rw [hsnk]; split <;> exact hk.1
  · rw [hsnk]; split
    · exact fun hh => hk.2.1 (setWake_off.1 hh)
    · exact hk.2.1
  · rw [hsnk]; split
    · exact fun hh => hk.2.2 (setWake_due.1 hh)
    · exact hk.2.2
  · rw [hsrc]
  · rw [hsnk]; split <;> rfl
  · rw [hsnk]; split <;> rfl
  · rw [hsnk]; split <;> rfl
  · rw [hsnk]
    split
    · intro hh
      exact ⟨wakeUp_edge.1 hh, rfl⟩
    · exact fun hh => ⟨hh, rfl⟩

theorem NetRun.cycle {c : NetCfg} {s : Net α} (h : NetRun s) (b : Bool) : NetRun (s.cycle c b) := by
  obtain ⟨k, _, _, f⟩ := Net.cycle_facts c b h
  refine ⟨?_, ?_, f.koff, f.kdue, by rw [f.spause, h.sp], by rw [f.kpause, h.kp]⟩
  · rcases f.spc with h | h <;> rw [h] <;> simp
  · rcases f.spc with h | h <;> rw [h] <;> simp

theorem Net.cycle_fresh {c : NetCfg} {s : Net α} (h : NetRun s) (hl : SnkLive c.snk s.snk) (b : Bool) :
    SnkFresh c (s.cycle c b).snk := by
  obtain ⟨k, e, _, f⟩ := Net.cycle_facts c b h
  have hl' := hl.cycle (c := c) b
  intro hr
  refine ⟨fun he => ?_, fun ha => ?_⟩
  · obtain ⟨g1, g2⟩ := f.kedge he
    rw [g2]
    unfold snkRan at g1 ⊢
    split
    · rename_i hd
      rw [if_pos hd] at g1
      exact (run_good (c := c.snk) hr (s := k) (by rw [e.pause, h.kp])).sample g1
    · rename_i hd
      rw [if_neg hd] at g1
      rcases e.pc with hh | hh
      · exact absurd hh hd
      · rw [hh.1] at g1; exact absurd g1 (by simp)
  · have := hl' ha hr
    rw [this, f.kpause, h.kp, Bool.or_false]
    rfl

/-- Whether the source has something for the sink. -/
def Net.pending (s : Net α) : Prop := s.src.nvalid = true ∨ s.src.queue ≠ []

/-- A cycle with `valid` and `ready` both set transfers an item. -/
theorem Net.cycle_xfer {c : NetCfg} {clean : Bool} {s : Net α} (h : NetRun s) (hi : NetInv c clean s) (b : Bool)
    (hv : s.src.nvalid = true) (hr : c.hasReady = true → s.snk.nready = true) :
    s.snk.captured.length < (s.cycle c b).snk.captured.length := by
  obtain ⟨k, e, e1, f⟩ := Net.cycle_facts c b h
  have hH := hi.head
  rw [e1] at hH
  have hx : (s.srcAtEdge.valid && (!c.hasReady || k.ready)) = true := by
    have : s.srcAtEdge.valid = true := hv
    rw [this, e.ready, Bool.true_and]
    cases hh : c.hasReady
    · rfl
    · rw [hr hh]; rfl
  have hd : k.pc = .due := by
    rcases e.pc with hh | hh
    · exact hh
    · have := hH.snk.sleep hh.1
      simp only [NetCfg.snk, Bool.not_true, Bool.false_or] at this
      rw [e.nready, ← e.ready, hx] at this
      exact absurd this (by simp)
  obtain ⟨x, hdx⟩ := hi.src.data hv
  have hdd : s.srcAtEdge.data = some x := hdx
  rw [f.kcap]
  unfold snkRan
  rw [if_pos hd]
  unfold Snk.run
  rw [finish_captured]
  unfold Snk.capture
  simp only [NetCfg.snk, Bool.not_true, Bool.false_or]
  rw [Bool.and_comm, hx, if_pos rfl]
  simp only [hdd, Option.toList_some, List.length_append, List.length_singleton, e.captured]
  omega

/-- A cycle without a transfer changes nothing at the sink. -/
theorem Net.cycle_captured {c : NetCfg} {s : Net α} (h : NetRun s) (b : Bool) :
    ∃ l, (s.cycle c b).snk.captured = s.snk.captured ++ l ∧ (s.cycle c b).snk.queue = s.snk.queue ++ l := by
  obtain ⟨k, e, e1, f⟩ := Net.cycle_facts c b h
  rw [f.kcap, f.kqueue, ← e.captured, ← e.queue]
  unfold snkRan
  split
  · obtain ⟨_, l, h2, h3⟩ := run_got c.snk k s.srcAtEdge.valid s.srcAtEdge.data
    exact ⟨l, h3, h2⟩
  · exact ⟨[], by simp, by simp⟩

/-- After a cycle that follows an unpaused one, a pending item is presented (or one was just transferred). -/
theorem Net.cycle_valid {c : NetCfg} {clean : Bool} {s : Net α} (h : NetRun s) (hi : NetInv c clean s) (b : Bool)
    (hp : s.pending) (hx : ¬ (s.src.nvalid = true ∧ (c.hasReady = true → s.snk.nready = true))) :
    (s.cycle c b).src.nvalid = true := by
  obtain ⟨k, e, e1, f⟩ := Net.cycle_facts c b h
  rw [f.nvalid]
  have hna : s.src.pc ≠ .asleep := by
    intro ha
    rcases hp with hp | hp
    · rw [hi.src.quiet (Or.inl ha)] at hp; exact absurd hp (by simp)
    · exact hp (hi.src.sleep ha)
  have hd : s.srcAtEdge.pc = .due := by
    unfold Net.srcAtEdge; simp only; rw [if_neg hna]
  unfold srcRan
  rw [if_pos hd]
  have f1 : s.srcAtEdge.valid = s.src.nvalid := rfl
  have f2 : s.srcAtEdge.nvalid = s.src.nvalid := rfl
  have f3 : s.srcAtEdge.queue = s.src.queue := rfl
  have f4 : s.srcAtEdge.pause = s.src.pause := rfl
  unfold Src.run
  simp only [NetCfg.src, Bool.not_true, Bool.false_or, if_true, f1, f2, f3, f4, h.sp]
  cases hv : s.src.nvalid
  · simp only [Bool.and_false, Bool.not_false, Bool.or_true, if_true]
    rcases hp with hp | hp
    · rw [hv] at hp; exact absurd hp (by simp)
    · cases hq : s.src.queue with
      | nil => exact absurd hq hp
      | cons x rest => rfl
  · have hr : (!c.hasReady || k.ready) = false := by
      rw [e.ready]
      cases hh : c.hasReady
      · exact absurd ⟨hv, by simp [hh]⟩ hx
      · cases hn : s.snk.nready
        · rfl
        · exact absurd ⟨hv, fun _ => hn⟩ hx
    simp [hr]

/-- After a cycle that follows an unpaused one, a sink with room is ready. -/
theorem Net.cycle_nready {c : NetCfg} {s : Net α} (h : NetRun s) (b : Bool) (hf : SnkFresh c s.snk)
    (hr : c.hasReady = true) :
    (s.cycle c b).snk.nready = !(isFull c.snkLimit (s.cycle c b).snk.queue.length) := by
  obtain ⟨k, e, e1, f⟩ := Net.cycle_facts c b h
  obtain ⟨g1, g2⟩ := hf hr
  rw [f.kready, f.kqueue]
  unfold snkRan
  split
  · rename_i hd
    refine run_nready (c := c.snk) hr ?_
    rcases e.sample hd with hh | ⟨hh, h2⟩
    · rw [hh, h.kp]
    · rw [h2, g1 hh]
  · rename_i hd
    rcases e.pc with hh | hh
    · exact absurd hh hd
    · rw [e.nready, e.queue]; exact g2 hh.2

theorem Net.cycle_sent {c : NetCfg} {s : Net α} (h : NetRun s) (b : Bool) : (s.cycle c b).src.sent = s.src.sent := by
  obtain ⟨k, e, e1, f⟩ := Net.cycle_facts c b h
  exact f.sent

theorem Net.pending_of {c : NetCfg} {s : Net α} (h : NetRun s) (hi : NetInv c true s)
    (hl : s.snk.captured.length < s.src.sent.length) : s.pending := by
  have ha := hi.acc
  rw [net_pend_not_due c s h.k2, net_bus_not_due c s h.s2] at ha
  simp only [Acc, if_true] at ha
  unfold Net.pending
  cases hv : s.src.nvalid
  · right
    intro hq
    rw [hq, hv] at ha
    simp only [List.append_nil] at ha
    rw [ha] at hl
    simp at hl
  · left; rfl

/-- Three cycles make progress. -/
theorem Net.progress {c : NetCfg} {s : Net α} (h : NetRun s) (hi : NetInv c true s) (hl : SnkLive c.snk s.snk)
    (hout : s.snk.captured.length < s.src.sent.length) (hroom : isFull c.snkLimit s.snk.queue.length = false)
    (b1 b2 b3 : Bool) :
    s.snk.captured.length < (((s.cycle c b1).cycle c b2).cycle c b3).snk.captured.length := by
  have h1 := h.cycle (c := c) b1
  have i1 := hi.cycle b1
  have h2 := h1.cycle (c := c) b2
  have i2 := i1.cycle b2
  obtain ⟨l1, c1, q1⟩ := Net.cycle_captured (c := c) h b1
  obtain ⟨l2, c2, q2⟩ := Net.cycle_captured (c := c) h1 b2
  obtain ⟨l3, c3, q3⟩ := Net.cycle_captured (c := c) h2 b3
  rw [c3, c2, c1]
  simp only [List.length_append]
  by_cases e1 : l1 = []
  · by_cases e2 : l2 = []
    · subst e1; subst e2
      have hp1 : (s.cycle c b1).pending := Net.pending_of h1 i1 (by rw [c1, Net.cycle_sent h]; simpa using hout)
      have hnr : c.hasReady = true → ((s.cycle c b1).cycle c b2).snk.nready = true := by
        intro hr
        rw [Net.cycle_nready h1 b2 (Net.cycle_fresh h hl b1) hr, q2, q1]
        simpa using hroom
      have hv : ((s.cycle c b1).cycle c b2).src.nvalid = true := by
        refine Net.cycle_valid h1 i1 b2 hp1 ?_
        rintro ⟨a1, a2⟩
        have := Net.cycle_xfer h1 i1 b2 a1 a2
        rw [c2] at this
        simp at this
      have := Net.cycle_xfer h2 i2 b3 hv hnr
      rw [c3] at this
      simp only [List.length_append] at this
      omega
    · have := List.length_pos_iff.2 e2
      omega
  · have := List.length_pos_iff.2 e1
    omega

theorem captured_le {c : NetCfg} {clean : Bool} {s : Net α} (hi : NetInv c clean s) : s.snk.captured.Sublist s.src.sent := by
  have ha := hi.acc
  have : s.snk.captured.Sublist (s.snk.captured ++ s.pend c ++ s.onBus c ++ s.src.queue) := by
    rw [List.append_assoc, List.append_assoc]
    exact List.sublist_append_left _ _
  cases clean
  · exact this.trans ha
  · simp only [Acc, if_true] at ha
    rw [ha]; exact this

/-- With an unlimited sink queue everything sent arrives. -/
theorem Net.delivers {c : NetCfg} (hlim : c.snkLimit ≤ 0) (n : Nat) : ∀ {s : Net α}, NetRun s → NetInv c true s →
    SnkLive c.snk s.snk → s.src.sent.length - s.snk.captured.length ≤ n → ∀ bs : List Bool, 3 * n ≤ bs.length →
    (s.cycles c bs).snk.captured = s.src.sent := by
  have hnf : ∀ m : Nat, isFull c.snkLimit m = false := by
    intro m; rw [not_full_iff]; intro h; omega
  induction n with
  | zero =>
    intro s h hi hl hn bs _
    clear hl
    induction bs generalizing s with
    | nil =>
      exact (captured_le hi).eq_of_length_le (by omega)
    | cons b bs ih =>
      have e := Net.cycle_sent (c := c) h b
      rw [Net.cycles, List.foldl_cons, ← e]
      refine ih (h.cycle b) (hi.cycle b) ?_ (by omega)
      obtain ⟨l, c1, _⟩ := Net.cycle_captured (c := c) h b
      rw [e, c1, List.length_append]; omega
  | succ n ih =>
    intro s h hi hl hn bs hb
    match bs, hb with
    | b1 :: b2 :: b3 :: bs, hb =>
      have h1 := h.cycle (c := c) b1
      have h2 := h1.cycle (c := c) b2
      have e : (((s.cycle c b1).cycle c b2).cycle c b3).src.sent = s.src.sent := by
        rw [Net.cycle_sent h2, Net.cycle_sent h1, Net.cycle_sent h]
      have := ih (h2.cycle b3) (((hi.cycle b1).cycle b2).cycle b3) (((hl.cycle b1).cycle b2).cycle b3) ?_ bs
        (by simp only [List.length_cons] at hb; omega)
      · rw [e] at this
        have hh : s.cycles c (b1 :: b2 :: b3 :: bs) = (((s.cycle c b1).cycle c b2).cycle c b3).cycles c bs := by
          simp only [Net.cycles, List.foldl_cons]
        rw [hh]; exact this
      · rw [e]
        by_cases hout : s.snk.captured.length < s.src.sent.length
        · have := Net.progress h hi hl hout (hnf _) b1 b2 b3
          omega
        · obtain ⟨l1, c1, _⟩ := Net.cycle_captured (c := c) h b1
          obtain ⟨l2, c2, _⟩ := Net.cycle_captured (c := c) h1 b2
          obtain ⟨l3, c3, _⟩ := Net.cycle_captured (c := c) h2 b3
          rw [c3, c2, c1]
          simp only [List.length_append]
          omega

end Verif.Stream
