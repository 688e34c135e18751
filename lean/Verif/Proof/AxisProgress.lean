import Verif.Proof.AxisReady

/-!
# Progress of an AXI stream source connected to a sink
-/

namespace Verif.Axis

open Verif.Stream (Pc wakeUp_ne wakeUp_off wakeUp_woken wakeUp_due wakeUp_edge tick_due tick_off tick_asleep tick_woken tick_edge
  still_iff foldl_inv foldl_inv')

/-! ## Cycles -/

/-- States reached without `clear()` and reset. -/
def Reach (c : NetCfg) (s : Net) : Prop := ∃ evs : List NetEv, (∀ e ∈ evs, e.clean = true) ∧ s = Net.exec c (.snkReset false :: evs)

theorem Reach.more {c : NetCfg} {s : Net} (h : Reach c s) (l : List NetEv) (hl : ∀ e ∈ l, e.clean = true) :
    Reach c (l.foldl (Net.step c) s) := by
  obtain ⟨evs, h1, rfl⟩ := h
  refine ⟨evs ++ l, fun e he => ?_, ?_⟩
  · rcases List.mem_append.1 he with he | he
    · exact h1 e he
    · exact hl e he
  · rw [Net.exec, ← List.cons_append, Net.exec, List.foldl_append]

theorem cycle_clean (b : Bool) : ∀ e ∈ cycleHead ++ cycleTail b, e.clean = true := by
  cases b <;> simp [cycleHead, cycleTail, NetEv.clean]

theorem Reach.cycle {c : NetCfg} {s : Net} (h : Reach c s) (b : Bool) : Reach c (s.cycle c b) := h.more _ (cycle_clean b)

theorem snk_clean_noClear {evs : List SnkEv} (hcl : ∀ e ∈ evs, e.clean = true) : ∀ e ∈ evs, e.noClear = true := by
  intro e he
  have := hcl e he
  revert this
  unfold SnkEv.clean SnkEv.noClear
  repeat' split
  all_goals simp_all

theorem snk_clean_noReset' {evs : List SnkEv} (hcl : ∀ e ∈ evs, e.clean = true) : ∀ e ∈ evs, e.noReset = true := by
  intro e he
  have := hcl e he
  revert this
  unfold SnkEv.clean SnkEv.noReset
  repeat' split
  all_goals simp_all

theorem Reach.cycles {c : NetCfg} (bs : List Bool) : ∀ {s : Net}, Reach c s → Reach c (s.cycles c bs) := by
  induction bs with
  | nil => intro s h; exact h
  | cons b bs ih => intro s h; exact ih (h.cycle b)

theorem Reach.rx {c : NetCfg} (hl : 0 < c.bus.lanes) {s : Net} (h : Reach c s) :
    s.snk.occBytes = bytes s.snk.queue ∧ s.snk.occFrames = s.snk.queue.length := by
  obtain ⟨evs, hcl, hs⟩ := h
  obtain ⟨l₁, l₂, sim, hc⟩ := Net.project c evs
  rw [← hs] at sim
  have hk := SnkSys.exec_rx (c := c.snk) hl (.reset false :: l₂)
  rw [sim.snk] at hk
  exact ⟨hk.occB, hk.occF⟩

/-- What is known of a state reached. -/
structure Known (c : NetCfg) (s : Net) : Prop where
  src : SrcInv c.bus s.src
  snk : SnkInv c.snk s.snk s.src.valid
  live : SnkLive c.snk s.snk
  acc : s.src.pc ≠ .due → s.snk.pc ≠ .due →
    s.src.sent.flatMap (beats c.bus) = s.snk.captured ++ (if s.src.nvalid then [s.src.nbeat] else []) ++ s.src.todo c.bus

theorem Reach.known {c : NetCfg} (hl : 0 < c.bus.lanes) (hv : c.bus.hasValid = true) {s : Net} (h : Reach c s) : Known c s := by
  obtain ⟨evs, hcl, hs⟩ := h
  obtain ⟨l₁, l₂, sim, hc⟩ := Net.project c evs
  obtain ⟨c1, c2⟩ := hc hcl
  rw [← hs] at sim
  have ha := SrcSys.exec_acc (c := c.bus) hl hv true l₁ (fun _ => c1)
  have hk := SnkSys.exec_acc (c := c.snk) hl true l₂ (fun _ => snk_clean_noReset' c2)
  have hlv := SnkSys.exec_live c.snk (.reset false :: l₂) (fun e he => by
    rcases List.mem_cons.1 he with h | h
    · subst h; rfl
    · exact snk_clean_noClear c2 e h)
  refine ⟨by rw [← sim.src]; exact ha.inv, by rw [← sim.snk, ← sim.valid]; exact hk.inv, by rw [← sim.snk]; exact hlv, ?_⟩
  intro h1 h2
  have hb := ha.acc
  have hk' := hk.acc
  simp only [Stream.Acc, if_true] at hb hk'
  rw [pend_not_due _ _ (by rw [sim.snk]; exact h2), List.append_nil] at hk'
  rw [onBus_not_due _ _ (by rw [sim.src]; exact h1), sim.tr, hk', sim.snk, sim.src] at hb
  exact hb

/-- The source after the edge of a cycle. -/
def Net.srcAtEdge (s : Net) : Src :=
  { s.src with pc := if s.src.pc = .asleep then .asleep else .due, valid := s.src.nvalid, beat := s.src.nbeat }

/-- What the start of a cycle does to the sink. -/
structure AtEdge (s k : Rx) : Prop where
  pc : k.pc = .due ∨ k.pc = .asleep ∧ s.pc = .asleep
  ready : k.ready = s.nready
  nready : k.nready = s.nready
  occB : k.occBytes = s.occBytes
  occF : k.occFrames = s.occFrames
  captured : k.captured = s.captured
  pause : k.pause = s.pause
  sample : k.pc = .due → k.pauseSample = s.pause ∨ s.pc = .edge ∧ k.pauseSample = s.pauseSample

theorem Net.head (c : NetCfg) (s : Net) (h0 : s.src.crashed = false) (h1 : s.src.pc ≠ .off) (h2 : s.src.pc ≠ .due)
    (h3 : s.snk.pc ≠ .off) (h4 : s.snk.pc ≠ .due) :
    ∃ k : Rx, cycleHead.foldl (Net.step c) s = ⟨s.srcAtEdge, k, false⟩ ∧ AtEdge s.snk k := by
  have hs : s.src.pc = .edge ∨ s.src.pc = .asleep ∨ s.src.pc = .woken := by
    cases h : s.src.pc <;> simp_all
  have hk : s.snk.pc = .edge ∨ s.snk.pc = .asleep ∨ s.snk.pc = .woken := by
    cases h : s.snk.pc <;> simp_all
  refine ⟨(cycleHead.foldl (Net.step c) s).snk, ?_, ?_⟩
  · have : ∀ t : Net, t = ⟨t.src, t.snk, t.settled⟩ := fun _ => rfl
    rw [this (cycleHead.foldl (Net.step c) s)]
    congr 1
    · simp only [cycleHead, List.foldl_cons, List.foldl_nil, Net.step, Net.srcAtEdge]
      by_cases hv : ((s.src.nvalid && !s.src.valid) || (s.snk.nready && !s.snk.ready)) = true
      · rcases hs with h | h | h <;> rcases hk with h' | h' | h' <;>
          simp [h0, h, h', hv, Pc.still, Pc.tick, Rx.top, Rx.setWake, Pc.wakeUp]
      · rcases hs with h | h | h <;> rcases hk with h' | h' | h' <;>
          simp [h0, h, h', hv, Pc.still, Pc.tick, Rx.top]
    · simp only [cycleHead, List.foldl_cons, List.foldl_nil, Net.step]
      by_cases hv : ((s.src.nvalid && !s.src.valid) || (s.snk.nready && !s.snk.ready)) = true
      · rcases hs with h | h | h <;> rcases hk with h' | h' | h' <;>
          simp [h0, h, h', hv, Pc.still, Pc.tick, Rx.top, Rx.setWake, Pc.wakeUp]
      · rcases hs with h | h | h <;> rcases hk with h' | h' | h' <;>
          simp [h0, h, h', hv, Pc.still, Pc.tick, Rx.top]
  · simp only [cycleHead, List.foldl_cons, List.foldl_nil, Net.step]
    by_cases hv : ((s.src.nvalid && !s.src.valid) || (s.snk.nready && !s.snk.ready)) = true
    · rcases hs with h | h | h <;> rcases hk with h' | h' | h' <;> constructor <;>
        simp [h0, h, h', hv, Pc.still, Pc.tick, Rx.top, Rx.setWake, Pc.wakeUp]
    · rcases hs with h | h | h <;> rcases hk with h' | h' | h' <;> constructor <;>
        simp [h0, h, h', hv, Pc.still, Pc.tick, Rx.top]

/-! ## The source at a clock edge -/

theorem take_proper (s : Src) (h : ∀ p ∈ s.queue, p.2.proper) : s.take.crashed = s.crashed := by
  unfold Src.take
  split
  · rfl
  · rename_i i f rest hq
    rcases normalize_spec f with ⟨hp, hn⟩ | ⟨hp, _⟩
    · rw [hn]; rfl
    · exact absurd (h (i, f) (by rw [hq]; simp)) hp

/-- The result of `run_go`. -/
structure Went (c : Cfg) (s t : Src) : Prop where
  crashed : t.crashed = false
  sent : t.sent = s.sent
  pause : t.pause = false
  pc : t.pc = .edge ∨ t.pc = .asleep
  qle : t.queue.length ≤ s.queue.length
  next : t.nvalid = true ∧ s.todo c = t.nbeat :: t.todo c ∨
    t.nvalid = false ∧ t.todo c = s.todo c ∧ (t.todo c = [] ∨ t.queue.length + 1 = s.queue.length)

/-- What an unpaused source does at a clock edge when its bus is free: it drives the next beat, or drops an empty frame,
or has nothing left. -/
theorem run_go {c : Cfg} (hl : 0 < c.lanes) (hv : c.hasValid = true) {s : Src} (hi : SrcInv c s) (hd : s.pc = .due)
    (hp : s.pause = false) (hcr : s.crashed = false) (hpr : ∀ p ∈ s.queue, p.2.proper) (r : Bool)
    (hgo : s.valid = true → (!c.hasReady || r) = true) : Went c s (s.run c r) := by
  apply SrcInv.run_cases hv
  · intro h1 h2 h3
    have := hgo h1
    rw [h2, h3] at this
    cases this
  · intro _ u hu
    have hun : u.nvalid = s.nvalid ∧ u.crashed = false ∧ SrcInv c u ∧ u.todo c = s.todo c ∧ u.sent = s.sent ∧ u.pause = false ∧
        (live s.frame = true ∧ u = s ∨ live s.frame = false ∧ s.queue = [] ∧ u = s ∨
          live s.frame = false ∧ u.queue.length + 1 = s.queue.length) := by
      rw [hu]
      split
      · rename_i hlv
        exact ⟨rfl, hcr, hi, rfl, rfl, hp, .inl ⟨hlv, rfl⟩⟩
      · rename_i hlv
        have hlv' : live s.frame = false := by simpa using hlv
        have h1 := take_proper s hpr
        have h2 := hi.take hlv' hd
        have h3 := hi.take_todo hl hlv'
        rcases SrcInv.take_cases s with ⟨hq, e⟩ | ⟨_, e⟩ | ⟨i, f, rest, hq, _, e⟩
        · rw [e] at h1 h2 h3 ⊢
          exact ⟨rfl, hcr, h2, h3, rfl, hp, .inr (.inl ⟨hlv', hq, rfl⟩)⟩
        · rw [e, hcr] at h1
          cases h1
        · refine ⟨(take_facts s).2.2.1, h1.trans hcr, h2, h3, (take_facts s).1, ?_, .inr (.inr ⟨hlv', ?_⟩)⟩
          · rw [e]; exact hp
          · rw [e, hq]; simp
    obtain ⟨e0, e1, e2, e3, e4, e5, e6⟩ := hun
    have hq : u.queue.length ≤ s.queue.length := by
      rcases e6 with ⟨_, h⟩ | ⟨_, _, h⟩ | ⟨_, h⟩
      · rw [h]; exact Nat.le_refl _
      · rw [h]; exact Nat.le_refl _
      · omega
    refine ⟨fun h => (by rw [e1] at h; cases h), fun _ i g hf hg _ => ?_, fun _ hh => ?_⟩
    · obtain ⟨d1, d2, d3, d4⟩ := e2.drive_todo hl hv hf hg
      have hdq : (u.drive c i g).queue = u.queue ∧ (u.drive c i g).crashed = u.crashed ∧ (u.drive c i g).pause = u.pause := by
        unfold Src.drive
        simp only
        split <;> exact ⟨rfl, rfl, rfl⟩
      exact ⟨hdq.2.1.trans e1, d3.trans e4, hdq.2.2.trans e5, .inl d4, by rw [hdq.1]; exact hq, .inl ⟨d2, by rw [← e3]; exact d1⟩⟩
    · obtain ⟨d1, d2, d3, d4⟩ := quiet_facts (c := c) hv u
      have hlu : live u.frame = false := by
        rcases hh with hh | hh
        · exact hh
        · rw [e5] at hh; cases hh
      have hdq : (u.quiet c).queue = u.queue ∧ (u.quiet c).crashed = u.crashed ∧ (u.quiet c).pause = u.pause ∧
          ((u.quiet c).pc = .edge ∨ (u.quiet c).pc = .asleep) := by
        unfold Src.quiet
        simp only
        split <;> simp
      refine ⟨hdq.2.1.trans e1, d3.trans e4, hdq.2.2.1.trans e5, hdq.2.2.2, by rw [hdq.1]; exact hq, .inr ⟨d2, d1.trans e3, ?_⟩⟩
      rw [hdq.1, d1]
      rcases e6 with ⟨h, h'⟩ | ⟨_, h, h'⟩ | ⟨_, h⟩
      · rw [h', h] at hlu; cases hlu
      · left
        unfold Src.todo
        rw [e2.rest_dead hl hlu, h', h]
        rfl
      · exact .inr h

/-! ## One cycle -/

/-- The source after its coroutine has run, if it was due. -/
def srcRan (c : NetCfg) (a : Src) (k : Rx) : Src := if a.pc = .due then a.run c.bus k.ready else a
/-- The sink after its coroutine has run, if it was due. -/
def snkRan (c : NetCfg) (a : Src) (k : Rx) : Rx := if k.pc = .due then k.runSnk c.snk a.valid a.beat else k

theorem SrcInv.queue_sent {c : Cfg} {s : Src} (h : SrcInv c s) {p : Nat × Frame} (hp : p ∈ s.queue) : p.2 ∈ s.sent :=
  List.mem_of_getElem? (h.nums p hp)

/-- What becomes of the source in a cycle. -/
structure SrcStep (c : Cfg) (s t : Src) (go : Bool) : Prop where
  crashed : t.crashed = false
  sent : t.sent = s.sent
  pause : t.pause = false
  pc : t.pc = .edge ∨ t.pc = .asleep
  qle : t.queue.length ≤ s.queue.length
  stall : go = false → t.nvalid = true
  next : go = true → t.nvalid = true ∧ s.todo c = t.nbeat :: t.todo c ∨
      t.nvalid = false ∧ t.todo c = s.todo c ∧ (t.todo c = [] ∨ t.queue.length + 1 = s.queue.length)

theorem srcRan_step {c : NetCfg} (hl : 0 < c.bus.lanes) (hv : c.bus.hasValid = true) {s : Net} (h : NetRun s) (hi : SrcInv c.bus s.src)
    (k : Rx) (hk : k.ready = s.snk.nready) :
    SrcStep c.bus s.src (srcRan c s.srcAtEdge k) (!s.src.nvalid || !c.bus.hasReady || s.snk.nready) := by
  have ha : SrcInv c.bus s.srcAtEdge := by
    unfold Net.srcAtEdge
    refine { hi with quiet := ?_, sleep := ?_, once := hi.once, most := hi.most, new := hi.new }
    · simp only
      split
      · rename_i hh; exact fun _ => hi.quiet (.inl hh)
      · simp
    · simp only
      split
      · rename_i hh; exact fun _ => hi.sleep hh
      · simp
  unfold srcRan
  by_cases hp : s.src.pc = .asleep
  · have hpc : s.srcAtEdge.pc = .asleep := by unfold Net.srcAtEdge; rw [if_pos hp]
    rw [if_neg (by rw [hpc]; simp)]
    obtain ⟨q1, q2⟩ := hi.sleep hp
    have hnv := hi.quiet (.inl hp)
    refine ⟨h.s0, rfl, h.sp, .inr hpc, Nat.le_refl _, by rw [hnv]; simp, fun _ => .inr ⟨hnv, rfl, .inl ?_⟩⟩
    unfold Src.todo
    rw [ha.rest_dead hl q2]
    show [] ++ s.src.queue.flatMap _ = []
    rw [q1]; rfl
  · have hpc : s.srcAtEdge.pc = .due := by unfold Net.srcAtEdge; rw [if_neg hp]
    rw [if_pos hpc]
    by_cases hg : (!s.src.nvalid || !c.bus.hasReady || s.snk.nready) = true
    · rw [hg]
      have := run_go hl hv ha hpc h.sp h.s0 (fun p hp => h.fr _ (hi.queue_sent hp)) k.ready (by
        intro hval
        have hval' : s.src.nvalid = true := hval
        rw [hval'] at hg
        rw [hk]; simpa using hg)
      exact ⟨this.crashed, this.sent, this.pause, this.pc, this.qle, by simp, fun _ => this.next⟩
    · have hst : s.src.nvalid = true ∧ c.bus.hasReady = true ∧ s.snk.nready = false := by
        simp only [Bool.or_eq_true, Bool.not_eq_true', not_or, Bool.not_eq_true, Bool.not_eq_false] at hg
        exact ⟨hg.1.1, hg.1.2, hg.2⟩
      have e : s.srcAtEdge.run c.bus k.ready = { s.srcAtEdge with pc := .edge } := by
        unfold Src.run
        have : s.srcAtEdge.valid = true := hst.1
        simp [hv, this, hst.2.1, hk, hst.2.2]
      rw [e]
      refine ⟨h.s0, rfl, h.sp, .inl rfl, Nat.le_refl _, fun _ => hst.1, fun hh => absurd hh hg⟩

theorem Net.tail (c : NetCfg) (b : Bool) (a : Src) (k : Rx) (ha : (srcRan c a k).pc.still = true)
    (hk : (snkRan c a k).pc.still = true) (hc : a.crashed = false) (hc' : (srcRan c a k).crashed = false) :
    (cycleTail b).foldl (Net.step c) ⟨a, k, false⟩ =
      ⟨{ srcRan c a k with valid := (srcRan c a k).nvalid, beat := (srcRan c a k).nbeat },
       if ((srcRan c a k).nvalid && !a.valid) || ((snkRan c a k).nready && !k.ready) then ({ snkRan c a k with ready := (snkRan c a k).nready } : Rx).setWake
         else { snkRan c a k with ready := (snkRan c a k).nready }, true⟩ := by
  have e3 : (srcRan c a k).valid = a.valid ∧ (srcRan c a k).beat = a.beat := by
    unfold srcRan
    split
    · exact run_signals _ _ _
    · exact ⟨rfl, rfl⟩
  have e4 : (snkRan c a k).ready = k.ready := by
    unfold snkRan
    split
    · exact runSnk_ready _ _ _ _
    · rfl
  have key : ((if b then [NetEv.srcRun, .snkRun] else [.snkRun, .srcRun]).foldl (Net.step c) ⟨a, k, false⟩ : Net) =
      ⟨srcRan c a k, snkRan c a k, false⟩ := by
    cases b
    · simp only [Bool.false_eq_true, if_false, List.foldl_cons, List.foldl_nil, Net.step, hc]
      have : (if k.pc = .due then (⟨a, k.runSnk c.snk a.valid a.beat, false⟩ : Net) else ⟨a, k, false⟩) =
          ⟨a, snkRan c a k, false⟩ := by unfold snkRan; split <;> rfl
      rw [this]
      unfold srcRan
      simp only [e4, hc, Bool.false_eq_true, if_false]
      split <;> rfl
    · simp only [if_true, List.foldl_cons, List.foldl_nil, Net.step, hc, Bool.false_eq_true, if_false]
      have : (if a.pc = .due then (⟨a.run c.bus k.ready, k, false⟩ : Net) else ⟨a, k, false⟩) =
          ⟨srcRan c a k, k, false⟩ := by unfold srcRan; split <;> rfl
      rw [this]
      unfold snkRan
      simp only [e3.1, e3.2, hc', Bool.false_eq_true, if_false]
      split <;> rfl
  unfold cycleTail
  rw [List.foldl_append, key]
  simp only [List.foldl_cons, List.foldl_nil, Net.step, ha, hk, Bool.and_self, if_true, e3.1, e4, hc', Bool.false_eq_true, if_false]

/-- What one unpaused cycle establishes for the sink. -/
def SnkFresh (c : NetCfg) (k : Rx) : Prop :=
  c.bus.hasReady = true → (k.pc = .edge → k.pauseSample = false) ∧
    (k.pc = .asleep → k.nready = !(isFull c.snk k.occBytes k.occFrames))

/-- What a cycle does. -/
structure CycleFacts (c : NetCfg) (s t : Net) : Prop where
  run : NetRun t
  sent : t.src.sent = s.src.sent
  src : SrcStep c.bus s.src t.src (!s.src.nvalid || !c.bus.hasReady || s.snk.nready)
  cap : t.snk.captured = s.snk.captured ++
    if s.src.nvalid && (!c.bus.hasReady || s.snk.nready) then [s.src.nbeat] else []
  occ : (s.src.nvalid && (!c.bus.hasReady || s.snk.nready)) = false → t.snk.occBytes = s.snk.occBytes ∧
    t.snk.occFrames = s.snk.occFrames
  fresh : SnkFresh c t.snk
  nready : SnkFresh c s.snk → c.bus.hasReady = true → t.snk.nready = !(isFull c.snk t.snk.occBytes t.snk.occFrames)

theorem Net.cycle_facts {c : NetCfg} (hl : 0 < c.bus.lanes) (hv : c.bus.hasValid = true) (b : Bool) {s : Net} (h : NetRun s)
    (hr : Reach c s) : CycleFacts c s (s.cycle c b) := by
  have hkn := hr.known hl hv
  obtain ⟨k, e1, e2⟩ := Net.head c s h.s0 h.s1 h.s2 h.k1 h.k2
  have hH : Known c ⟨s.srcAtEdge, k, false⟩ := by
    rw [← e1]
    exact (hr.more cycleHead (by simp [cycleHead, NetEv.clean])).known hl hv
  have hstep := srcRan_step hl hv h hkn.src k e2.ready
  have hran : (srcRan c s.srcAtEdge k).pc.still = true := by
    rw [still_iff]
    rcases hstep.pc with h | h <;> rw [h] <;> simp
  have hk : (snkRan c s.srcAtEdge k).pc.still = true := by
    unfold snkRan
    split
    · exact run_still
    · rename_i hh
      rcases e2.pc with h | h
      · exact absurd h hh
      · rw [h.1]; rfl
  have e3 : s.cycle c b = ⟨{ srcRan c s.srcAtEdge k with valid := (srcRan c s.srcAtEdge k).nvalid, beat := (srcRan c s.srcAtEdge k).nbeat },
       if ((srcRan c s.srcAtEdge k).nvalid && !s.srcAtEdge.valid) ||
          ((snkRan c s.srcAtEdge k).nready && !k.ready) then
         ({ snkRan c s.srcAtEdge k with ready := (snkRan c s.srcAtEdge k).nready } : Rx).setWake
         else { snkRan c s.srcAtEdge k with ready := (snkRan c s.srcAtEdge k).nready }, true⟩ := by
    unfold Net.cycle
    rw [List.foldl_append, e1]
    exact Net.tail c b _ k hran hk h.s0 hstep.crashed
  have hsrc : (s.cycle c b).src = { srcRan c s.srcAtEdge k with valid := (srcRan c s.srcAtEdge k).nvalid, beat := (srcRan c s.srcAtEdge k).nbeat } := by
    rw [e3]
  have hsnk : (s.cycle c b).snk = if ((srcRan c s.srcAtEdge k).nvalid && !s.srcAtEdge.valid) ||
          ((snkRan c s.srcAtEdge k).nready && !k.ready) then
         ({ snkRan c s.srcAtEdge k with ready := (snkRan c s.srcAtEdge k).nready } : Rx).setWake
         else { snkRan c s.srcAtEdge k with ready := (snkRan c s.srcAtEdge k).nready } := by rw [e3]
  have hsame : (s.cycle c b).snk.captured = (snkRan c s.srcAtEdge k).captured ∧
      (s.cycle c b).snk.occBytes = (snkRan c s.srcAtEdge k).occBytes ∧
      (s.cycle c b).snk.occFrames = (snkRan c s.srcAtEdge k).occFrames ∧
      (s.cycle c b).snk.nready = (snkRan c s.srcAtEdge k).nready ∧
      (s.cycle c b).snk.pause = (snkRan c s.srcAtEdge k).pause ∧
      (s.cycle c b).snk.pauseSample = (snkRan c s.srcAtEdge k).pauseSample ∧
      ((s.cycle c b).snk.pc = .off ↔ (snkRan c s.srcAtEdge k).pc = .off) ∧
      ((s.cycle c b).snk.pc = .due ↔ (snkRan c s.srcAtEdge k).pc = .due) ∧
      ((s.cycle c b).snk.pc = .edge → (snkRan c s.srcAtEdge k).pc = .edge) := by
    rw [hsnk]
    split
    · exact ⟨rfl, rfl, rfl, rfl, rfl, rfl, wakeUp_off, wakeUp_due, wakeUp_edge.1⟩
    · exact ⟨rfl, rfl, rfl, rfl, rfl, rfl, Iff.rfl, Iff.rfl, id⟩
  obtain ⟨c1, c2, c3, c4, c5, c6, c7, c8, c9⟩ := hsame
  have hgo : (s.src.nvalid && (!c.bus.hasReady || s.snk.nready)) = true → k.pc = .due := by
    intro hx
    rcases e2.pc with hh | hh
    · exact hh
    · have := hH.snk.sleep hh.1
      simp only [NetCfg.snk, hv, Bool.not_true, Bool.false_or] at this
      rw [e2.nready] at this
      have hx' : (s.srcAtEdge.valid && (!c.bus.hasReady || s.snk.nready)) = true := hx
      rw [hx'] at this
      cases this
  have hpause : (snkRan c s.srcAtEdge k).pause = false := by
    unfold snkRan
    split
    · rw [run_pause, e2.pause, h.kp]
    · rw [e2.pause, h.kp]
  have hcond : ((!c.snk.hasReady || k.ready) && (!c.snk.hasValid || s.srcAtEdge.valid)) =
      (s.src.nvalid && (!c.bus.hasReady || s.snk.nready)) := by
    have : s.srcAtEdge.valid = s.src.nvalid := rfl
    rw [e2.ready, this]
    simp only [NetCfg.snk, hv, Bool.not_true, Bool.false_or]
    rw [Bool.and_comm]
  refine ⟨⟨?_, ?_, ?_, ?_, ?_, ?_, ?_, ?_⟩, ?_, ?_, ?_, ?_, ?_, ?_⟩
  · rw [hsrc]; exact hstep.crashed
  · rw [hsrc]; rcases hstep.pc with h | h <;> simp only [h] <;> simp
  · rw [hsrc]; rcases hstep.pc with h | h <;> simp only [h] <;> simp
  · intro hh
    have := c7.1 hh
    unfold snkRan at this
    split at this
    · exact (finish_same c.snk _ _).2.2.2.2.2.2.2.2.2.1 this
    · rcases e2.pc with h | h
      · rw [h] at this; cases this
      · rw [h.1] at this; cases this
  · intro hh
    have := (still_iff.1 hk).1
    exact this (c8.1 hh)
  · rw [hsrc]; exact hstep.pause
  · rw [c5, hpause]
  · rw [hsrc]; intro f hf; exact h.fr f (by rw [← hstep.sent]; exact hf)
  · rw [hsrc]; exact hstep.sent
  · rw [hsrc]; exact ⟨hstep.crashed, hstep.sent, hstep.pause, hstep.pc, hstep.qle, hstep.stall, hstep.next⟩
  · rw [c1]
    unfold snkRan
    split
    · unfold Rx.runSnk
      rw [(finish_same c.snk _ _).2.2.2.2.1, (capture_same c.snk k _ _).2.2.2.2.2.2, e2.captured, hcond]
      rfl
    · rename_i hd
      rw [e2.captured, if_neg (fun hh => hd (hgo hh)), List.append_nil]
  · intro hx
    rw [c2, c3]
    unfold snkRan
    split
    · unfold Rx.runSnk
      obtain ⟨_, _, g3, g4, _⟩ := finish_same c.snk (k.capture c.snk s.srcAtEdge.valid s.srcAtEdge.beat) s.srcAtEdge.valid
      rw [g3, g4]
      unfold Rx.capture
      rw [if_neg (by rw [hcond, hx]; simp)]
      exact ⟨e2.occB, e2.occF⟩
    · exact ⟨e2.occB, e2.occF⟩
  · intro hrd
    refine ⟨fun he => ?_, fun ha => ?_⟩
    · have hpc := c9 he
      rw [c6]
      unfold snkRan at hpc ⊢
      split
      · rename_i hd
        rw [if_pos hd] at hpc
        exact (run_good (c := c.snk) hrd (s := k) (by rw [e2.pause, h.kp])).sample hpc
      · rename_i hd
        rw [if_neg hd] at hpc
        rcases e2.pc with hh | hh
        · exact absurd hh hd
        · rw [hh.1] at hpc; cases hpc
    · have := ((hr.cycle b).known hl hv).live ha hrd
      rw [this, c5, hpause, Bool.or_false]
  · intro hf hrd
    obtain ⟨g1, g2⟩ := hf hrd
    rw [c4, c2, c3]
    unfold snkRan
    split
    · rename_i hd
      refine run_nready (c := c.snk) hrd ?_
      rcases e2.sample hd with hh | ⟨hh, h2⟩
      · rw [hh, h.kp]
      · rw [h2, g1 hh]
    · rename_i hd
      rcases e2.pc with hh | hh
      · exact absurd hh hd
      · rw [e2.nready, e2.occB, e2.occF]; exact g2 hh.2

/-! ## Delivery -/

/-- The number of beats not yet captured by the sink. -/
def Net.outstanding (c : NetCfg) (s : Net) : Nat := (s.src.sent.flatMap (beats c.bus)).length - s.snk.captured.length

/-- The sink is ready, or there is no `tready`. -/
def SnkOpen (c : NetCfg) (s : Net) : Prop := c.bus.hasReady = true → s.snk.nready = true

/-- Upper bound of the number of cycles to go, once the sink is open. -/
def Net.togo (c : NetCfg) (s : Net) : Nat := s.outstanding c + s.src.queue.length + if s.src.nvalid then 0 else 1

theorem Known.left {c : NetCfg} {s : Net} (h : Known c s) (hr : NetRun s) :
    s.outstanding c = (if s.src.nvalid then 1 else 0) + (s.src.todo c.bus).length := by
  have := h.acc hr.s2 hr.k2
  unfold Net.outstanding
  rw [this]
  cases s.src.nvalid
  · simp
  · simp; omega

theorem Known.prefix {c : NetCfg} {s : Net} (h : Known c s) (hr : NetRun s) :
    s.snk.captured <+: s.src.sent.flatMap (beats c.bus) := by
  rw [h.acc hr.s2 hr.k2, List.append_assoc]
  exact List.prefix_append _ _

/-- With the sink open, a cycle brings the end nearer. -/
theorem Net.cycle_togo {c : NetCfg} (hl : 0 < c.bus.lanes) (hv : c.bus.hasValid = true) (b : Bool) {s : Net} (h : NetRun s)
    (hr : Reach c s) (ho : SnkOpen c s) : (s.cycle c b).outstanding c = 0 ∨ (s.cycle c b).togo c < s.togo c := by
  have f := Net.cycle_facts hl hv b h hr
  have hkn := hr.known hl hv
  have hkn' := (hr.cycle b).known hl hv
  have hgo : (!c.bus.hasReady || s.snk.nready) = true := by
    cases hh : c.bus.hasReady
    · rfl
    · rw [ho hh]; rfl
  have hgo' : (!s.src.nvalid || !c.bus.hasReady || s.snk.nready) = true := by rw [Bool.or_assoc, hgo]; simp
  have l1 := hkn.left h
  have l2 := hkn'.left f.run
  have e := f.src.next hgo'
  unfold Net.togo
  rw [l1, l2]
  have e0 := f.src.qle
  rcases e with ⟨e1, e2⟩ | ⟨e1, e2, e3⟩
  · right
    rw [e1, e2]
    simp only [if_true, List.length_cons]
    cases hn : s.src.nvalid
    · simp only [Bool.false_eq_true, if_false]
      omega
    · simp only [if_true]
      omega
  · rw [e1, e2]
    simp only [Bool.false_eq_true, if_false]
    rcases e3 with e3 | e3
    · left; rw [← e2, e3]; rfl
    · right
      cases hn : s.src.nvalid
      · simp only [Bool.false_eq_true, if_false]; omega
      · simp only [if_true]; omega

theorem Net.cycles_keep {c : NetCfg} (hl : 0 < c.bus.lanes) (hv : c.bus.hasValid = true) (bs : List Bool) : ∀ {s : Net}, NetRun s →
    Reach c s → s.outstanding c = 0 → (s.cycles c bs).snk.captured = s.src.sent.flatMap (beats c.bus) := by
  induction bs with
  | nil =>
    intro s h hr ho
    have hp := (hr.known hl hv).prefix h
    exact hp.eq_of_length_le (by unfold Net.outstanding at ho; show _ ≤ s.snk.captured.length; omega)
  | cons b bs ih =>
    intro s h hr ho
    have f := Net.cycle_facts hl hv b h hr
    rw [Net.cycles, List.foldl_cons, ← f.sent]
    refine ih f.run (hr.cycle b) ?_
    unfold Net.outstanding at ho ⊢
    rw [f.sent, f.cap, List.length_append]
    omega

theorem CycleFacts.cap_le {c : NetCfg} {s t : Net} (f : CycleFacts c s t) : s.snk.captured.length ≤ t.snk.captured.length := by
  rw [f.cap, List.length_append]; omega

theorem CycleFacts.outstanding_le {c : NetCfg} {s t : Net} (f : CycleFacts c s t) : t.outstanding c ≤ s.outstanding c := by
  have := f.cap_le
  unfold Net.outstanding
  rw [f.sent]; omega

theorem CycleFacts.captures {c : NetCfg} {s t : Net} (f : CycleFacts c s t) (hn : s.src.nvalid = true) (ho : SnkOpen c s) :
    s.snk.captured.length < t.snk.captured.length := by
  have hgo : (!c.bus.hasReady || s.snk.nready) = true := by
    cases hh : c.bus.hasReady
    · rfl
    · rw [ho hh]; rfl
  rw [f.cap, hn, hgo]
  simp

theorem Net.cycles_mono {c : NetCfg} (hl : 0 < c.bus.lanes) (hv : c.bus.hasValid = true) (bs : List Bool) : ∀ {s : Net}, NetRun s →
    Reach c s → s.snk.captured.length ≤ (s.cycles c bs).snk.captured.length := by
  induction bs with
  | nil => intro s _ _; exact Nat.le_refl _
  | cons b bs ih =>
    intro s h hr
    have f := Net.cycle_facts hl hv b h hr
    exact Nat.le_trans f.cap_le (ih f.run (hr.cycle b))

/-- With an unlimited sink queue everything sent arrives. -/
theorem Net.delivers_open {c : NetCfg} (hl : 0 < c.bus.lanes) (hv : c.bus.hasValid = true) (hb : c.snkBytes ≤ 0) (hf : c.snkFrames ≤ 0)
    (n : Nat) : ∀ {s : Net}, NetRun s → Reach c s → SnkFresh c s.snk → SnkOpen c s → s.togo c ≤ n → ∀ bs : List Bool, n ≤ bs.length →
    (s.cycles c bs).snk.captured = s.src.sent.flatMap (beats c.bus) := by
  have hnf : ∀ x y : Int, isFull c.snk x y = false := by
    intro x y; rw [not_full_iff]; simp only [NetCfg.snk]; omega
  induction n with
  | zero =>
    intro s h hr _ _ hn bs _
    exact Net.cycles_keep hl hv bs h hr (by unfold Net.togo at hn; omega)
  | succ n ih =>
    intro s h hr hfr ho hn bs hbs
    match bs, hbs with
    | b :: bs, hbs =>
      have f := Net.cycle_facts hl hv b h hr
      rw [Net.cycles, List.foldl_cons, ← f.sent]
      rcases Net.cycle_togo hl hv b h hr ho with hz | hz
      · exact Net.cycles_keep hl hv bs f.run (hr.cycle b) hz
      · refine ih f.run (hr.cycle b) f.fresh (fun hrd => ?_) (by omega) bs (by simp only [List.length_cons] at hbs; omega)
        rw [f.nready hfr hrd, hnf]; rfl

theorem Net.delivers {c : NetCfg} (hl : 0 < c.bus.lanes) (hv : c.bus.hasValid = true) (hb : c.snkBytes ≤ 0) (hf : c.snkFrames ≤ 0)
    {s : Net} (h : NetRun s) (hr : Reach c s) (bs : List Bool) (hbs : s.outstanding c + s.src.queue.length + 3 ≤ bs.length) :
    (s.cycles c bs).snk.captured = s.src.sent.flatMap (beats c.bus) := by
  have hnf : ∀ x y : Int, isFull c.snk x y = false := by
    intro x y; rw [not_full_iff]; simp only [NetCfg.snk]; omega
  match bs, hbs with
  | b1 :: b2 :: bs, hbs =>
    have f1 := Net.cycle_facts hl hv b1 h hr
    have f2 := Net.cycle_facts hl hv b2 f1.run (hr.cycle b1)
    have q1 := f1.src.qle
    have q2 := f2.src.qle
    have o1 := f1.outstanding_le
    have o2 := f2.outstanding_le
    simp only [List.length_cons] at hbs
    have := Net.delivers_open hl hv hb hf _ f2.run ((hr.cycle b1).cycle b2) f2.fresh
      (fun hrd => by rw [f2.nready f1.fresh hrd, hnf]; rfl) (Nat.le_refl _) bs (by
        unfold Net.togo
        split <;> omega)
    rw [f2.sent, f1.sent] at this
    exact this

/-- A sink with room, the source having something to transfer, and the sink open: a beat is captured soon. -/
theorem Net.captures_open {c : NetCfg} (hl : 0 < c.bus.lanes) (hv : c.bus.hasValid = true) (n : Nat) : ∀ {s : Net}, NetRun s →
    Reach c s → SnkFresh c s.snk → SnkOpen c s → isFull c.snk s.snk.occBytes s.snk.occFrames = false →
    s.outstanding c ≠ 0 → s.src.queue.length + (if s.src.nvalid then 0 else 1) ≤ n → ∀ bs : List Bool, n < bs.length →
    s.snk.captured.length < (s.cycles c bs).snk.captured.length := by
  induction n with
  | zero =>
    intro s h hr hfr ho hroom hout hn bs hbs
    match bs, hbs with
    | b :: bs, hbs =>
      have f := Net.cycle_facts hl hv b h hr
      have hnv : s.src.nvalid = true := by
        cases hh : s.src.nvalid
        · rw [hh] at hn; simp at hn
        · rfl
      rw [Net.cycles, List.foldl_cons]
      exact Nat.lt_of_lt_of_le (f.captures hnv ho) (Net.cycles_mono hl hv bs f.run (hr.cycle b))
  | succ n ih =>
    intro s h hr hfr ho hroom hout hn bs hbs
    match bs, hbs with
    | b :: bs, hbs =>
      have f := Net.cycle_facts hl hv b h hr
      rw [Net.cycles, List.foldl_cons]
      have hmono := Net.cycles_mono hl hv bs f.run (hr.cycle b)
      cases hnv : s.src.nvalid
      · have hx : (s.src.nvalid && (!c.bus.hasReady || s.snk.nready)) = false := by rw [hnv]; rfl
        have hcap := f.cap
        rw [hx] at hcap
        simp only [Bool.false_eq_true, if_false, List.append_nil] at hcap
        have hocc := f.occ hx
        rw [← hcap]
        have hroom' : isFull c.snk (s.cycle c b).snk.occBytes (s.cycle c b).snk.occFrames = false := by
          rw [hocc.1, hocc.2]; exact hroom
        have hout' : (s.cycle c b).outstanding c ≠ 0 := by
          unfold Net.outstanding at hout ⊢
          rw [hcap, f.sent]; exact hout
        refine ih f.run (hr.cycle b) f.fresh (fun hrd => ?_) hroom' hout' ?_ bs (by simp only [List.length_cons] at hbs; omega)
        · rw [f.nready hfr hrd, hroom']; rfl
        · have hq := f.src.qle
          have hgo : (!s.src.nvalid || !c.bus.hasReady || s.snk.nready) = true := by rw [hnv]; rfl
          rw [hnv] at hn
          simp only [Bool.false_eq_true, if_false] at hn
          rcases f.src.next hgo with ⟨e1, _⟩ | ⟨e1, e2, e3⟩
          · rw [e1]; simp only [if_true]; omega
          · rcases e3 with e3 | e3
            · exfalso
              have := ((hr.cycle b).known hl hv).left f.run
              rw [e1, e3] at this
              exact hout' this
            · rw [e1]; simp only [Bool.false_eq_true, if_false]; omega
      · exact Nat.lt_of_lt_of_le (f.captures hnv ho) hmono

/-- Whatever the queue limits: while the sink has room and there is something to transfer, another beat gets through. -/
theorem Net.progress {c : NetCfg} (hl : 0 < c.bus.lanes) (hv : c.bus.hasValid = true) {s : Net} (h : NetRun s) (hr : Reach c s)
    (hroom : isFull c.snk s.snk.occBytes s.snk.occFrames = false) (hout : s.outstanding c ≠ 0) (bs : List Bool)
    (hbs : s.src.queue.length + 4 ≤ bs.length) : s.snk.captured.length < (s.cycles c bs).snk.captured.length := by
  match bs, hbs with
  | b1 :: b2 :: bs, hbs =>
    have f1 := Net.cycle_facts hl hv b1 h hr
    have f2 := Net.cycle_facts hl hv b2 f1.run (hr.cycle b1)
    have hm := Net.cycles_mono hl hv bs f2.run ((hr.cycle b1).cycle b2)
    have hbs' : s.src.queue.length + 4 ≤ bs.length + 1 + 1 := hbs
    show s.snk.captured.length < (((s.cycle c b1).cycle c b2).cycles c bs).snk.captured.length
    cases hx1 : s.src.nvalid && (!c.bus.hasReady || s.snk.nready)
    · cases hx2 : (s.cycle c b1).src.nvalid && (!c.bus.hasReady || (s.cycle c b1).snk.nready)
      · have c1 := f1.cap
        have c2 := f2.cap
        rw [hx1] at c1
        rw [hx2] at c2
        simp only [Bool.false_eq_true, if_false, List.append_nil] at c1 c2
        have o1 := f1.occ hx1
        have o2 := f2.occ hx2
        have hroom' : isFull c.snk ((s.cycle c b1).cycle c b2).snk.occBytes ((s.cycle c b1).cycle c b2).snk.occFrames = false := by
          rw [o2.1, o2.2, o1.1, o1.2]; exact hroom
        have q1 := f1.src.qle
        have q2 := f2.src.qle
        have := Net.captures_open hl hv _ f2.run ((hr.cycle b1).cycle b2) f2.fresh
          (fun hrd => by rw [f2.nready f1.fresh hrd, hroom']; rfl) hroom' (by
            unfold Net.outstanding at hout ⊢
            rw [c2, c1, f2.sent, f1.sent]; exact hout) (Nat.le_refl _) bs (by split <;> omega)
        rw [c2, c1] at this
        exact this
      · have c1 := f1.cap_le
        have c2 := f2.cap
        rw [hx2] at c2
        have c2 := congrArg List.length c2
        simp at c2
        omega
    · have c2 := f2.cap_le
      have c1 := f1.cap
      rw [hx1] at c1
      have c1 := congrArg List.length c1
      simp at c1
      omega

end Verif.Axis
