import Verif.Spec.AxisSpeed
import Verif.Props.AxisLive

/-!
# Throughput of AXI stream: proofs
-/

namespace Verif.Axis

open Verif.Stream (Pc wakeUp_ne wakeUp_off wakeUp_woken wakeUp_due wakeUp_edge tick_due tick_off tick_asleep tick_woken tick_edge
  still_iff foldl_inv foldl_inv')

theorem steady_clean {e : NetEv} (h : e.steady = true) : e.clean = true := by
  unfold NetEv.steady at h
  split at h
  · rfl
  · rfl
  · exact h

/-- The frames are not empty, and can be transmitted. -/
def Good (s : Net) : Prop := ∀ f ∈ s.src.sent, f.proper ∧ f.tdata ≠ []

/-- A running, unpaused pair; the sink has no limit. -/
structure Steady (c : NetCfg) (s : Net) : Prop where
  lanes : 0 < c.bus.lanes
  valid : c.bus.hasValid = true
  reach : Reach c s
  limB : c.snkBytes ≤ 0
  limF : c.snkFrames ≤ 0
  ok : s.src.crashed = false
  good : Good s
  son : s.src.pc ≠ .off
  kon : s.snk.pc ≠ .off
  sp : s.src.pause = false
  kp : s.snk.pause = false

theorem Steady.known {c : NetCfg} {s : Net} (h : Steady c s) : Known c s := h.reach.known h.lanes h.valid
theorem Steady.bus {c : NetCfg} {s : Net} (h : Steady c s) : Bus c s := h.reach.bus h.lanes h.valid
theorem Steady.queue {c : NetCfg} {s : Net} (h : Steady c s) : ∀ p ∈ s.src.queue, p.2.proper ∧ p.2.tdata ≠ [] :=
  fun _ hp => h.good _ (h.known.src.queue_sent hp)

theorem not_full {c : NetCfg} {s : Net} (h : Steady c s) (a b : Int) : isFull c.snk a b = false := by
  have h1 := h.limB
  have h2 := h.limF
  unfold isFull NetCfg.snk
  simp
  omega

/-! ## Pauses -/

theorem srcRun_pause {c : Cfg} (hv : c.hasValid = true) (s : Src) (r : Bool) : (s.run c r).pause = s.pause := by
  refine SrcInv.run_cases (P := fun t => t.pause = s.pause) hv s r (fun _ _ _ => rfl) ?_
  intro _ u hu
  have hup : u.pause = s.pause := by
    rw [hu]
    split
    · rfl
    · rcases SrcInv.take_cases s with ⟨_, e⟩ | ⟨_, e⟩ | ⟨i, f, rest, _, _, e⟩ <;> rw [e]; rfl
  refine ⟨fun _ => hup, fun _ i g _ _ _ => ?_, fun _ _ => ?_⟩
  · unfold Src.drive
    simp only
    split <;> exact hup
  · unfold Src.quiet
    simp only
    split <;> exact hup

theorem accept_pause (s : Src) (f : Frame) : (s.accept f).2.pause = s.pause := by
  unfold Src.accept
  split <;> rfl

theorem runSnk_pause (c : Cfg) (s : Rx) (v : Bool) (b : Beat) : (s.runSnk c v b).pause = s.pause :=
  (finish_same c _ v).2.2.2.2.2.2.2.2.2.2.2.1.trans (capture_pause c s v b).1

theorem step_pause (c : NetCfg) (hv : c.bus.hasValid = true) (s : Net) (e : NetEv) (he : e.steady = true) (h1 : s.src.pause = false)
    (h2 : s.snk.pause = false) : (s.step c e).src.pause = false ∧ (s.step c e).snk.pause = false := by
  by_cases hcr : s.src.crashed = true
  · unfold Net.step; rw [if_pos hcr]; exact ⟨h1, h2⟩
  rw [Bool.not_eq_true] at hcr
  cases e <;> simp only [Net.step, hcr, Bool.false_eq_true, if_false]
  case srcRun =>
    split
    · exact ⟨(srcRun_pause hv _ _).trans h1, h2⟩
    · exact ⟨h1, h2⟩
  case snkRun =>
    split
    · exact ⟨h1, (runSnk_pause _ _ _ _).trans h2⟩
    · exact ⟨h1, h2⟩
  case commit =>
    split
    · refine ⟨h1, ?_⟩
      simp only
      split <;> exact h2
    · exact ⟨h1, h2⟩
  case send x => refine ⟨?_, h2⟩; unfold Src.send; split; (exact h1); exact (accept_pause _ _).trans h1
  case resume i =>
    refine ⟨?_, h2⟩
    unfold Src.resume
    repeat' split
    · exact h1
    · exact (accept_pause _ _).trans h1
    · exact h1
  case sendNowait x => refine ⟨?_, h2⟩; unfold Src.sendNowait; split; (exact h1); exact (accept_pause _ _).trans h1
  case srcPause v => cases v <;> simp [NetEv.steady] at he; exact ⟨rfl, h2⟩
  case snkPause v =>
    cases v <;> simp [NetEv.steady] at he
    exact ⟨h1, rfl⟩
  case srcReset v =>
    refine ⟨?_, h2⟩
    unfold Src.reset
    simp only
    repeat' split
    all_goals exact h1
  case snkReset v => refine ⟨h1, ?_⟩; unfold Rx.reset; repeat' split
                     all_goals exact h2
  case recv k => exact ⟨h1, (recv_woke _ _).pause.trans h2⟩
  case readNowait n => exact ⟨h1, (read_woke _ _).pause.trans h2⟩
  all_goals first | exact ⟨h1, h2⟩ | (split <;> exact ⟨h1, h2⟩)

theorem Steady.step {c : NetCfg} {s : Net} (h : Steady c s) (e : NetEv) (he : e.steady = true) (hg : Good (s.step c e)) : Steady c (s.step c e) := by
  have hc := steady_clean he
  obtain ⟨p1, p2⟩ := step_pause c h.valid s e he h.sp h.kp
  have hs : (s.step c e).src.crashed = false ∧ (s.step c e).src.pc ≠ .off := by
    rcases step_src c s e hc with ⟨_, _, e', _⟩ | k
    · rw [e']
      have := run_facts h.valid s.src s.snk.ready (fun p hp => (h.queue p hp).1) h.ok
      exact ⟨this.1, this.2.1⟩
    · exact ⟨k.crashed.trans h.ok, fun hh => h.son (k.on hh)⟩
  have hk : (s.step c e).snk.pc ≠ .off := by
    rcases step_snk c s e hc with ⟨_, _, e', _⟩ | k
    · rw [e']; exact (finish_same c.snk _ _).2.2.2.2.2.2.2.2.2.1
    · exact fun hh => h.kon (k.on hh)
  exact ⟨h.lanes, h.valid, h.reach.more [e] (fun x hx => by rw [List.mem_singleton.1 hx]; exact hc), h.limB, h.limF, hs.1, hg, hs.2, hk, p1, p2⟩

/-- Besides, `tready` is set for good. -/
structure Fast (c : NetCfg) (s : Net) : Prop extends Steady c s where
  hot : c.bus.hasReady = true → s.snk.nready = true ∧ s.snk.pauseSample = false
  rdy : s.src.pc = .due → c.bus.hasReady = true → s.snk.ready = true

/-- The clock edge takes place. -/
def Net.edge (s : Net) (e : NetEv) : Prop := e = .tick ∧ s.settled = true ∧ s.src.pc.still = true ∧ s.snk.pc.still = true

theorem not_edge {s : Net} {e : NetEv} (h : e ≠ .tick) : ¬ s.edge e := fun hh => h hh.1

instance (s : Net) (e : NetEv) : Decidable (s.edge e) :=
  match e with
  | .tick => decidable_of_iff (s.settled = true ∧ s.src.pc.still = true ∧ s.snk.pc.still = true) (by simp [Net.edge])
  | .srcRun => isFalse (not_edge (by simp))
  | .srcWake => isFalse (not_edge (by simp))
  | .snkRun => isFalse (not_edge (by simp))
  | .snkWake => isFalse (not_edge (by simp))
  | .snkSpurious => isFalse (not_edge (by simp))
  | .commit => isFalse (not_edge (by simp))
  | .send _ => isFalse (not_edge (by simp))
  | .resume _ => isFalse (not_edge (by simp))
  | .sendNowait _ => isFalse (not_edge (by simp))
  | .srcPause _ => isFalse (not_edge (by simp))
  | .srcClear => isFalse (not_edge (by simp))
  | .srcReset _ => isFalse (not_edge (by simp))
  | .recv _ => isFalse (not_edge (by simp))
  | .readNowait _ => isFalse (not_edge (by simp))
  | .snkPause _ => isFalse (not_edge (by simp))
  | .snkClear => isFalse (not_edge (by simp))
  | .snkReset _ => isFalse (not_edge (by simp))

theorem edges_cons (c : NetCfg) (s : Net) (e : NetEv) (evs : List NetEv) :
    Net.edges c s (e :: evs) = (if s.edge e then 1 else 0) + Net.edges c (s.step c e) evs := by
  cases e
  case tick =>
    simp only [Net.edges]
    congr 1
    by_cases h : s.settled = true ∧ s.src.pc.still = true ∧ s.snk.pc.still = true
    · rw [if_pos (by rw [h.1, h.2.1, h.2.2]; rfl), if_pos ⟨rfl, h⟩]
    · rw [if_neg (by simpa [and_assoc] using h), if_neg (fun hh => h hh.2)]
  all_goals
    simp only [Net.edges]
    rw [if_neg (not_edge (by simp))]

theorem edges_append (c : NetCfg) (l m : List NetEv) : ∀ s : Net, Net.edges c s (l ++ m) = Net.edges c s l + Net.edges c (l.foldl (Net.step c) s) m := by
  induction l with
  | nil => intro s; simp [Net.edges]
  | cons e l ih => intro s; rw [List.cons_append, edges_cons, edges_cons, ih]; simp only [List.foldl_cons]; omega

theorem edge_eq (c : NetCfg) {s : Net} {e : NetEv} (hcr : s.src.crashed = false) (h : s.edge e) : s.step c e =
    { s with src := { s.src with pc := s.src.pc.tick }, snk := { s.snk with pc := s.snk.pc.tick }, settled := false } := by
  obtain ⟨rfl, h1, h2, h3⟩ := h
  simp only [Net.step, hcr, Bool.false_eq_true, if_false]
  rw [if_pos (by rw [h1, h2, h3]; rfl)]

/-- What a sink remembers of `pause`. -/
theorem step_sample (c : NetCfg) (s : Net) (e : NetEv) (h : s.snk.pauseSample = false) (hp : s.snk.pause = false) :
    (s.step c e).snk.pauseSample = false := by
  by_cases hcr : s.src.crashed = true
  · unfold Net.step; rw [if_pos hcr]; exact h
  rw [Bool.not_eq_true] at hcr
  cases e <;> simp only [Net.step, hcr, Bool.false_eq_true, if_false]
  case snkRun =>
    split
    · show (s.snk.runSnk _ _ _).pauseSample = false
      have hc : (s.snk.capture c.snk s.src.valid s.src.beat).pauseSample = false ∧ (s.snk.capture c.snk s.src.valid s.src.beat).pause = false :=
        ⟨(capture_pause _ _ _ _).2.trans h, (capture_pause _ _ _ _).1.trans hp⟩
      unfold Rx.runSnk Rx.finish
      simp only
      repeat' split
      all_goals first | exact hc.1 | exact hc.2
    · exact h
  case snkWake => split; (exact hp); exact h
  case snkSpurious => split; (exact hp); exact h
  case commit =>
    split
    · simp only
      split <;> exact h
    · exact h
  case recv k => exact (recv_woke _ _).sample.trans h
  case readNowait n => exact (read_woke _ _).sample.trans h
  case snkPause v => unfold Rx.setPause; simp only; split <;> exact h
  case snkReset v =>
    unfold Rx.reset
    repeat' split
    all_goals exact h
  all_goals first | exact h | (split <;> exact h)

/-- `tready` is set for good, except that the edge at hand was not prepared for it. -/
def Near (c : NetCfg) (s : Net) : Prop := Steady c s ∧ (c.bus.hasReady = true → s.snk.nready = true ∧ s.snk.pauseSample = false)

theorem Near.step {c : NetCfg} {s : Net} (h : Near c s) (e : NetEv) (he : e.steady = true) (hg : Good (s.step c e)) : Near c (s.step c e) := by
  refine ⟨h.1.step e he hg, fun hr => ⟨?_, step_sample c s e (h.2 hr).2 h.1.kp⟩⟩
  rcases step_snk c s e (steady_clean he) with ⟨_, _, e', _⟩ | k
  · rw [e', run_nready (c := c.snk) hr (h.2 hr).2, not_full h.1]
    rfl
  · rw [k.nready]; exact (h.2 hr).1

theorem Fast.step {c : NetCfg} {s : Net} (h : Fast c s) (e : NetEv) (he : e.steady = true) (hg : Good (s.step c e)) : Fast c (s.step c e) := by
  have hN := Near.step ⟨h.toSteady, h.hot⟩ e he hg
  refine ⟨hN.1, hN.2, fun hd hr => ?_⟩
  by_cases hs : s.src.pc = .due
  · rw [(step_signals c s e (.inl hs)).2.2]
    exact h.rdy hs hr
  · have he' := step_due c s e (.inl ⟨hs, hd⟩)
    rw [edge_eq c h.ok he']
    show s.snk.ready = true
    rw [(h.bus.set he'.2.1).2.2]
    exact (h.hot hr).1

/-! ## Counting -/

/-- The number of beats of all frames sent. -/
def Net.beatsSent (c : NetCfg) (s : Net) : Nat := (s.src.sent.flatMap (beats c.bus)).length

/-- Beats that were driven. -/
def Net.out (c : NetCfg) (s : Net) : Nat := s.beatsSent c - (s.src.todo c.bus).length

/-- Beats that were driven, with the one the source is about to drive. -/
def Net.credit (c : NetCfg) (s : Net) : Nat := s.out c + (if s.src.pc = .due then 1 else 0)

/-- What the sink still has to sample. -/
def Net.pend (c : NetCfg) (s : Net) : List Beat :=
  if s.snk.pc = .due ∧ (s.src.valid && (!c.bus.hasReady || s.snk.ready)) = true then [s.src.beat] else []

/-- A beat driven and not transferred. -/
def Net.onBus (c : NetCfg) (s : Net) : List Beat :=
  if s.src.pc = .due ∧ (s.src.valid && (!c.bus.hasReady || s.snk.ready)) = true then []
  else if s.src.nvalid then [s.src.nbeat] else []

/-- Beats transferred. -/
def Net.level (c : NetCfg) (s : Net) : Nat := (s.snk.captured ++ s.pend c).length

theorem Steady.eq {c : NetCfg} {s : Net} (h : Steady c s) :
    s.src.sent.flatMap (beats c.bus) = s.snk.captured ++ s.pend c ++ s.onBus c ++ s.src.todo c.bus :=
  (h.reach.total h.lanes h.valid).symm

theorem Steady.outs {c : NetCfg} {s : Net} (h : Steady c s) : s.out c = s.level c + (s.onBus c).length ∧ (s.src.todo c.bus).length ≤ s.beatsSent c := by
  have := congrArg List.length h.eq
  unfold Net.out Net.level Net.beatsSent
  simp only [List.length_append] at this ⊢
  omega

theorem pend_off (c : NetCfg) {s : Net} (h : s.snk.pc ≠ .due) : s.pend c = [] := by
  unfold Net.pend
  rw [if_neg (fun hh => h hh.1)]

theorem onBus_off (c : NetCfg) {s : Net} (h : s.src.pc ≠ .due) : s.onBus c = if s.src.nvalid then [s.src.nbeat] else [] := by
  unfold Net.onBus
  rw [if_neg (fun hh => h hh.1)]

/-- What an unpaused source does at a clock edge when its bus is free: it drives the next beat, or has nothing left. -/
theorem run_full {c : Cfg} (hl : 0 < c.lanes) (hv : c.hasValid = true) {s : Src} (hi : SrcInv c s) (hd : s.pc = .due)
    (hp : s.pause = false) (hcr : s.crashed = false) (hpr : ∀ p ∈ s.queue, p.2.proper ∧ p.2.tdata ≠ []) (r : Bool)
    (hgo : s.valid = true → (!c.hasReady || r) = true) :
    (s.run c r).sent = s.sent ∧ ((s.run c r).todo c).length = (s.todo c).length - 1 := by
  have hw := run_go hl hv hi hd hp hcr (fun p hh => (hpr p hh).1) r hgo
  refine ⟨hw.sent, ?_⟩
  refine SrcInv.run_cases (P := fun t => (t.todo c).length = (s.todo c).length - 1) hv s r ?_ ?_
  · intro h1 h2 h3
    have := hgo h1
    rw [h2, h3] at this
    cases this
  · intro _ u hu
    have hun : u.pause = false ∧ u.crashed = false ∧ SrcInv c u ∧ u.todo c = s.todo c ∧ (live u.frame = true ∨ u.todo c = []) := by
      rw [hu]
      split
      · rename_i hlv
        exact ⟨hp, hcr, hi, rfl, .inl hlv⟩
      · rename_i hlv
        have hlv' : live s.frame = false := by simpa using hlv
        have h1 := take_proper s (fun p hh => (hpr p hh).1)
        have h2 := hi.take hlv' hd
        have h3 := hi.take_todo hl hlv'
        rcases SrcInv.take_cases s with ⟨hq, e⟩ | ⟨_, e⟩ | ⟨i, f, rest, hq, _, e⟩
        · rw [e] at h1 h2 h3 ⊢
          refine ⟨hp, hcr, h2, h3, .inr ?_⟩
          unfold Src.todo
          rw [hi.rest_dead hl hlv', hq]
          rfl
        · rw [e, hcr] at h1
          cases h1
        · refine ⟨by rw [e]; exact hp, h1.trans hcr, h2, h3, .inl ?_⟩
          rw [e]
          show f.truthy = true
          exact truthy_iff.2 (hpr (i, f) (by rw [hq]; simp)).2
    obtain ⟨e0, e1, e2, e3, e4⟩ := hun
    refine ⟨fun hh => (by rw [e1] at hh; cases hh), fun _ i g hf hg _ => ?_, fun _ hh => ?_⟩
    · obtain ⟨d1, _⟩ := e2.drive_todo hl hv hf hg
      rw [← e3, d1]
      rfl
    · rw [(quiet_facts hv u).1, ← e3]
      rcases e4 with hlu | h0
      · rcases hh with hh | hh
        · rw [hlu] at hh; cases hh
        · rw [e0] at hh; cases hh
      · rw [h0]; rfl

theorem SrcKeep.beatsSent {c : Cfg} {s t : Src} (h : SrcKeep s t) (hi : SrcInv c s) :
    (t.todo c).length + (s.sent.flatMap (beats c)).length = (s.todo c).length + (t.sent.flatMap (beats c)).length := by
  obtain ⟨x, hx, hy⟩ := h.more
  have hr : t.rest c = s.rest c := by
    unfold Src.rest
    rw [h.frame, h.off]
    split
    · rename_i i g hf
      obtain ⟨_, f, hs, _⟩ := hi.frm i g hf
      have : t.sent[i]? = some f := by
        rw [hy, List.getElem?_append_left (List.getElem?_eq_some_iff.1 hs).1]; exact hs
      rw [this, hs]
    · rfl
  unfold Src.todo
  rw [hr, hx, hy]
  simp only [List.flatMap_append, List.length_append, List.flatMap_map]
  omega

theorem Fast.credit_step {c : NetCfg} {s : Net} (h : Fast c s) (e : NetEv) (he : e.steady = true) (hg : Good (s.step c e)) (N : Nat)
    (hN : N ≤ s.beatsSent c) :
    min N (s.credit c + (if s.edge e then 1 else 0)) ≤ (s.step c e).credit c ∧ s.beatsSent c ≤ (s.step c e).beatsSent c := by
  have hc := steady_clean he
  have hq := h.outs.2
  have hq' := (h.step e he hg).outs.2
  rcases step_src c s e hc with ⟨rfl, hd, e', _⟩ | k
  · rw [if_neg (not_edge (by simp))]
    obtain ⟨f1, f2⟩ := run_full h.lanes h.valid h.known.src hd h.sp h.ok h.queue s.snk.ready (fun _ => by
      cases hh : c.bus.hasReady
      · rfl
      · rw [h.rdy hd hh]; rfl)
    have ht : (s.step c .srcRun).beatsSent c = s.beatsSent c := by
      unfold Net.beatsSent
      rw [e', f1]
    refine ⟨?_, by rw [ht]; exact Nat.le_refl _⟩
    unfold Net.credit Net.out at *
    rw [if_pos hd, ht, e', f2]
    omega
  · have hl := k.beatsSent h.known.src
    have hs : s.beatsSent c ≤ (s.step c e).beatsSent c := by
      obtain ⟨x, hx⟩ := k.sent
      unfold Net.beatsSent
      rw [← hx, List.flatMap_append, List.length_append]
      omega
    refine ⟨?_, hs⟩
    change _ + s.beatsSent c = _ + (s.step c e).beatsSent c at hl
    unfold Net.credit Net.out
    by_cases hed : s.edge e
    · have hst := edge_eq c h.ok hed
      have hpc : (s.step c e).src.pc = s.src.pc.tick := by rw [hst]
      rw [if_pos hed, hpc]
      have h2 := still_iff.1 hed.2.2.1
      rw [if_neg h2.1]
      cases hp : s.src.pc with
      | off => exact absurd hp h.son
      | edge => rw [if_pos (show Pc.edge.tick = .due from rfl)]; omega
      | due => exact absurd hp h2.1
      | asleep =>
        obtain ⟨q1, q2⟩ := h.known.src.sleep hp
        have h0 : s.src.todo c.bus = [] := by
          unfold Src.todo
          rw [h.known.src.rest_dead h.lanes q2, q1]
          rfl
        rw [h0] at hl
        simp only [List.length_nil] at hl
        omega
      | woken => exact absurd hp h2.2
    · rw [if_neg hed]
      by_cases hd : s.src.pc = .due
      · rw [if_pos hd, if_pos (k.due hd)]
        omega
      · rw [if_neg hd]
        omega

theorem Fast.edge_level {c : NetCfg} {s : Net} (h : Fast c s) {e : NetEv} (he : e.steady = true) (hg : Good (s.step c e)) (hed : s.edge e) :
    (s.step c e).level c = s.out c := by
  have hst := edge_eq c h.ok hed
  have hf := h.step e he hg
  have hbus : (s.step c e).onBus c = [] := by
    rw [hst]
    unfold Net.onBus
    split
    · rfl
    · rename_i hno
      split
      · rename_i hv
        refine absurd ?_ hno
        have hv' : s.src.nvalid = true := hv
        obtain ⟨b1, _, b3⟩ := h.bus.set hed.2.1
        have h2 := still_iff.1 hed.2.2.1
        refine ⟨?_, ?_⟩
        · show s.src.pc.tick = .due
          have := h.known.src.quiet
          cases hp : s.src.pc with
          | off => exact absurd hp h.son
          | edge => rfl
          | due => exact absurd hp h2.1
          | asleep => rw [this (.inl hp)] at hv'; cases hv'
          | woken => exact absurd hp h2.2
        · show (s.src.valid && (!c.bus.hasReady || s.snk.ready)) = true
          rw [b1, hv', b3, Bool.true_and]
          cases hr : c.bus.hasReady
          · rfl
          · rw [(h.hot hr).1]; rfl
      · rfl
  have := hf.outs.1
  rw [hbus, List.length_nil, Nat.add_zero] at this
  rw [← this, hst]
  rfl

theorem level_step {c : NetCfg} (hv : c.bus.hasValid = true) {s : Net} (e : NetEv) (hc : e.clean = true) (hne : ¬ s.edge e) :
    s.level c ≤ (s.step c e).level c := by
  unfold Net.level
  rcases step_snk c s e hc with ⟨rfl, hd, e', _⟩ | k
  · rw [e', runSnk_captured]
    have : s.pend c = if ((!c.snk.hasReady || s.snk.ready) && (!c.snk.hasValid || s.src.valid)) = true then [s.src.beat] else [] := by
      unfold Net.pend
      simp only [hd, true_and, NetCfg.snk, hv, Bool.not_true, Bool.false_or, Bool.and_comm]
    rw [this]
    simp only [List.length_append]
    omega
  · rw [k.captured]
    by_cases hd : s.snk.pc = .due
    · obtain ⟨a, b, d⟩ := step_signals c s e (.inr (.inl hd))
      have : (s.step c e).pend c = s.pend c := by
        unfold Net.pend
        rw [a, b, d]
        simp only [hd, k.due hd]
      rw [this]
      exact Nat.le_refl _
    · rw [pend_off c hd]
      simp only [List.append_nil, List.length_append]
      omega

theorem sent_mono {c : NetCfg} (hv : c.bus.hasValid = true) : ∀ (evs : List NetEv) (s : Net), (∀ e ∈ evs, e.steady = true) →
    s.src.sent <+: (evs.foldl (Net.step c) s).src.sent := by
  intro evs
  induction evs with
  | nil => intro s _; exact List.prefix_refl _
  | cons e evs ih =>
    intro s hev
    exact (step_sent hv (steady_clean (hev e List.mem_cons_self))).trans (ih _ (fun x hx => hev x (List.mem_cons_of_mem _ hx)))

theorem Good.before {c : NetCfg} (hv : c.bus.hasValid = true) {evs : List NetEv} {s : Net} (hev : ∀ e ∈ evs, e.steady = true)
    (h : Good (evs.foldl (Net.step c) s)) : Good s := fun f hf => h f ((sent_mono hv evs s hev).subset hf)

theorem Fast.run {c : NetCfg} {N : Nat} : ∀ (evs : List NetEv) {s : Net} (B : Nat), Fast c s → (∀ e ∈ evs, e.steady = true) →
    Good (evs.foldl (Net.step c) s) → N ≤ s.beatsSent c → min N B ≤ s.credit c → min N (B - 1) ≤ s.level c →
    Fast c (evs.foldl (Net.step c) s) ∧ min N (B + Net.edges c s evs - 1) ≤ (evs.foldl (Net.step c) s).level c := by
  intro evs
  induction evs with
  | nil => intro s B h _ _ _ h1 h2; exact ⟨h, by simpa [Net.edges] using h2⟩
  | cons e evs ih =>
    intro s B h hev hgl hN h1 h2
    have he := hev e List.mem_cons_self
    have hev' := fun x hx => hev x (List.mem_cons_of_mem _ hx)
    have hg : Good (s.step c e) := Good.before h.valid hev' hgl
    obtain ⟨c1, c2⟩ := h.credit_step e he hg N hN
    rw [edges_cons]
    by_cases hed : s.edge e
    · rw [if_pos hed] at c1 ⊢
      have hl := h.edge_level he hg hed
      have h3 : s.credit c = s.out c := by
        unfold Net.credit
        rw [if_neg (still_iff.1 hed.2.2.1).1]; rfl
      have := ih (B + 1) (h.step e he hg) hev' hgl (Nat.le_trans hN c2) (by omega) (by rw [hl]; omega)
      rw [show B + (1 + Net.edges c (s.step c e) evs) = B + 1 + Net.edges c (s.step c e) evs by omega]
      exact this
    · rw [if_neg hed] at c1 ⊢
      have hl := level_step (c := c) h.valid e (steady_clean he) hed
      have := ih B (h.step e he hg) hev' hgl (Nat.le_trans hN c2) (by omega) (by omega)
      rw [Nat.zero_add]
      exact this

/-! ## Until `tready` is set -/

/-- How many clock edges it takes until `tready` is set for good. -/
def Net.need (c : NetCfg) (s : Net) : Nat :=
  if c.bus.hasReady = false then 0
  else if s.snk.pauseSample = false then (if s.snk.nready = true ∨ s.snk.pc = .due then 0 else 1)
  else (if s.snk.pc = .due then 1 else 2)

theorem need_le (c : NetCfg) (s : Net) : s.need c ≤ 2 := by
  unfold Net.need
  repeat' split
  all_goals omega

theorem Near.need {c : NetCfg} {s : Net} (h : Near c s) : s.need c = 0 := by
  unfold Net.need
  cases hr : c.bus.hasReady
  · simp
  · obtain ⟨a, b⟩ := h.2 hr
    simp [a, b]

theorem snkRun_sample {c : Cfg} {s : Rx} {v : Bool} {b : Beat} (hr : c.hasReady = true) (hp : s.pause = false) :
    (s.runSnk c v b).pauseSample = false := by
  have hcp := (capture_pause c s v b).1
  cases h : (s.runSnk c v b).pc
  · exact absurd h (finish_same c _ v).2.2.2.2.2.2.2.2.2.1
  · rw [← hp, ← hcp]; exact finish_sample h
  · exact absurd h (finish_same c _ v).2.2.2.2.2.2.2.2.1
  · have := SnkSlept.finish (c := c) (s := s.capture c v b) (v := v) h hr
    have h2 : (s.runSnk c v b).pause = false := (runSnk_pause c s v b).trans hp
    rw [show (s.runSnk c v b).pauseSample = (s.runSnk c v b).pause from this]
    exact h2
  · exact absurd h finish_woken

theorem Steady.need_step {c : NetCfg} {s : Net} (h : Steady c s) (e : NetEv) (he : e.steady = true) (hN : ¬ Near c s) :
    (s.step c e).need c + (if s.edge e then 1 else 0) ≤ s.need c := by
  have hr : c.bus.hasReady = true := Classical.byContradiction fun hh => hN ⟨h, fun h2 => absurd h2 hh⟩
  have hno : ¬ (s.snk.nready = true ∧ s.snk.pauseSample = false) := fun hh => hN ⟨h, fun _ => hh⟩
  have hc := steady_clean he
  have hasleep : s.snk.pc ≠ .asleep := by
    intro hp
    have h1 := h.known.live hp hr
    have h2 := h.bus.slept hp hr
    rw [not_full h, h.kp] at h1
    rw [h.kp] at h2
    exact hno ⟨h1, h2⟩
  unfold Net.need
  simp only [hr, Bool.true_eq_false, if_false]
  rcases step_snk c s e hc with ⟨rfl, hd, e', _⟩ | k
  · rw [if_neg (c := s.edge NetEv.snkRun) (not_edge (by simp)), e']
    rw [if_pos (snkRun_sample (c := c.snk) hr h.kp)]
    cases hps : s.snk.pauseSample
    · rw [run_nready (c := c.snk) hr hps, not_full h]
      simp
    · simp [hd]
      split <;> omega
  · by_cases hed : s.edge e
    · rw [if_pos hed]
      have hst := edge_eq c h.ok hed
      have hp : s.snk.pc = .edge := by
        have h2 := still_iff.1 hed.2.2.2
        cases hp : s.snk.pc with
        | off => exact absurd hp h.kon
        | edge => rfl
        | due => exact absurd hp h2.1
        | asleep => exact absurd hp hasleep
        | woken => exact absurd hp h2.2
      rw [hst]
      simp only [hp, Pc.tick]
      cases hps : s.snk.pauseSample
      · cases hn : s.snk.nready
        · simp
        · exact absurd ⟨hn, hps⟩ hno
      · simp
    · rw [if_neg hed]
      cases hps : s.snk.pauseSample
      · rw [step_sample c s e hps h.kp]
        have hn : s.snk.nready = false := by
          cases hn : s.snk.nready
          · rfl
          · exact absurd ⟨hn, hps⟩ hno
        simp only [k.nready, hn]
        by_cases hd : s.snk.pc = .due
        · simp [hd, k.due hd]
        · simp [hd]
          split <;> omega
      · by_cases hd : s.snk.pc = .due
        · rw [k.sample hd, hps]
          simp [hd, k.due hd]
        · simp [hd]
          repeat' split
          all_goals omega

theorem Steady.slow_step {c : NetCfg} {s : Net} (h : Steady c s) (e : NetEv) (he : e.steady = true) (hg : Good (s.step c e)) (hF : ¬ Fast c s) :
    (s.step c e).need c + (if s.edge e then 1 else 0) ≤ s.need c := by
  by_cases hN : Near c s
  · rw [(hN.step e he hg).need]
    have : s.src.pc = .due := Classical.byContradiction fun hd => hF ⟨h, hN.2, fun hh => absurd hh hd⟩
    rw [if_neg (fun hed => (still_iff.1 hed.2.2.1).1 this)]
    omega
  · exact h.need_step e he hN

theorem Steady.reaches {c : NetCfg} : ∀ (evs : List NetEv) {s : Net}, Steady c s → (∀ e ∈ evs, e.steady = true) → Good (evs.foldl (Net.step c) s) →
    (∃ l m, evs = l ++ m ∧ Net.edges c s l ≤ s.need c ∧ Fast c (l.foldl (Net.step c) s)) ∨ Net.edges c s evs ≤ s.need c := by
  intro evs
  induction evs with
  | nil => intro s _ _ _; right; exact Nat.zero_le _
  | cons e evs ih =>
    intro s h hev hgl
    by_cases hN : Fast c s
    · exact .inl ⟨[], e :: evs, rfl, Nat.zero_le _, hN⟩
    have he := hev e List.mem_cons_self
    have hev' := fun x hx => hev x (List.mem_cons_of_mem _ hx)
    have hg : Good (s.step c e) := Good.before h.valid hev' hgl
    have hn := h.slow_step e he hg hN
    rcases ih (h.step e he hg) hev' hgl with ⟨l, m, h1, h2, h3⟩ | h2
    · refine .inl ⟨e :: l, m, by rw [h1]; rfl, ?_, h3⟩
      rw [edges_cons]
      omega
    · right
      rw [edges_cons]
      omega

theorem calm_start {c : NetCfg} (hl : 0 < c.bus.lanes) (hv : c.bus.hasValid = true) (hB : c.snkBytes ≤ 0) (hF : c.snkFrames ≤ 0)
    (hist : List NetEv) (hcl : ∀ e ∈ hist, e.clean = true) (s : Net) (hs : s = Net.exec c (.snkReset false :: hist)) (hg : Good s)
    (hon : s.src.pc ≠ .off) (hp : s.src.pause = false) (hp' : s.snk.pause = false) : Steady c s := by
  refine ⟨hl, hv, ⟨hist, hcl, hs⟩, hB, hF, ?_, hg, hon, ?_, hp, hp'⟩
  · subst hs
    exact reach_ok hl hv hist hcl (fun f hf => (hg f hf).1)
  · subst hs
    refine foldl_inv' _ (fun s : Net => s.snk.pc ≠ .off) (fun e => e.clean = true) (fun s e hq h => ?_) hist _ hcl (by simp [Net.step, Rx.reset])
    rcases step_snk c s e hq with ⟨_, _, e', _⟩ | k
    · rw [e']; exact (finish_same c.snk _ _).2.2.2.2.2.2.2.2.2.1
    · exact fun hh => h (k.on hh)

/-- Once `tready` is set for good. -/
theorem Steady.fast {c : NetCfg} {s : Net} (h : Steady c s) (evs : List NetEv) (hev : ∀ e ∈ evs, e.steady = true)
    (hg : Good (evs.foldl (Net.step c) s)) (hk : 2 < Net.edges c s evs) : Fast c (evs.foldl (Net.step c) s) := by
  have hn := need_le c s
  rcases h.reaches evs hev hg with ⟨l, m, rfl, _, hf⟩ | h2
  · rw [List.foldl_append] at hg ⊢
    exact (hf.run m 0 (fun x hx => hev x (List.mem_append_right _ hx)) hg (Nat.zero_le _) (by omega) (by omega)).1
  · omega

theorem level_mono {c : NetCfg} : ∀ (evs : List NetEv) {s : Net}, Steady c s → (∀ e ∈ evs, e.steady = true) → Good (evs.foldl (Net.step c) s) →
    s.level c ≤ (evs.foldl (Net.step c) s).level c ∧ s.beatsSent c ≤ (evs.foldl (Net.step c) s).beatsSent c := by
  intro evs
  induction evs with
  | nil => intro s h _ _; exact ⟨Nat.le_refl _, Nat.le_refl _⟩
  | cons e evs ih =>
    intro s h hev hgl
    have he := hev e List.mem_cons_self
    have hev' := fun x hx => hev x (List.mem_cons_of_mem _ hx)
    have hc := steady_clean he
    have hg : Good (s.step c e) := Good.before h.valid hev' hgl
    obtain ⟨a, b⟩ := ih (h.step e he hg) hev' hgl
    refine ⟨Nat.le_trans ?_ a, Nat.le_trans ?_ b⟩
    · by_cases hed : s.edge e
      · have h2 := still_iff.1 hed.2.2.2
        unfold Net.level
        rw [pend_off c h2.1, edge_eq c h.ok hed]
        simp only [List.append_nil, List.length_append]
        omega
      · exact level_step h.valid e hc hed
    · obtain ⟨x, hx⟩ := step_sent h.valid hc (s := s)
      unfold Net.beatsSent
      rw [← hx, List.flatMap_append, List.length_append]
      omega

theorem Steady.rate {c : NetCfg} {s : Net} (h : Steady c s) (evs : List NetEv) (hev : ∀ e ∈ evs, e.steady = true)
    (hg : Good (evs.foldl (Net.step c) s)) :
    min (s.beatsSent c) (s.level c + Net.edges c s evs - 3) ≤ (evs.foldl (Net.step c) s).level c := by
  have hn := need_le c s
  rcases h.reaches evs hev hg with ⟨l, m, rfl, hl, hf⟩ | h2
  · rw [List.foldl_append] at hg
    rw [List.foldl_append, edges_append]
    have hm := fun x hx => hev x (List.mem_append_right l (b := x) hx)
    obtain ⟨a, b⟩ := level_mono l h (fun x hx => hev x (List.mem_append_left _ hx)) hf.good
    have ho := hf.outs.1
    have := (hf.run (N := s.beatsSent c) m (s.level c) hm hg b (by unfold Net.credit; omega) (by omega)).2
    omega
  · have := (level_mono evs h hev hg).1
    omega

end Verif.Axis
