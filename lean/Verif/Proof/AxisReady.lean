import Verif.Proof.AxisNet
import Verif.Proof.StreamNet

/-!
# AXI stream sink: `tready` comes back
-/

namespace Verif.Axis

open Verif.Stream (Pc wakeUp_ne wakeUp_off wakeUp_woken wakeUp_due wakeUp_edge tick_due tick_off tick_asleep tick_woken tick_edge
  still_iff foldl_inv foldl_inv' still_edge still_asleep still_due tick_of_edge tick_of_asleep)

/-- While the sink sleeps its `tready` is what its state calls for. -/
def SnkLive (c : Cfg) (s : Rx) : Prop :=
  s.pc = .asleep → c.hasReady = true → s.nready = !(isFull c s.occBytes s.occFrames || s.pause)

theorem SnkLive.finish {c : Cfg} {s : Rx} {v : Bool} : SnkLive c (s.finish c v) := by
  intro hp hr
  unfold Rx.finish at hp ⊢
  simp only [hr, if_true] at hp ⊢
  split at hp
  · rename_i hc
    rw [if_pos hc]
    simp only [Bool.and_eq_true, decide_eq_true_eq] at hc ⊢
    rw [hc.2]
  · simp [Rx.top] at hp

theorem SnkLive.recv {c : Cfg} {s : Rx} (h : SnkLive c s) (k : Bool) : SnkLive c (s.recv true k).2 :=
  recv_ind true (SnkLive c) (fun s f rest hq _ hp => by
    obtain ⟨_, _, _, _, _, _, _, f8, _⟩ := popped_facts true s false f rest hq
    exact absurd (f8 hp).2 (by simp)) s k h

theorem SnkLive.readNowait {c : Cfg} {s : Rx} (h : SnkLive c s) (n : Int) : SnkLive c (s.readNowait true n).2 :=
  read_ind true (SnkLive c) (fun s f rest hq _ hp => by
    obtain ⟨_, _, _, _, _, _, _, f8, _⟩ := popped_facts true s true f rest hq
    exact absurd (f8 hp).2 (by simp)) (fun _ _ h => h) (fun _ _ h => h) s n h

theorem SnkLive.setPause {c : Cfg} {s : Rx} (h : SnkLive c s) (v : Bool) : SnkLive c (s.setPause v) := by
  unfold Rx.setPause
  simp only
  split
  · exact fun hp => absurd hp wakeUp_ne
  · rename_i hh
    have : s.pause = v := Classical.byContradiction fun hne => hh hne
    subst this
    exact h

theorem SnkLive.reset {c : Cfg} {s : Rx} (h : SnkLive c s) (v : Bool) : SnkLive c (s.reset v) := by
  unfold Rx.reset
  repeat' split
  · exact fun hp => by simp at hp
  · exact fun hp => by simp at hp
  · exact h

theorem SnkLive.step {c : Cfg} {s : SnkSys} (e : SnkEv) (hcl : e.noClear = true) (h : SnkLive c s.snk) :
    SnkLive c (s.step c e).snk := by
  cases e <;> simp only [SnkSys.step]
  case tick =>
    split
    · exact fun hp hr => h (by simpa only [tick_asleep] using hp) hr
    · exact h
  case run => split; (exact SnkLive.finish); exact h
  case wake => split; (intro hp; simp [Rx.top] at hp); exact h
  case spurious => split; (intro hp; simp [Rx.top] at hp); exact h
  case commit => split; (simp only; split; (exact fun hp => absurd hp wakeUp_ne); exact h); exact h
  case env v d =>
    split
    · exact h
    · simp only
      split
      · exact fun hp => absurd hp wakeUp_ne
      · exact h
  case recv k => exact h.recv k
  case readNowait n => exact h.readNowait n
  case pause v => exact h.setPause v
  case clear => exact absurd hcl (by simp [SnkEv.noClear])
  case reset v => exact h.reset v

theorem SnkSys.exec_live (c : Cfg) (evs : List SnkEv) (hcl : ∀ e ∈ evs, e.noClear = true) :
    SnkLive c (SnkSys.exec c evs).snk :=
  foldl_inv' _ (fun s : SnkSys => SnkLive c s.snk) (fun e => e.noClear = true)
    (fun _ e hq h => SnkLive.step e hq h) evs _ hcl (fun hp => by simp at hp)

theorem finish_woken {c : Cfg} {s : Rx} {v : Bool} : (s.finish c v).pc ≠ .woken := by
  unfold Rx.finish
  simp only
  repeat' split
  all_goals simp [Rx.top]

theorem finish_sample {c : Cfg} {s : Rx} {v : Bool} (hp : (s.finish c v).pc = .edge) :
    (s.finish c v).pauseSample = s.pause := by
  revert hp
  unfold Rx.finish
  simp only
  repeat' split
  all_goals simp [Rx.top]

theorem finish_nready {c : Cfg} {s : Rx} {v : Bool} (hr : c.hasReady = true) :
    (s.finish c v).nready = !(isFull c s.occBytes s.occFrames || s.pauseSample) := by
  unfold Rx.finish
  simp only [hr, if_true]
  repeat' split
  all_goals simp [Rx.top]

theorem run_still {c : Cfg} {s : Rx} {v : Bool} {b : Beat} : (s.runSnk c v b).pc.still = true := by
  rw [still_iff]; exact ⟨(finish_same c _ v).2.2.2.2.2.2.2.2.1, finish_woken⟩

theorem capture_pause (c : Cfg) (s : Rx) (v : Bool) (b : Beat) : (s.capture c v b).pause = s.pause ∧
    (s.capture c v b).pauseSample = s.pauseSample := by
  unfold Rx.capture
  split
  · exact ⟨(collect_same c s b).2.2.2.2.2.2.2.1, (collect_same c s b).2.2.2.2.2.2.2.2⟩
  · exact ⟨rfl, rfl⟩

theorem run_pause (c : Cfg) (s : Rx) (v : Bool) (b : Beat) : (s.runSnk c v b).pause = s.pause := by
  unfold Rx.runSnk
  rw [(finish_same c _ v).2.2.2.2.2.2.2.2.2.2.2.1, (capture_pause c s v b).1]

/-- What holds of a running, unpaused sink once it has seen a whole cycle unpaused. -/
structure SnkGood (c : Cfg) (s : Rx) : Prop where
  pause : s.pause = false
  pc : s.pc = .edge ∨ s.pc = .asleep ∨ s.pc = .woken
  sample : s.pc = .edge → s.pauseSample = false
  sleep : s.pc = .asleep → s.nready = !(isFull c s.occBytes s.occFrames)

theorem run_good {c : Cfg} (hr : c.hasReady = true) {s : Rx} {v : Bool} {b : Beat} (hp : s.pause = false) :
    SnkGood c (s.runSnk c v b) := by
  have h1 : (s.runSnk c v b).pause = false := by rw [run_pause, hp]
  obtain ⟨_, _, _, _, _, _, _, _, g1, g2, _⟩ := finish_same c (s.capture c v b) v
  refine ⟨h1, ?_, fun he => ?_, fun ha => ?_⟩
  · cases h : (s.runSnk c v b).pc
    · exact absurd h g2
    · left; rfl
    · exact absurd h g1
    · right; left; rfl
    · exact absurd h finish_woken
  · rw [← hp, ← (capture_pause c s v b).1]; exact finish_sample he
  · have := SnkLive.finish (c := c) (s := s.capture c v b) (v := v) ha hr
    rw [Rx.runSnk] at h1 ⊢
    rw [this, h1, Bool.or_false]

theorem run_nready {c : Cfg} (hr : c.hasReady = true) {s : Rx} {v : Bool} {b : Beat} (hp : s.pauseSample = false) :
    (s.runSnk c v b).nready = !(isFull c (s.runSnk c v b).occBytes (s.runSnk c v b).occFrames) := by
  obtain ⟨_, _, g3, g4, _⟩ := finish_same c (s.capture c v b) v
  unfold Rx.runSnk
  rw [finish_nready hr, (capture_pause c s v b).2, hp, Bool.or_false, g3, g4]

/-- The sink after its writes took effect. -/
def _root_.Verif.Axis.Rx.settle (s : Rx) : Rx :=
  if s.nready && !s.ready then ({ s with ready := s.nready } : Rx).setWake else { s with ready := s.nready }

theorem settle_facts (s : Rx) :
    s.settle.pause = s.pause ∧ (s.settle.occBytes = s.occBytes ∧ s.settle.occFrames = s.occFrames) ∧ s.settle.nready = s.nready ∧
      s.settle.ready = s.nready ∧
      s.settle.pauseSample = s.pauseSample ∧ (s.settle.pc = s.pc ∨ s.pc = .asleep ∧ s.settle.pc = .woken) := by
  unfold Rx.settle
  split
  · refine ⟨rfl, ⟨rfl, rfl⟩, rfl, rfl, rfl, ?_⟩
    simp only [Rx.setWake]
    cases s.pc <;> simp [Pc.wakeUp]
  · exact ⟨rfl, ⟨rfl, rfl⟩, rfl, rfl, rfl, Or.inl rfl⟩

theorem SnkSys.commit_settle {c : Cfg} {s : SnkSys} (h : s.snk.pc.still = true) :
    s.step c .commit = { s with snk := s.snk.settle, settled := true } := by
  simp only [SnkSys.step, h, if_true, Rx.settle]

theorem SnkSys.tail_edge {c : Cfg} {s : SnkSys} (h : s.snk.pc = .edge) :
    ([SnkEv.commit, .tick, .run, .commit].foldl (SnkSys.step c) s).snk =
      (({ s.snk.settle with pc := .due } : Rx).runSnk c s.valid s.beat).settle := by
  have hp : s.snk.settle.pc = .edge := by
    rcases (settle_facts s.snk).2.2.2.2.2 with hh | ⟨hh, _⟩
    · rw [hh, h]
    · rw [h] at hh; exact absurd hh (by simp)
  simp only [List.foldl_cons, List.foldl_nil]
  rw [SnkSys.commit_settle (s := s) (by rw [h]; rfl)]
  simp only [SnkSys.step, hp, still_edge, tick_of_edge, if_true, Bool.and_self]
  rw [if_pos run_still]; rfl

theorem SnkSys.tail_asleep {c : Cfg} {s : SnkSys} (h : s.snk.pc = .asleep) :
    ([SnkEv.commit, .tick, .run, .commit].foldl (SnkSys.step c) s).snk = s.snk.settle := by
  simp only [List.foldl_cons, List.foldl_nil]
  rw [SnkSys.commit_settle (s := s) (by rw [h]; rfl)]
  by_cases hr : (s.snk.nready && !s.snk.ready) = true
  · simp [SnkSys.step, Rx.settle, hr, Rx.setWake, h, Pc.wakeUp, Pc.still]
  · simp [SnkSys.step, Rx.settle, hr, h, Pc.still, Pc.tick]

theorem SnkSys.tail_due {c : Cfg} {s : SnkSys} (h : s.snk.pc = .due) :
    ([SnkEv.commit, .tick, .run, .commit].foldl (SnkSys.step c) s).snk = (s.snk.runSnk c s.valid s.beat).settle := by
  simp only [List.foldl_cons, List.foldl_nil, SnkSys.step, h, still_due, Bool.and_false, Bool.false_eq_true, if_false, if_true]
  rw [if_pos run_still]; rfl

/-- The start of a cycle: only the scheduling state of the sink changes. -/
theorem SnkSys.cycle_head (c : Cfg) (s : SnkSys) (v : Bool) (b : Beat) (hoff : s.snk.pc ≠ .off) :
    ∃ s' : SnkSys, s.cycle c v b = [SnkEv.commit, .tick, .run, .commit].foldl (SnkSys.step c) s' ∧
      s'.snk.pause = s.snk.pause ∧ s'.snk.occBytes = s.snk.occBytes ∧ s'.snk.occFrames = s.snk.occFrames ∧
      s'.snk.nready = s.snk.nready ∧
      (s'.snk.pc = .due ∧ s.snk.pc = .due ∨ s'.snk.pc = .asleep ∧ s.snk.pc = .asleep ∨
       s'.snk.pc = .edge ∧ (s'.snk.pauseSample = s.snk.pause ∨ s.snk.pc = .edge ∧ s'.snk.pauseSample = s.snk.pauseSample)) := by
  refine ⟨_, rfl, ?_⟩
  have hc : s.snk.pc = .edge ∨ s.snk.pc = .due ∨ s.snk.pc = .asleep ∨ s.snk.pc = .woken := by
    cases h : s.snk.pc <;> simp_all
  simp only [SnkSys.step]
  rcases hc with h | h | h | h
  · by_cases hv : (v && !s.valid) = true
    · simp [hv, Rx.setWake, h, Pc.wakeUp]
    · simp [hv, h]
  · simp [h]
  · by_cases hv : (v && !s.valid) = true
    · simp [hv, Rx.setWake, h, Pc.wakeUp, Rx.top]
    · simp [hv, h]
  · by_cases hv : (v && !s.valid) = true
    · simp [hv, Rx.setWake, h, Pc.wakeUp, Rx.top]
    · simp [hv, h, Rx.top]

theorem SnkGood.settle {c : Cfg} {s : Rx} (h : SnkGood c s) : SnkGood c s.settle := by
  obtain ⟨h1, h2, h3, _, h5, h6⟩ := settle_facts s
  refine ⟨h1.trans h.pause, ?_, fun he => ?_, fun ha => ?_⟩
  · rcases h6 with h6 | ⟨_, h6⟩
    · rw [h6]; exact h.pc
    · exact Or.inr (Or.inr h6)
  · rcases h6 with h6 | ⟨_, h6⟩
    · rw [h5]; exact h.sample (h6 ▸ he)
    · rw [h6] at he; exact absurd he (by simp)
  · rcases h6 with h6 | ⟨_, h6⟩
    · rw [h3, h2.1, h2.2]; exact h.sleep (h6 ▸ ha)
    · rw [h6] at ha; exact absurd ha (by simp)

theorem SnkSys.cycle_good {c : Cfg} (hr : c.hasReady = true) {s : SnkSys} (v : Bool) (b : Beat) (hoff : s.snk.pc ≠ .off)
    (hp : s.snk.pause = false) (hl : SnkLive c s.snk) : SnkGood c (s.cycle c v b).snk := by
  obtain ⟨s', h0, h1, h2, h2', h3, h4⟩ := SnkSys.cycle_head c s v b hoff
  rw [h0]
  rcases h4 with ⟨h4, _⟩ | ⟨h4, h5⟩ | ⟨h4, _⟩
  · rw [SnkSys.tail_due (c := c) h4]
    exact (run_good (c := c) hr (s := s'.snk) (v := s'.valid) (b := s'.beat) (by rw [h1, hp])).settle
  · rw [SnkSys.tail_asleep (c := c) h4]
    refine SnkGood.settle ⟨by rw [← hp, ← h1], Or.inr (Or.inl h4), fun he => ?_, fun _ => ?_⟩
    · rw [h4] at he; exact absurd he (by simp)
    · rw [h2, h2', h3, hl h5 hr, hp, Bool.or_false]
  · rw [SnkSys.tail_edge (c := c) h4]
    exact (run_good (c := c) hr (s := { s'.snk.settle with pc := .due }) (v := s'.valid) (b := s'.beat)
      (by simp only; rw [(settle_facts s'.snk).1, h1, hp])).settle

theorem SnkSys.cycle_ready {c : Cfg} (hr : c.hasReady = true) {s : SnkSys} (v : Bool) (b : Beat)
    (hg : SnkGood c s.snk) :
    (s.cycle c v b).snk.ready = !(isFull c (s.cycle c v b).snk.occBytes (s.cycle c v b).snk.occFrames) := by
  obtain ⟨s', h0, h1, h2, h2', h3, h4⟩ := SnkSys.cycle_head c s v b (by rcases hg.pc with h | h | h <;> simp [h])
  rw [h0]
  rcases h4 with ⟨_, h4⟩ | ⟨h4, h5⟩ | ⟨h4, h5⟩
  · rcases hg.pc with h | h | h <;> simp [h] at h4
  · rw [SnkSys.tail_asleep (c := c) h4]
    obtain ⟨_, ⟨f2, f2'⟩, _, f4, _⟩ := settle_facts s'.snk
    rw [f4, f2, f2', h2, h2', h3]
    exact hg.sleep h5
  · rw [SnkSys.tail_edge (c := c) h4]
    obtain ⟨_, ⟨f2, f2'⟩, _, f4, _⟩ := settle_facts (({ s'.snk.settle with pc := .due } : Rx).runSnk c s'.valid s'.beat)
    rw [f4, f2, f2']
    refine run_nready hr ?_
    simp only
    rw [(settle_facts s'.snk).2.2.2.2.1]
    rcases h5 with h5 | ⟨h5, h6⟩
    · rw [h5, hg.pause]
    · rw [h6, hg.sample h5]

end Verif.Axis
