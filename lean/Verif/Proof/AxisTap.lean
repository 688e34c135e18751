import Verif.Spec.AxisTap
import Verif.Proof.AxisStep

/-!
# A monitor on the bus between an AXI stream source and a sink: invariants
-/

namespace Verif.Axis

open Verif.Stream (Pc wakeUp_ne wakeUp_off wakeUp_woken wakeUp_due wakeUp_edge tick_due tick_off tick_asleep tick_woken tick_edge
  still_iff foldl_inv foldl_inv')

/-- A beat is transferred at the next clock edge. -/
def Net.moves (c : NetCfg) (n : Net) : Bool := (!c.bus.hasReady || n.snk.ready) && (!c.bus.hasValid || n.src.valid)

/-- The beat transferred by the last clock edge, if a coroutine in state `p` has not sampled it yet. -/
def waiting (c : NetCfg) (n : Net) (p : Pc) : List Beat := if p = .due ∧ n.moves c = true then [n.src.beat] else []

theorem waiting_not_due {c : NetCfg} {n : Net} {p : Pc} (h : p ≠ .due) : waiting c n p = [] := by
  unfold waiting
  rw [if_neg (fun hh => h hh.1)]

theorem waiting_congr {c : NetCfg} {n m : Net} {p q : Pc} (h : q = .due ↔ p = .due) (h1 : m.src.valid = n.src.valid)
    (h2 : m.src.beat = n.src.beat) (h3 : m.snk.ready = n.snk.ready) : waiting c m q = waiting c n p := by
  unfold waiting Net.moves
  rw [h1, h2, h3]
  simp only [h]

/-- The sink's part of a state reached. -/
def Seen (c : NetCfg) (n : Net) : Prop := ∃ s k, Sim c n s k ∧ SnkAcc c.snk false k

theorem Seen.step {c : NetCfg} (hl : 0 < c.bus.lanes) {n : Net} (h : Seen c n) (e : NetEv) : Seen c (n.step c e) := by
  obtain ⟨s, k, h1, h2⟩ := h
  obtain ⟨l₁, l₂, g, _⟩ := h1.step e
  exact ⟨_, _, g, foldl_inv _ _ (fun _ e h => SnkAcc.step (c := c.snk) hl e (by simp) h) l₂ _ h2⟩

theorem Seen.sleep {c : NetCfg} {n : Net} (h : Seen c n) (hs : n.settled = true) (hp : n.snk.pc = .asleep) : n.moves c = false := by
  obtain ⟨s, k, h1, h2⟩ := h
  have h3 := h2.set (h1.set hs).2
  have h4 := h2.inv.sleep (by rw [h1.snk]; exact hp)
  rw [← h3, h1.snk, h1.valid] at h4
  unfold Net.moves
  rw [Bool.and_comm]
  exact h4

/-- What is kept of a monitored stream. -/
structure TapInv (c : NetCfg) (s : Tap) : Prop where
  net : Seen c s.net
  son : s.net.snk.pc ≠ .off
  mon : s.mon.pc ≠ .off
  sleep : s.mon.pc = .asleep → s.net.moves c = false
  acc : s.mon.captured ++ waiting c s.net s.mon.pc = s.net.snk.captured ++ waiting c s.net s.net.snk.pc

/-- The sink in an event other than its turn, a clock edge and signal writes taking effect. -/
theorem snk_other (c : NetCfg) (n : Net) (e : NetEv) (h1 : e ≠ .tick) (h3 : ¬ (e = .snkRun ∧ n.snk.pc = .due))
    (h4 : e ≠ .snkReset true) : (n.step c e).snk.captured = n.snk.captured ∧ ((n.step c e).snk.pc = .due ↔ n.snk.pc = .due) ∧
    ((n.step c e).snk.pc = .off → n.snk.pc = .off) := by
  by_cases hcl : e.clean = true
  · rcases step_snk c n e hcl with ⟨a, b, _⟩ | k
    · exact absurd ⟨a, b⟩ h3
    · refine ⟨k.captured, ⟨fun hh => ?_, k.due⟩, k.on⟩
      refine Classical.byContradiction fun hno => ?_
      exact h1 (step_due c n e (.inr ⟨hno, hh⟩)).1
  · by_cases hcr : n.src.crashed = true
    · unfold Net.step; rw [if_pos hcr]; exact ⟨rfl, Iff.rfl, id⟩
    rw [Bool.not_eq_true] at hcr
    cases e <;> simp only [NetEv.clean, not_true] at hcl
    all_goals simp only [Net.step, hcr, Bool.false_eq_true, if_false]
    case srcClear => exact ⟨trivial, trivial, id⟩
    case srcReset v => exact ⟨trivial, trivial, id⟩
    case snkClear => exact ⟨rfl, Iff.rfl, id⟩

theorem finish_pc (c : Cfg) (s : Rx) (v : Bool) : (s.finish c v).pc = .asleep ∨ (s.finish c v).pc = .edge := by
  unfold Rx.finish
  simp only
  repeat' split
  all_goals simp [Rx.top]

theorem TapInv.other {c : NetCfg} (hl : 0 < c.bus.lanes) {s : Tap} (h : TapInv c s) (e : NetEv) (h1 : e ≠ .tick) (h2 : e ≠ .commit)
    (h4 : e ≠ .snkReset true) : TapInv c { s with net := s.net.step c e } := by
  have hnet : Seen c (s.net.step c e) := h.net.step hl e
  obtain ⟨e1, e2, e3⟩ := step_signals c s.net e (.inr (.inr h2))
  have hx : (s.net.step c e).moves c = s.net.moves c := by simp only [Net.moves, e1, e3]
  by_cases hcr : s.net.src.crashed = true
  · have : s.net.step c e = s.net := by unfold Net.step; rw [if_pos hcr]
    rw [this]; exact h
  by_cases hrun : e = .snkRun ∧ s.net.snk.pc = .due
  · obtain ⟨rfl, hdue⟩ := hrun
    have hst : s.net.step c .snkRun = { s.net with snk := s.net.snk.runSnk c.snk s.net.src.valid s.net.src.beat, settled := false } := by
      simp only [Net.step]; rw [if_neg hcr, if_pos hdue]
    have hpc : (s.net.step c .snkRun).snk.pc = .asleep ∨ (s.net.step c .snkRun).snk.pc = .edge := by
      rw [hst]; exact finish_pc _ _ _
    refine ⟨hnet, ?_, h.mon, fun hp => hx.trans (h.sleep hp), ?_⟩
    · show (s.net.step c .snkRun).snk.pc ≠ .off
      rcases hpc with hp | hp <;> rw [hp] <;> simp
    · show s.mon.captured ++ waiting c (s.net.step c .snkRun) s.mon.pc =
        (s.net.step c .snkRun).snk.captured ++ waiting c (s.net.step c .snkRun) (s.net.step c .snkRun).snk.pc
      rw [waiting_congr (p := s.mon.pc) (n := s.net) Iff.rfl e1 e2 e3, h.acc]
      have hnd : (s.net.step c .snkRun).snk.pc ≠ .due := by rcases hpc with hp | hp <;> rw [hp] <;> simp
      rw [waiting_not_due hnd, List.append_nil, hst]
      show _ = (s.net.snk.runSnk c.snk s.net.src.valid s.net.src.beat).captured
      rw [runSnk_captured]
      congr 1
      unfold waiting Net.moves
      simp only [hdue, true_and, NetCfg.snk]
      congr
  · obtain ⟨a1, a2, a3⟩ := snk_other c s.net e h1 hrun h4
    refine ⟨hnet, fun hh => h.son (a3 hh), h.mon, fun hp => hx.trans (h.sleep hp), ?_⟩
    show s.mon.captured ++ waiting c (s.net.step c e) s.mon.pc = (s.net.step c e).snk.captured ++ waiting c (s.net.step c e) (s.net.step c e).snk.pc
    rw [waiting_congr (p := s.mon.pc) (n := s.net) Iff.rfl e1 e2 e3, waiting_congr a2 e1 e2 e3, a1]
    exact h.acc

theorem TapInv.tick {c : NetCfg} (hl : 0 < c.bus.lanes) {s : Tap} (h : TapInv c s) : TapInv c (s.step c (.net .tick)) := by
  simp only [Tap.step]
  split
  · exact h
  rename_i hcr
  split
  · rename_i hg
    simp only [Bool.and_eq_true] at hg
    obtain ⟨⟨⟨g1, g2⟩, g3⟩, g4⟩ := hg
    have hnet : Seen c (s.net.step c .tick) := h.net.step hl .tick
    have hst : s.net.step c .tick = { s.net with src := { s.net.src with pc := s.net.src.pc.tick }
                                                 snk := { s.net.snk with pc := s.net.snk.pc.tick }, settled := false } := by
      simp only [Net.step]; rw [if_neg hcr, if_pos (by rw [g1, g2, g3]; rfl)]
    rw [hst] at hnet ⊢
    rw [still_iff] at g3 g4
    have hacc := h.acc
    rw [waiting_not_due g4.1, waiting_not_due g3.1, List.append_nil, List.append_nil] at hacc
    -- what each of the two is about to sample
    have hm : waiting c s.net s.mon.pc.tick = if s.net.moves c = true then [s.net.src.beat] else [] := by
      by_cases hp : s.mon.pc = .asleep
      · rw [hp, h.sleep hp]
        simp [waiting, Pc.tick]
      · have : s.mon.pc = .edge := by
          have := h.mon
          cases hh : s.mon.pc <;> simp_all
        simp [waiting, this, Pc.tick]
    have hk : waiting c s.net s.net.snk.pc.tick = if s.net.moves c = true then [s.net.src.beat] else [] := by
      by_cases hp : s.net.snk.pc = .asleep
      · rw [hp, h.net.sleep g1 hp]
        simp [waiting, Pc.tick]
      · have : s.net.snk.pc = .edge := by
          have := h.son
          cases hh : s.net.snk.pc <;> simp_all
        simp [waiting, this, Pc.tick]
    refine ⟨hnet, fun hh => h.son (tick_off.1 hh), fun hh => h.mon (tick_off.1 hh), fun hp => h.sleep (tick_asleep.1 hp), ?_⟩
    show s.mon.captured ++ waiting c s.net s.mon.pc.tick = s.net.snk.captured ++ waiting c s.net s.net.snk.pc.tick
    rw [hm, hk, hacc]
  · exact h

theorem TapInv.commit {c : NetCfg} (hl : 0 < c.bus.lanes) {s : Tap} (h : TapInv c s) : TapInv c (s.step c (.net .commit)) := by
  simp only [Tap.step]
  split
  · exact h
  rename_i hcr
  split
  · rename_i hg
    simp only [Bool.and_eq_true] at hg
    obtain ⟨⟨g1, g2⟩, g3⟩ := hg
    have hnet : Seen c (s.net.step c .commit) := h.net.step hl .commit
    obtain ⟨a1, a2, a3⟩ := snk_other c s.net .commit (by simp) (by simp) (by simp)
    rw [still_iff] at g2 g3
    have hacc := h.acc
    rw [waiting_not_due g3.1, waiting_not_due g2.1, List.append_nil, List.append_nil] at hacc
    have hx : (s.net.step c .commit).moves c = ((!c.bus.hasReady || s.net.snk.nready) && (!c.bus.hasValid || s.net.src.nvalid)) := by
      simp only [Net.step]
      rw [if_neg hcr, if_pos (by rw [g1, still_iff.2 g2]; rfl)]
      simp only [Net.moves]
      split <;> rfl
    have hmon : ∀ m : Rx, m = (if (s.net.src.nvalid && !s.net.src.valid || s.net.snk.nready && !s.net.snk.ready) = true then s.mon.setWake else s.mon) →
        m.captured = s.mon.captured ∧ m.pc ≠ .due ∧ m.pc ≠ .off ∧ (m.pc = .asleep → (s.net.step c .commit).moves c = false) := by
      intro m hm
      split at hm
      · subst hm
        exact ⟨rfl, fun hh => g3.1 (wakeUp_due.1 hh), fun hh => h.mon (wakeUp_off.1 hh), fun hh => absurd hh wakeUp_ne⟩
      · rename_i hw
        subst hm
        refine ⟨rfl, g3.1, h.mon, fun hh => ?_⟩
        have hs := h.sleep hh
        rw [hx]
        unfold Net.moves at hs
        revert hs hw
        cases s.net.src.nvalid <;> cases s.net.src.valid <;> cases s.net.snk.nready <;> cases s.net.snk.ready <;> cases c.bus.hasReady <;>
          cases c.bus.hasValid <;> simp
    obtain ⟨m1, m2, m3, m4⟩ := hmon _ rfl
    refine ⟨hnet, fun hh => h.son (a3 hh), m3, m4, ?_⟩
    show Rx.captured _ ++ _ = (s.net.step c .commit).snk.captured ++ _
    rw [waiting_not_due m2, waiting_not_due (fun hh => g2.1 (a2.1 hh)), a1, m1, hacc]
  · exact h

theorem collect_captured (c : Cfg) (s : Rx) (b : Beat) : (s.collect c b).captured = s.captured ++ [b] := by
  unfold Rx.collect
  simp only
  split <;> rfl

theorem TapInv.step {c : NetCfg} (hl : 0 < c.bus.lanes) {s : Tap} (h : TapInv c s) (e : TapEv) (he : e.noReset = true) : TapInv c (s.step c e) := by
  by_cases hcr : s.net.src.crashed = true
  · have : s.step c e = s := by unfold Tap.step; rw [if_pos hcr]
    rw [this]; exact h
  have keep : ∀ m : Rx, m.captured = s.mon.captured → (m.pc = .due ↔ s.mon.pc = .due) → m.pc ≠ .off →
      (m.pc = .asleep → s.mon.pc = .asleep) → TapInv c { s with mon := m } := fun m h1 h2 h3 h4 =>
    ⟨h.net, h.son, h3, fun hp => h.sleep (h4 hp), by
      show m.captured ++ waiting c s.net m.pc = _
      rw [h1, waiting_congr h2 rfl rfl rfl]
      exact h.acc⟩
  have kept : ∀ m : Rx, Kept s.mon m → TapInv c { s with mon := m } := fun m k =>
    keep m k.captured k.due (fun hh => h.mon (k.off.1 hh)) k.sleep
  have hcr' : s.net.src.crashed = false := by simpa using hcr
  cases e with
  | net e =>
    by_cases h1 : e = .tick
    · rw [h1]; exact h.tick hl
    by_cases h2 : e = .commit
    · rw [h2]; exact h.commit hl
    have h4 : e ≠ .snkReset true := by
      rintro rfl
      simp [TapEv.noReset] at he
    have : s.step c (.net e) = { s with net := s.net.step c e } := by
      unfold Tap.step
      rw [if_neg hcr]
      cases e <;> first | rfl | exact absurd rfl h1 | exact absurd rfl h2
    rw [this]
    exact h.other hl e h1 h2 h4
  | run =>
    simp only [Tap.step, hcr', Bool.false_eq_true, if_false]
    split
    · rename_i hd
      have hacc := h.acc
      refine ⟨h.net, h.son, ?_, ?_, ?_⟩
      · show (s.mon.runMon _ _ _ _).pc ≠ .off
        unfold Rx.runMon
        split <;> simp
      · show (s.mon.runMon _ _ _ _).pc = .asleep → _
        unfold Rx.runMon
        split
        · intro hh; cases hh
        · rename_i hx
          intro _
          show s.net.moves c = false
          unfold Net.moves
          simpa using hx
      · show (s.mon.runMon _ _ _ _).captured ++ waiting c s.net (s.mon.runMon _ _ _ _).pc = s.net.snk.captured ++ waiting c s.net s.net.snk.pc
        rw [← hacc]
        unfold Rx.runMon
        split
        · rename_i hx
          rw [waiting_not_due (by simp), List.append_nil]
          show (s.mon.collect _ _).captured = _
          rw [collect_captured]
          congr 1
          unfold waiting
          rw [if_pos ⟨hd, hx⟩]
        · rename_i hx
          rw [waiting_not_due (by simp)]
          show s.mon.captured ++ _ = _
          congr 1
          unfold waiting
          rw [if_neg (fun h2 => hx h2.2)]
    · exact h
  | wake =>
    simp only [Tap.step, hcr', Bool.false_eq_true, if_false]
    split
    · rename_i hw
      exact keep _ rfl (by rw [hw]; simp) (by simp) (by simp)
    · exact h
  | spurious =>
    simp only [Tap.step, hcr', Bool.false_eq_true, if_false]
    split
    · rename_i hw
      exact keep _ rfl (by rw [hw]; simp) (by simp) (by simp)
    · exact h
  | recv k =>
    simp only [Tap.step, hcr', Bool.false_eq_true, if_false]
    exact kept _ (recv_kept false _ _)
  | readNowait n =>
    simp only [Tap.step, hcr', Bool.false_eq_true, if_false]
    exact kept _ (read_kept false _ _)
  | clear =>
    simp only [Tap.step, hcr', Bool.false_eq_true, if_false]
    exact keep _ rfl Iff.rfl h.mon id
  | reset v =>
    cases v
    · simp only [Tap.step, hcr', Rx.reset, Bool.false_eq_true, if_false]
      rw [if_neg h.mon]
      exact h
    · simp [TapEv.noReset] at he

theorem TapInv.exec (c : NetCfg) (hl : 0 < c.bus.lanes) (evs : List TapEv) (h : ∀ e ∈ evs, e.noReset = true) :
    TapInv c (Tap.exec c (.net (.snkReset false) :: .reset false :: evs)) := by
  refine foldl_inv' (Tap.step c) (TapInv c) (fun e => e.noReset = true) (fun _ e hq h => h.step hl e hq) evs _ h ?_
  refine ⟨?_, by simp [Tap.step, Net.step, Rx.reset], by simp [Tap.step, Net.step, Rx.reset],
    by simp [Tap.step, Net.step, Rx.reset], by simp [Tap.step, Net.step, Rx.reset, waiting]⟩
  obtain ⟨l₁, l₂, g, _⟩ := Net.project c []
  exact ⟨_, _, g, SnkSys.exec_acc (c := c.snk) hl false l₂ (by simp)⟩

/-! ## Frames -/

theorem net_pack_step {c : NetCfg} (hl : 0 < c.bus.lanes) {s : Net} (e : NetEv) (h1 : e ≠ .snkClear) (h2 : e ≠ .snkReset true) (h : PackInv c.snk s.snk) :
    PackInv c.snk (s.step c e).snk := by
  unfold Net.step
  split
  · exact h
  cases e <;> simp only
  case snkClear => exact absurd rfl h1
  case snkReset v =>
    cases v
    · exact h.resetF
    · exact absurd rfl h2
  case tick => split <;> exact h.same rfl rfl rfl
  case snkRun =>
    split
    · exact PackInv.runSnk (c := c.snk) hl h _ _
    · exact h
  case snkWake => split <;> exact h.same rfl rfl rfl
  case snkSpurious => split <;> exact h.same rfl rfl rfl
  case commit =>
    split
    · simp only
      split <;> exact h.same rfl rfl rfl
    · exact h
  case recv k => exact h.same (recv_kept true _ k).got (recv_kept true _ k).captured (recv_kept true _ k).part
  case readNowait n => exact h.same (read_kept true _ n).got (read_kept true _ n).captured (read_kept true _ n).part
  case snkPause v => unfold Rx.setPause; simp only; split <;> exact h.same rfl rfl rfl
  all_goals first | exact h | (split <;> exact h)

theorem tap_net (c : NetCfg) (s : Tap) (e : TapEv) : (s.step c e).net = s.net ∨ ∃ x, e = .net x ∧ (s.step c e).net = s.net.step c x := by
  unfold Tap.step
  split
  · exact .inl rfl
  cases e with
  | net e =>
    cases e <;> first | exact .inr ⟨_, rfl, rfl⟩ | skip
    all_goals
      simp only
      split
      · exact .inr ⟨_, rfl, rfl⟩
      · exact .inl rfl
  | run => simp only; split <;> exact .inl rfl
  | wake => simp only; split <;> exact .inl rfl
  | spurious => simp only; split <;> exact .inl rfl
  | recv => exact .inl rfl
  | readNowait => exact .inl rfl
  | clear => exact .inl rfl
  | reset v => exact .inl rfl

theorem tap_pack (c : NetCfg) (hl : 0 < c.bus.lanes) (evs : List TapEv) (h : ∀ e ∈ evs, e.keeps = true) :
    let s := Tap.exec c (.net (.snkReset false) :: .reset false :: evs)
    PackInv c.snk s.net.snk ∧ PackInv c.bus s.mon := by
  refine foldl_inv' (Tap.step c) (fun s => PackInv c.snk s.net.snk ∧ PackInv c.bus s.mon)
    (fun e => e.keeps = true) (fun s e hq ih => ⟨?_, ?_⟩) evs _ h ⟨PackInv.resetF (PackInv.init _), PackInv.resetF (PackInv.init _)⟩
  · rcases tap_net c s e with hh | ⟨x, rfl, hh⟩
    · rw [hh]; exact ih.1
    · rw [hh]
      refine net_pack_step hl x ?_ ?_ ih.1
      · rintro rfl; simp [TapEv.keeps] at hq
      · rintro rfl; simp [TapEv.keeps] at hq
  · unfold Tap.step
    split
    · exact ih.2
    cases e with
    | net e =>
      cases e <;> first | exact ih.2 | skip
      · simp only
        split
        · exact ih.2.same rfl rfl rfl
        · exact ih.2
      · simp only
        split
        · simp only
          split <;> exact ih.2.same rfl rfl rfl
        · exact ih.2
    | run =>
      simp only
      split
      · exact ih.2.runMon hl _ _ _
      · exact ih.2
    | wake => simp only; split <;> exact ih.2.same rfl rfl rfl
    | spurious => simp only; split <;> exact ih.2.same rfl rfl rfl
    | recv k => exact ih.2.same (recv_kept false _ k).got (recv_kept false _ k).captured (recv_kept false _ k).part
    | readNowait n => exact ih.2.same (read_kept false _ n).got (read_kept false _ n).captured (read_kept false _ n).part
    | clear => simp [TapEv.keeps] at hq
    | reset v =>
      cases v
      · exact ih.2.resetF
      · simp [TapEv.keeps] at hq

end Verif.Axis
