import Verif.Spec.StreamTap
import Verif.Proof.StreamStep

/-!
# A monitor on the bus between a stream source and a stream sink: invariants
-/

namespace Verif.Stream

variable {α : Type}

/-- The item transferred by the last clock edge, if a coroutine in state `p` has not sampled it yet. -/
def waiting (c : NetCfg) (n : Net α) (p : Pc) : List α := if p = .due ∧ n.xfer c = true then n.src.data.toList else []

theorem waiting_not_due {c : NetCfg} {n : Net α} {p : Pc} (h : p ≠ .due) : waiting c n p = [] := by
  unfold waiting
  rw [if_neg (fun hh => h hh.1)]

theorem waiting_congr {c : NetCfg} {n m : Net α} {p q : Pc} (h : q = .due ↔ p = .due) (h1 : m.src.valid = n.src.valid)
    (h2 : m.src.data = n.src.data) (h3 : m.snk.ready = n.snk.ready) : waiting c m q = waiting c n p := by
  unfold waiting Net.xfer
  rw [h1, h2, h3]
  simp only [h]

/-- What is kept of a monitored stream. -/
structure TapInv (c : NetCfg) (s : Tap α) : Prop where
  net : NetInv c false s.net
  son : s.net.snk.pc ≠ .off
  mon : s.mon.pc ≠ .off
  sleep : s.mon.pc = .asleep → s.net.xfer c = false
  acc : s.mon.captured ++ waiting c s.net s.mon.pc = s.net.snk.captured ++ waiting c s.net s.net.snk.pc

/-- The sink in an event other than its turn, a clock edge and signal writes taking effect. -/
theorem snk_other (c : NetCfg) (n : Net α) (e : NetEv α) (h1 : e ≠ .tick) (h3 : ¬ (e = .snkRun ∧ n.snk.pc = .due))
    (h4 : e ≠ .snkReset true) : (n.step c e).snk.captured = n.snk.captured ∧ ((n.step c e).snk.pc = .due ↔ n.snk.pc = .due) ∧
    ((n.step c e).snk.pc = .off → n.snk.pc = .off) := by
  by_cases hcl : e.clean = true
  · rcases step_snk c n e hcl with ⟨a, b, _⟩ | k
    · exact absurd ⟨a, b⟩ h3
    · refine ⟨k.captured, ⟨fun hh => ?_, k.due⟩, k.on⟩
      refine Classical.byContradiction fun hno => ?_
      exact h1 (step_due c n e (.inr ⟨hno, hh⟩)).1
  · cases e <;> simp only [NetEv.clean, not_true] at hcl
    case srcClear => exact ⟨rfl, Iff.rfl, id⟩
    case srcReset v => exact ⟨rfl, Iff.rfl, id⟩
    case snkClear => exact ⟨rfl, Iff.rfl, id⟩

theorem TapInv.other {c : NetCfg} {s : Tap α} (h : TapInv c s) (e : NetEv α) (h1 : e ≠ .tick) (h2 : e ≠ .commit) (h4 : e ≠ .snkReset true) :
    TapInv c { s with net := s.net.step c e } := by
  have hnet : NetInv c false (s.net.step c e) := NetInv.step e (by simp) h.net
  obtain ⟨e1, e2, e3⟩ := step_signals c s.net e (.inr (.inr h2))
  have hx : (s.net.step c e).xfer c = s.net.xfer c := by simp only [Net.xfer, e1, e3]
  by_cases hrun : e = .snkRun ∧ s.net.snk.pc = .due
  · obtain ⟨rfl, hdue⟩ := hrun
    have hst : s.net.step c .snkRun = { s.net with snk := s.net.snk.run c.snk s.net.src.valid s.net.src.data, settled := false } := by
      simp only [Net.step]; rw [if_pos hdue]
    refine ⟨hnet, ?_, h.mon, fun hp => hx.trans (h.sleep hp), ?_⟩
    · show (s.net.step c .snkRun).snk.pc ≠ .off
      rw [hst]; exact finish_off
    · show s.mon.captured ++ waiting c (s.net.step c .snkRun) s.mon.pc =
        (s.net.step c .snkRun).snk.captured ++ waiting c (s.net.step c .snkRun) (s.net.step c .snkRun).snk.pc
      rw [waiting_congr (p := s.mon.pc) (n := s.net) Iff.rfl e1 e2 e3, h.acc]
      have hnd : (s.net.step c .snkRun).snk.pc ≠ .due := by rw [hst]; exact finish_due
      rw [waiting_not_due hnd, List.append_nil, hst]
      show _ = (s.net.snk.run c.snk s.net.src.valid s.net.src.data).captured
      rw [snk_run_captured]
      congr 1
      unfold waiting Net.xfer
      simp only [hdue, true_and, NetCfg.snk, Bool.not_true, Bool.false_or]
      rw [Bool.and_comm]
  · obtain ⟨a1, a2, a3⟩ := snk_other c s.net e h1 hrun h4
    refine ⟨hnet, fun hh => h.son (a3 hh), h.mon, fun hp => hx.trans (h.sleep hp), ?_⟩
    show s.mon.captured ++ waiting c (s.net.step c e) s.mon.pc = (s.net.step c e).snk.captured ++ waiting c (s.net.step c e) (s.net.step c e).snk.pc
    rw [waiting_congr (p := s.mon.pc) (n := s.net) Iff.rfl e1 e2 e3, waiting_congr a2 e1 e2 e3, a1]
    exact h.acc

theorem TapInv.tick {c : NetCfg} {s : Tap α} (h : TapInv c s) : TapInv c (s.step c (.net .tick)) := by
  simp only [Tap.step]
  split
  · rename_i hg
    simp only [Bool.and_eq_true] at hg
    obtain ⟨⟨⟨g1, g2⟩, g3⟩, g4⟩ := hg
    have hnet : NetInv c false (s.net.step c .tick) := NetInv.step .tick (by simp) h.net
    have hst : s.net.step c .tick = { s.net with src := { s.net.src with pc := s.net.src.pc.tick }
                                                 snk := { s.net.snk with pc := s.net.snk.pc.tick }, settled := false } := by
      simp only [Net.step]; rw [if_pos (by rw [g1, g2, g3]; rfl)]
    rw [hst] at hnet ⊢
    rw [still_iff] at g3 g4
    have hacc := h.acc
    rw [waiting_not_due g4.1, waiting_not_due g3.1, List.append_nil, List.append_nil] at hacc
    obtain ⟨b1, _, b3⟩ := h.net.set g1
    -- what each of the two is about to sample
    have hm : waiting c s.net s.mon.pc.tick = if s.net.xfer c = true then s.net.src.data.toList else [] := by
      by_cases hp : s.mon.pc = .asleep
      · rw [hp, h.sleep hp]
        simp [waiting, Pc.tick]
      · have : s.mon.pc = .edge := by
          have := h.mon
          cases hh : s.mon.pc <;> simp_all
        simp [waiting, this, Pc.tick]
    have hk : waiting c s.net s.net.snk.pc.tick = if s.net.xfer c = true then s.net.src.data.toList else [] := by
      by_cases hp : s.net.snk.pc = .asleep
      · have hx : s.net.xfer c = false := by
          have := h.net.snk.sleep hp
          simp only [NetCfg.snk, Bool.not_true, Bool.false_or] at this
          rw [← b3] at this
          exact this
        rw [hp, hx]
        simp [waiting, Pc.tick]
      · have : s.net.snk.pc = .edge := by
          have := h.son
          cases hh : s.net.snk.pc <;> simp_all
        simp [waiting, this, Pc.tick]
    refine ⟨hnet, fun hh => h.son (tick_off.1 hh), fun hh => h.mon (tick_off.1 hh), fun hp => h.sleep (tick_asleep.1 hp), ?_⟩
    show s.mon.captured ++ waiting c s.net s.mon.pc.tick = s.net.snk.captured ++ waiting c s.net s.net.snk.pc.tick
    rw [hm, hk, hacc]
  · exact h

theorem TapInv.commit {c : NetCfg} {s : Tap α} (h : TapInv c s) : TapInv c (s.step c (.net .commit)) := by
  simp only [Tap.step]
  split
  · rename_i hg
    simp only [Bool.and_eq_true] at hg
    obtain ⟨⟨g1, g2⟩, g3⟩ := hg
    have hnet : NetInv c false (s.net.step c .commit) := NetInv.step .commit (by simp) h.net
    obtain ⟨a1, a2, a3⟩ := snk_other c s.net .commit (by simp) (by simp) (by simp)
    rw [still_iff] at g2 g3
    have hacc := h.acc
    rw [waiting_not_due g3.1, waiting_not_due g2.1, List.append_nil, List.append_nil] at hacc
    have hx : (s.net.step c .commit).xfer c = (s.net.src.nvalid && (!c.hasReady || s.net.snk.nready)) := by
      simp only [Net.step]
      rw [if_pos (by rw [g1, still_iff.2 g2]; rfl)]
      simp only [Net.xfer]
      split <;> rfl
    have hmon : ∀ m : Mon α, m = (if (s.net.src.nvalid && !s.net.src.valid || s.net.snk.nready && !s.net.snk.ready) = true then s.mon.setWake else s.mon) →
        m.captured = s.mon.captured ∧ m.pc ≠ .due ∧ m.pc ≠ .off ∧ (m.pc = .asleep → (s.net.step c .commit).xfer c = false) := by
      intro m hm
      split at hm
      · subst hm
        exact ⟨rfl, fun hh => g3.1 (wakeUp_due.1 hh), fun hh => h.mon (wakeUp_off.1 hh), fun hh => absurd hh wakeUp_ne⟩
      · rename_i hw
        subst hm
        refine ⟨rfl, g3.1, h.mon, fun hh => ?_⟩
        have hs := h.sleep hh
        rw [hx]
        unfold Net.xfer at hs
        revert hs hw
        cases s.net.src.nvalid <;> cases s.net.src.valid <;> cases s.net.snk.nready <;> cases s.net.snk.ready <;> cases c.hasReady <;> simp
    obtain ⟨m1, m2, m3, m4⟩ := hmon _ rfl
    refine ⟨hnet, fun hh => h.son (a3 hh), m3, m4, ?_⟩
    show Mon.captured _ ++ _ = (s.net.step c .commit).snk.captured ++ _
    rw [waiting_not_due m2, waiting_not_due (fun hh => g2.1 (a2.1 hh)), a1, m1, hacc]
  · exact h

theorem TapInv.step {c : NetCfg} {s : Tap α} (h : TapInv c s) (e : TapEv α) (he : e.noReset = true) : TapInv c (s.step c e) := by
  have keep : ∀ m : Mon α, m.captured = s.mon.captured → (m.pc = .due ↔ s.mon.pc = .due) → m.pc ≠ .off →
      (m.pc = .asleep → s.mon.pc = .asleep) → TapInv c { s with mon := m } := fun m h1 h2 h3 h4 =>
    ⟨h.net, h.son, h3, fun hp => h.sleep (h4 hp), by
      show m.captured ++ waiting c s.net m.pc = _
      rw [h1, waiting_congr h2 rfl rfl rfl]
      exact h.acc⟩
  cases e with
  | net e =>
    by_cases h1 : e = .tick
    · rw [h1]; exact h.tick
    by_cases h2 : e = .commit
    · rw [h2]; exact h.commit
    have h4 : e ≠ .snkReset true := by
      rintro rfl
      simp [TapEv.noReset] at he
    have : s.step c (.net e) = { s with net := s.net.step c e } := by
      cases e <;> first | rfl | exact absurd rfl h1 | exact absurd rfl h2
    rw [this]
    exact h.other e h1 h2 h4
  | run =>
    simp only [Tap.step]
    split
    · rename_i hd
      have hacc := h.acc
      refine ⟨h.net, h.son, ?_, ?_, ?_⟩
      · show (s.mon.run _ _ _ _).pc ≠ .off
        unfold Mon.run
        simp only
        split <;> simp
      · show (s.mon.run _ _ _ _).pc = .asleep → _
        unfold Mon.run
        simp only
        split
        · intro hh; cases hh
        · rename_i hx
          intro _
          show s.net.xfer c = false
          unfold Net.xfer
          rw [Bool.and_comm]
          simpa [NetCfg.snk] using hx
      · show (s.mon.run _ _ _ _).captured ++ waiting c s.net (s.mon.run _ _ _ _).pc = s.net.snk.captured ++ waiting c s.net s.net.snk.pc
        rw [← hacc]
        unfold Mon.run
        simp only
        split
        · rename_i hx
          rw [waiting_not_due (by simp), List.append_nil]
          show s.mon.captured ++ _ = _
          congr 1
          unfold waiting
          rw [if_pos]
          refine ⟨hd, ?_⟩
          unfold Net.xfer
          rw [Bool.and_comm]
          simpa [NetCfg.snk] using hx
        · rename_i hx
          rw [waiting_not_due (by simp)]
          show s.mon.captured ++ _ = _
          congr 1
          unfold waiting
          rw [if_neg]
          rintro ⟨_, h2⟩
          refine hx ?_
          unfold Net.xfer at h2
          rw [Bool.and_comm] at h2
          simpa [NetCfg.snk] using h2
    · exact h
  | wake =>
    simp only [Tap.step]
    split
    · rename_i hw
      exact keep _ rfl (by rw [hw]; simp) (by simp) (by simp)
    · exact h
  | spurious =>
    simp only [Tap.step]
    split
    · rename_i hw
      exact keep _ rfl (by rw [hw]; simp) (by simp) (by simp)
    · exact h
  | recv =>
    simp only [Tap.step, Mon.recv]
    split
    · exact h
    · exact keep _ rfl Iff.rfl h.mon id
  | clear => exact keep _ rfl Iff.rfl h.mon id
  | reset v =>
    cases v
    · simp only [Tap.step, Mon.reset, Bool.false_eq_true, if_false]
      rw [if_neg h.mon]
      exact h
    · simp [TapEv.noReset] at he

theorem TapInv.exec (c : NetCfg) (evs : List (TapEv α)) (h : ∀ e ∈ evs, e.noReset = true) :
    TapInv c (Tap.exec c (.net (.snkReset false) :: .reset false :: evs)) := by
  refine foldl_inv' (Tap.step c) (TapInv c) (fun e => e.noReset = true) (fun _ e hq h => h.step e hq) evs _ h ?_
  exact ⟨Net.exec_inv c false [] (by simp), by simp [Tap.step, Net.step, Snk.reset, Mon.reset], by simp [Tap.step, Net.step, Snk.reset, Mon.reset],
    by simp [Tap.step, Net.step, Snk.reset, Mon.reset], by simp [Tap.step, Net.step, Snk.reset, Mon.reset, waiting]⟩

end Verif.Stream
