import Verif.Proof.AxisReady
import Verif.Proof.StreamPause

/-!
# A paused AXI stream sink
-/

namespace Verif.Axis

open Verif.Stream (Pc wakeUp_ne wakeUp_off tick_off tick_asleep foldl_inv budget_wakeUp budget_top budget_tick)

/-- What taking frames out leaves alone. -/
structure Woke (s t : Rx) : Prop where
  pause : t.pause = s.pause
  sample : t.pauseSample = s.pauseSample
  ready : t.ready = s.ready
  nready : t.nready = s.nready
  pc : t.pc = s.pc ∨ t.pc = s.pc.wakeUp

theorem Woke.popped {s t : Rx} (h : Woke s t) (r : Bool) (f : Frame) (rest : List Frame) : Woke s (t.popped true r f rest) := by
  refine ⟨h.pause, h.sample, h.ready, h.nready, .inr ?_⟩
  simp only [Rx.popped, Rx.dequeue, if_true, Rx.setWake]
  rcases h.pc with hh | hh <;> rw [hh]
  cases s.pc <;> rfl

theorem recv_woke (s : Rx) (k : Bool) : Woke s (s.recv true k).2 :=
  recv_ind true (Woke s) (fun _ f rest _ h => h.popped false f rest) s k ⟨rfl, rfl, rfl, rfl, .inl rfl⟩

theorem read_woke (s : Rx) (n : Int) : Woke s (s.readNowait true n).2 :=
  read_ind true (Woke s) (fun _ f rest _ h => h.popped true f rest) (fun _ _ h => ⟨h.pause, h.sample, h.ready, h.nready, h.pc⟩)
    (fun _ _ h => ⟨h.pause, h.sample, h.ready, h.nready, h.pc⟩) s n ⟨rfl, rfl, rfl, rfl, .inl rfl⟩

/-- What always holds of a sink: it sleeps paused only with `ready` low. -/
structure Calm (s : SnkSys) : Prop where
  set : s.settled = true → s.snk.ready = s.snk.nready
  sleep : s.snk.pc = .asleep → s.snk.pause = true → s.snk.nready = false
  off : s.snk.pc = .off → s.snk.nready = false

/-- The transfers so far and those to come. -/
def SnkSys.upTo (c : Cfg) (s : SnkSys) : Nat := (xfers c s.trace).length + s.snk.pc.budget s.snk.pauseSample s.snk.nready

theorem SnkSys.step_calm {c : Cfg} (hr : c.hasReady = true) {s : SnkSys} (h : Calm s) (e : SnkEv) :
    Calm (s.step c e) ∧ (s.snk.pause = true → e.noResume = true → (s.step c e).snk.pause = true ∧ (s.step c e).upTo c ≤ s.upTo c) := by
  have hsame : ∀ t : SnkSys, (t.settled = true → s.settled = true) → t.trace = s.trace → t.snk.pause = s.snk.pause →
      t.snk.pauseSample = s.snk.pauseSample → t.snk.ready = s.snk.ready → t.snk.nready = s.snk.nready →
      (t.snk.pc = s.snk.pc ∨ t.snk.pc = s.snk.pc.wakeUp) →
      Calm t ∧ (s.snk.pause = true → t.snk.pause = true ∧ t.upTo c ≤ s.upTo c) := by
    intro t h1 h2 h3 h4 h5 h6 h7
    refine ⟨⟨by rw [h5, h6]; exact fun hh => h.set (h1 hh), ?_, ?_⟩, fun hp => ⟨h3.trans hp, ?_⟩⟩
    · rw [h3, h6]
      rcases h7 with h7 | h7 <;> rw [h7]
      · exact h.sleep
      · exact fun hh => absurd hh wakeUp_ne
    · rw [h6]
      rcases h7 with h7 | h7 <;> rw [h7]
      · exact h.off
      · exact fun hh => h.off (wakeUp_off.1 hh)
    · unfold SnkSys.upTo
      rw [h2, h4, h6]
      rcases h7 with h7 | h7 <;> rw [h7]
      · exact Nat.le_refl _
      · rw [budget_wakeUp _ _ _ (fun hh => h.sleep hh hp)]; exact Nat.le_refl _
  have htop : ∀ t : SnkSys, t = { s with snk := s.snk.top, settled := false } → s.snk.pc = .woken ∨ s.snk.pc = .asleep →
      Calm t ∧ (s.snk.pause = true → t.snk.pause = true ∧ t.upTo c ≤ s.upTo c) := by
    intro t ht hpc
    rw [ht]
    refine ⟨⟨by simp, by simp [Rx.top], by simp [Rx.top]⟩, fun hp => ⟨hp, ?_⟩⟩
    unfold SnkSys.upTo
    simp only [Rx.top, hp]
    rw [budget_top _ s.snk.pauseSample _ hpc (fun hh => h.sleep hh hp)]
    exact Nat.le_refl _
  cases e <;> simp only [SnkSys.step, SnkEv.noResume]
  case tick =>
    split
    · rename_i hs
      rw [Bool.and_eq_true] at hs
      refine ⟨⟨by simp, fun ha => ?_, fun ha => ?_⟩, fun hp _ => ⟨hp, ?_⟩⟩
      · exact h.sleep (tick_asleep.1 ha)
      · exact h.off (tick_off.1 ha)
      · unfold SnkSys.upTo
        simp only [xfers_append, List.length_append]
        have hx : (xfers c [some (⟨s.valid, s.snk.ready, s.beat⟩ : Sample)]).length ≤ if s.snk.nready then 1 else 0 := by
          simp only [xfers, List.flatMap_cons, List.flatMap_nil, List.append_nil, hr, Bool.not_true, Bool.false_or, h.set hs.1]
          cases s.snk.nready <;> simp
          split <;> simp
        have hb := budget_tick s.snk.pc s.snk.pauseSample s.snk.nready (fun hh => h.sleep hh hp) h.off hs.2
        omega
    · exact ⟨h, fun hp _ => ⟨hp, Nat.le_refl _⟩⟩
  case run =>
    split
    · rename_i hd
      obtain ⟨q1, q2⟩ := capture_pause c s.snk s.valid s.beat
      unfold Rx.runSnk
      generalize s.snk.capture c s.valid s.beat = k at q1 q2
      unfold Rx.finish
      simp only [hr, if_true]
      split
      · rename_i hc
        simp only [Bool.and_eq_true, decide_eq_true_eq, q1, q2] at hc
        refine ⟨⟨by simp, fun _ hp => ?_, by simp⟩, fun hp _ => ⟨q1.trans hp, ?_⟩⟩
        · simp only at hp ⊢
          rw [q2, hc.2, ← q1, hp]; simp
        · unfold SnkSys.upTo
          simp [Pc.budget]
      · refine ⟨⟨by simp, by simp [Rx.top], by simp [Rx.top]⟩, fun hp _ => ⟨q1.trans hp, ?_⟩⟩
        unfold SnkSys.upTo
        simp only [Rx.top, hd, q1, q2, hp, Pc.budget]
        cases s.snk.pauseSample
        · simp only [Bool.false_eq_true, if_false, if_true]
          split <;> omega
        · simp
    · exact ⟨h, fun hp _ => ⟨hp, Nat.le_refl _⟩⟩
  case wake =>
    split
    · rename_i hw
      exact ⟨(htop _ rfl (.inl hw)).1, fun hp _ => (htop _ rfl (.inl hw)).2 hp⟩
    · exact ⟨h, fun hp _ => ⟨hp, Nat.le_refl _⟩⟩
  case spurious =>
    split
    · rename_i hw
      exact ⟨(htop _ rfl (.inr hw)).1, fun hp _ => (htop _ rfl (.inr hw)).2 hp⟩
    · exact ⟨h, fun hp _ => ⟨hp, Nat.le_refl _⟩⟩
  case commit =>
    split
    · simp only
      split
      · refine ⟨⟨fun _ => rfl, fun hh => absurd hh wakeUp_ne, fun hh => h.off (wakeUp_off.1 hh)⟩, fun hp _ => ⟨hp, ?_⟩⟩
        show (xfers c s.trace).length + s.snk.pc.wakeUp.budget s.snk.pauseSample s.snk.nready ≤ _
        rw [budget_wakeUp _ _ _ (fun hh => h.sleep hh hp)]
        exact Nat.le_refl _
      · exact ⟨⟨fun _ => rfl, h.sleep, h.off⟩, fun hp _ => ⟨hp, Nat.le_refl _⟩⟩
    · exact ⟨h, fun hp _ => ⟨hp, Nat.le_refl _⟩⟩
  case env v d =>
    split
    · exact ⟨h, fun hp _ => ⟨hp, Nat.le_refl _⟩⟩
    · have := hsame { s with snk := if v && !s.valid then s.snk.setWake else s.snk, valid := v, beat := d } id rfl
        (by split <;> rfl) (by split <;> rfl) (by split <;> rfl) (by split <;> rfl) (by split; exact .inr rfl; exact .inl rfl)
      exact ⟨this.1, fun hp _ => this.2 hp⟩
  case recv r =>
    obtain ⟨k1, k2, k3, k4, k5⟩ := recv_woke s.snk r
    have := hsame { s with snk := (s.snk.recv true r).2, settled := false } (by simp) rfl k1 k2 k3 k4 k5
    exact ⟨this.1, fun hp _ => this.2 hp⟩
  case readNowait n =>
    obtain ⟨k1, k2, k3, k4, k5⟩ := read_woke s.snk n
    have := hsame { s with snk := (s.snk.readNowait true n).2, settled := false } (by simp) rfl k1 k2 k3 k4 k5
    exact ⟨this.1, fun hp _ => this.2 hp⟩
  case pause v =>
    by_cases hv : s.snk.pause = v
    · have : s.snk.setPause v = s.snk := by
        unfold Rx.setPause
        simp only [hv, ne_eq, not_true_eq_false, if_false]
        rw [← hv]
      rw [this]
      have := hsame { s with settled := false } (by simp) rfl rfl rfl rfl rfl (.inl rfl)
      exact ⟨this.1, fun hp _ => this.2 hp⟩
    · refine ⟨⟨by simp, ?_, ?_⟩, fun hp he => ?_⟩
      · simp only [Rx.setPause, ne_eq, hv, not_false_eq_true, if_true, Rx.setWake]
        exact fun hh => absurd hh wakeUp_ne
      · simp only [Rx.setPause, ne_eq, hv, not_false_eq_true, if_true, Rx.setWake]
        exact fun hh => h.off (wakeUp_off.1 hh)
      · cases v
        · cases he
        · exact absurd hp hv
  case clear =>
    have := hsame { s with snk := s.snk.clear, settled := false } (by simp) rfl rfl rfl rfl rfl (.inl rfl)
    exact ⟨this.1, fun hp _ => this.2 hp⟩
  case reset v =>
    cases v
    · simp only [Rx.reset, Bool.false_eq_true, if_false]
      split
      · rename_i ho
        refine ⟨⟨by simp, by simp, by simp⟩, fun hp _ => ⟨hp, ?_⟩⟩
        unfold SnkSys.upTo
        simp [ho, Pc.budget]
      · have := hsame { s with settled := false } (by simp) rfl rfl rfl rfl rfl (.inl rfl)
        exact ⟨this.1, fun hp _ => this.2 hp⟩
    · refine ⟨⟨by simp, by simp [Rx.reset], by simp [Rx.reset]⟩, fun hp _ => ⟨hp, ?_⟩⟩
      unfold SnkSys.upTo
      simp [xfers, Rx.reset, Pc.budget]

theorem SnkSys.exec_calm {c : Cfg} (hr : c.hasReady = true) (evs : List SnkEv) : Calm (SnkSys.exec c evs) :=
  foldl_inv _ (fun s : SnkSys => Calm s) (fun _ e h => (SnkSys.step_calm hr h e).1) evs _ ⟨by simp, by simp, by simp⟩

theorem SnkSys.run_calm {c : Cfg} (hr : c.hasReady = true) (more : List SnkEv) (hm : ∀ e ∈ more, e.noResume = true) :
    ∀ {s : SnkSys}, Calm s → s.snk.pause = true → (more.foldl (SnkSys.step c) s).upTo c ≤ s.upTo c := by
  induction more with
  | nil => intro s _ _; exact Nat.le_refl _
  | cons e more ih =>
    intro s h hp
    obtain ⟨h1, h2⟩ := SnkSys.step_calm hr h e
    obtain ⟨h3, h4⟩ := h2 hp (hm e (by simp))
    exact Nat.le_trans (ih (fun e he => hm e (by simp [he])) h1 h3) h4

end Verif.Axis
