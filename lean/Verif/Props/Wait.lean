import Verif.Props.Stream
import Verif.Props.Axis

/-!
# C88: `wait()` of sinks and monitors
-/

namespace Verif.Stream

variable {α : Type}

/-- `active_event` of a sink agrees with its queue, and a payload accompanies `valid`. -/
structure SnkWait (s : SnkSys α) : Prop where
  ev : s.snk.actEv = !s.snk.queue.isEmpty
  data : s.valid = true → s.data.isSome = true

theorem Snk.setWake_q (s : Snk α) : s.setWake.queue = s.queue ∧ s.setWake.actEv = s.actEv := ⟨rfl, rfl⟩

theorem Snk.finish_q (c : Cfg) (s : Snk α) (v : Bool) : (s.finish c v).queue = s.queue ∧ (s.finish c v).actEv = s.actEv := by
  unfold Snk.finish
  simp only
  repeat' split
  all_goals exact ⟨rfl, rfl⟩

theorem Snk.setPause_q (s : Snk α) (v : Bool) : (s.setPause v).queue = s.queue ∧ (s.setPause v).actEv = s.actEv := by
  unfold Snk.setPause
  simp only
  repeat' split
  all_goals exact ⟨rfl, rfl⟩

theorem SnkWait.step {c : Cfg} (hv : c.hasValid = true) {s : SnkSys α} (h : SnkWait s) (e : SnkEv α) : SnkWait (s.step c e) := by
  obtain ⟨h1, h2⟩ := h
  cases e <;> simp only [SnkSys.step]
  case tick => split <;> exact ⟨h1, h2⟩
  case wake => split <;> exact ⟨h1, h2⟩
  case spurious => split <;> exact ⟨h1, h2⟩
  case commit =>
    split
    · refine ⟨?_, ?_⟩
      · simp only; split <;> exact h1
      · exact h2
    · exact ⟨h1, h2⟩
  case run =>
    split
    · refine ⟨?_, h2⟩
      simp only [Snk.run, (Snk.finish_q c _ _).1, (Snk.finish_q c _ _).2, Snk.capture]
      split
      · rename_i hc
        have : s.data.isSome = true := h2 (by simpa [hv] using (Bool.and_eq_true_iff.1 hc).2)
        obtain ⟨d, hd⟩ := Option.isSome_iff_exists.1 this
        simp [hd]
      · exact h1
    · exact ⟨h1, h2⟩
  case env v d =>
    split
    · exact ⟨h1, h2⟩
    · refine ⟨?_, fun _ => rfl⟩
      simp only
      split <;> exact h1
  case recv =>
    refine ⟨?_, h2⟩
    simp only [Snk.recv]
    split
    · exact h1
    · rename_i hq
      simp only [(Snk.setWake_q _).1, (Snk.setWake_q _).2, h1, hq]
      rename_i rest
      cases rest <;> rfl
  case pause v => exact ⟨by simpa only [(Snk.setPause_q _ _).1, (Snk.setPause_q _ _).2] using h1, h2⟩
  case clear => exact ⟨rfl, h2⟩
  case reset v =>
    refine ⟨?_, h2⟩
    simp only [Snk.reset]
    repeat' split
    all_goals exact h1

/-- **C88** for stream sinks: after any history, `wait()` returns without blocking exactly if `recv_nowait()` would return an item. -/
theorem C88_sink (c : Cfg) (hv : c.hasValid = true) (evs : List (SnkEv α)) :
    let s := (SnkSys.exec c evs).snk
    (s.waitReturns = true ↔ ∃ x, s.recv.1 = .ok x) ∧ (s.actEv = true ↔ ∃ x, s.recv.1 = .ok x) := by
  have h : SnkWait (SnkSys.exec c evs) := foldl_inv _ SnkWait (fun _ e h => h.step hv e) evs _ ⟨rfl, fun h => by simp at h⟩
  intro s
  have h1 : s.actEv = !s.queue.isEmpty := h.ev
  simp only [Snk.waitReturns, h1, Snk.recv]
  cases s.queue <;> simp

/-- `active_event` of a monitor agrees with its queue, and a payload accompanies `valid`. -/
structure MonWait (s : MonSys α) : Prop where
  ev : s.mon.actEv = !s.mon.queue.isEmpty
  data : s.valid = true → s.data.isSome = true

theorem MonWait.step {c : Cfg} (hv : c.hasValid = true) {s : MonSys α} (h : MonWait s) (e : MonEv α) : MonWait (s.step c e) := by
  obtain ⟨h1, h2⟩ := h
  cases e <;> simp only [MonSys.step]
  case tick => split <;> exact ⟨h1, h2⟩
  case wake => split <;> exact ⟨h1, h2⟩
  case spurious => split <;> exact ⟨h1, h2⟩
  case run =>
    split
    · refine ⟨?_, h2⟩
      simp only [Mon.run]
      split
      · rename_i hc
        have : s.data.isSome = true := h2 (by simpa [hv] using (Bool.and_eq_true_iff.1 hc).2)
        obtain ⟨d, hd⟩ := Option.isSome_iff_exists.1 this
        simp [hd]
      · exact h1
    · exact ⟨h1, h2⟩
  case env v r d =>
    split
    · exact ⟨h1, h2⟩
    · refine ⟨?_, fun _ => rfl⟩
      simp only
      split <;> exact h1
  case recv =>
    refine ⟨?_, h2⟩
    simp only [Mon.recv]
    split
    · exact h1
    · rename_i hq
      simp only [h1, hq]
      rename_i rest
      cases rest <;> rfl
  case clear => exact ⟨rfl, h2⟩
  case reset v =>
    refine ⟨?_, h2⟩
    simp only [Mon.reset]
    repeat' split
    all_goals exact h1

/-- **C88** for stream monitors. -/
theorem C88_monitor (c : Cfg) (hv : c.hasValid = true) (evs : List (MonEv α)) :
    let s := (MonSys.exec c evs).mon
    (s.waitReturns = true ↔ ∃ x, s.recv.1 = .ok x) ∧ (s.actEv = true ↔ ∃ x, s.recv.1 = .ok x) := by
  have h : MonWait (MonSys.exec c evs) := foldl_inv _ MonWait (fun _ e h => h.step hv e) evs _ ⟨rfl, fun h => by simp at h⟩
  intro s
  have h1 : s.actEv = !s.queue.isEmpty := h.ev
  simp only [Mon.waitReturns, h1, Mon.recv]
  cases s.queue <;> simp

/-- Two items are captured; one is received: `wait()` still returns; after the other it blocks. -/
example : let c : Cfg := { hasValid := true, hasReady := true }
    let pre : List (SnkEv Nat) := [.reset false, .wake, .commit, .tick, .run, .commit, .env true 7, .wake, .commit, .tick, .run, .commit,
      .tick, .run, .commit]
    c.hasValid = true ∧ (SnkSys.exec c pre).snk.queue = [7, 7] ∧ (SnkSys.exec c (pre ++ [.recv])).snk.waitReturns = true ∧
    (SnkSys.exec c (pre ++ [.recv, .recv])).snk.waitReturns = false := by decide +kernel

end Verif.Stream

namespace Verif.Axis

/-- `active_event` agrees with the queue. -/
def RxWait (s : Rx) : Prop := s.actEv = !s.queue.isEmpty

theorem RxWait.popped {s : Rx} (h : RxWait s) (sink byRead : Bool) (f : Frame) (rest : List Frame) (hq : s.queue = f :: rest) :
    RxWait (s.popped sink byRead f rest) := by
  unfold RxWait at *
  rw [hq] at h
  simp only [Rx.popped, Rx.dequeue, Rx.setWake]
  split <;> cases rest <;> simp [h]

theorem RxWait.recv {s : Rx} (h : RxWait s) (sink k : Bool) : RxWait (s.recv sink k).2 := by
  unfold Rx.recv
  split
  · exact h
  · rename_i hq
    exact h.popped _ _ _ _ hq

theorem RxWait.drain {s : Rx} (h : RxWait s) (sink : Bool) (n : Nat) : RxWait (s.drain sink n).2 := by
  induction n generalizing s with
  | zero => exact h
  | succ n ih =>
    unfold Rx.drain
    split
    · exact h
    · rename_i hq
      have h' := h.popped sink true _ _ hq
      simp only
      split
      · exact h'
      · exact ih h'

theorem RxWait.readNowait {s : Rx} (h : RxWait s) (sink : Bool) (n : Int) : RxWait (s.readNowait sink n).2 := by
  have h' := h.drain sink s.queue.length
  unfold Rx.readNowait
  split <;> rename_i he <;> rw [he] at h' <;> exact h'

theorem RxWait.collect {s : Rx} (h : RxWait s) (c : Cfg) (b : Beat) : RxWait (s.collect c b) := by
  unfold Rx.collect
  simp only
  split
  · simp [RxWait]
  · exact h

theorem RxWait.runMon {s : Rx} (h : RxWait s) (c : Cfg) (v r : Bool) (b : Beat) : RxWait (s.runMon c v r b) := by
  unfold Rx.runMon
  split
  · exact h.collect c b
  · exact h

theorem RxWait.runSnk {s : Rx} (h : RxWait s) (c : Cfg) (v : Bool) (b : Beat) : RxWait (s.runSnk c v b) := by
  have h' : RxWait (s.capture c v b) := by
    unfold Rx.capture
    split
    · exact h.collect c b
    · exact h
  unfold Rx.runSnk Rx.finish
  simp only
  repeat' split
  all_goals exact h'

theorem RxWait.reset {s : Rx} (h : RxWait s) (v : Bool) : RxWait (s.reset v) := by
  unfold Rx.reset
  repeat' split
  all_goals exact h

theorem RxWait.setPause {s : Rx} (h : RxWait s) (v : Bool) : RxWait (s.setPause v) := by
  unfold Rx.setPause
  simp only
  repeat' split
  all_goals exact h

theorem SnkSys.step_wait {c : Cfg} {s : SnkSys} (h : RxWait s.snk) (e : SnkEv) : RxWait (s.step c e).snk := by
  cases e <;> simp only [SnkSys.step]
  case run => split; exact h.runSnk c _ _; exact h
  case recv k => exact h.recv true k
  case readNowait n => exact h.readNowait true n
  case pause v => exact h.setPause v
  case clear => rfl
  case reset v => exact h.reset v
  case env v b =>
    split
    · exact h
    · simp only
      split <;> exact h
  case commit => split; (simp only; split <;> exact h); exact h
  all_goals (split <;> exact h)

theorem MonSys.step_wait {c : Cfg} {s : MonSys} (h : RxWait s.mon) (e : MonEv) : RxWait (s.step c e).mon := by
  cases e <;> simp only [MonSys.step]
  case run => split; exact h.runMon c _ _ _; exact h
  case recv k => exact h.recv false k
  case readNowait n => exact h.readNowait false n
  case clear => rfl
  case reset v => exact h.reset v
  case env v r b =>
    split
    · exact h
    · simp only
      split <;> exact h
  all_goals (split <;> exact h)

theorem RxWait.spec {s : Rx} (h : RxWait s) (sink : Bool) :
    (s.waitReturns = true ↔ (s.recv sink false).1 ≠ .error .queueEmpty) ∧ (s.actEv = true ↔ (s.recv sink false).1 ≠ .error .queueEmpty) := by
  unfold RxWait at h
  simp only [Rx.waitReturns, h, Rx.recv]
  cases s.queue <;> simp

/-- **C88** for AXI stream sinks: after any history, `wait()` returns without blocking exactly if `recv_nowait()` would find a frame. -/
theorem C88_axis_sink (c : Cfg) (evs : List SnkEv) : let s := (SnkSys.exec c evs).snk
    (s.waitReturns = true ↔ (s.recv true false).1 ≠ .error .queueEmpty) ∧
    (s.actEv = true ↔ (s.recv true false).1 ≠ .error .queueEmpty) :=
  (Stream.foldl_inv _ (fun s : SnkSys => RxWait s.snk) (fun _ e h => SnkSys.step_wait h e) evs _ (show RxWait {} from rfl)).spec true

/-- **C88** for AXI stream monitors. -/
theorem C88_axis_monitor (c : Cfg) (evs : List MonEv) : let s := (MonSys.exec c evs).mon
    (s.waitReturns = true ↔ (s.recv false false).1 ≠ .error .queueEmpty) ∧
    (s.actEv = true ↔ (s.recv false false).1 ≠ .error .queueEmpty) :=
  (Stream.foldl_inv _ (fun s : MonSys => RxWait s.mon) (fun _ e h => MonSys.step_wait h e) evs _ (show RxWait {} from rfl)).spec false

/-- Two frames are captured; one is received: `wait()` still returns; after the other it blocks. -/
example : let b : Beat := { tdata := 0x201, tkeep := 3, tlast := true }
    let pre : List SnkEv := [.reset false, .wake, .commit, .tick, .run, .commit, .env true b, .wake, .commit, .tick, .run, .commit,
      .tick, .run, .commit]
    (SnkSys.exec exCfg pre).snk.queue.length = 2 ∧ (SnkSys.exec exCfg (pre ++ [.recv true])).snk.waitReturns = true ∧
    (SnkSys.exec exCfg (pre ++ [.recv true, .recv true])).snk.waitReturns = false := by decide +kernel

end Verif.Axis
