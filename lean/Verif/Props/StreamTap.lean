import Verif.Proof.StreamTap

/-!
# C125: a monitor on the bus between a stream source and a stream sink records what the sink gets

`Tap.exec c (.net (.snkReset false) :: .reset false :: evs)` is the state after an arbitrary history `evs` of a source, a sink and a monitor on the bus between
them; the two first events are the start of the sink's and the monitor's coroutines when they are made.
-/

namespace Verif.Stream

variable {α : Type}

/-- **C125.** Whatever happens at source, sink and monitor (calls of any of them, `clear()`, pauses, resets of the source, any order of the coroutines), except an
assertion of reset at the sink or the monitor: whenever neither sink nor monitor is about to run, both have captured the same items in the same order. -/
theorem C125_captured (c : NetCfg) (evs : List (TapEv α)) (h : ∀ e ∈ evs, e.noReset = true) :
    let s := Tap.exec c (.net (.snkReset false) :: .reset false :: evs)
    s.net.snk.pc ≠ .due → s.mon.pc ≠ .due → s.mon.captured = s.net.snk.captured := by
  intro s h1 h2
  have := (TapInv.exec c evs h).acc
  rwa [waiting_not_due h1, waiting_not_due h2, List.append_nil, List.append_nil] at this

/-- **C125, at any moment.** At most the item of the last clock edge was captured by one of them and not yet by the other. -/
theorem C125_lag (c : NetCfg) (evs : List (TapEv α)) (h : ∀ e ∈ evs, e.noReset = true) :
    let s := Tap.exec c (.net (.snkReset false) :: .reset false :: evs)
    ∃ l : List α, l.length ≤ 1 ∧ (s.mon.captured = s.net.snk.captured ++ l ∨ s.net.snk.captured = s.mon.captured ++ l) := by
  intro s
  have hacc : s.mon.captured ++ waiting c s.net s.mon.pc = s.net.snk.captured ++ waiting c s.net s.net.snk.pc := (TapInv.exec c evs h).acc
  have hl : ∀ p, (waiting c s.net p).length ≤ 1 := by
    intro p
    unfold waiting
    split
    · cases s.net.src.data <;> simp
    · simp
  by_cases h1 : s.mon.pc = .due
  · by_cases h2 : s.net.snk.pc = .due
    · rw [h1, h2] at hacc
      exact ⟨[], by simp, .inl (by rw [List.append_nil]; exact List.append_cancel_right hacc)⟩
    · rw [waiting_not_due h2, List.append_nil] at hacc
      exact ⟨_, hl _, .inr hacc.symm⟩
  · rw [waiting_not_due h1, List.append_nil] at hacc
    exact ⟨_, hl _, .inl hacc⟩

/-! ## What is received -/

theorem tap_net (c : NetCfg) (s : Tap α) (e : TapEv α) : (s.step c e).net = s.net ∨ ∃ x, e = .net x ∧ (s.step c e).net = s.net.step c x := by
  cases e with
  | net e =>
    cases e <;> first | exact .inr ⟨_, rfl, rfl⟩ | skip
    all_goals
      simp only [Tap.step]
      split
      · exact .inr ⟨_, rfl, rfl⟩
      · exact .inl rfl
  | run => simp only [Tap.step]; split <;> exact .inl rfl
  | wake => simp only [Tap.step]; split <;> exact .inl rfl
  | spurious => simp only [Tap.step]; split <;> exact .inl rfl
  | recv => exact .inl rfl
  | clear => exact .inl rfl
  | reset v => exact .inl rfl

/-- **C125, passive.** The monitor changes nothing at source and sink: their state is reached without it, by some of the same events in the same order (a clock edge
or a signal write that would come while the monitor has something left to do is not there). -/
theorem C125_passive (c : NetCfg) (evs : List (TapEv α)) :
    ∃ evs' : List (NetEv α), evs'.Sublist (evs.filterMap TapEv.toNet) ∧ (Tap.exec c evs).net = Net.exec c evs' := by
  have key : ∀ (evs : List (TapEv α)) (s : Tap α), ∃ evs' : List (NetEv α), evs'.Sublist (evs.filterMap TapEv.toNet) ∧
      (evs.foldl (Tap.step c) s).net = evs'.foldl (Net.step c) s.net := by
    intro evs
    induction evs with
    | nil => exact fun s => ⟨[], .slnil, rfl⟩
    | cons e evs ih =>
      intro s
      obtain ⟨evs', h1, h2⟩ := ih (s.step c e)
      rcases tap_net c s e with h | ⟨x, rfl, h⟩
      · refine ⟨evs', ?_, by rw [List.foldl_cons, h2, h]⟩
        rw [List.filterMap_cons]
        split
        · exact h1
        · exact .cons _ h1
      · refine ⟨x :: evs', ?_, by rw [List.foldl_cons, h2, h]; rfl⟩
        rw [List.filterMap_cons]
        exact .cons_cons _ h1
  exact key evs {}

/-- Without `clear()` and reset, what a sink has captured was received or is in its queue. -/
theorem net_got_step (c : NetCfg) (s : Net α) (e : NetEv α) (h1 : e ≠ .snkClear) (h : s.snk.got ++ s.snk.queue = s.snk.captured) :
    (s.step c e).snk.got ++ (s.step c e).snk.queue = (s.step c e).snk.captured := by
  cases e <;> simp only [Net.step]
  case snkClear => exact absurd rfl h1
  case snkRun =>
    split
    · obtain ⟨a, l, h2, h3⟩ := run_got c.snk s.snk s.src.valid s.src.data
      show (s.snk.run _ _ _).got ++ (s.snk.run _ _ _).queue = (s.snk.run _ _ _).captured
      rw [a, h2, h3, ← h, List.append_assoc]
    · exact h
  case recv =>
    unfold Snk.recv
    split
    · exact h
    · rename_i x rest hq
      rw [hq] at h
      show s.snk.got ++ [x] ++ rest = s.snk.captured
      rw [← h]; simp
  case snkPause v =>
    unfold Snk.setPause
    simp only
    split <;> exact h
  case snkReset v =>
    unfold Snk.reset
    repeat' split
    all_goals exact h
  case commit =>
    repeat' split
    all_goals exact h
  all_goals first | exact h | (split <;> exact h)

theorem tap_got (c : NetCfg) (evs : List (TapEv α)) (h : ∀ e ∈ evs, e.keeps = true) :
    let s := Tap.exec c (.net (.snkReset false) :: .reset false :: evs)
    s.net.snk.got ++ s.net.snk.queue = s.net.snk.captured ∧ s.mon.got ++ s.mon.queue = s.mon.captured := by
  refine foldl_inv' (Tap.step c) (fun s => s.net.snk.got ++ s.net.snk.queue = s.net.snk.captured ∧ s.mon.got ++ s.mon.queue = s.mon.captured)
    (fun e => e.keeps = true) (fun s e hq ih => ⟨?_, ?_⟩) evs _ h ⟨rfl, rfl⟩
  · rcases tap_net c s e with hh | ⟨x, rfl, hh⟩
    · rw [hh]; exact ih.1
    · rw [hh]
      refine net_got_step c s.net x ?_ ih.1
      rintro rfl
      simp [TapEv.keeps] at hq
  · cases e with
    | net e =>
      have : (s.step c (.net e)).mon = s.mon ∨ (s.step c (.net e)).mon = { s.mon with pc := s.mon.pc.tick } ∨ (s.step c (.net e)).mon = s.mon.setWake := by
        cases e <;> first | exact .inl rfl | skip
        · simp only [Tap.step]
          split
          · exact .inr (.inl rfl)
          · exact .inl rfl
        · simp only [Tap.step]
          split
          · simp only
            split
            · exact .inr (.inr rfl)
            · exact .inl rfl
          · exact .inl rfl
      rcases this with hh | hh | hh <;> rw [hh] <;> exact ih.2
    | run =>
      simp only [Tap.step]
      split
      · show (s.mon.run _ _ _ _).got ++ (s.mon.run _ _ _ _).queue = (s.mon.run _ _ _ _).captured
        unfold Mon.run
        simp only
        split
        · show s.mon.got ++ (s.mon.queue ++ _) = s.mon.captured ++ _
          rw [← List.append_assoc, ih.2]
        · exact ih.2
      · exact ih.2
    | wake => simp only [Tap.step]; split <;> exact ih.2
    | spurious => simp only [Tap.step]; split <;> exact ih.2
    | recv =>
      simp only [Tap.step, Mon.recv]
      split
      · exact ih.2
      · rename_i x rest hq
        have := ih.2
        rw [hq] at this
        show s.mon.got ++ [x] ++ rest = s.mon.captured
        rw [← this]; simp
    | clear => simp [TapEv.keeps] at hq
    | reset v =>
      simp only [Tap.step, Mon.reset]
      repeat' split
      all_goals exact ih.2

/-- **C125, received.** Without `clear()` and reset at sink and monitor: whenever neither is about to run, the items received from the monitor and those waiting in it
are, in the same order, the items received from the sink and those waiting in it. -/
theorem C125_received (c : NetCfg) (evs : List (TapEv α)) (h : ∀ e ∈ evs, e.keeps = true) :
    let s := Tap.exec c (.net (.snkReset false) :: .reset false :: evs)
    s.net.snk.pc ≠ .due → s.mon.pc ≠ .due → s.mon.got ++ s.mon.queue = s.net.snk.got ++ s.net.snk.queue := by
  intro s h1 h2
  obtain ⟨a, b⟩ := tap_got c evs h
  rw [show s.mon.got ++ s.mon.queue = s.mon.captured from b, show s.net.snk.got ++ s.net.snk.queue = s.net.snk.captured from a]
  refine C125_captured c evs (fun e he => ?_) h1 h2
  have := h e he
  revert this
  unfold TapEv.keeps TapEv.noReset
  repeat' split
  all_goals simp_all

/-- A monitor that is created together with source and sink; two items are transferred, with a pause of the sink between; the monitor has to be woken by `ready`. -/
def exTap : List (TapEv Nat) :=
  [.net (.srcReset false), .net .srcWake, .net .snkWake, .wake, .net (.send 5), .net (.send 6), .net .commit, .net .tick, .run, .net .srcRun, .net .snkRun,
   .net .commit, .wake, .net .snkWake, .net .commit, .net .tick, .net .srcRun, .net .snkRun, .run, .net (.snkPause true), .net .snkWake, .net .commit, .wake,
   .net .commit, .net .tick, .net .snkRun, .net .srcRun, .run, .net .snkWake, .net .commit, .net .tick, .net .snkRun, .net .srcRun, .run, .net .snkWake, .net .commit,
   .net (.snkPause false), .net .snkWake, .net .commit, .net .tick, .net .snkRun, .net .srcRun, .run, .net .commit, .wake, .net .snkWake, .net .commit, .net .tick,
   .run, .net .snkRun, .net .srcRun, .net .recv, .net .commit, .wake, .net .snkWake, .net .commit, .recv]

example : (∀ e ∈ exTap, e.keeps = true) ∧
    let s := Tap.exec {} (.net (.snkReset false) :: .reset false :: exTap)
    s.net.snk.pc ≠ .due ∧ s.mon.pc ≠ .due ∧ s.mon.captured = [5, 6] ∧ s.net.snk.got = [5] ∧ s.mon.got = [5] ∧ s.mon.queue = [6] := by decide +kernel

end Verif.Stream
