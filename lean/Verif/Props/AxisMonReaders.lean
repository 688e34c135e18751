import Verif.Model.AxisMonReaders
import Verif.Props.StreamReaders
import Verif.Props.Axis

/-!
# C145: several readers of an AXI stream monitor

Partial: the calls are `recv()` and `recv_nowait()`. What is missing is `read()` and `read_nowait()` of a monitor with several suspended calls.
-/

namespace Verif.AxisMonReaders

open Verif.Axis
open Verif.StreamReaders (Laws Moved busEvents calls keeps call readers noBytes exec_good exec_agrees)

theorem laws (c : Cfg) : Laws (monitor c) where
  queue0 := rfl
  got0 := rfl
  isRecv := rfl
  recv s f q h := by
    simp only [monitor] at h ⊢
    simp [MonSys.step, Rx.recv, h, Rx.popped, Rx.dequeue]
  other s e h := by
    simp only [monitor] at h ⊢
    cases e with
    | recv k => cases h
    | readNowait n => cases h
    | run =>
      simp only [MonSys.step]
      split
      · unfold Rx.runMon
        split
        · unfold Rx.collect
          simp only
          split
          · exact ⟨rfl, .inr (.inl ⟨_, rfl⟩)⟩
          · exact ⟨rfl, .inl rfl⟩
        · exact ⟨rfl, .inl rfl⟩
      · exact ⟨rfl, .inl rfl⟩
    | clear => exact ⟨rfl, .inr (.inr rfl)⟩
    | reset v =>
      simp only [MonSys.step, Rx.reset]
      repeat' split
      all_goals exact ⟨rfl, .inl rfl⟩
    | tick => simp only [MonSys.step]; split <;> exact ⟨rfl, .inl rfl⟩
    | wake => simp only [MonSys.step]; split <;> exact ⟨rfl, .inl rfl⟩
    | spurious => simp only [MonSys.step]; split <;> exact ⟨rfl, .inl rfl⟩
    | env v r b =>
      simp only [MonSys.step]
      repeat' split
      all_goals exact ⟨rfl, .inl rfl⟩

/-- **C145 (AXI stream monitors), calls of `recv()` and `recv_nowait()`.** The monitor goes through states that it also has if calls happen only when they return, with the
same other events in the same order; the frames returned, in the order of return, are those taken from the queue; no call returns more often than it was made, and
without cancellation every `recv()` has returned once, is suspended or is about to go on; and if no call is about to go on, calls are suspended only while the queue is
empty. -/
theorem C145_axis_monitor_partial (c : Cfg) (evs : List (StreamReaders.Ev MonEv)) :
    let s := StreamReaders.Sys.exec (monitor c) evs
    (∃ evs', s.sys = MonSys.exec c evs' ∧ evs'.filter (fun e => !(monitor c).isCall e) = busEvents (monitor c) evs) ∧
    s.items.map Prod.snd = s.sys.mon.taken.map (·.2) ∧
    (∀ id, (s.items.map Prod.fst).count id + s.getters.count id + s.woken.count id ≤ calls id evs) ∧
    (∀ id, (∀ e ∈ evs, keeps id e = true) → (s.items.map Prod.fst).count id + s.getters.count id + s.woken.count id = calls id evs) ∧
    (s.woken = [] → s.getters ≠ [] → s.sys.mon.queue = []) := by
  have h := exec_good (laws c) evs
  exact ⟨h.reach, h.got, h.once, h.all, fun hw hg => List.eq_nil_of_length_eq_zero (by have := h.awake hg; rw [hw] at this; exact Nat.le_zero.1 this)⟩

/-- **C145 (AXI stream monitors), calls of `recv()` and `recv_nowait()`.** The calls are suspended, woken and answered as in `Model/Readers.lean`, where the same calls, turns and
cancellations happen in the same order. -/
theorem C145_axis_monitor_readers_partial (c : Cfg) (evs : List (StreamReaders.Ev MonEv)) :
    ∃ revs : List (Readers.Ev Frame), readers revs = evs.filterMap StreamReaders.Ev.abs ∧
    let r := Readers.Rx.exec noBytes revs
    let s := StreamReaders.Sys.exec (monitor c) evs
    r.queue = s.sys.mon.queue ∧ r.getters = s.getters.map call ∧ r.woken = s.woken.map call ∧ r.items = s.items := by
  obtain ⟨revs, h0, h⟩ := exec_agrees (laws c) evs
  exact ⟨revs, h0, h.queue, h.getters, h.woken, h.items⟩

/-- **C145 (AXI stream monitors), calls of `recv()` and `recv_nowait()`.** Without `clear()` and reset, the frames that the calls returned, in the order of return, followed by those
in the queue, are exactly the packets transferred on the bus. -/
theorem C145_axis_monitor_delivered_partial (c : Cfg) (hl : 0 < c.lanes) (evs : List (StreamReaders.Ev MonEv))
    (hcl : ∀ e ∈ busEvents (monitor c) evs, e.clean = true)
    (hnd : (StreamReaders.Sys.exec (monitor c) (.bus (.reset false) :: evs)).sys.mon.pc ≠ .due) :
    let s := StreamReaders.Sys.exec (monitor c) (.bus (.reset false) :: evs)
    s.items.map Prod.snd ++ s.sys.mon.queue = (packets c (xfers c s.sys.trace)).1.map (frameOf c) := by
  intro s
  let C' : StreamReaders.Comp MonSys MonEv Frame := { monitor c with start := MonSys.step c {} (.reset false) }
  have L' : Laws C' := ⟨rfl, rfl, rfl, (laws c).recv, (laws c).other⟩
  have h := exec_good L' evs
  obtain ⟨l, h1, h2⟩ := h.reach
  have h0 : s.sys = MonSys.exec c (.reset false :: l) := h1
  have hl' : ∀ e ∈ l, e.clean = true := by
    intro e he
    by_cases hc : (monitor c).isCall e = true
    · cases e <;> first | rfl | cases hc
    · exact hcl e (by rw [show busEvents (monitor c) evs = _ from h2.symm]; exact List.mem_filter.2 ⟨he, by simpa using hc⟩)
  have hr := C80_monitor c hl l hl' (by rw [← h0]; exact hnd)
  rw [← h0] at hr
  rw [show s.items.map Prod.snd = s.sys.mon.taken.map (·.2) from h.got]
  exact hr

/-! Two calls wait; a packet of two beats and one of one beat arrive; both calls get their turns, the second one first. -/

def exCalls : List (StreamReaders.Ev MonEv) := [.recv 1, .recv 2] ++
  [MonEv.wake, .env true true { tdata := 0x04030201, tkeep := 15 }, .tick, .run, .env true true { tdata := 0x08070605, tkeep := 3, tlast := true }, .tick, .run,
   .env true true { tdata := 0x0c0b0a09, tkeep := 15, tlast := true }, .tick, .run].map .bus ++ [.turn 1, .turn 0]

example : let s := StreamReaders.Sys.exec (monitor exCfg) (.bus (.reset false) :: exCalls)
    s.items.map Prod.fst = [2, 1] ∧ s.getters = [] ∧ s.woken = [] ∧ s.sys.mon.queue = [] ∧ s.sys.mon.pc ≠ .due := by decide +kernel
example : (∀ e ∈ busEvents (monitor exCfg) exCalls, e.clean = true) ∧ 0 < exCfg.lanes ∧ ∀ e ∈ exCalls, keeps 1 e = true := by decide +kernel

end Verif.AxisMonReaders
