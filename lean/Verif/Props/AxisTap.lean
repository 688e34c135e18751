import Verif.Proof.AxisTap

/-!
# C125: a monitor on the bus between an AXI stream source and a sink records what the sink gets

`Tap.exec c (.net (.snkReset false) :: .reset false :: evs)` is the state after an arbitrary history `evs` of a source, a sink and a monitor on the bus between
them; the two first events are the start of the sink's and the monitor's coroutines when they are made. The bus may be without `tvalid` or `tready`.
-/

namespace Verif.Axis

/-- **C125, AXI stream.** Whatever happens at source, sink and monitor (calls of any of them, `clear()`, pauses, resets of the source, any order of the coroutines),
except an assertion of reset at the sink or the monitor: whenever neither sink nor monitor is about to run, both have captured the same beats in the same order. -/
theorem C125_axis_captured (c : NetCfg) (hl : 0 < c.bus.lanes) (evs : List TapEv) (h : ∀ e ∈ evs, e.noReset = true) :
    let s := Tap.exec c (.net (.snkReset false) :: .reset false :: evs)
    s.net.snk.pc ≠ .due → s.mon.pc ≠ .due → s.mon.captured = s.net.snk.captured := by
  intro s h1 h2
  have := (TapInv.exec c hl evs h).acc
  rwa [waiting_not_due h1, waiting_not_due h2, List.append_nil, List.append_nil] at this

/-- **C125, AXI stream, at any moment.** At most the beat of the last clock edge was captured by one of them and not yet by the other. -/
theorem C125_axis_lag (c : NetCfg) (hl : 0 < c.bus.lanes) (evs : List TapEv) (h : ∀ e ∈ evs, e.noReset = true) :
    let s := Tap.exec c (.net (.snkReset false) :: .reset false :: evs)
    ∃ l : List Beat, l.length ≤ 1 ∧ (s.mon.captured = s.net.snk.captured ++ l ∨ s.net.snk.captured = s.mon.captured ++ l) := by
  intro s
  have hacc : s.mon.captured ++ waiting c s.net s.mon.pc = s.net.snk.captured ++ waiting c s.net s.net.snk.pc := (TapInv.exec c hl evs h).acc
  have hw : ∀ p, (waiting c s.net p).length ≤ 1 := by
    intro p
    unfold waiting
    split <;> simp
  by_cases h1 : s.mon.pc = .due
  · by_cases h2 : s.net.snk.pc = .due
    · rw [h1, h2] at hacc
      exact ⟨[], by simp, .inl (by rw [List.append_nil]; exact List.append_cancel_right hacc)⟩
    · rw [waiting_not_due h2, List.append_nil] at hacc
      exact ⟨_, hw _, .inr hacc.symm⟩
  · rw [waiting_not_due h1, List.append_nil] at hacc
    exact ⟨_, hw _, .inl hacc⟩

/-- **C125, AXI stream, frames.** Without `clear()` and reset at sink and monitor: whenever neither is about to run, the monitor has put together the same frames in
the same order as the sink (data, `tkeep`, `tid`, `tdest`, `tuser`), and both hold the same unfinished one. -/
theorem C125_axis_frames (c : NetCfg) (hl : 0 < c.bus.lanes) (evs : List TapEv) (h : ∀ e ∈ evs, e.keeps = true) :
    let s := Tap.exec c (.net (.snkReset false) :: .reset false :: evs)
    s.net.snk.pc ≠ .due → s.mon.pc ≠ .due → s.mon.frames = s.net.snk.frames ∧ s.mon.part = s.net.snk.part := by
  intro s h1 h2
  obtain ⟨a, b⟩ := tap_pack c hl evs h
  have hc : s.mon.captured = s.net.snk.captured := by
    refine C125_axis_captured c hl evs (fun e he => ?_) h1 h2
    have := h e he
    revert this
    unfold TapEv.keeps TapEv.noReset
    repeat' split
    all_goals simp_all
  have b1 : s.mon.frames = (packets c.bus s.mon.captured).1.map (frameOf c.bus) := b.got
  have a1 : s.net.snk.frames = (packets c.bus s.net.snk.captured).1.map (frameOf c.bus) := a.got
  have b2 : s.mon.part = if (packets c.bus s.mon.captured).2 = [] then none else some (frameOf c.bus (packets c.bus s.mon.captured).2) := b.part
  have a2 : s.net.snk.part = if (packets c.bus s.net.snk.captured).2 = [] then none else some (frameOf c.bus (packets c.bus s.net.snk.captured).2) := a.part
  rw [b1, a1, b2, a2, hc]
  exact ⟨rfl, rfl⟩

/-- **C125, AXI stream, passive.** The monitor changes nothing at source and sink: their state is reached without it, by some of the same events in the same order
(a clock edge or a signal write that would come while the monitor has something left to do is not there, and nothing after the source has raised). -/
theorem C125_axis_passive (c : NetCfg) (evs : List TapEv) :
    ∃ evs' : List NetEv, evs'.Sublist (evs.filterMap TapEv.toNet) ∧ (Tap.exec c evs).net = Net.exec c evs' := by
  have key : ∀ (evs : List TapEv) (s : Tap), ∃ evs' : List NetEv, evs'.Sublist (evs.filterMap TapEv.toNet) ∧
      (evs.foldl (Tap.step c) s).net = evs'.foldl (Net.step c) s.net := by
    intro evs
    induction evs with
    | nil => exact fun s => ⟨[], .slnil, rfl⟩
    | cons e evs ih =>
      intro s
      obtain ⟨evs', h1, h2⟩ := ih (s.step c e)
      rcases tap_net c s e with h | ⟨x, rfl, h⟩
      · refine ⟨evs', ?_, by rw [List.foldl_cons, h2, h]⟩
        rw [List.filterMap_cons]
        split
        · exact h1
        · exact .cons _ h1
      · refine ⟨x :: evs', ?_, by rw [List.foldl_cons, h2, h]; rfl⟩
        rw [List.filterMap_cons]
        exact .cons_cons _ h1
  exact key evs {}

/-- A frame of three bytes on two lanes and one of two bytes; the sink pauses in between; the monitor's coroutine comes first, last or between. -/
def exTap : List TapEv :=
  [.net (.srcReset false), .net .srcWake, .net .snkWake, .wake,
   .net (.send { tdata := [1, 2, 3], tkeep := .none, tid := .scalar 5, tdest := .none, tuser := .none }),
   .net (.send { tdata := [4, 5], tkeep := .none, tid := .scalar 6, tdest := .none, tuser := .none }),
   .net .srcWake, .net .commit, .net .tick, .run, .net .srcRun, .net .snkRun,
   .net .commit, .wake, .net .snkWake, .net .commit, .net .tick, .net .srcRun, .net .snkRun, .run, .net (.snkPause true), .net .snkWake, .net .commit, .wake,
   .net .snkWake, .net .commit, .net .tick, .net .snkRun, .net .srcRun, .run, .net .snkWake, .net .commit, .net .tick, .net .snkRun, .net .srcRun, .run, .net .snkWake, .net .commit,
   .net (.snkPause false), .net .snkWake, .net .commit, .net .tick, .net .snkRun, .net .srcRun, .run, .net .commit, .wake, .net .snkWake, .net .commit, .net .tick,
   .run, .net .snkRun, .net .srcRun, .net (.recv true), .net .commit, .wake, .net .snkWake, .net .commit, .net .tick, .net .srcRun, .net .snkRun, .run, .readNowait (-1),
   .net .commit]

example : (∀ e ∈ exTap, e.keeps = true) ∧
    let s := Tap.exec { bus := { lanes := 2, size := 8 } } (.net (.snkReset false) :: .reset false :: exTap)
    s.net.snk.pc ≠ .due ∧ s.mon.pc ≠ .due ∧ s.mon.captured.length = 3 ∧ s.mon.frames.map (·.tdata) = [[1, 2, 3, 0], [4, 5]] ∧
    s.mon.out = [1, 2, 3, 4, 5] ∧ s.net.snk.frames.map (·.tid) = [.list [5, 5, 5, 5], .list [6, 6]] := by decide +kernel

end Verif.Axis
