import Verif.Proof.AxisSpeed

/-!
# C126: full throughput of AXI stream
-/

namespace Verif.Axis

open Verif.Stream (still_iff)

/-- **C126.** A source sends non-empty frames to a sink without limits, over any history in which nothing was discarded. From a moment at which
both run and neither is paused, as long as none is paused: however the coroutines, the waits and the settling of the signals are ordered within
a clock cycle and whatever else is called, `k` clock edges transfer at least `k - 3` more beats, or all of the frames that had been sent. -/
theorem C126_axis_rate (c : NetCfg) (hl : 0 < c.bus.lanes) (hv : c.bus.hasValid = true) (hB : c.snkBytes ≤ 0) (hF : c.snkFrames ≤ 0)
    (hist : List NetEv) (hcl : ∀ e ∈ hist, e.clean = true) (s : Net) (hs : s = Net.exec c (.snkReset false :: hist))
    (hon : s.src.pc ≠ .off) (hp : s.src.pause = false) (hp' : s.snk.pause = false)
    (evs : List NetEv) (hev : ∀ e ∈ evs, e.steady = true) (t : Net) (ht : t = evs.foldl (Net.step c) s)
    (hf : ∀ f ∈ t.src.sent, f.proper ∧ f.tdata ≠ []) (hd : t.snk.pc ≠ .due) :
    min (s.src.sent.flatMap (beats c.bus)).length (s.snk.captured.length + Net.edges c s evs - 3) ≤ t.snk.captured.length := by
  subst ht
  have hg : Good s := Good.before hv hev hf
  have := (calm_start hl hv hB hF hist hcl s hs hg hon hp hp').rate evs hev hf
  unfold Net.level at this
  rw [pend_off c hd] at this
  simp only [List.length_append, List.length_nil] at this
  unfold Net.beatsSent at this
  omega

/-- **C126.** There are no gaps, within a frame or between frames: three clock edges after the last pause, from a moment at which the source
presents a beat, every clock edge transfers one, until all frames that had been sent are transferred. -/
theorem C126_axis_no_gaps (c : NetCfg) (hl : 0 < c.bus.lanes) (hv : c.bus.hasValid = true) (hB : c.snkBytes ≤ 0) (hF : c.snkFrames ≤ 0)
    (hist : List NetEv) (hcl : ∀ e ∈ hist, e.clean = true) (s : Net) (hs : s = Net.exec c (.snkReset false :: hist))
    (hon : s.src.pc ≠ .off) (hp : s.src.pause = false) (hp' : s.snk.pause = false)
    (pre : List NetEv) (hpre : ∀ e ∈ pre, e.steady = true) (hk : 3 ≤ Net.edges c s pre) (t : Net)
    (ht : t = pre.foldl (Net.step c) s) (hst : t.settled = true) (hstill : t.src.pc.still = true ∧ t.snk.pc.still = true)
    (hval : t.src.valid = true)
    (evs : List NetEv) (hev : ∀ e ∈ evs, e.steady = true) (u : Net) (hu : u = evs.foldl (Net.step c) t)
    (hf : ∀ f ∈ u.src.sent, f.proper ∧ f.tdata ≠ []) (hd : u.snk.pc ≠ .due) :
    min (t.src.sent.flatMap (beats c.bus)).length (t.snk.captured.length + Net.edges c t evs) ≤ u.snk.captured.length := by
  subst hu
  have hgt : Good t := Good.before hv hev hf
  have hgs : Good s := Good.before hv hpre (ht ▸ hgt)
  have hfa := (calm_start hl hv hB hF hist hcl s hs hgs hon hp hp').fast pre hpre (ht ▸ hgt) hk
  rw [← ht] at hfa
  have hd1 := (still_iff.1 hstill.1).1
  have hd2 := (still_iff.1 hstill.2).1
  have hb : (t.onBus c).length = 1 := by
    rw [onBus_off c hd1, ← (hfa.bus.set hst).1, hval, if_pos rfl]
    rfl
  have ho := hfa.outs.1
  have hlv : t.level c = t.snk.captured.length := by
    unfold Net.level
    rw [pend_off c hd2, List.append_nil]
  have := (hfa.run (N := t.beatsSent c) evs (t.snk.captured.length + 1) hev hf (Nat.le_refl _) (by unfold Net.credit; omega) (by omega)).2
  unfold Net.level at this
  rw [pend_off c hd, List.append_nil] at this
  unfold Net.beatsSent at this
  omega

/-- A clock cycle with the turns of both coroutines. -/
def exTurn : List NetEv := [.srcWake, .snkWake, .commit, .tick, .srcRun, .snkRun]

def exSent : List NetEv := [.srcReset false, .sendNowait exFrame, .sendNowait exByte, .sendNowait exFrame]

/-- Three frames, five beats, just out of reset: the hypotheses of both theorems hold, and five clock edges transfer four beats. -/
example : let c : NetCfg := { bus := exCfg }
    let s := Net.exec c (.snkReset false :: exSent)
    let pre := exTurn ++ exTurn ++ exTurn ++ exTurn ++ [NetEv.commit]
    let t := pre.foldl (Net.step c) s
    (∀ e ∈ exSent, e.clean = true) ∧ s.src.pc ≠ .off ∧ s.src.pause = false ∧ s.snk.pause = false ∧ (∀ e ∈ pre, e.steady = true) ∧
      Net.edges c s pre = 3 ∧ t.settled = true ∧ t.src.pc.still = true ∧ t.snk.pc.still = true ∧ t.src.valid = true ∧
      t.snk.captured.length = 2 ∧ (let u := (([.tick, .srcRun, .snkRun] : List NetEv) ++ exTurn).foldl (Net.step c) t
        u.snk.pc ≠ .due ∧ u.snk.captured.length = 4 ∧ (∀ f ∈ u.src.sent, f.tdata ≠ []) ∧
          (u.src.sent.flatMap (beats c.bus)).length = 5) := by decide +kernel

/-- The frames of the example can be transmitted. -/
example : ∀ f ∈ [exFrame, exByte, exFrame], f.proper ∧ f.tdata ≠ [] := by
  intro f hf
  simp only [List.mem_cons, List.not_mem_nil, or_false] at hf
  rcases hf with rfl | rfl | rfl <;> exact ⟨by simp [Frame.proper, exFrame, exByte], by decide⟩

/-- An empty frame costs a clock cycle: the same clock edges transfer one beat less. -/
example : let c : NetCfg := { bus := exCfg }
    let turn : List NetEv := [.srcWake, .snkWake, .commit, .snkWake, .commit, .tick, .srcRun, .snkRun]
    let evs := turn ++ turn ++ turn ++ turn ++ turn
    let s := Net.exec c [.snkReset false, .srcReset false, .sendNowait exFrame, .sendNowait exByte, .sendNowait exFrame]
    let s' := Net.exec c [.snkReset false, .srcReset false, .sendNowait exFrame, .sendNowait exEmpty, .sendNowait exByte, .sendNowait exFrame]
    Net.edges c s evs = 5 ∧ Net.edges c s' evs = 5 ∧ (evs.foldl (Net.step c) s).snk.captured.length = 4 ∧
      (evs.foldl (Net.step c) s').snk.captured.length = 3 := by decide +kernel

end Verif.Axis
