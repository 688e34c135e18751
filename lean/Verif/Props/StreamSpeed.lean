import Verif.Proof.StreamSpeed

/-!
# C126: full throughput
-/

namespace Verif.Stream

variable {α : Type}

/-- **C126.** A source sends to a sink without a limit, over any history in which nothing was discarded. From a moment at which both
run and neither is paused, as long as none is paused: however the coroutines, the waits and the settling of the signals are ordered within
a clock cycle and whatever else is called, `k` clock edges transfer at least `k - 3` more items, or all that had been sent. -/
theorem C126_rate (c : NetCfg) (hlim : c.snkLimit ≤ 0) (hist : List (NetEv α)) (hcl : ∀ e ∈ hist, e.clean = true) (s : Net α)
    (hs : s = Net.exec c (.snkReset false :: hist)) (hon : s.src.pc ≠ .off) (hp : s.src.pause = false) (hp' : s.snk.pause = false)
    (evs : List (NetEv α)) (hev : ∀ e ∈ evs, e.steady = true) (t : Net α) (ht : t = evs.foldl (Net.step c) s) (hd : t.snk.pc ≠ .due) :
    min s.src.sent.length (s.snk.captured.length + Net.edges c s evs - 3) ≤ t.snk.captured.length := by
  have := (calm_start hist hcl hlim s hs hon hp hp').rate evs hev
  rw [← ht] at this
  unfold Net.level at this
  rw [net_pend_not_due c t hd] at this
  simp only [List.length_append, List.length_nil] at this
  omega

/-- **C126.** There are no gaps: three clock edges after the last pause, from a moment at which the source presents an item, every
clock edge transfers one, until all that had been sent is transferred. -/
theorem C126_no_gaps (c : NetCfg) (hlim : c.snkLimit ≤ 0) (hist : List (NetEv α)) (hcl : ∀ e ∈ hist, e.clean = true) (s : Net α)
    (hs : s = Net.exec c (.snkReset false :: hist)) (hon : s.src.pc ≠ .off) (hp : s.src.pause = false) (hp' : s.snk.pause = false)
    (pre : List (NetEv α)) (hpre : ∀ e ∈ pre, e.steady = true) (hk : 3 ≤ Net.edges c s pre) (t : Net α)
    (ht : t = pre.foldl (Net.step c) s) (hst : t.settled = true) (hstill : t.src.pc.still = true ∧ t.snk.pc.still = true)
    (hval : t.src.valid = true)
    (evs : List (NetEv α)) (hev : ∀ e ∈ evs, e.steady = true) (u : Net α) (hu : u = evs.foldl (Net.step c) t) (hd : u.snk.pc ≠ .due) :
    min t.src.sent.length (t.snk.captured.length + Net.edges c t evs) ≤ u.snk.captured.length := by
  have hf := (calm_start hist hcl hlim s hs hon hp hp').fast pre hpre hk
  rw [← ht] at hf
  have hd1 := (still_iff.1 hstill.1).1
  have hd2 := (still_iff.1 hstill.2).1
  have hb : (t.onBus c).length = 1 := by
    rw [net_bus_not_due c t hd1, ← (hf.known.inv.set hst).1, hval, if_pos rfl]
    exact hf.known.data ((hf.known.inv.set hst).1 ▸ hval)
  have ho := hf.known.out.1
  have hl : t.level c = t.snk.captured.length := by
    unfold Net.level
    rw [net_pend_not_due c t hd2, List.append_nil]
  have := (hf.run (N := t.src.sent.length) evs (t.snk.captured.length + 1) hev (Nat.le_refl _) (by unfold Net.credit; omega) (by omega)).2
  rw [← hu] at this
  unfold Net.level at this
  rw [net_pend_not_due c u hd, List.append_nil] at this
  omega

/-- A clock cycle with the turns of both coroutines. -/
def exTurn : List (NetEv Nat) := [.srcWake, .snkWake, .commit, .tick, .srcRun, .snkRun]

def exSent : List (NetEv Nat) := [.srcReset false, .sendNowait 1, .sendNowait 2, .sendNowait 3, .sendNowait 4, .sendNowait 5]

/-- Five items just out of reset: the hypotheses of both theorems hold, and five clock edges transfer four items. -/
example : let s := Net.exec ({} : NetCfg) (.snkReset false :: exSent)
    let pre := exTurn ++ exTurn ++ exTurn ++ exTurn ++ [NetEv.commit]
    let t := pre.foldl (Net.step {}) s
    (∀ e ∈ exSent, e.clean = true) ∧ s.src.pc ≠ .off ∧ s.src.pause = false ∧ s.snk.pause = false ∧ (∀ e ∈ pre, e.steady = true) ∧
      Net.edges {} s pre = 3 ∧ t.settled = true ∧ t.src.pc.still = true ∧ t.snk.pc.still = true ∧ t.src.valid = true ∧
      t.snk.captured = [1, 2] ∧ (let u := (([.tick, .srcRun, .snkRun] : List (NetEv Nat)) ++ exTurn).foldl (Net.step {}) t
        u.snk.pc ≠ .due ∧ u.snk.captured = [1, 2, 3, 4]) := by decide +kernel

/-- A sink whose queue is full holds the bus: the limit has to be 0 for the bound. -/
example : let c : NetCfg := { snkLimit := 1 }
    let s := Net.exec c (.snkReset false :: exSent)
    let evs := exTurn ++ exTurn ++ exTurn ++ exTurn ++ exTurn ++ exTurn ++ exTurn ++ exTurn
    Net.edges c s evs = 7 ∧ (evs.foldl (Net.step c) s).snk.captured = [1] := by decide +kernel

end Verif.Stream
