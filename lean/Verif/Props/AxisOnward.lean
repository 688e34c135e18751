import Verif.Proof.AxisOnward
import Verif.Props.AxisSplit
import Verif.Props.AxisLive

/-!
# C134, C135: what arrives after resets
-/

namespace Verif.Axis

theorem nonEmpty_truthy (l : List Frame) : nonEmpty l = l.filter Frame.truthy := by rw [nonEmpty, truthy_fun]

/-- The frames on their way at the beginning, and those sent later, arrive. -/
theorem onward_delivery {c : NetCfg} (hla : c.bus.hasLast = true) {S : Nat → Net} {sched : Nat → NetEv} (h : NetLive c S sched)
    (hf : NetFlows c S sched) {m : Nat} {cl : Bool} (hfl : Flow c m cl (S 0)) :
    ∃ done way : List Frame,
      (S 0).snk.taken.map (·.2) ++ (S 0).snk.queue = done.map (fun f => frameOf c.bus (beats c.bus f)) ∧
      (done ++ way).Sublist (S 0).src.sent ∧ (S 0).src.queue.map (·.2) <:+ way ∧
      ∀ n, ∃ N, ∀ k, N ≤ k →
        (nonEmpty (done ++ way ++ (S n).src.sent.drop (S 0).src.sent.length)).map (fun f => frameOf c.bus (beats c.bus f)) <+:
          (S k).snk.taken.map (·.2) ++ (S k).snk.queue := by
  obtain ⟨done, way, p, g1, g2, g3, g4, _, g6⟩ := onward hla h hfl
  refine ⟨done, way, g2, g3, g4, fun n => ?_⟩
  obtain ⟨N, hN, hlen⟩ := h.all_captured hf n
  refine ⟨N, fun k hk => ?_⟩
  obtain ⟨xn, yn, a1, a2, a3, _, _⟩ := g6 n
  obtain ⟨xk, yk, b1, b2, b3, b4, _⟩ := g6 k
  have hlen' : ((S n).total c).length ≤ (S k).snk.captured.length := by
    have := (h.captured_mono N (k - N)).length_le
    rw [show N + (k - N) = k by omega] at this
    omega
  have hpre : (S n).total c <+: (S k).snk.captured := by
    obtain ⟨x, _, hx⟩ := h.total_more n (k - n)
    rw [show n + (k - n) = k by omega] at hx
    refine List.prefix_of_prefix_length_le (l₃ := (S k).total c) ⟨_, hx.symm⟩ ?_ hlen'
    unfold Net.total
    simp only [List.append_assoc]
    exact List.prefix_append _ _
  have hall : (way ++ xn).flatMap (beats c.bus) <+: p ++ yk := by
    unfold Net.total at hpre
    rw [a2, b2] at hpre
    simp only [List.append_assoc] at hpre
    rw [List.prefix_append_right_inj] at hpre
    rw [← a3]
    simp only [List.append_assoc]
    rw [List.prefix_append_right_inj]
    exact hpre
  obtain ⟨z, hz⟩ := hall
  have hm := packets_mono c.bus ((way ++ xn).flatMap (beats c.bus)) z
  rw [hz, packets_beats c.bus h.lanes hla] at hm
  obtain ⟨w, hw⟩ := hm
  have hd : (S n).src.sent.drop (S 0).src.sent.length = xn := by rw [a1, List.drop_left]
  rw [hd, b4, ← hw, nonEmpty_truthy, List.append_assoc, List.filter_append, List.filter_eq_self.2 g1, List.map_append, List.map_append,
    List.map_map]
  refine ⟨w.map (frameOf c.bus), ?_⟩
  simp [Function.comp_def]

/-- When no more is sent, this comes to an end. -/
theorem onward_idle {c : NetCfg} (hla : c.bus.hasLast = true) {S : Nat → Net} {sched : Nat → NetEv} (h : NetLive c S sched)
    (hf : NetFlows c S sched) {m : Nat} (hfl : Flow c m false (S 0)) (hq : ∀ k, (sched k).sends = false)
    (hr : ∀ n, ∃ k, n ≤ k ∧ NetResume S sched k) :
    ∃ N, ∀ k, N ≤ k → (S k).src.waiters = [] ∧ List.Perm (S k).src.sent ((S 0).src.sent ++ (S 0).src.blocked) ∧
      (S k).src.idle = true ∧ (S k).src.idleEv = true ∧ (S k).snk.part = none ∧
      (nonEmpty (S k).src.sent).length ≤ ((S k).snk.taken.map (·.2) ++ (S k).snk.queue).length + m := by
  obtain ⟨done, way, p, g1, g2, g3, g4, g5, g6⟩ := onward hla h hfl
  obtain ⟨n, hn⟩ := h.unblocked hq hf hr
  have hsent := h.sent_const hq hn
  obtain ⟨N1, hN1, hd⟩ := h.drains hf n hsent
  obtain ⟨N2, hN2, hlen⟩ := h.all_captured hf n
  refine ⟨N1 + N2, fun k hk => ?_⟩
  obtain ⟨h1, h2, h3⟩ := hd k (by omega)
  have hw := hn k (by omega)
  have hi := (h.known k).src
  obtain ⟨x, y, b1, b2, b3, b4, b5⟩ := g6 k
  have hrest : (S k).taking c ++ (S k).shown c ++ (S k).src.todo c.bus = [] := by
    obtain ⟨z, z1, z2⟩ := h.total_more n (k - n)
    rw [show n + (k - n) = k by omega] at z1 z2
    rw [hsent k (by omega)] at z1
    rw [List.self_eq_append_right.1 z1] at z2
    have hm := (h.captured_mono N2 (k - N2)).length_le
    rw [show N2 + (k - N2) = k by omega] at hm
    have := congrArg List.length z2
    unfold Net.total at this hlen
    simp only [List.length_append, List.flatMap_nil, List.length_nil, Nat.add_zero] at this hlen
    refine List.length_eq_zero_iff.1 ?_
    simp only [List.length_append]
    omega
  have hall : p ++ y = (way ++ x).flatMap (beats c.bus) := by
    rw [← b3, List.append_assoc (p ++ y), List.append_assoc (p ++ y), hrest, List.append_nil]
  rw [hall, packets_beats c.bus h.lanes hla] at b4 b5
  refine ⟨hw, ?_, by simp [Src.idle, h2, h3], hi.idle h3 h2, by rw [b5]; rfl, ?_⟩
  · have := h.send_perm hq k
    rw [show (S k).src.blocked = [] by rw [Src.blocked, hw]; rfl, List.append_nil] at this
    exact this
  · rw [b4, nonEmpty_truthy, ← List.countP_eq_length_filter, b1, List.countP_append]
    have := g5 rfl
    simp only [List.length_append, List.length_map, ← List.countP_eq_length_filter, List.countP_append]
    omega

/-- **C134, delivery.** After any such history (with `clear()` at most on the source), let both sides run and let things go on for ever
(`sched`), as in C123: without reset and `clear()`, with any calls and any pauses that do not withhold something for ever (`NetFlows`). At the beginning the
sink has received some frames (`done`), and some are on their way (`way`), those in the source's queue last. Then, from some instant on, the sink has
received: those received at the beginning, all non-empty ones on their way then, and all non-empty frames sent since, in this order,
each whole. So a reset costs nothing that is in the queue or sent later. -/
theorem C134_delivery (c : NetCfg) (hl : 0 < c.bus.lanes) (hv : c.bus.hasValid = true) (hla : c.bus.hasLast = true)
    (evs : List JointEv) (hc : ∀ e ∈ evs, e.common = true) (hk : ∀ e ∈ evs, e ≠ .ev .snkClear) (sched : Nat → NetEv)
    (hsc : ∀ n, (sched n).clean = true) (S : Nat → Net) (hS : ∀ n, S n = Net.jexec c (evs ++ (List.range n).map fun m => .ev (sched m)))
    (hpr : ∀ n, ∀ f ∈ (S n).src.sent, f.proper) (hson : (S 0).src.pc ≠ .off) (hkon : (S 0).snk.pc ≠ .off) (hf : NetFlows c S sched) :
    ∃ done way : List Frame,
      (S 0).snk.taken.map (·.2) ++ (S 0).snk.queue = done.map (fun f => frameOf c.bus (beats c.bus f)) ∧
      (done ++ way).Sublist (S 0).src.sent ∧ (S 0).src.queue.map (·.2) <:+ way ∧
      ∀ n, ∃ N, ∀ k, N ≤ k →
        (nonEmpty (done ++ way ++ (S n).src.sent.drop (S 0).src.sent.length)).map (fun f => frameOf c.bus (beats c.bus f)) <+:
          (S k).snk.taken.map (·.2) ++ (S k).snk.queue := by
  refine onward_delivery hla (netLive_joint hl hv hk hsc hS hpr hson hkon) hf (m := resets evs) (cl := true) ?_
  have h0 := hS 0
  simp only [List.range_zero, List.map_nil, List.append_nil] at h0
  rw [h0]
  exact Flow.exec hl hv hla true evs (common_tidy hc) (by simp)

/-- **C134, the end.** If moreover `clear()` was not called, the resets were asserted between clock edges, and `send` is not called any more: from
some instant on no call is blocked, the source is idle and its `wait()` returns, the sink has no unfinished frame, and at most one non-empty frame
per assertion of the reset has not been received. -/
theorem C134_idle (c : NetCfg) (hl : 0 < c.bus.lanes) (hv : c.bus.hasValid = true) (hla : c.bus.hasLast = true)
    (evs : List JointEv) (hc : ∀ e ∈ evs, e.common = true) (hk : ∀ e ∈ evs, e.noClear = true) (hb : BetweenEdges c evs) (sched : Nat → NetEv)
    (hsc : ∀ n, (sched n).clean = true) (S : Nat → Net) (hS : ∀ n, S n = Net.jexec c (evs ++ (List.range n).map fun m => .ev (sched m)))
    (hpr : ∀ n, ∀ f ∈ (S n).src.sent, f.proper) (hson : (S 0).src.pc ≠ .off) (hkon : (S 0).snk.pc ≠ .off) (hf : NetFlows c S sched)
    (hq : ∀ k, (sched k).sends = false) (hr : ∀ n, ∃ k, n ≤ k ∧ NetResume S sched k) :
    ∃ N, ∀ k, N ≤ k → (S k).src.waiters = [] ∧ List.Perm (S k).src.sent ((S 0).src.sent ++ (S 0).src.blocked) ∧
      (S k).src.idle = true ∧ (S k).src.idleEv = true ∧ (S k).snk.part = none ∧
      (nonEmpty (S k).src.sent).length ≤ ((S k).snk.taken.map (·.2) ++ (S k).snk.queue).length + resets evs := by
  refine onward_idle hla (netLive_joint hl hv (fun e he h => by have := hk e he; rw [h] at this; cases this) hsc hS hpr hson hkon) hf ?_ hq hr
  have h0 := hS 0
  simp only [List.range_zero, List.map_nil, List.append_nil] at h0
  rw [h0]
  exact Flow.exec hl hv hla false evs (common_tidy hc) (fun _ => ⟨hk, hb⟩)

/-- **C135, delivery.** The same as `C134_delivery` after resets of the source or the sink alone, each only while the sink has no unfinished frame
(`Tidy`). Missing: as in `C135_no_corruption_partial`. -/
theorem C135_delivery_partial (c : NetCfg) (hl : 0 < c.bus.lanes) (hv : c.bus.hasValid = true) (hla : c.bus.hasLast = true)
    (evs : List JointEv) (ht : TidyAll c evs) (hk : ∀ e ∈ evs, e ≠ .ev .snkClear) (sched : Nat → NetEv)
    (hsc : ∀ n, (sched n).clean = true) (S : Nat → Net) (hS : ∀ n, S n = Net.jexec c (evs ++ (List.range n).map fun m => .ev (sched m)))
    (hpr : ∀ n, ∀ f ∈ (S n).src.sent, f.proper) (hson : (S 0).src.pc ≠ .off) (hkon : (S 0).snk.pc ≠ .off) (hf : NetFlows c S sched) :
    ∃ done way : List Frame,
      (S 0).snk.taken.map (·.2) ++ (S 0).snk.queue = done.map (fun f => frameOf c.bus (beats c.bus f)) ∧
      (done ++ way).Sublist (S 0).src.sent ∧ (S 0).src.queue.map (·.2) <:+ way ∧
      ∀ n, ∃ N, ∀ k, N ≤ k →
        (nonEmpty (done ++ way ++ (S n).src.sent.drop (S 0).src.sent.length)).map (fun f => frameOf c.bus (beats c.bus f)) <+:
          (S k).snk.taken.map (·.2) ++ (S k).snk.queue := by
  refine onward_delivery hla (netLive_joint hl hv hk hsc hS hpr hson hkon) hf (m := resets evs) (cl := true) ?_
  have h0 := hS 0
  simp only [List.range_zero, List.map_nil, List.append_nil] at h0
  rw [h0]
  exact Flow.exec hl hv hla true evs ht (by simp)

/-- **C135, the end.** The same as `C134_idle` after such resets. Missing: as above. -/
theorem C135_idle_partial (c : NetCfg) (hl : 0 < c.bus.lanes) (hv : c.bus.hasValid = true) (hla : c.bus.hasLast = true)
    (evs : List JointEv) (ht : TidyAll c evs) (hk : ∀ e ∈ evs, e.noClear = true) (hb : BetweenEdges c evs) (sched : Nat → NetEv)
    (hsc : ∀ n, (sched n).clean = true) (S : Nat → Net) (hS : ∀ n, S n = Net.jexec c (evs ++ (List.range n).map fun m => .ev (sched m)))
    (hpr : ∀ n, ∀ f ∈ (S n).src.sent, f.proper) (hson : (S 0).src.pc ≠ .off) (hkon : (S 0).snk.pc ≠ .off) (hf : NetFlows c S sched)
    (hq : ∀ k, (sched k).sends = false) (hr : ∀ n, ∃ k, n ≤ k ∧ NetResume S sched k) :
    ∃ N, ∀ k, N ≤ k → (S k).src.waiters = [] ∧ List.Perm (S k).src.sent ((S 0).src.sent ++ (S 0).src.blocked) ∧
      (S k).src.idle = true ∧ (S k).src.idleEv = true ∧ (S k).snk.part = none ∧
      (nonEmpty (S k).src.sent).length ≤ ((S k).snk.taken.map (·.2) ++ (S k).snk.queue).length + resets evs := by
  refine onward_idle hla (netLive_joint hl hv (fun e he h => by have := hk e he; rw [h] at this; cases this) hsc hS hpr hson hkon) hf ?_ hq hr
  have h0 := hS 0
  simp only [List.range_zero, List.map_nil, List.append_nil] at h0
  rw [h0]
  exact Flow.exec hl hv hla false evs ht (fun _ => ⟨hk, hb⟩)

/-! ## An example

Frames are sent, the calls with the last ones block; in the middle of the first frame the common reset is asserted and released; then both sides are
paused in every other clock cycle for ever, and a reader takes frames out of the sink. -/

def exAgainHist : List JointEv :=
  [.reset false, .ev (.send exFrame), .ev (.send exByte), .ev (.send exFrame), .ev (.send exByte)] ++ exCycle ++ [.ev (.resume 0)] ++ exCycle ++
    [.reset true, .ev .commit, .reset false]

def exAgain (n : Nat) : Net := Net.jexec exFlowCfg (exAgainHist ++ (List.range n).map fun m => .ev (exFlowSched m))

theorem exAgain_period (m r : Nat) : exAgain (144 + (24 * m + r)) = exAgain (144 + r) := by
  have hstep : ∀ n, exAgain (n + 1) = (exAgain n).step exFlowCfg (exFlowSched n) := by
    intro n
    simp only [exAgain, Net.jexec, List.range_succ, List.map_append, ← List.append_assoc, List.foldl_append, List.map_cons, List.map_nil,
      List.foldl_cons, List.foldl_nil, Net.jstep]
  have h0 : exAgain (144 + 24) = exAgain 144 := by decide +kernel
  have h1 : ∀ r, exAgain (144 + 24 + r) = exAgain (144 + r) := by
    intro r
    induction r with
    | zero => exact h0
    | succ r ih =>
      rw [← Nat.add_assoc, ← Nat.add_assoc, hstep, hstep, ih, exFlowSched_mod (b := 144 + r) (by omega)]
  induction m with
  | zero => rw [Nat.mul_zero, Nat.zero_add]
  | succ m ih =>
    rw [show 144 + (24 * (m + 1) + r) = 144 + 24 + (24 * m + r) by omega, h1]
    exact ih

theorem exAgain_again {P : NetEv → Net → Prop} (r : Nat) (h : P (exFlowSched r) (exAgain (144 + r))) (n : Nat) :
    ∃ k, n ≤ k ∧ P (exFlowSched k) (exAgain k) := by
  refine ⟨144 + (24 * n + r), by omega, ?_⟩
  rw [exAgain_period]
  have : exFlowSched (144 + (24 * n + r)) = exFlowSched r := exFlowSched_mod (by omega)
  rw [this]
  exact h

theorem exAgain_all {P : NetEv → Net → Prop} (h : ∀ r, r < 168 → P (exFlowSched r) (exAgain r)) (n : Nat) : P (exFlowSched n) (exAgain n) := by
  by_cases hn : n < 168
  · exact h n hn
  · have h1 := h (144 + (n - 144) % 24) (by omega)
    have h2 := exAgain_period ((n - 144) / 24) ((n - 144) % 24)
    rw [show 144 + (24 * ((n - 144) / 24) + (n - 144) % 24) = n by omega] at h2
    rw [h2]
    have h3 : exFlowSched n = exFlowSched (144 + (n - 144) % 24) := exFlowSched_mod (by omega)
    rw [h3]
    exact h1

theorem exAgain_flows : NetFlows exFlowCfg exAgain exFlowSched where
  edges := exAgain_again (P := fun e s => e = .tick ∧ s.settled = true ∧ s.src.pc.still = true ∧ s.snk.pc.still = true) 5 (by decide +kernel)
  src := exAgain_again (P := fun e s => s.src.pc = .asleep ∨ (e = .srcRun ∧ s.src.pc = .due ∧ s.src.pause = false)) 0 (by decide +kernel)
  snk := fun _ => exAgain_again
    (P := fun e s => (e = .tick ∧ s.settled = true ∧ s.src.pc.still = true ∧ s.snk.pc.still = true) ∧ s.snk.pauseSample = false) 5 (by decide +kernel)
  room := fun _ => exAgain_again (P := fun _ s => NetRoom exFlowCfg s) 0 (by unfold NetRoom; decide +kernel)

theorem exAgain_between : BetweenEdges exFlowCfg exAgainHist := between_of_bool (by decide +kernel)

/-- At the beginning one beat of the first frame has been received, one frame is queued and two calls are blocked; in the end three frames of four
have been received. -/
example : (exAgain 0).snk.captured.length = 1 ∧ (exAgain 0).src.queue.length = 2 ∧ (exAgain 0).src.blocked.length = 1 ∧ resets exAgainHist = 1 ∧
    ∃ N, ∀ k, N ≤ k → (exAgain k).src.waiters = [] ∧ (exAgain k).src.idle = true ∧
      3 ≤ ((exAgain k).snk.taken.map (·.2) ++ (exAgain k).snk.queue).length := by
  refine ⟨by decide +kernel, by decide +kernel, by decide +kernel, by decide +kernel, ?_⟩
  obtain ⟨N, hN⟩ := C134_idle exFlowCfg (by decide) (by decide) (by decide) exAgainHist (by decide +kernel) (by decide +kernel) exAgain_between exFlowSched
    (exAgain_all (P := fun e _ => e.clean = true) (by decide +kernel)) exAgain (fun _ => rfl)
    (exAgain_all (P := fun _ s => ∀ f ∈ s.src.sent, f.proper) (by decide +kernel)) (by decide +kernel) (by decide +kernel) exAgain_flows
    (exAgain_all (P := fun e _ => e.sends = false) (by decide +kernel))
    (fun n => by
      obtain ⟨k, hk, h⟩ := exAgain_again (P := fun _ s => ∀ w ∈ s.src.waiters, w.2 = false) 0 (by decide +kernel) n
      exact ⟨k, hk, .inl h⟩)
  refine ⟨N, fun k hk => ?_⟩
  obtain ⟨h1, h2, h3, _, _, h6⟩ := hN k hk
  refine ⟨h1, h3, ?_⟩
  have hp : (nonEmpty (exAgain k).src.sent).length = 4 := by
    have := (h2.filter fun f => f.tdata ≠ []).length_eq
    rw [nonEmpty, this]
    decide +kernel
  have hr : resets exAgainHist = 1 := by decide +kernel
  rw [hp, hr] at h6
  omega

end Verif.Axis
