import Verif.Proof.AxisSend
import Verif.Props.AxisMore

/-!
# Everything sent over AXI stream arrives, under any schedule with pauses (C123)
-/

namespace Verif.Axis

/-- What was sent remains so. -/
theorem step_sent {c : NetCfg} (hv : c.bus.hasValid = true) {s : Net} {e : NetEv} (he : e.clean = true) :
    s.src.sent <+: (s.step c e).src.sent := by
    rcases step_src c s e he with ⟨_, _, e', _⟩ | k
    · rw [e']
      refine SrcInv.run_cases (P := fun t => s.src.sent <+: t.sent) hv s.src _ (fun _ _ _ => List.prefix_refl _) ?_
      intro _ u hu
      have hus : u.sent = s.src.sent := by
        rw [hu]
        split
        · rfl
        · exact (take_facts s.src).1
      refine ⟨fun _ => by rw [hus]; exact List.prefix_refl _, fun _ i g _ _ _ => ?_, fun _ _ => ?_⟩
      · unfold Src.drive
        simp only
        split <;> simp only [hus] <;> exact List.prefix_refl _
      · unfold Src.quiet
        simp only
        repeat' split
        all_goals simp only [hus]; exact List.prefix_refl _
    · exact k.sent

/-- A source whose frames can all be transmitted does not crash. -/
theorem reach_ok {c : NetCfg} (hl : 0 < c.bus.lanes) (hv : c.bus.hasValid = true) (evs : List NetEv) (hcl : ∀ e ∈ evs, e.clean = true) :
    (∀ f ∈ (Net.exec c (.snkReset false :: evs)).src.sent, f.proper) → (Net.exec c (.snkReset false :: evs)).src.crashed = false := by
  induction evs using snoc_ind with
  | nil => intro _; rfl
  | snoc evs e ih =>
    have hcl' : ∀ e ∈ evs, e.clean = true := fun x hx => hcl x (by simp [hx])
    have he : e.clean = true := hcl e (by simp)
    rw [← List.cons_append]
    have hs : Net.exec c ((.snkReset false :: evs) ++ [e]) = (Net.exec c (.snkReset false :: evs)).step c e := by
      simp only [Net.exec, List.foldl_append, List.foldl_cons, List.foldl_nil]
    rw [hs]
    have hr : Reach c (Net.exec c (.snkReset false :: evs)) := ⟨evs, hcl', rfl⟩
    revert ih hr
    generalize Net.exec c (.snkReset false :: evs) = s
    intro ih hr hp
    have hsent : s.src.sent <+: (s.step c e).src.sent := step_sent hv he
    have hp' : ∀ f ∈ s.src.sent, f.proper := fun f hf => hp f (hsent.subset hf)
    have hok := ih hcl' hp'
    rcases step_src c s e he with ⟨_, _, e', _⟩ | k
    · rw [e']
      exact (run_facts hv s.src _ (fun p hq => hp' _ ((hr.known hl hv).src.queue_sent hq)) hok).1
    · rw [k.crashed]; exact hok

theorem reach_of {c : NetCfg} {evs : List NetEv} (hev : ∀ e ∈ evs, e.clean = true)
    {sched : Nat → NetEv} (hsc : ∀ n, (sched n).clean = true) {S : Nat → Net}
    (hS : ∀ n, S n = Net.exec c (.snkReset false :: evs ++ (List.range n).map sched)) (n : Nat) : Reach c (S n) := by
  refine ⟨evs ++ (List.range n).map sched, fun e he => ?_, by rw [hS, List.cons_append]⟩
  rcases List.mem_append.1 he with he | he
  · exact hev e he
  · obtain ⟨k, _, rfl⟩ := List.mem_map.1 he
    exact hsc k

/-- The hypotheses of the theorems below. -/
theorem netLive_of {c : NetCfg} (hl : 0 < c.bus.lanes) (hv : c.bus.hasValid = true) {evs : List NetEv} (hev : ∀ e ∈ evs, e.clean = true)
    {sched : Nat → NetEv} (hsc : ∀ n, (sched n).clean = true) {S : Nat → Net}
    (hS : ∀ n, S n = Net.exec c (.snkReset false :: evs ++ (List.range n).map sched)) (hpr : ∀ n, ∀ f ∈ (S n).src.sent, f.proper)
    (hson : (S 0).src.pc ≠ .off) (hkon : (S 0).snk.pc ≠ .off) : NetLive c S sched where
  lanes := hl
  valid := hv
  step := by
    intro n
    rw [hS, hS, List.range_succ, List.map_append, ← List.append_assoc]
    simp only [Net.exec, List.foldl_append, List.map_cons, List.map_nil, List.foldl_cons, List.foldl_nil]
  clean := hsc
  known := by
    intro n
    obtain ⟨evs', hcl, hs⟩ := reach_of hev hsc hS n
    rw [hs]
    refine Net.base hl hv _ fun e he => ?_
    rcases List.mem_cons.1 he with rfl | he
    · simp
    · have := hcl e he
      intro h
      rw [h] at this
      cases this
  proper := hpr
  ok := by
    have h0 := hS 0
    simp only [List.range_zero, List.map_nil, List.append_nil] at h0
    rw [h0]
    exact reach_ok hl hv evs hev (by rw [← h0]; exact hpr 0)
  son := hson
  kon := hkon

/-- **C123, beats.** After any history `evs` at whose end both sides run, let things go on for ever (`sched`): without reset and without
`clear()`, but with any further calls and any changes of the two `pause` attributes, in any order of the coroutines that does not withhold
one of the four things in `NetFlows` for ever. Then the sink captures every beat of every frame sent at whatever instant `n`, in order. -/
theorem C123_captured (c : NetCfg) (hl : 0 < c.bus.lanes) (hv : c.bus.hasValid = true) (evs : List NetEv) (hev : ∀ e ∈ evs, e.clean = true)
    (sched : Nat → NetEv) (hsc : ∀ n, (sched n).clean = true) (S : Nat → Net)
    (hS : ∀ n, S n = Net.exec c (.snkReset false :: evs ++ (List.range n).map sched)) (hpr : ∀ n, ∀ f ∈ (S n).src.sent, f.proper)
    (hson : (S 0).src.pc ≠ .off) (hkon : (S 0).snk.pc ≠ .off) (hf : NetFlows c S sched) (n : Nat) :
    ∃ N, ∀ k, N ≤ k → (S n).src.sent.flatMap (beats c.bus) <+: (S k).snk.captured := by
  have h := netLive_of hl hv hev hsc hS hpr hson hkon
  obtain ⟨N, hN, hlen⟩ := h.all_captured hf n
  rw [(reach_of hev hsc hS n).total hl hv] at hlen
  refine ⟨N, fun k hk => ?_⟩
  obtain ⟨d, rfl⟩ := Nat.exists_eq_add_of_le hk
  obtain ⟨d', rfl⟩ := Nat.exists_eq_add_of_le hN
  obtain ⟨evs', hcl', hs'⟩ := reach_of hev hsc hS (n + d' + d)
  obtain ⟨rest, h1, _, _⟩ := net_acc c hl hv evs' hcl' _ hs'
  have hpre : (S n).src.sent.flatMap (beats c.bus) <+: (S (n + d' + d)).src.sent.flatMap (beats c.bus) := by
    have := h.sent_mono n (d' + d)
    rw [← Nat.add_assoc] at this
    obtain ⟨x, hx⟩ := this
    rw [← hx, List.flatMap_append]
    exact List.prefix_append _ _
  have hcap : (S (n + d' + d)).snk.captured <+: (S (n + d' + d)).src.sent.flatMap (beats c.bus) := ⟨rest, h1.symm⟩
  have hle : ((S n).src.sent.flatMap (beats c.bus)).length ≤ (S (n + d' + d)).snk.captured.length :=
    Nat.le_trans hlen (h.captured_mono (n + d') d).length_le
  exact List.prefix_of_prefix_length_le hpre hcap hle

/-- **C123.** The same in terms of frames, on a bus with `tlast`: every non-empty frame sent, at whatever instant, arrives: from some instant on
the frames taken from the sink and those waiting in it begin with the frames sent, in order, each as its beats describe it. -/
theorem C123_delivered (c : NetCfg) (hl : 0 < c.bus.lanes) (hv : c.bus.hasValid = true) (hla : c.bus.hasLast = true)
    (evs : List NetEv) (hev : ∀ e ∈ evs, e.clean = true)
    (sched : Nat → NetEv) (hsc : ∀ n, (sched n).clean = true) (S : Nat → Net)
    (hS : ∀ n, S n = Net.exec c (.snkReset false :: evs ++ (List.range n).map sched)) (hpr : ∀ n, ∀ f ∈ (S n).src.sent, f.proper)
    (hson : (S 0).src.pc ≠ .off) (hkon : (S 0).snk.pc ≠ .off) (hf : NetFlows c S sched) (n : Nat) :
    ∃ N, ∀ k, N ≤ k → (nonEmpty (S n).src.sent).map (fun f => frameOf c.bus (beats c.bus f)) <+:
      (S k).snk.taken.map (·.2) ++ (S k).snk.queue := by
  have h := netLive_of hl hv hev hsc hS hpr hson hkon
  obtain ⟨N, hN⟩ := C123_captured c hl hv evs hev sched hsc S hS hpr hson hkon hf n
  refine ⟨N, fun k hk => ?_⟩
  obtain ⟨x, hx⟩ := hN k hk
  obtain ⟨evs', hcl', hs'⟩ := reach_of hev hsc hS k
  obtain ⟨_, _, h2, _⟩ := net_acc c hl hv evs' hcl' _ hs'
  have hm := packets_mono c.bus ((S n).src.sent.flatMap (beats c.bus)) x
  rw [hx, packets_beats c.bus hl hla] at hm
  rw [h2.got]
  obtain ⟨y, hy⟩ := hm
  rw [← hy, List.map_append, List.map_map]
  have : (fun f : Frame => decide (f.tdata ≠ [])) = Frame.truthy := by
    funext f; rw [Bool.eq_iff_iff, truthy_iff]; simp
  rw [nonEmpty, this]
  exact List.prefix_append _ _

/-- **C123, the end.** If `send` and `send_nowait` are not called any more, and blocked calls whose event was set get their turn, then from some instant on: no
call of `send` is blocked; the frames queued are those queued before and (copies of) those of the blocked calls; the source is idle and its `wait()` returns;
`tx_complete` was signalled for every non-empty frame; and the sink has captured exactly the beats of all frames. -/
theorem C123_idle (c : NetCfg) (hl : 0 < c.bus.lanes) (hv : c.bus.hasValid = true) (evs : List NetEv) (hev : ∀ e ∈ evs, e.clean = true)
    (sched : Nat → NetEv) (hsc : ∀ n, (sched n).clean = true) (S : Nat → Net)
    (hS : ∀ n, S n = Net.exec c (.snkReset false :: evs ++ (List.range n).map sched)) (hpr : ∀ n, ∀ f ∈ (S n).src.sent, f.proper)
    (hson : (S 0).src.pc ≠ .off) (hkon : (S 0).snk.pc ≠ .off) (hf : NetFlows c S sched)
    (hq : ∀ k, (sched k).sends = false) (hr : ∀ n, ∃ k, n ≤ k ∧ NetResume S sched k) :
    ∃ N, ∀ k, N ≤ k → (S k).src.waiters = [] ∧ List.Perm (S k).src.sent ((S 0).src.sent ++ (S 0).src.blocked) ∧
      (S k).src.idle = true ∧ (S k).src.idleEv = true ∧
      (∀ (i : Nat) (f : Frame), (S k).src.sent[i]? = some f → f.tdata ≠ [] → i ∈ (S k).src.done) ∧
      (S k).snk.captured = (S k).src.sent.flatMap (beats c.bus) := by
  have h := netLive_of hl hv hev hsc hS hpr hson hkon
  obtain ⟨n, hn⟩ := h.unblocked hq hf hr
  have hsent := h.sent_const hq hn
  obtain ⟨N1, hN1, hd⟩ := h.drains hf n hsent
  obtain ⟨N2, hc⟩ := C123_captured c hl hv evs hev sched hsc S hS hpr hson hkon hf n
  refine ⟨N1 + N2, fun k hk => ?_⟩
  obtain ⟨h1, h2, h3⟩ := hd k (by omega)
  have hw := hn k (by omega)
  have hi := (h.known k).src
  refine ⟨hw, ?_, ?_, hi.idle h3 h2, ?_, ?_⟩
  · have := h.send_perm hq k
    rw [show (S k).src.blocked = [] by rw [Src.blocked, hw]; rfl, List.append_nil] at this
    exact this
  · simp [Src.idle, h2, h3]
  · intro i f hs hne
    have hcnt := hi.once i f hs hne
    have hcur := hi.dead (hi.sleep h1).2
    rw [Src.cnt, h3] at hcnt
    simp only [List.map_nil, List.count_nil, Nat.add_zero] at hcnt
    have hz : ((S k).src.current.toList.map (·.1)).count i = 0 := by
      cases hcc : (S k).src.current with
      | none => rfl
      | some p =>
        obtain ⟨j, g⟩ := p
        rw [hcc] at hcur
        obtain ⟨f', hs', hg⟩ := hi.cur j g hcc
        simp only [Option.toList, List.map_cons, List.map_nil, List.count_cons, List.count_nil]
        rw [if_neg]
        intro hji
        have hji : j = i := by simpa using hji
        subst hji
        rw [hs] at hs'
        cases hs'
        have ht : g.truthy = false := hcur
        rw [Bool.eq_false_iff] at ht
        exact ht (truthy_iff.2 (by rw [hg]; exact hne))
    rw [hz] at hcnt
    exact List.count_pos_iff.1 (by omega)
  · obtain ⟨evs', hcl', hs'⟩ := reach_of hev hsc hS k
    obtain ⟨rest, h4, _, _⟩ := net_acc c hl hv evs' hcl' _ hs'
    have hp := hc k (by omega)
    rw [← hsent k (by omega)] at hp
    have hle := hp.length_le
    have hrest : rest = [] := by
      have := congrArg List.length h4
      rw [List.length_append] at this
      exact List.length_eq_zero_iff.1 (by omega)
    rw [h4, hrest, List.append_nil]

/-! ## An example

Two limited queues, so that calls of `send` block; both sides are paused in every other clock cycle; a reader takes frames out of the sink. -/

deriving instance DecidableEq for Src, Rx, Net, NetEv

def exFlowCfg : NetCfg := { bus := { exCfg with limitFrames := 1 }, snkFrames := 1 }

/-- Two frames are queued, the calls of `send` with the others are blocked. -/
def exFlowHist : List NetEv :=
  [.srcReset false, .srcWake, .snkWake, .commit, .send exFrame, .send exEmpty, .send exByte, .send exFrame, .snkPause true]

/-- Two clock cycles, for ever. -/
def exFlowRound : List NetEv :=
  [.snkWake, .srcWake, .commit, .snkWake, .commit, .tick, .snkRun, .srcRun, .commit, .resume 0, .srcPause true, .snkPause true,
   .snkWake, .srcWake, .commit, .snkWake, .commit, .tick, .srcRun, .snkRun, .commit, .recv true, .srcPause false, .snkPause false]

def exFlowSched (n : Nat) : NetEv := exFlowRound.getD (n % 24) .commit

def exFlow (n : Nat) : Net := Net.exec exFlowCfg (.snkReset false :: exFlowHist ++ (List.range n).map exFlowSched)

theorem exFlowSched_mod {a b : Nat} (h : a % 24 = b % 24) : exFlowSched a = exFlowSched b := by
  unfold exFlowSched
  rw [h]

theorem exFlow_period (m r : Nat) : exFlow (144 + (24 * m + r)) = exFlow (144 + r) := by
  have hstep : ∀ n, exFlow (n + 1) = (exFlow n).step exFlowCfg (exFlowSched n) := by
    intro n
    simp only [exFlow, Net.exec, List.range_succ, List.map_append, ← List.append_assoc, List.foldl_append, List.map_cons, List.map_nil,
      List.foldl_cons, List.foldl_nil]
  have h0 : exFlow (144 + 24) = exFlow 144 := by decide +kernel
  have h1 : ∀ r, exFlow (144 + 24 + r) = exFlow (144 + r) := by
    intro r
    induction r with
    | zero => exact h0
    | succ r ih =>
      rw [← Nat.add_assoc, ← Nat.add_assoc, hstep, hstep, ih, exFlowSched_mod (b := 144 + r) (by omega)]
  induction m with
  | zero => rw [Nat.mul_zero, Nat.zero_add]
  | succ m ih =>
    rw [show 144 + (24 * (m + 1) + r) = 144 + 24 + (24 * m + r) by omega, h1]
    exact ih

/-- What happens once in the 24 steps from step 144 on, happens again and again. -/
theorem exFlow_again {P : NetEv → Net → Prop} (r : Nat) (h : P (exFlowSched r) (exFlow (144 + r))) (n : Nat) :
    ∃ k, n ≤ k ∧ P (exFlowSched k) (exFlow k) := by
  refine ⟨144 + (24 * n + r), by omega, ?_⟩
  rw [exFlow_period]
  have : exFlowSched (144 + (24 * n + r)) = exFlowSched r := exFlowSched_mod (by omega)
  rw [this]
  exact h

theorem exFlow_all {P : NetEv → Net → Prop} (h : ∀ r, r < 168 → P (exFlowSched r) (exFlow r)) (n : Nat) : P (exFlowSched n) (exFlow n) := by
  by_cases hn : n < 168
  · exact h n hn
  · have h1 := h (144 + (n - 144) % 24) (by omega)
    have h2 := exFlow_period ((n - 144) / 24) ((n - 144) % 24)
    rw [show 144 + (24 * ((n - 144) / 24) + (n - 144) % 24) = n by omega] at h2
    rw [h2]
    have h3 : exFlowSched n = exFlowSched (144 + (n - 144) % 24) := exFlowSched_mod (by omega)
    rw [h3]
    exact h1

theorem exFlow_flows : NetFlows exFlowCfg exFlow exFlowSched where
  edges := exFlow_again (P := fun e s => e = .tick ∧ s.settled = true ∧ s.src.pc.still = true ∧ s.snk.pc.still = true) 5 (by decide +kernel)
  src := exFlow_again (P := fun e s => s.src.pc = .asleep ∨ (e = .srcRun ∧ s.src.pc = .due ∧ s.src.pause = false)) 0 (by decide +kernel)
  snk := fun _ => exFlow_again
    (P := fun e s => (e = .tick ∧ s.settled = true ∧ s.src.pc.still = true ∧ s.snk.pc.still = true) ∧ s.snk.pauseSample = false) 5 (by decide +kernel)
  room := fun _ => exFlow_again (P := fun _ s => NetRoom exFlowCfg s) 0 (by unfold NetRoom; decide +kernel)

/-- The example meets the hypotheses of the three theorems: at the beginning two calls are blocked and nothing has been captured, at the end all is well. -/
example : (exFlow 0).src.blocked.length = 2 ∧ (exFlow 0).snk.captured = [] ∧
    ∃ N, ∀ k, N ≤ k → (exFlow k).src.waiters = [] ∧ (exFlow k).src.idle = true ∧ (exFlow k).snk.captured.length = 5 := by
  refine ⟨by decide +kernel, by decide +kernel, ?_⟩
  obtain ⟨N, hN⟩ := C123_idle exFlowCfg (by decide) (by decide) exFlowHist (by decide +kernel) exFlowSched
    (exFlow_all (P := fun e _ => e.clean = true) (by decide +kernel)) exFlow (fun _ => rfl)
    (exFlow_all (P := fun _ s => ∀ f ∈ s.src.sent, f.proper) (by decide +kernel)) (by decide +kernel) (by decide +kernel) exFlow_flows
    (exFlow_all (P := fun e _ => e.sends = false) (by decide +kernel))
    (fun n => by
      obtain ⟨k, hk, h⟩ := exFlow_again (P := fun _ s => ∀ w ∈ s.src.waiters, w.2 = false) 0 (by decide +kernel) n
      exact ⟨k, hk, .inl h⟩)
  refine ⟨N, fun k hk => ?_⟩
  obtain ⟨h1, h2, h3, _, _, h6⟩ := hN k hk
  refine ⟨h1, h3, ?_⟩
  rw [h6, List.length_flatMap]
  have hp := (h2.map fun f => (beats exFlowCfg.bus f).length).sum_nat
  rw [hp]
  decide +kernel

end Verif.Axis
