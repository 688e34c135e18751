import Verif.Proof.StreamLive

/-!
# Everything sent over a stream arrives, under any schedule with pauses (C124)
-/

namespace Verif.Stream

variable {α : Type}

/-- The hypotheses of the theorems below. -/
theorem netLive_of {c : NetCfg} {evs : List (NetEv α)} (hev : ∀ e ∈ evs, e.clean = true)
    {sched : Nat → NetEv α} (hsc : ∀ n, (sched n).clean = true) {S : Nat → Net α}
    (hS : ∀ n, S n = Net.exec c (.snkReset false :: evs ++ (List.range n).map sched))
    (hson : (S 0).src.pc ≠ .off) (hkon : (S 0).snk.pc ≠ .off) : NetLive c S sched where
  step := by
    intro n
    rw [hS, hS, List.range_succ, List.map_append, ← List.append_assoc]
    simp only [Net.exec, List.foldl_append, List.map_cons, List.map_nil, List.foldl_cons, List.foldl_nil]
  clean := hsc
  known := by
    intro n
    rw [hS, List.cons_append]
    refine known_exec c _ fun e he => ?_
    rcases List.mem_append.1 he with he | he
    · exact hev e he
    · obtain ⟨k, _, rfl⟩ := List.mem_map.1 he
      exact hsc k
  son := hson
  kon := hkon

/-- **C124.** After any history `evs` at whose end both sides run, let things go on for ever (`sched`): without reset and without
`clear()`, but with any further calls and any changes of the two `pause` attributes, in any order of the coroutines that does not withhold
one of the four things in `NetFlows` for ever. Then every item sent at whatever instant `n` arrives: from some instant on the items taken from
the sink and those waiting in it begin with the items sent, in order. -/
theorem C124_delivered (c : NetCfg) (evs : List (NetEv α)) (hev : ∀ e ∈ evs, e.clean = true)
    (sched : Nat → NetEv α) (hsc : ∀ n, (sched n).clean = true) (S : Nat → Net α)
    (hS : ∀ n, S n = Net.exec c (.snkReset false :: evs ++ (List.range n).map sched))
    (hson : (S 0).src.pc ≠ .off) (hkon : (S 0).snk.pc ≠ .off) (hf : NetFlows c S sched) (n : Nat) :
    ∃ N, ∀ k, N ≤ k → (S n).src.sent <+: (S k).snk.got ++ (S k).snk.queue := by
  have h := netLive_of hev hsc hS hson hkon
  obtain ⟨N, hN, hlen⟩ := h.all_captured hf n
  refine ⟨N, fun k hk => ?_⟩
  have hg := (h.known k).inv.got
  simp only [Acc, if_true] at hg
  rw [← hg]
  have h1 := h.sent_mono n (k - n)
  rw [show n + (k - n) = k by omega] at h1
  have h2 := (h.captured_mono N (k - N)).length_le
  rw [show N + (k - N) = k by omega] at h2
  exact List.prefix_of_prefix_length_le h1 (h.captured_sent k) (by omega)

/-- **C124, the end.** If `send` and `send_nowait` are not called any more, and blocked calls whose event was set get their turn, then from some instant
on: no call of `send` is blocked; the items sent are those sent before and those of the blocked calls; the source is idle and its `wait()` returns;
and the items taken from the sink and those waiting in it are exactly the items sent. -/
theorem C124_idle (c : NetCfg) (evs : List (NetEv α)) (hev : ∀ e ∈ evs, e.clean = true)
    (sched : Nat → NetEv α) (hsc : ∀ n, (sched n).clean = true) (S : Nat → Net α)
    (hS : ∀ n, S n = Net.exec c (.snkReset false :: evs ++ (List.range n).map sched))
    (hson : (S 0).src.pc ≠ .off) (hkon : (S 0).snk.pc ≠ .off) (hf : NetFlows c S sched)
    (hq : ∀ k, (sched k).sends = false) (hr : ∀ n, ∃ k, n ≤ k ∧ NetResume S sched k) :
    ∃ N, ∀ k, N ≤ k → (S k).src.waiters = [] ∧ List.Perm (S k).src.sent ((S 0).src.sent ++ (S 0).src.blocked) ∧
      (S k).src.idle = true ∧ (S k).src.idleEv = true ∧ (S k).snk.got ++ (S k).snk.queue = (S k).src.sent := by
  have h := netLive_of hev hsc hS hson hkon
  obtain ⟨n, hn⟩ := h.unblocked hq hf hr
  have hsent := h.sent_const hq hn
  obtain ⟨N1, hN1, hd⟩ := h.drains hf n hsent
  obtain ⟨N2, hc⟩ := C124_delivered c evs hev sched hsc S hS hson hkon hf n
  refine ⟨N1 + N2, fun k hk => ?_⟩
  obtain ⟨h1, h2, h3⟩ := hd k (by omega)
  have hw := hn k (by omega)
  refine ⟨hw, ?_, ?_, (h.known k).inv.src.idle h3 h2, ?_⟩
  · have := h.send_perm hq k
    rw [show (S k).src.blocked = [] by rw [Src.blocked, hw]; rfl, List.append_nil] at this
    exact this
  · simp [Src.idle, h2, h3]
  · have hp := hc k (by omega)
    rw [← hsent k (by omega)] at hp
    have hg := (h.known k).inv.got
    simp only [Acc, if_true] at hg
    have hb := (h.captured_sent k).length_le
    rw [hg] at hb
    exact (hp.eq_of_length (Nat.le_antisymm hp.length_le hb)).symm

theorem step_got_mono (c : NetCfg) (s : Net α) (e : NetEv α) : s.snk.got <+: (s.step c e).snk.got := by
  have same : ∀ {t : Net α}, t.snk.got = s.snk.got → s.snk.got <+: t.snk.got := fun hh => by rw [hh]; exact List.prefix_refl _
  cases e
  case snkRun =>
    simp only [Net.step]
    split
    · exact same (run_got _ _ _ _).1
    · exact same rfl
  case recv =>
    simp only [Net.step]
    unfold Snk.recv
    split
    · exact same rfl
    · exact List.prefix_append _ _
  case snkPause v => exact same (setPause_facts _ _).2.2.2.2.2.1
  case snkReset v =>
    refine same ?_
    simp only [Net.step, Snk.reset]
    repeat' split
    all_goals rfl
  case commit =>
    refine same ?_
    simp only [Net.step]
    repeat' split
    all_goals rfl
  case snkClear => exact same rfl
  all_goals
    refine same ?_
    simp only [Net.step]
    try (split <;> rfl)

/-- **C124, a reader.** If somebody calls `recv()` at the sink again and again, everything sent is received in the end, in order. The sink's queue limit does not
matter then. -/
theorem C124_received (c : NetCfg) (evs : List (NetEv α)) (hev : ∀ e ∈ evs, e.clean = true)
    (sched : Nat → NetEv α) (hsc : ∀ n, (sched n).clean = true) (S : Nat → Net α)
    (hS : ∀ n, S n = Net.exec c (.snkReset false :: evs ++ (List.range n).map sched))
    (hson : (S 0).src.pc ≠ .off) (hkon : (S 0).snk.pc ≠ .off)
    (hedges : ∀ n, ∃ k, n ≤ k ∧ NetEdge S sched k) (hsrc : ∀ n, ∃ k, n ≤ k ∧ NetTurn S sched k)
    (hsnk : c.hasReady = true → ∀ n, ∃ k, n ≤ k ∧ NetEdge S sched k ∧ (S k).snk.pauseSample = false)
    (hrecv : ∀ n, ∃ k, n ≤ k ∧ sched k = .recv) (n : Nat) :
    ∃ N, ∀ k, N ≤ k → (S n).src.sent <+: (S k).snk.got := by
  have h := netLive_of hev hsc hS hson hkon
  have hstep : ∀ k, sched k = .recv → (S (k + 1)).snk = (S k).snk.recv.2 := fun k hk => by rw [h.step k, hk]; rfl
  have hf : NetFlows c S sched := by
    refine ⟨hedges, hsrc, hsnk, fun hrd m => ?_⟩
    obtain ⟨k, hk, he⟩ := hrecv m
    refine ⟨k + 1, by omega, fun hl => ?_⟩
    have hlim := (h.known k).inv.snk.lim hrd hl
    rw [hstep k he]
    unfold Snk.recv
    split
    · rename_i hq; simp only [hq, List.length_nil]; exact hl
    · rename_i x rest hq
      rw [hq, List.length_cons] at hlim
      have hlim' : ((rest.length + 1 : Nat) : Int) ≤ c.snkLimit := hlim
      show (rest.length : Int) < c.snkLimit
      omega
  obtain ⟨N, hN⟩ := C124_delivered c evs hev sched hsc S hS hson hkon hf n
  have gmono : ∀ m d, (S m).snk.got <+: (S (m + d)).snk.got := by
    intro m d
    induction d with
    | zero => exact List.prefix_refl _
    | succ d ih => exact ih.trans (by rw [← Nat.add_assoc, h.step]; exact step_got_mono c _ _)
  -- every call takes one more item, as long as some of those sent are missing
  have key : ∀ L, ∃ k, N ≤ k ∧ (L ≤ (S k).snk.got.length ∨ (S n).src.sent.length ≤ (S k).snk.got.length) := by
    intro L
    induction L with
    | zero => exact ⟨N, Nat.le_refl _, .inl (Nat.zero_le _)⟩
    | succ L ih =>
      obtain ⟨k, hk, hL⟩ := ih
      obtain ⟨m, hm, he⟩ := hrecv k
      have hg := (gmono k (m - k)).length_le
      rw [show k + (m - k) = m by omega] at hg
      by_cases hd : (S n).src.sent.length ≤ (S m).snk.got.length
      · exact ⟨m, by omega, .inr hd⟩
      · refine ⟨m + 1, by omega, .inl ?_⟩
        have hp := (hN m (by omega)).length_le
        rw [List.length_append] at hp
        rw [hstep m he]
        unfold Snk.recv
        split
        · rename_i hq; rw [hq, List.length_nil] at hp; omega
        · simp only [Snk.setWake, List.length_append, List.length_cons, List.length_nil]
          rcases hL with hL | hL <;> omega
  obtain ⟨k, hk, hL⟩ := key (S n).src.sent.length
  refine ⟨k, fun m hm => ?_⟩
  have hg := (gmono k (m - k)).length_le
  rw [show k + (m - k) = m by omega] at hg
  exact List.prefix_of_prefix_length_le (hN m (by omega)) (List.prefix_append _ _) (by rcases hL with hL | hL <;> omega)

/-! ## An example

Two limited queues, so that calls of `send` block; both sides are paused in every other clock cycle; a reader takes items out of the sink. -/

deriving instance DecidableEq for Src, Snk, Net, NetEv

def exFlowCfg : NetCfg := { srcLimit := 1, snkLimit := 1 }

/-- One item is queued, the calls of `send` with the others are blocked. -/
def exFlowHist : List (NetEv Nat) :=
  [.srcReset false, .srcWake, .snkWake, .commit, .send 1, .send 2, .send 3, .send 4, .snkPause true]

/-- Two clock cycles, for ever. -/
def exFlowRound : List (NetEv Nat) :=
  [.snkWake, .srcWake, .commit, .snkWake, .commit, .tick, .snkRun, .srcRun, .commit, .resume 0, .srcPause true, .snkPause true,
   .snkWake, .srcWake, .commit, .snkWake, .commit, .tick, .srcRun, .snkRun, .commit, .recv, .srcPause false, .snkPause false]

def exFlowSched (n : Nat) : NetEv Nat := exFlowRound.getD (n % 24) .commit

def exFlow (n : Nat) : Net Nat := Net.exec exFlowCfg (.snkReset false :: exFlowHist ++ (List.range n).map exFlowSched)

theorem exFlowSched_mod {a b : Nat} (h : a % 24 = b % 24) : exFlowSched a = exFlowSched b := by
  unfold exFlowSched
  rw [h]

theorem exFlow_period (m r : Nat) : exFlow (240 + (24 * m + r)) = exFlow (240 + r) := by
  have hstep : ∀ n, exFlow (n + 1) = (exFlow n).step exFlowCfg (exFlowSched n) := by
    intro n
    simp only [exFlow, Net.exec, List.range_succ, List.map_append, ← List.append_assoc, List.foldl_append, List.map_cons, List.map_nil,
      List.foldl_cons, List.foldl_nil]
  have h0 : exFlow (240 + 24) = exFlow 240 := by decide +kernel
  have h1 : ∀ r, exFlow (240 + 24 + r) = exFlow (240 + r) := by
    intro r
    induction r with
    | zero => exact h0
    | succ r ih =>
      rw [← Nat.add_assoc, ← Nat.add_assoc, hstep, hstep, ih, exFlowSched_mod (b := 240 + r) (by omega)]
  induction m with
  | zero => rw [Nat.mul_zero, Nat.zero_add]
  | succ m ih =>
    rw [show 240 + (24 * (m + 1) + r) = 240 + 24 + (24 * m + r) by omega, h1]
    exact ih

/-- What happens once in the 24 steps from step 240 on, happens again and again. -/
theorem exFlow_again {P : NetEv Nat → Net Nat → Prop} (r : Nat) (h : P (exFlowSched r) (exFlow (240 + r))) (n : Nat) :
    ∃ k, n ≤ k ∧ P (exFlowSched k) (exFlow k) := by
  refine ⟨240 + (24 * n + r), by omega, ?_⟩
  rw [exFlow_period]
  have : exFlowSched (240 + (24 * n + r)) = exFlowSched r := exFlowSched_mod (by omega)
  rw [this]
  exact h

theorem exFlow_all {P : NetEv Nat → Prop} (h : ∀ r, r < 24 → P (exFlowSched r)) (n : Nat) : P (exFlowSched n) := by
  rw [exFlowSched_mod (b := n % 24) (by omega)]
  exact h _ (by omega)

theorem exFlow_flows : NetFlows exFlowCfg exFlow exFlowSched where
  edges := exFlow_again (P := fun e s => e = .tick ∧ s.settled = true ∧ s.src.pc.still = true ∧ s.snk.pc.still = true) 5 (by decide +kernel)
  src := exFlow_again (P := fun e s => s.src.pc = .asleep ∨ (e = .srcRun ∧ s.src.pc = .due ∧ s.src.pause = false)) 0 (by decide +kernel)
  snk := fun _ => exFlow_again
    (P := fun e s => (e = .tick ∧ s.settled = true ∧ s.src.pc.still = true ∧ s.snk.pc.still = true) ∧ s.snk.pauseSample = false) 5 (by decide +kernel)
  room := fun _ => exFlow_again (P := fun _ s => NetRoom exFlowCfg s) 0 (by unfold NetRoom; decide +kernel)

/-- The example meets the hypotheses of the three theorems: at the beginning three calls are blocked and nothing has arrived, at the end all four items
have been received. -/
example : (exFlow 0).src.blocked = [2, 3, 4] ∧ (exFlow 0).snk.got = [] ∧
    ∃ N, ∀ k, N ≤ k → (exFlow k).src.waiters = [] ∧ (exFlow k).src.idle = true ∧ List.Perm (exFlow k).snk.got [1, 2, 3, 4] := by
  refine ⟨by decide +kernel, by decide +kernel, ?_⟩
  obtain ⟨N, hN⟩ := C124_idle exFlowCfg exFlowHist (by decide +kernel) exFlowSched
    (exFlow_all (P := fun e => e.clean = true) (by decide +kernel)) exFlow (fun _ => rfl) (by decide +kernel) (by decide +kernel) exFlow_flows
    (exFlow_all (P := fun e => e.sends = false) (by decide +kernel))
    (fun n => by
      obtain ⟨k, hk, h⟩ := exFlow_again (P := fun _ s => ∀ w ∈ s.src.waiters, w.2 = false) 0 (by decide +kernel) n
      exact ⟨k, hk, .inl h⟩)
  obtain ⟨M, hM⟩ := C124_received exFlowCfg exFlowHist (by decide +kernel) exFlowSched
    (exFlow_all (P := fun e => e.clean = true) (by decide +kernel)) exFlow (fun _ => rfl) (by decide +kernel) (by decide +kernel)
    exFlow_flows.edges exFlow_flows.src exFlow_flows.snk (exFlow_again (P := fun e _ => e = .recv) 21 (by decide +kernel)) N
  refine ⟨N + M, fun k hk => ?_⟩
  obtain ⟨h1, h2, h3, _, h5⟩ := hN k (by omega)
  obtain ⟨_, h2', _, _, _⟩ := hN N (Nat.le_refl _)
  refine ⟨h1, h3, ?_⟩
  have hp := hM k (by omega)
  have hl : (exFlow k).snk.got.length ≤ (exFlow N).src.sent.length := by
    have := congrArg List.length h5
    rw [List.length_append, h2.length_eq, ← h2'.length_eq] at this
    omega
  have heq := hp.eq_of_length (Nat.le_antisymm hp.length_le hl)
  rw [← heq]
  exact h2'.trans (by decide +kernel)

end Verif.Stream
