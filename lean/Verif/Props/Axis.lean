import Verif.Proof.AxisNet

/-!
# C49, C53 - C57, C79 - C81: AXI stream sources, sinks and monitors at clock level

A history is any list of events: clock edges, coroutines resuming in any order, signal writes taking effect, the environment
changing the signals it drives, and user calls. Components are built out of reset, which the model writes as a first event
`reset false`.
-/

namespace Verif.Axis

/-! ## C54: occupancy counters -/

/-- **C54.** The source's counters are exact in every history. -/
theorem C54_source (c : Cfg) (hl : 0 < c.lanes) (hv : c.hasValid = true) (evs : List SrcEv) :
    let s := (SrcSys.exec c evs).src
    s.occFrames = s.queue.length ∧ s.occBytes = bytes (s.queue.map (·.2)) :=
  ⟨(SrcSys.exec_inv hl hv evs).occF, (SrcSys.exec_inv hl hv evs).occB⟩

/-- **C54.** The sink's counters are exact in every history. -/
theorem C54_sink (c : Cfg) (hl : 0 < c.lanes) (evs : List SnkEv) :
    let s := (SnkSys.exec c evs).snk
    s.occFrames = s.queue.length ∧ s.occBytes = bytes s.queue :=
  ⟨(SnkSys.exec_rx hl evs).occF, (SnkSys.exec_rx hl evs).occB⟩

/-- **C54.** The monitor's counters are exact in every history. -/
theorem C54_monitor (c : Cfg) (hl : 0 < c.lanes) (evs : List MonEv) :
    let s := (MonSys.exec c evs).mon
    s.occFrames = s.queue.length ∧ s.occBytes = bytes s.queue :=
  ⟨(MonSys.exec_rx hl evs).occF, (MonSys.exec_rx hl evs).occB⟩

/-! ## C53: tx_complete -/

/-- **C53.** In every history, every non-empty frame accepted is counted exactly once among: signalled, queued, in
transmission. (`done` lists the numbers of the frames signalled, frame number `i` being the `i`-th accepted.) -/
theorem C53_once (c : Cfg) (hl : 0 < c.lanes) (hv : c.hasValid = true) (evs : List SrcEv) (i : Nat) (f : Frame)
    (hi : (SrcSys.exec c evs).src.sent[i]? = some f) (hf : f.tdata ≠ []) :
    (SrcSys.exec c evs).src.done.count i + ((SrcSys.exec c evs).src.queue.map (·.1)).count i +
      ((SrcSys.exec c evs).src.current.toList.map (·.1)).count i = 1 :=
  (SrcSys.exec_inv hl hv evs).once i f hi hf

/-- **C53.** No frame, empty or not, is signalled twice, and nothing is signalled that was not sent. -/
theorem C53_at_most_once (c : Cfg) (hl : 0 < c.lanes) (hv : c.hasValid = true) (evs : List SrcEv) (i : Nat) :
    (SrcSys.exec c evs).src.done.count i ≤ 1 ∧ (i ∈ (SrcSys.exec c evs).src.done → i < (SrcSys.exec c evs).src.sent.length) := by
  have hi := SrcSys.exec_inv hl hv evs
  refine ⟨?_, fun hm => ?_⟩
  · have := hi.most i
    unfold Src.cnt at this
    omega
  · rcases Nat.lt_or_ge i (SrcSys.exec c evs).src.sent.length with h | h
    · exact h
    · have := hi.new i h
      unfold Src.cnt at this
      have := List.count_pos_iff.2 hm
      omega

/-- **C53.** Whenever the source is idle, every non-empty frame accepted so far has been signalled exactly once. -/
theorem C53_idle (c : Cfg) (hl : 0 < c.lanes) (hv : c.hasValid = true) (evs : List SrcEv)
    (hidle : (SrcSys.exec c evs).src.idle = true) (i : Nat) (f : Frame)
    (hi : (SrcSys.exec c evs).src.sent[i]? = some f) (hf : f.tdata ≠ []) : (SrcSys.exec c evs).src.done.count i = 1 := by
  have h := SrcSys.exec_inv hl hv evs
  have ho := h.once i f hi hf
  simp only [Src.idle, Bool.and_eq_true, Bool.not_eq_true', List.isEmpty_iff] at hidle
  have hd := h.dead (h.act hidle.2).2
  unfold Src.cnt at ho
  rw [hidle.1] at ho
  cases hc : (SrcSys.exec c evs).src.current with
  | none => rw [hc] at ho; simpa using ho
  | some p =>
    obtain ⟨j, g⟩ := p
    rw [hc] at ho hd
    by_cases hj : j = i
    · subst hj
      obtain ⟨f', h1, h2⟩ := h.cur j g hc
      rw [hi] at h1
      cases h1
      have : g.truthy = true := truthy_iff.2 (by rw [h2]; exact hf)
      simp [live, this] at hd
    · have : (Option.toList (some (j, g))).map (·.1) = [j] := rfl
      rw [this, List.count_singleton, if_neg (by simpa using hj)] at ho
      simpa using ho

/-- A four-byte bus with all signals. -/
def exCfg : Cfg := { lanes := 4, size := 8, hasKeep := true }

/-- A frame of five bytes: two beats. -/
def exFrame : Frame := { isBytes := true, tdata := [1, 2, 3, 4, 5], tkeep := .none, tid := .none, tdest := .none, tuser := .none }

/-- A one-byte frame. -/
def exByte : Frame := { isBytes := true, tdata := [9], tkeep := .none, tid := .none, tdest := .none, tuser := .none }

/-- An empty frame. -/
def exEmpty : Frame := { isBytes := true, tdata := [], tkeep := .none, tid := .none, tdest := .none, tuser := .none }

/-- Three frames: the first is in transmission when the source is reset, the second is transmitted, the third is queued when
`clear()` is called. -/
def exTx : List SrcEv :=
  [.reset false, .wake, .send exFrame, .send exByte, .commit, .tick, .run, .commit, .reset true, .commit, .tick, .reset false, .wake,
   .commit, .tick, .run, .send exFrame, .clear, .env true, .commit, .tick, .run, .commit]

example : (SrcSys.exec exCfg exTx).src.done = [0, 1, 2] ∧ (SrcSys.exec exCfg exTx).src.idle = true := by decide +kernel

/-- **C53** is false of the code for empty frames: after a clean history the source is idle and stays so, and the empty
frame, which is no longer in the queue, was never signalled. -/
theorem C53_empty_violated : ∃ evs, let s := (SrcSys.exec exCfg evs).src
    s.sent = [exEmpty] ∧ s.idle = true ∧ s.queue = [] ∧ s.done = [] ∧ s.crashed = false :=
  ⟨[.reset false, .wake, .send exEmpty, .commit, .tick, .run, .commit, .tick, .run, .commit], by decide +kernel⟩

/-! ## C55: queue limits -/

/-- **C55**, the bound that holds for the source: `L + 1` frames, and `LB` bytes not counting the last frame. -/
theorem C55_source_partial (c : Cfg) (hl : 0 < c.lanes) (hv : c.hasValid = true) (evs : List SrcEv) :
    (c.limitFrames > 0 → ((SrcSys.exec c evs).src.queue.length : Int) ≤ c.limitFrames + 1) ∧
    (c.limitBytes > 0 → (bytes ((SrcSys.exec c evs).src.queue.map (·.2)).dropLast : Int) ≤ c.limitBytes) :=
  ⟨(SrcSys.exec_inv hl hv evs).boundF, (SrcSys.exec_inv hl hv evs).boundB⟩

/-- **C55**, the bound that holds for the sink, on a bus with `tready`. -/
theorem C55_sink_partial (c : Cfg) (hl : 0 < c.lanes) (hr : c.hasReady = true) (evs : List SnkEv) :
    (c.limitFrames > 0 → ((SnkSys.exec c evs).snk.queue.length : Int) ≤ c.limitFrames + 1) ∧
    (c.limitBytes > 0 → (bytes (SnkSys.exec c evs).snk.queue.dropLast : Int) ≤ c.limitBytes) :=
  ⟨(SnkSys.exec_inv hl evs).limF hr, (SnkSys.exec_inv hl evs).limB hr⟩

/-- **C55** is false of the code: with a limit of one frame the source holds two. -/
theorem C55_violated : ∃ evs, ((SrcSys.exec { exCfg with limitFrames := 1 } evs).src.queue.length : Int) = 2 :=
  ⟨[.reset false, .sendNowait exByte, .sendNowait exByte], by decide +kernel⟩

/-- A driver that offers one-byte frames to a sink with a limit of one frame. -/
def exOffer : List SnkEv :=
  [.reset false, .wake, .commit, .tick, .run, .commit, .env true { tdata := 1, tkeep := 1, tlast := true }, .wake, .commit, .tick, .run,
   .commit, .env true { tdata := 2, tkeep := 1, tlast := true }, .tick, .run, .commit,
   .env true { tdata := 3, tkeep := 1, tlast := true }, .tick, .run, .commit]

/-- **C55** is false of the code: the sink, too, holds two frames with a limit of one. -/
theorem C55_sink_violated : ∃ evs, ((SnkSys.exec { exCfg with limitFrames := 1 } evs).snk.queue.length : Int) = 2 ∧
    (SnkSys.exec { exCfg with limitFrames := 1 } evs).snk.ready = false := ⟨exOffer, by decide +kernel⟩

/-- **C55.** `send_nowait` on a full queue raises `QueueFull` and changes nothing; it raises only then or if the frame cannot be
copied; otherwise the frame is appended. -/
theorem C55_send_nowait (c : Cfg) (hl : 0 < c.lanes) (hv : c.hasValid = true) (evs : List SrcEv) (f : Frame) (s : Src)
    (hs : s = (SrcSys.exec c evs).src) :
    ((s.sendNowait c f).1 = .error .queueFull ↔ (c.limitBytes > 0 ∧ (bytes (s.queue.map (·.2)) : Int) > c.limitBytes) ∨
      (c.limitFrames > 0 ∧ (s.queue.length : Int) > c.limitFrames)) ∧
    ((s.sendNowait c f).1 ≠ .ok () → (s.sendNowait c f).2 = s) ∧
    ((s.sendNowait c f).1 = .ok () → (s.sendNowait c f).2.queue.map (·.2) = s.queue.map (·.2) ++ [f]) := by
  have hi := SrcSys.exec_inv hl hv evs
  rw [← hs] at hi
  rw [← hi.occB, ← hi.occF, ← full_iff]
  unfold Src.sendNowait
  split
  · rename_i h; simp [h]
  · rename_i h
    simp only [h]
    unfold Src.accept
    cases hc : f.copy with
    | error e =>
      refine ⟨?_, by simp, by simp⟩
      unfold Frame.copy at hc
      split at hc
      · cases hc; simp
      · cases hc
    | ok g =>
      have : g = f := by
        unfold Frame.copy at hc
        split at hc <;> cases hc
        rfl
      subst this
      simp [Src.put]

/-! ## C81: blocked senders -/

/-- **C81.** No wake-up is lost: as long as a blocked `send` has not been signalled, the queue is full. -/
theorem C81_no_lost_wakeup (c : Cfg) (hl : 0 < c.lanes) (hv : c.hasValid = true) (evs : List SrcEv) (f : Frame)
    (h : (f, false) ∈ (SrcSys.exec c evs).src.waiters) :
    (c.limitBytes > 0 ∧ (bytes ((SrcSys.exec c evs).src.queue.map (·.2)) : Int) > c.limitBytes) ∨
    (c.limitFrames > 0 ∧ ((SrcSys.exec c evs).src.queue.length : Int) > c.limitFrames) := by
  have hi := SrcSys.exec_inv hl hv evs
  rw [← hi.occB, ← hi.occF, ← full_iff]
  exact hi.wait f h

example : (exFrame, false) ∈ (SrcSys.exec { exCfg with limitBytes := 4 }
    [.reset false, .send exFrame, .send exFrame]).src.waiters := by decide +kernel

/-! ## C57: the source on the bus -/

/-- **C57.** If a clock edge saw `tvalid` without `tready`, the next clock edge sees `tvalid` with the same payload, unless the
source was reset in between. -/
theorem C57_hold (c : Cfg) (hv : c.hasValid = true) (hr : c.hasReady = true) (evs : List SrcEv) (i : Nat) (a b : Sample)
    (ha : (SrcSys.exec c evs).trace[i]? = some (some a)) (hb : (SrcSys.exec c evs).trace[i + 1]? = some (some b))
    (hval : a.valid = true) (hnr : a.ready = false) : b.valid = true ∧ b.beat = a.beat :=
  (SrcSys.exec_hold hv evs).all i a b ha hb hval (by rw [hr, hnr]; rfl)

/-- **C57.** Without `clear()` and reset, the beats of the frames sent are, in order: those transferred, at most one on the bus,
and some still to be driven. -/
theorem C57_in_order (c : Cfg) (hl : 0 < c.lanes) (hv : c.hasValid = true) (evs : List SrcEv) (hcl : ∀ e ∈ evs, e.clean = true) :
    ∃ bus todo : List Beat, bus.length ≤ 1 ∧
      (SrcSys.exec c evs).src.sent.flatMap (beats c) = xfers c (SrcSys.exec c evs).trace ++ bus ++ todo := by
  have ha := (SrcSys.exec_acc hl hv true evs (fun _ => hcl)).acc
  simp only [Stream.Acc, if_true] at ha
  refine ⟨_, _, ?_, ha⟩
  unfold SrcSys.onBus
  repeat' split
  all_goals simp

/-- **C57.** When the source is idle, every beat of every frame sent has been transferred, in order. -/
theorem C57_idle (c : Cfg) (hl : 0 < c.lanes) (hv : c.hasValid = true) (evs : List SrcEv) (hcl : ∀ e ∈ evs, e.clean = true)
    (hidle : (SrcSys.exec c evs).src.idle = true) :
    xfers c (SrcSys.exec c evs).trace = (SrcSys.exec c evs).src.sent.flatMap (beats c) := by
  have hs := SrcSys.exec_acc hl hv true evs (fun _ => hcl)
  have ha := hs.acc
  simp only [Stream.Acc, if_true] at ha
  simp only [Src.idle, Bool.and_eq_true, Bool.not_eq_true', List.isEmpty_iff] at hidle
  have hb : (SrcSys.exec c evs).onBus c = [] := by
    unfold SrcSys.onBus
    rw [(hs.inv.act hidle.2).1]
    simp
  have ht : (SrcSys.exec c evs).src.todo c = [] := by
    rw [Src.todo, hs.inv.rest_dead hl (hs.inv.act hidle.2).2, hidle.1]
    rfl
  rw [ha, hb, ht]
  simp

/-- **C57.** With `clear()` and reset anywhere, what is transferred is a subsequence of the beats of the frames sent: no beat is
invented, duplicated or reordered. -/
theorem C57_no_dup (c : Cfg) (hl : 0 < c.lanes) (hv : c.hasValid = true) (evs : List SrcEv) :
    (xfers c (SrcSys.exec c evs).trace).Sublist ((SrcSys.exec c evs).src.sent.flatMap (beats c)) := by
  have ha := (SrcSys.exec_acc hl hv false evs (by simp)).acc
  simp only [Stream.Acc, Bool.false_eq_true, if_false] at ha
  refine List.Sublist.trans ?_ ha
  rw [List.append_assoc]
  exact List.sublist_append_left _ _

/-- Two frames, with backpressure and a pause. -/
def exSend : List SrcEv :=
  [.reset false, .wake, .send exFrame, .send exByte, .commit, .tick, .run, .commit, .tick, .run, .commit, .env true, .pause true,
   .commit, .tick, .run, .pause false, .commit, .tick, .run, .commit, .tick, .run, .commit, .tick, .run, .commit]

example : (∀ e ∈ exSend, e.clean = true) ∧ (SrcSys.exec exCfg exSend).src.idle = true ∧
    (xfers exCfg (SrcSys.exec exCfg exSend).trace).map (fun b => (b.tdata, b.tkeep, b.tlast)) =
      [(0x04030201, 15, false), (5, 1, true), (9, 1, true)] := by decide +kernel

/-! ## C80: receivers -/

/-- **C80.** Whatever drives the bus, without reset, a sink between clock edges has captured exactly the beats of the cycles in
which `tvalid` and `tready` were both high, in order. -/
theorem C80_sink_beats (c : Cfg) (hl : 0 < c.lanes) (evs : List SnkEv) (hcl : ∀ e ∈ evs, e.noReset = true)
    (hnd : (SnkSys.exec c (.reset false :: evs)).snk.pc ≠ .due) :
    (SnkSys.exec c (.reset false :: evs)).snk.captured = xfers c (SnkSys.exec c (.reset false :: evs)).trace := by
  have ha := (SnkSys.exec_acc hl true evs (fun _ => hcl)).acc
  rw [pend_not_due _ _ hnd, List.append_nil] at ha
  exact ha.symm

theorem snk_clean_noReset {evs : List SnkEv} (hcl : ∀ e ∈ evs, e.clean = true) : ∀ e ∈ evs, e.noReset = true := by
  intro e he
  have := hcl e he
  revert this
  unfold SnkEv.clean SnkEv.noReset
  repeat' split
  all_goals simp_all

theorem mon_clean_noReset {evs : List MonEv} (hcl : ∀ e ∈ evs, e.clean = true) : ∀ e ∈ evs, e.noReset = true := by
  intro e he
  have := hcl e he
  revert this
  unfold MonEv.clean MonEv.noReset
  repeat' split
  all_goals simp_all

/-- **C80.** Without `clear()` and reset, the frames taken from a sink so far followed by those in its queue are exactly the
packets transferred. -/
theorem C80_sink (c : Cfg) (hl : 0 < c.lanes) (evs : List SnkEv) (hcl : ∀ e ∈ evs, e.clean = true)
    (hnd : (SnkSys.exec c (.reset false :: evs)).snk.pc ≠ .due) :
    (SnkSys.exec c (.reset false :: evs)).snk.taken.map (·.2) ++ (SnkSys.exec c (.reset false :: evs)).snk.queue =
      (packets c (xfers c (SnkSys.exec c (.reset false :: evs)).trace)).1.map (frameOf c) := by
  rw [← C80_sink_beats c hl evs (snk_clean_noReset hcl) hnd]
  exact (SnkSys.exec_pack hl (.reset false :: evs) (fun e he => by
    rcases List.mem_cons.1 he with h | h
    · subst h; rfl
    · exact hcl e h)).got

/-- **C80.** With resets anywhere, what a sink captures is a subsequence of what was transferred. -/
theorem C80_sink_no_dup (c : Cfg) (hl : 0 < c.lanes) (evs : List SnkEv) :
    (SnkSys.exec c (.reset false :: evs)).snk.captured.Sublist (xfers c (SnkSys.exec c (.reset false :: evs)).trace) := by
  have ha := (SnkSys.exec_acc hl false evs (by simp)).acc
  simp only [Stream.Acc, Bool.false_eq_true, if_false] at ha
  exact (List.sublist_append_left _ _).trans ha

/-- **C80.** The same for a monitor, which drives no signal. -/
theorem C80_monitor_beats (c : Cfg) (evs : List MonEv) (hcl : ∀ e ∈ evs, e.noReset = true)
    (hnd : (MonSys.exec c (.reset false :: evs)).mon.pc ≠ .due) :
    (MonSys.exec c (.reset false :: evs)).mon.captured = xfers c (MonSys.exec c (.reset false :: evs)).trace := by
  have ha := (MonSys.exec_acc c true evs (fun _ => hcl)).acc
  rw [mon_pend_not_due _ _ hnd, List.append_nil] at ha
  exact ha.symm

/-- **C80.** Without `clear()` and reset, the frames taken from a monitor so far followed by those in its queue are exactly the
packets transferred. -/
theorem C80_monitor (c : Cfg) (hl : 0 < c.lanes) (evs : List MonEv) (hcl : ∀ e ∈ evs, e.clean = true)
    (hnd : (MonSys.exec c (.reset false :: evs)).mon.pc ≠ .due) :
    (MonSys.exec c (.reset false :: evs)).mon.taken.map (·.2) ++ (MonSys.exec c (.reset false :: evs)).mon.queue =
      (packets c (xfers c (MonSys.exec c (.reset false :: evs)).trace)).1.map (frameOf c) := by
  rw [← C80_monitor_beats c evs (mon_clean_noReset hcl) hnd]
  exact (MonSys.exec_pack hl (.reset false :: evs) (fun e he => by
    rcases List.mem_cons.1 he with h | h
    · subst h; rfl
    · exact hcl e h)).got

/-- **C80.** With resets anywhere, a monitor's record is a subsequence of what was transferred. -/
theorem C80_monitor_no_dup (c : Cfg) (evs : List MonEv) :
    (MonSys.exec c (.reset false :: evs)).mon.captured.Sublist (xfers c (MonSys.exec c (.reset false :: evs)).trace) := by
  have ha := (MonSys.exec_acc c false evs (by simp)).acc
  simp only [Stream.Acc, Bool.false_eq_true, if_false] at ha
  exact (List.sublist_append_left _ _).trans ha

/-- A two-beat packet and the first beat of another one, with gaps. -/
def exPackets : List SnkEv :=
  [.wake, .commit, .tick, .run, .commit, .env true { tdata := 0x04030201, tkeep := 15 }, .wake, .commit, .tick, .run, .commit,
   .env false {}, .commit, .tick, .run, .commit, .env true { tdata := 5, tkeep := 1, tlast := true }, .wake, .commit, .tick, .run,
   .commit, .env true { tdata := 6, tkeep := 15 }, .tick, .run, .commit, .recv true]

example : (∀ e ∈ exPackets, e.clean = true) ∧ (SnkSys.exec exCfg (.reset false :: exPackets)).snk.pc ≠ .due ∧
    (SnkSys.exec exCfg (.reset false :: exPackets)).snk.captured.length = 3 ∧
    (SnkSys.exec exCfg (.reset false :: exPackets)).snk.taken.map (fun p => p.2.tdata) = [[1, 2, 3, 4, 5, 0, 0, 0]] := by
  decide +kernel

/-- The same bus as a monitor sees it. -/
def exMonitor : List MonEv :=
  [.wake, .tick, .run, .env true false { tdata := 0x04030201, tkeep := 15 }, .wake, .tick, .run,
   .env true true { tdata := 0x04030201, tkeep := 15 }, .wake, .tick, .run,
   .env true true { tdata := 5, tkeep := 1, tlast := true }, .tick, .run, .recv true]

example : (∀ e ∈ exMonitor, e.clean = true) ∧ (MonSys.exec exCfg (.reset false :: exMonitor)).mon.pc ≠ .due ∧
    (MonSys.exec exCfg (.reset false :: exMonitor)).mon.captured.length = 2 ∧
    (MonSys.exec exCfg (.reset false :: exMonitor)).mon.taken.map (fun p => p.2.payload) = [[1, 2, 3, 4, 5]] := by
  decide +kernel

/-! ## C56: read -/

/-- **C56.** In every history, the elements returned by all `read`/`read_nowait` calls so far followed by those in the read
buffer are the bytes of the frames these calls took, in order. -/
theorem C56_bytes (c : Cfg) (hl : 0 < c.lanes) (evs : List SnkEv) :
    (SnkSys.exec c evs).snk.out ++ (SnkSys.exec c evs).snk.readQueue =
      ((SnkSys.exec c evs).snk.taken.filter (·.1)).flatMap fun p => p.2.payload :=
  SnkSys.exec_read hl evs

/-- **C56.** The same for a monitor. -/
theorem C56_bytes_monitor (c : Cfg) (hl : 0 < c.lanes) (evs : List MonEv) :
    (MonSys.exec c evs).mon.out ++ (MonSys.exec c evs).mon.readQueue =
      ((MonSys.exec c evs).mon.taken.filter (·.1)).flatMap fun p => p.2.payload :=
  MonSys.exec_read hl evs

/-- **C56.** A `read_nowait(n)` call never raises; it takes all frames from the queue and returns the first `n` elements (all if
`n` is negative) of what is then there, keeping the rest. -/
theorem C56_read_nowait (c : Cfg) (hl : 0 < c.lanes) (evs : List SnkEv) (n : Int) (s : Rx) (hs : s = (SnkSys.exec c evs).snk) :
    let all := s.readQueue ++ s.queue.flatMap Frame.payload
    let m := if n < 0 then all.length else n.toNat
    (s.readNowait true n).1 = .ok (all.take m) ∧ (s.readNowait true n).2.readQueue = all.drop m ∧
    (s.readNowait true n).2.queue = [] := by
  have hi := SnkSys.exec_rx hl evs
  have hr := SnkSys.exec_read hl evs
  rw [← hs] at hi hr
  obtain ⟨t, h1, h2, h3, h4, h5, h6⟩ := drain_spec true c s hi hr
  unfold Rx.readNowait
  rw [h1]
  simp only [h6]
  exact ⟨trivial, trivial, h2⟩

theorem onlyReads_step (c : Cfg) (s : SnkSys) (e : SnkEv) (he : e.onlyReads = true) (h : ∀ p ∈ s.snk.taken, p.1 = true) :
    ∀ p ∈ (s.step c e).snk.taken, p.1 = true := by
  cases e <;> simp only [SnkSys.step]
  case tick => split <;> exact h
  case run =>
    split
    · rw [Rx.runSnk, (finish_same c _ _).2.2.2.2.2.1, (capture_same c s.snk s.valid s.beat).2.2.1]; exact h
    · exact h
  case wake => split <;> exact h
  case spurious => split <;> exact h
  case commit => split; (simp only; split <;> exact h); exact h
  case env v b =>
    split
    · exact h
    · simp only
      split <;> exact h
  case recv k => exact absurd he (by simp [SnkEv.onlyReads])
  case readNowait n =>
    exact read_ind true (fun s => ∀ p ∈ s.taken, p.1 = true) (fun s f rest _ h p hp => by
        rw [(popped_queue true s true f rest).2.2.2.1] at hp
        rcases List.mem_append.1 hp with hp | hp
        · exact h p hp
        · simp at hp; rw [hp]) (fun _ _ h => h) (fun _ _ h => h) s.snk n h
  case pause v => rw [(setPause_facts s.snk v).2.2.2.2.2.1]; exact h
  case clear => exact h
  case reset v =>
    unfold Rx.reset
    repeat' split
    all_goals exact h

/-- **C56.** If frames are only taken by `read`, without `clear()` and reset: what was read, the read buffer and the bytes of the
queued frames are together exactly the bytes of the packets transferred. -/
theorem C56_stream (c : Cfg) (hl : 0 < c.lanes) (evs : List SnkEv) (hcl : ∀ e ∈ evs, e.onlyReads = true) (s : SnkSys)
    (hs : s = SnkSys.exec c (.reset false :: evs)) (hnd : s.snk.pc ≠ .due) :
    s.snk.out ++ s.snk.readQueue ++ s.snk.queue.flatMap Frame.payload =
      (packets c (xfers c s.trace)).1.flatMap fun bs => (frameOf c bs).payload := by
  have hcl' : ∀ e ∈ evs, e.clean = true := by
    intro e he
    have := hcl e he
    cases e <;> simp_all [SnkEv.clean, SnkEv.onlyReads]
  have h1 := C80_sink c hl evs hcl' (by rw [← hs]; exact hnd)
  have h2 := C56_bytes c hl (.reset false :: evs)
  have h3 := Stream.foldl_inv' (SnkSys.step c) (fun s : SnkSys => ∀ p ∈ s.snk.taken, p.1 = true) (fun e => e.onlyReads = true)
    (fun s e he h => onlyReads_step c s e he h) (.reset false :: evs) {} (fun e he => by
      rcases List.mem_cons.1 he with h | h
      · subst h; rfl
      · exact hcl e h) (by simp)
  have h3' : ∀ p ∈ s.snk.taken, p.1 = true := by rw [hs]; exact h3
  rw [← hs] at h1 h2
  rw [h2, List.filter_eq_self.2 h3']
  have h4 := congrArg (fun l => l.flatMap Frame.payload) h1
  simp only [List.flatMap_append, List.flatMap_map] at h4
  exact h4

example : let evs := exPackets.dropLast ++ [.readNowait 2, .readNowait 2]
    (∀ e ∈ evs, e.onlyReads = true) ∧ (SnkSys.exec exCfg (.reset false :: evs)).snk.out = [1, 2, 3, 4] ∧
    (SnkSys.exec exCfg (.reset false :: evs)).snk.readQueue = [5] := by decide +kernel

/-! ## C49: from source to sink -/

/-- What the pair has done, in a history without `clear()` and reset. -/
theorem net_acc (c : NetCfg) (hl : 0 < c.bus.lanes) (hv : c.bus.hasValid = true) (evs : List NetEv)
    (hcl : ∀ e ∈ evs, e.clean = true) (s : Net) (hs : s = Net.exec c (.snkReset false :: evs)) :
    ∃ rest, s.src.sent.flatMap (beats c.bus) = s.snk.captured ++ rest ∧ PackInv c.bus s.snk ∧
      (s.src.idle = true → s.snk.pc ≠ .due → rest = []) := by
  obtain ⟨l₁, l₂, sim, hc⟩ := Net.project c evs
  obtain ⟨c1, c2⟩ := hc hcl
  rw [← hs] at sim
  have ha := SrcSys.exec_acc (c := c.bus) hl hv true l₁ (fun _ => c1)
  have hk := (SnkSys.exec_acc (c := c.snk) hl true l₂ (fun _ => snk_clean_noReset c2)).acc
  have hp := SnkSys.exec_pack (c := c.snk) hl (.reset false :: l₂) (fun e he => by
    rcases List.mem_cons.1 he with h | h
    · subst h; rfl
    · exact c2 e h)
  have hb := ha.acc
  simp only [Stream.Acc, if_true] at hb hk
  rw [sim.tr, hk, sim.snk, sim.src] at hb
  rw [sim.snk] at hp
  refine ⟨_, by rw [hb, List.append_assoc, List.append_assoc], ⟨hp.got, hp.part⟩, fun hidle hnd => ?_⟩
  have hc1 := C57_idle c.bus hl hv l₁ c1 (by rw [sim.src]; exact hidle)
  rw [sim.tr, hk, sim.snk, sim.src] at hc1
  rw [hc1, List.append_assoc] at hb
  have hpd := pend_not_due c.snk (SnkSys.exec c.snk (.reset false :: l₂)) (by rw [sim.snk]; exact hnd)
  rw [hpd, List.nil_append]
  exact List.self_eq_append_right.1 hb

/-- **C49.** On a bus with `tlast`, for a source connected to a sink, without `clear()` and reset: the frames taken from the sink
followed by those in its queue are the first non-empty frames sent, in order, each received as the frame its beats make. -/
theorem C49_transfer (c : NetCfg) (hl : 0 < c.bus.lanes) (hv : c.bus.hasValid = true) (hla : c.bus.hasLast = true)
    (evs : List NetEv) (hcl : ∀ e ∈ evs, e.clean = true) (s : Net) (hs : s = Net.exec c (.snkReset false :: evs)) :
    ∃ n, s.snk.taken.map (·.2) ++ s.snk.queue =
      ((s.src.sent.filter (fun f => f.tdata ≠ [])).take n).map (fun f => frameOf c.bus (beats c.bus f)) := by
  obtain ⟨rest, h1, h2, h3⟩ := net_acc c hl hv evs hcl s hs
  have hpre := packets_mono c.bus s.snk.captured rest
  rw [← h1, packets_beats c.bus hl hla] at hpre
  obtain ⟨n, hn⟩ : ∃ n, (packets c.bus s.snk.captured).1 = ((s.src.sent.filter Frame.truthy).map (beats c.bus)).take n :=
    ⟨_, List.prefix_iff_eq_take.1 hpre⟩
  refine ⟨n, ?_⟩
  rw [h2.got, hn, ← List.map_take, List.map_map]
  have : (fun f : Frame => decide (f.tdata ≠ [])) = Frame.truthy := by
    funext f; rw [Bool.eq_iff_iff, truthy_iff]; simp
  rw [this]
  rfl

/-- **C49.** When moreover the source is idle and the sink is not in the middle of a clock edge, these are all the non-empty
frames sent. -/
theorem C49_all (c : NetCfg) (hl : 0 < c.bus.lanes) (hv : c.bus.hasValid = true) (hla : c.bus.hasLast = true)
    (evs : List NetEv) (hcl : ∀ e ∈ evs, e.clean = true) (s : Net) (hs : s = Net.exec c (.snkReset false :: evs))
    (hidle : s.src.idle = true) (hnd : s.snk.pc ≠ .due) :
    s.snk.taken.map (·.2) ++ s.snk.queue =
      (s.src.sent.filter (fun f => f.tdata ≠ [])).map (fun f => frameOf c.bus (beats c.bus f)) := by
  obtain ⟨rest, h1, h2, h3⟩ := net_acc c hl hv evs hcl s hs
  rw [h3 hidle hnd, List.append_nil] at h1
  rw [h2.got, ← h1, packets_beats c.bus hl hla, List.map_map]
  have : (fun f : Frame => decide (f.tdata ≠ [])) = Frame.truthy := by
    funext f; rw [Bool.eq_iff_iff, truthy_iff]; simp
  rw [this]
  rfl

/-- The frame that the next `recv` gets. -/
theorem net_next (c : NetCfg) (hl : 0 < c.bus.lanes) (hv : c.bus.hasValid = true) (hla : c.bus.hasLast = true)
    (evs : List NetEv) (hcl : ∀ e ∈ evs, e.clean = true) (s : Net) (hs : s = Net.exec c (.snkReset false :: evs)) (r : Frame)
    (hr : (s.snk.recv true true).1 = .ok r) :
    ∃ f, (s.src.sent.filter (fun f => f.tdata ≠ []))[s.snk.taken.length]? = some f ∧
      (frameOf c.bus (beats c.bus f)).compact = .ok r := by
  obtain ⟨n, h⟩ := C49_transfer c hl hv hla evs hcl s hs
  cases hq : s.snk.queue with
  | nil => rw [Rx.recv, hq] at hr; cases hr
  | cons g rest =>
    rw [Rx.recv, hq] at hr
    simp only [if_true] at hr
    rw [hq] at h
    have hg := congrArg (fun l => l[s.snk.taken.length]?) h
    simp only [List.getElem?_append_right, List.length_map, Nat.le_refl, Nat.sub_self, List.getElem?_cons_zero,
      List.getElem?_map] at hg
    cases hf : ((s.src.sent.filter (fun f => decide (f.tdata ≠ []))).take n)[s.snk.taken.length]? with
    | none => rw [hf] at hg; cases hg
    | some f =>
      rw [hf] at hg
      simp only [Option.map_some, Option.some.injEq] at hg
      refine ⟨f, ?_, by rw [← hg]; exact hr⟩
      rw [List.getElem?_take] at hf
      split at hf
      · exact hf
      · cases hf

/-- **C49.** The `n`-th `recv()` of a sink on a bus with `tkeep` and `tlast` returns the kept bytes, in order, of the `n`-th non-empty
frame sent, with its sidebands: for each byte those of the last byte in its beat. -/
theorem C49_recv_with_keep (c : NetCfg) (hl : 0 < c.bus.lanes) (hv : c.bus.hasValid = true) (hla : c.bus.hasLast = true)
    (hk : c.bus.hasKeep = true) (evs : List NetEv) (hcl : ∀ e ∈ evs, e.clean = true) (s : Net)
    (hs : s = Net.exec c (.snkReset false :: evs)) (r : Frame) (hr : (s.snk.recv true true).1 = .ok r) :
    ∃ f, (s.src.sent.filter (fun f => f.tdata ≠ []))[s.snk.taken.length]? = some f ∧ r =
      { isBytes := decide (c.bus.size = 8)
        tdata := (keptIdx f).map fun j => (maskTo c.bus.size (f.tdata.getD j 0) : Int)
        tkeep := .none
        tid := collapse (if c.bus.hasId then (keptIdx f).map fun j => f.tid.value 0 (lastOf c.bus f.tdata.length j) else [])
        tdest := collapse (if c.bus.hasDest then (keptIdx f).map fun j => f.tdest.value 0 (lastOf c.bus f.tdata.length j) else [])
        tuser := collapse (if c.bus.hasUser then (keptIdx f).map fun j => f.tuser.value 0 (lastOf c.bus f.tdata.length j)
          else []) } := by
  obtain ⟨f, h1, h2⟩ := net_next c hl hv hla evs hcl s hs r hr
  have h3 := C49_with_keep c.bus hl hk f
  rw [frameOf_foldl, h2] at h3
  exact ⟨f, h1, by cases h3; rfl⟩

/-- **C49.** On a bus without `tkeep`: all bytes of the frame, and zeros up to a whole number of beats. -/
theorem C49_recv_without_keep (c : NetCfg) (hl : 0 < c.bus.lanes) (hv : c.bus.hasValid = true) (hla : c.bus.hasLast = true)
    (hk : c.bus.hasKeep = false) (evs : List NetEv) (hcl : ∀ e ∈ evs, e.clean = true) (s : Net)
    (hs : s = Net.exec c (.snkReset false :: evs)) (r : Frame) (hr : (s.snk.recv true true).1 = .ok r) :
    ∃ f pad, (s.src.sent.filter (fun f => f.tdata ≠ []))[s.snk.taken.length]? = some f ∧ pad < c.bus.lanes ∧
      (f.tdata.length + pad) % c.bus.lanes = 0 ∧
      r.tdata = (f.tdata.map fun x => (maskTo c.bus.size x : Int)) ++ List.replicate pad 0 := by
  obtain ⟨f, h1, h2⟩ := net_next c hl hv hla evs hcl s hs r hr
  obtain ⟨pad, h3, h4, h5⟩ := C49_without_keep c.bus hl hk f
  rw [frameOf_foldl, h2] at h5
  exact ⟨f, pad, h1, h3, h4, by cases h5; rfl⟩

/-- Two frames and an empty one; at the end the first is in the sink's queue and the other on the bus. -/
def exNet : List NetEv :=
  [.srcReset false, .srcWake, .snkWake, .commit, .send exFrame, .send exEmpty, .send exByte, .commit, .tick, .snkRun, .srcRun, .commit,
   .snkWake, .commit, .tick, .srcRun, .snkRun, .commit, .tick, .srcRun, .snkRun, .commit, .tick, .srcRun, .snkRun, .commit]

example : (∀ e ∈ exNet, e.clean = true) ∧
    ((Net.exec { bus := exCfg } (.snkReset false :: exNet)).snk.recv true true).1.toOption.map (·.tdata) = some [1, 2, 3, 4, 5] := by
  decide +kernel

example : let evs := exNet ++ [.recv true, .tick, .snkRun, .srcRun, .commit, .snkWake, .tick, .srcRun, .snkRun, .commit, .tick, .srcRun,
      .snkRun, .commit]
    (∀ e ∈ evs, e.clean = true) ∧ (Net.exec { bus := exCfg } (.snkReset false :: evs)).src.idle = true ∧
    (Net.exec { bus := exCfg } (.snkReset false :: evs)).snk.pc ≠ .due ∧
    ((Net.exec { bus := exCfg } (.snkReset false :: evs)).snk.recv true true).1.toOption.map (·.tdata) = some [9] := by
  decide +kernel

end Verif.Axis
