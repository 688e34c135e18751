import Verif.Props.Axis
import Verif.Proof.AxisMore
import Verif.Proof.AxisProgress
import Verif.Proof.AxisPause

/-!
# C79, C82 - C86: completion, idleness, pausing and progress of AXI stream components
-/

namespace Verif.Axis

/-! ## C79: when `tx_complete` is signalled -/

theorem dropLast_prefix {α : Type} {l m b : List α} (h : l <+: m ++ b) (hb : b.length ≤ 1) : l.dropLast <+: m := by
  have h1 : l.dropLast <+: m ++ b := (List.dropLast_prefix l).trans h
  refine List.prefix_of_prefix_length_le h1 (List.prefix_append m b) ?_
  have := h.length_le
  rw [List.length_append] at this
  rw [List.length_dropLast]
  omega

theorem onBus_le (c : Cfg) (s : SrcSys) : (s.onBus c).length ≤ 1 := by
  unfold SrcSys.onBus
  repeat' split
  all_goals simp

/-- **C79**, what holds of the code, without `clear()` and reset: when frame `i` has been signalled, all frames up to and including it
have been transferred except perhaps the very last beat of frame `i`. Missing: that the last beat has been transferred, too. -/
theorem C79_partial (c : Cfg) (hl : 0 < c.lanes) (hv : c.hasValid = true) (evs : List SrcEv) (hcl : ∀ e ∈ evs, e.clean = true)
    (i : Nat) (hi : i ∈ (SrcSys.exec c evs).src.done) :
    (((SrcSys.exec c evs).src.sent.take (i + 1)).flatMap (beats c)).dropLast <+: xfers c (SrcSys.exec c evs).trace :=
  dropLast_prefix (SrcSys.exec_done hl hv evs hcl _ rfl i hi) (onBus_le c _)

example : (∀ e ∈ exSend, e.clean = true) ∧ 1 ∈ (SrcSys.exec exCfg exSend).src.done := by decide +kernel

/-- **C79** is false of the code: the one-beat frame is signalled complete while it waits on the bus for `tready`, nothing having been
transferred; it is never transferred if `tready` stays low. -/
theorem C79_violated (n : Nat) : ∃ evs, (∀ e ∈ evs, e.clean = true) ∧ let s := SrcSys.exec exCfg evs
    s.src.done = [0] ∧ xfers exCfg s.trace = [] ∧ s.trace.length = n + 1 ∧ s.src.valid = true := by
  let start : List SrcEv := [.reset false, .wake, .send exByte, .commit, .tick, .run, .commit]
  let cyc : List SrcEv := [.tick, .run, .commit]
  have key : ∀ n, (∀ e ∈ start ++ (List.replicate n cyc).flatten, e.clean = true) ∧
      (SrcSys.exec exCfg (start ++ (List.replicate n cyc).flatten)).src = (SrcSys.exec exCfg start).src ∧
      (SrcSys.exec exCfg (start ++ (List.replicate n cyc).flatten)).ready = false ∧
      (SrcSys.exec exCfg (start ++ (List.replicate n cyc).flatten)).settled = true ∧
      xfers exCfg (SrcSys.exec exCfg (start ++ (List.replicate n cyc).flatten)).trace = [] ∧
      (SrcSys.exec exCfg (start ++ (List.replicate n cyc).flatten)).trace.length = n + 1 := by
    intro n
    induction n with
    | zero => exact ⟨by decide +kernel, rfl, by decide +kernel⟩
    | succ n ih =>
      obtain ⟨h0, h1, h2, h3, h4, h5⟩ := ih
      have e : start ++ (List.replicate (n + 1) cyc).flatten = start ++ (List.replicate n cyc).flatten ++ cyc := by
        rw [List.replicate_succ', List.flatten_append, List.append_assoc]
        simp
      rw [e]
      generalize start ++ (List.replicate n cyc).flatten = pre at h0 h1 h2 h3 h4 h5
      have he : SrcSys.exec exCfg (pre ++ cyc) = cyc.foldl (SrcSys.step exCfg) (SrcSys.exec exCfg pre) := by
        rw [SrcSys.exec, List.foldl_append]; rfl
      rw [he]
      refine ⟨fun e he => ?_, ?_⟩
      · rcases List.mem_append.1 he with he | he
        · exact h0 e he
        · have : ∀ e ∈ cyc, e.clean = true := by decide
          exact this e he
      generalize SrcSys.exec exCfg pre = s at h1 h2 h3 h4 h5
      obtain ⟨src, rdy, st, tr⟩ := s
      simp only at h1 h2 h3 h4 h5
      subst h1 h2 h3
      refine ⟨rfl, rfl, rfl, ?_, ?_⟩
      · have : (cyc.foldl (SrcSys.step exCfg) ⟨(SrcSys.exec exCfg start).src, false, true, tr⟩).trace =
            tr ++ [some ⟨true, false, (SrcSys.exec exCfg start).src.beat⟩] := rfl
        rw [this, xfers_append, h4]
        rfl
      · have : (cyc.foldl (SrcSys.step exCfg) ⟨(SrcSys.exec exCfg start).src, false, true, tr⟩).trace =
            tr ++ [some ⟨true, false, (SrcSys.exec exCfg start).src.beat⟩] := rfl
        rw [this]
        simp [h5]
  obtain ⟨h0, h1, _, _, h4, h5⟩ := key n
  exact ⟨_, h0, by rw [h1]; decide +kernel, h4, h5, by rw [h1]; decide +kernel⟩

/-! ## C82: `wait()` -/

/-- **C82** without `clear()`: `wait()` returns (its event is set) only when `idle()` is true, and always then. -/
theorem C82_partial (c : Cfg) (hl : 0 < c.lanes) (hv : c.hasValid = true) (evs : List SrcEv) (hcl : ∀ e ∈ evs, e.noClear = true) :
    (SrcSys.exec c evs).src.idleEv = (SrcSys.exec c evs).src.idle := by
  rw [Bool.eq_iff_iff]
  constructor
  · intro h
    obtain ⟨h1, h2⟩ := SrcSys.exec_idle hl hv evs hcl h
    simp [Src.idle, h1, h2]
  · intro h
    simp only [Src.idle, Bool.and_eq_true, Bool.not_eq_true', List.isEmpty_iff] at h
    exact (SrcSys.exec_inv hl hv evs).idle h.1 h.2

example : (∀ e ∈ exSend, e.noClear = true) ∧ (SrcSys.exec exCfg exSend).src.idleEv = true ∧
    (SrcSys.exec exCfg (exSend ++ [.send exByte])).src.idleEv = false := by decide +kernel

/-- **C82** is false of the code after `clear()`: `wait()` returns while a frame is on the bus and has not been transferred. -/
theorem C82_violated : ∃ evs, (SrcSys.exec exCfg evs).src.idleEv = true ∧ (SrcSys.exec exCfg evs).src.idle = false ∧
    xfers exCfg (SrcSys.exec exCfg evs).trace = [] ∧ (SrcSys.exec exCfg evs).src.valid = true :=
  ⟨[.reset false, .wake, .send exFrame, .commit, .tick, .run, .commit, .clear], by decide +kernel⟩

/-! ## C83: pausing -/

theorem step_trace (c : Cfg) (s : SrcSys) (e : SrcEv) : xfers c s.trace <+: xfers c (s.step c e).trace := by
  unfold SrcSys.step
  repeat' split
  all_goals first
    | exact List.prefix_refl _
    | (simp only [xfers_append]; exact List.prefix_append _ _)

theorem steps_trace (c : Cfg) (evs : List SrcEv) : ∀ s : SrcSys, xfers c s.trace <+: xfers c (evs.foldl (SrcSys.step c) s).trace := by
  induction evs with
  | nil => intro s; exact List.prefix_refl _
  | cons e evs ih => intro s; exact (step_trace c s e).trans (ih _)

theorem crashed_steps (c : Cfg) (evs : List SrcEv) : ∀ {s : SrcSys}, s.src.crashed = true → evs.foldl (SrcSys.step c) s = s := by
  induction evs with
  | nil => intro s _; rfl
  | cons e evs ih =>
    intro s h
    have : s.step c e = s := by unfold SrcSys.step; rw [if_pos h]
    rw [List.foldl_cons, this, ih h]

/-- **C83.** From the moment a source is paused until it is unpaused, whatever happens, at most one more beat is transferred; it is the
one presented when the source was paused, and if none was presented none is transferred. -/
theorem C83_axis_source (c : Cfg) (hl : 0 < c.lanes) (hv : c.hasValid = true) (evs more : List SrcEv)
    (hm : ∀ e ∈ more, e.noResume = true) (s t : SrcSys) (hs : s = SrcSys.exec c (evs ++ [.pause true]))
    (ht : t = SrcSys.exec c (evs ++ [.pause true] ++ more)) :
    ∃ new, xfers c t.trace = xfers c s.trace ++ new ∧ (new = [] ∨ s.src.nvalid = true ∧ new = [s.src.nbeat]) := by
  have htt : t = more.foldl (SrcSys.step c) s := by rw [ht, SrcSys.exec, List.foldl_append, hs]; rfl
  by_cases hcr : s.src.crashed = true
  · refine ⟨[], ?_, .inl rfl⟩
    rw [htt, crashed_steps c more hcr, List.append_nil]
  have hp : s.src.pause = true := by
    have e : s = (SrcSys.exec c evs).step c (.pause true) := by rw [hs, SrcSys.exec, List.foldl_append]; rfl
    rw [e] at hcr ⊢
    unfold SrcSys.step at hcr ⊢
    split
    · rename_i h; rw [if_pos h] at hcr; exact absurd h hcr
    · rfl
  have ha : SrcAcc c false s := by rw [hs]; exact SrcSys.exec_acc hl hv false _ (by simp)
  have h1 := SrcSys.run_paused hl hv more hm ha hp
  obtain ⟨new, h2⟩ := steps_trace c more s
  rw [← htt] at h1 h2
  refine ⟨new, h2.symm, ?_⟩
  have h3 := (List.prefix_append _ _).trans h1
  rw [← h2, List.prefix_append_right_inj] at h3
  revert h3
  unfold SrcSys.onBus
  repeat' split
  · intro h; exact .inl (List.prefix_nil.1 h)
  · rename_i hn
    intro h
    rcases h with ⟨r, h⟩
    cases new with
    | nil => exact .inl rfl
    | cons x xs =>
      rw [List.cons_append, List.cons.injEq, List.append_eq_nil_iff] at h
      exact .inr ⟨hn, by rw [h.1, h.2.1]⟩
  · intro h; exact .inl (List.prefix_nil.1 h)

/-- A frame of two beats; the source is paused while the first is presented. -/
def exPause : List SrcEv := [.reset false, .wake, .send exFrame, .send exByte, .commit, .tick, .run, .commit]

example : let more : List SrcEv := [.env true, .commit, .tick, .run, .commit, .tick, .run, .send exByte, .commit, .tick, .run, .commit]
    (∀ e ∈ more, e.noResume = true) ∧ (xfers exCfg (SrcSys.exec exCfg (exPause ++ [.pause true] ++ more)).trace).length = 1 ∧
    (xfers exCfg (SrcSys.exec exCfg (exPause ++ more)).trace).length = 3 := by decide +kernel

/-! ## C86: pausing a sink -/

/-- **C86.** From the moment a sink is paused until it is unpaused, whatever else happens, at most two more beats are transferred. -/
theorem C86_axis_sink (c : Cfg) (hr : c.hasReady = true) (evs more : List SnkEv) (hm : ∀ e ∈ more, e.noResume = true) :
    (xfers c (SnkSys.exec c (evs ++ [.pause true] ++ more)).trace).length ≤ (xfers c (SnkSys.exec c evs).trace).length + 2 := by
  have e1 : SnkSys.exec c (evs ++ [.pause true] ++ more) = more.foldl (SnkSys.step c) ((SnkSys.exec c evs).step c (.pause true)) := by
    rw [SnkSys.exec, List.foldl_append, List.foldl_append]; rfl
  have h1 := SnkSys.run_calm hr more hm ((SnkSys.step_calm hr (SnkSys.exec_calm hr evs) (.pause true)).1) rfl
  have h2 := Stream.budget_le ((SnkSys.exec c evs).step c (.pause true)).snk.pc ((SnkSys.exec c evs).step c (.pause true)).snk.pauseSample
    ((SnkSys.exec c evs).step c (.pause true)).snk.nready
  have h3 : ((SnkSys.exec c evs).step c (.pause true)).trace = (SnkSys.exec c evs).trace := rfl
  rw [e1]
  unfold SnkSys.upTo at h1
  rw [h3] at h1
  omega

/-- A sink in the middle of a packet; two more beats get through after the pause. -/
example : let evs := exPackets.dropLast
    let b : Beat := { tdata := 7, tkeep := 15 }
    let more : List SnkEv := ((List.replicate 5 [SnkEv.env true b, .wake, .commit, .tick, .run, .commit]).flatten)
    (∀ e ∈ more, e.noResume = true) ∧
    (xfers exCfg (SnkSys.exec exCfg (.reset false :: evs ++ [.pause true] ++ more)).trace).length =
      (xfers exCfg (SnkSys.exec exCfg (.reset false :: evs)).trace).length + 2 := by decide +kernel

/-! ## C84: `tready` -/

theorem cycle_exec (c : Cfg) (evs : List SnkEv) (v : Bool) (b : Beat) :
    (SnkSys.exec c evs).cycle c v b = SnkSys.exec c (evs ++ [.env v b, .wake, .commit, .tick, .run, .commit]) := by
  rw [SnkSys.exec, SnkSys.exec, List.foldl_append]; rfl

/-- **C84** without `clear()`: two clock cycles after it is unpaused, a running sink is ready if and only if its queue is not over a
limit, whatever the driver does. -/
theorem C84_ready_partial (c : Cfg) (hl : 0 < c.lanes) (hr : c.hasReady = true) (evs : List SnkEv) (hcl : ∀ e ∈ evs, e.noClear = true)
    (hon : (SnkSys.exec c evs).snk.pc ≠ .off) (hp : (SnkSys.exec c evs).snk.pause = false) (v₁ v₂ : Bool) (b₁ b₂ : Beat)
    (s : SnkSys) (hs : s = ((SnkSys.exec c evs).cycle c v₁ b₁).cycle c v₂ b₂) :
    s.snk.ready = true ↔ ¬ ((c.limitBytes > 0 ∧ (bytes s.snk.queue : Int) > c.limitBytes) ∨
      (c.limitFrames > 0 ∧ (s.snk.queue.length : Int) > c.limitFrames)) := by
  have h := SnkSys.cycle_ready hr v₂ b₂ (SnkSys.cycle_good hr v₁ b₁ hon hp (SnkSys.exec_live c evs hcl))
  rw [← hs] at h
  have hi : s.snk.occFrames = s.snk.queue.length ∧ s.snk.occBytes = bytes s.snk.queue := by
    rw [hs, cycle_exec, cycle_exec]; exact C54_sink c hl _
  rw [h, hi.1, hi.2, ← full_iff]
  simp

example : let c : Cfg := { exCfg with limitFrames := 1 }
    let evs := exOffer ++ [.recv true]
    (∀ e ∈ evs, e.noClear = true) ∧ (SnkSys.exec c evs).snk.pc ≠ .off ∧ (SnkSys.exec c evs).snk.pause = false ∧
    (SnkSys.exec c evs).snk.ready = false ∧
    (((SnkSys.exec c evs).cycle c true { tdata := 3 }).cycle c true { tdata := 3 }).snk.ready = true := by decide +kernel

/-- **C84** for a sink whose limits were left as constructed: it is never full, so two clock cycles after it is unpaused it is ready. -/
theorem C84_unlimited_partial (b : Cfg) (hl : 0 < b.lanes) (hr : b.hasReady = true) (evs : List SnkEv) (hcl : ∀ e ∈ evs, e.noClear = true)
    (c : Cfg) (hc : c = NetCfg.snk { bus := b })
    (hon : (SnkSys.exec c evs).snk.pc ≠ .off) (hp : (SnkSys.exec c evs).snk.pause = false) (v₁ v₂ : Bool) (b₁ b₂ : Beat) :
    (((SnkSys.exec c evs).cycle c v₁ b₁).cycle c v₂ b₂).snk.ready = true := by
  have h := C84_ready_partial c (by rw [hc]; exact hl) (by rw [hc]; exact hr) evs hcl hon hp v₁ v₂ b₁ b₂ _ rfl
  rw [h, hc]
  simp [NetCfg.snk]

/-- **C84** is false of the code after `clear()`: the sink went to sleep full; cleared, it is empty, running and unpaused, `tvalid` is high, and
`tready` stays low however many clock cycles pass. -/
theorem C84_violated (n : Nat) :
    let c : Cfg := { exCfg with limitFrames := 1 }
    let s := SnkSys.exec c (exOffer ++ [.clear, .commit])
    s.snk.queue = [] ∧ s.snk.pause = false ∧ s.snk.pc ≠ .off ∧ s.valid = true ∧
    (Nat.repeat (fun s => s.cycle c true { tdata := 3 }) n s).snk.ready = false := by
  refine ⟨by decide +kernel, by decide +kernel, by decide +kernel, by decide +kernel, ?_⟩
  generalize hc : ({ exCfg with limitFrames := 1 } : Cfg) = c
  have key : ∀ t : SnkSys, t.snk.pc = .asleep → t.valid = true → t.snk.ready = t.snk.nready →
      (t.cycle c true { tdata := 3 }).snk = t.snk ∧ (t.cycle c true { tdata := 3 }).valid = true := by
    intro t h1 h2 h3
    simp only [SnkSys.cycle, List.foldl_cons, List.foldl_nil, SnkSys.step, h1, h2, Stream.Pc.still, Stream.Pc.tick, reduceCtorEq, if_false,
      if_true, Bool.and_self, Bool.not_true, Bool.and_false, Bool.false_eq_true, ← h3, Bool.and_not_self]
    refine ⟨?_, trivial⟩
    cases t with
    | mk snk v d st tr => cases snk; simp_all
  have h0 : (SnkSys.exec c (exOffer ++ [.clear, .commit])).snk.pc = .asleep ∧
      (SnkSys.exec c (exOffer ++ [.clear, .commit])).snk.ready = (SnkSys.exec c (exOffer ++ [.clear, .commit])).snk.nready ∧
      (SnkSys.exec c (exOffer ++ [.clear, .commit])).snk.ready = false ∧
      (SnkSys.exec c (exOffer ++ [.clear, .commit])).valid = true := by rw [← hc]; decide +kernel
  have : ∀ n, (Nat.repeat (fun s => s.cycle c true { tdata := 3 }) n (SnkSys.exec c (exOffer ++ [.clear, .commit]))).snk =
      (SnkSys.exec c (exOffer ++ [.clear, .commit])).snk ∧
      (Nat.repeat (fun s => s.cycle c true { tdata := 3 }) n (SnkSys.exec c (exOffer ++ [.clear, .commit]))).valid = true := by
    intro n
    induction n with
    | zero => exact ⟨rfl, h0.2.2.2⟩
    | succ n ih =>
      simp only [Nat.repeat]
      obtain ⟨h1, h2⟩ := key _ (by rw [ih.1]; exact h0.1) ih.2 (by rw [ih.1]; exact h0.2.1)
      exact ⟨h1.trans ih.1, h2⟩
  rw [(this n).1]
  exact h0.2.2.1

/-! ## C85: delivery -/

/-- The frames of a list that have data. -/
def nonEmpty (l : List Frame) : List Frame := l.filter fun f => f.tdata ≠ []

/-- **C85.** A source connected to a sink whose queue is unlimited, both running and unpaused, all frames sent so far being valid
ones: after as many clock cycles as there are beats not yet received and queued frames, and three more, everything sent has arrived,
in whatever order the two coroutines run at each clock edge. -/
theorem C85_delivered (c : NetCfg) (hl : 0 < c.bus.lanes) (hv : c.bus.hasValid = true) (hla : c.bus.hasLast = true)
    (hb : c.snkBytes ≤ 0) (hf : c.snkFrames ≤ 0) (evs : List NetEv) (hcl : ∀ e ∈ evs, e.clean = true)
    (s : Net) (hs : s = Net.exec c (.snkReset false :: evs)) (hrun : NetRun s) (orders : List Bool)
    (hlen : ((s.src.sent.flatMap (beats c.bus)).length - s.snk.captured.length) + s.src.queue.length + 3 ≤ orders.length) :
    (s.cycles c orders).snk.taken.map (·.2) ++ (s.cycles c orders).snk.queue =
      (nonEmpty s.src.sent).map (fun f => frameOf c.bus (beats c.bus f)) := by
  have hr : Reach c s := ⟨evs, hcl, hs⟩
  have h1 := Net.delivers hl hv hb hf hrun hr orders hlen
  obtain ⟨evs', hcl', hs'⟩ := hr.cycles orders
  obtain ⟨_, _, h2, _⟩ := net_acc c hl hv evs' hcl' _ hs'
  rw [h2.got, h1, packets_beats c.bus hl hla, List.map_map]
  have : (fun f : Frame => decide (f.tdata ≠ [])) = Frame.truthy := by
    funext f; rw [Bool.eq_iff_iff, truthy_iff]; simp
  rw [nonEmpty, this]
  rfl

/-- **C85.** Whatever the limits of the sink's queue: as long as it is not over a limit and a beat is outstanding, some beat is received
within as many clock cycles as there are queued frames and four more. -/
theorem C85_progress (c : NetCfg) (hl : 0 < c.bus.lanes) (hv : c.bus.hasValid = true) (evs : List NetEv)
    (hcl : ∀ e ∈ evs, e.clean = true) (s : Net) (hs : s = Net.exec c (.snkReset false :: evs)) (hrun : NetRun s)
    (hroom : ¬ ((c.snkBytes > 0 ∧ (bytes s.snk.queue : Int) > c.snkBytes) ∨ (c.snkFrames > 0 ∧ (s.snk.queue.length : Int) > c.snkFrames)))
    (hout : s.snk.captured.length < (s.src.sent.flatMap (beats c.bus)).length) (orders : List Bool)
    (hlen : s.src.queue.length + 4 ≤ orders.length) :
    s.snk.captured.length < (s.cycles c orders).snk.captured.length := by
  have hr : Reach c s := ⟨evs, hcl, hs⟩
  refine Net.progress hl hv hrun hr ?_ (by unfold Net.outstanding; omega) orders hlen
  obtain ⟨o1, o2⟩ := (hr.rx hl)
  rw [← Bool.not_eq_true, o1, o2, full_iff]
  exact hroom

/-- The history `exNet` meets the hypotheses of both: unlimited, and with a limit of one frame. -/
example : let s := Net.exec { bus := exCfg } (.snkReset false :: exNet)
    (∀ e ∈ exNet, e.clean = true) ∧ NetRun s ∧ s.snk.captured.length < (s.src.sent.flatMap (beats exCfg)).length :=
  ⟨by decide +kernel, ⟨by decide +kernel, by decide +kernel, by decide +kernel, by decide +kernel, by decide +kernel, by decide +kernel,
    by decide +kernel, by decide +kernel⟩, by decide +kernel⟩

end Verif.Axis
