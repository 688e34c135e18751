import Verif.Proof.AxisSplit
import Verif.Props.Axis

/-!
# C134, C135: AXI stream frames across resets
-/

namespace Verif.Axis

theorem truthy_fun : (fun f : Frame => decide (f.tdata ≠ [])) = Frame.truthy := by
  funext f; rw [Bool.eq_iff_iff, truthy_iff]; simp

/-- With a common reset only, every history is tidy. -/
theorem common_tidy {c : NetCfg} {evs : List JointEv} (h : ∀ e ∈ evs, e.common = true) : TidyAll c evs := by
  intro n e he
  have := h e (List.mem_of_getElem? he)
  cases e with
  | reset v => trivial
  | ev e => cases e <;> first | trivial | simp [JointEv.common] at this

theorem flow_frames {c : NetCfg} {n : Nat} {cl : Bool} {s : Net} (h : Flow c n cl s) :
    ∃ l : List Frame, l.Sublist (s.src.sent.filter (fun f => f.tdata ≠ [])) ∧
      s.snk.taken.map (·.2) ++ s.snk.queue = l.map (fun f => frameOf c.bus (beats c.bus f)) := by
  obtain ⟨_, _, done, fl, part, f1, f2, _, _, _, f6, _⟩ := h
  refine ⟨done, ?_, f1⟩
  rw [truthy_fun, ← List.filter_eq_self.2 f2]
  refine List.Sublist.filter _ (List.Sublist.trans ?_ f6)
  rw [List.append_assoc]
  exact List.sublist_append_left _ _

theorem flow_idle {c : NetCfg} (hl : 0 < c.bus.lanes) {n : Nat} {s : Net} (h : Flow c n false s) (hs : Sound c s) (hi : s.src.idle = true)
    (hnd : s.snk.pc ≠ .due) :
    (s.src.sent.filter (fun f => f.tdata ≠ [])).length ≤ (s.snk.taken.map (·.2) ++ s.snk.queue).length + n ∧ s.snk.part = none := by
  obtain ⟨_, _, done, fl, part, f1, f2, f3, f4, f5, _, f7⟩ := h
  simp only [Src.idle, Bool.and_eq_true, List.isEmpty_iff, Bool.not_eq_true'] at hi
  obtain ⟨hq, ha⟩ := hi
  obtain ⟨a1, a2⟩ := hs.src.act ha
  have hsh : s.shown c = [] := by unfold Net.shown; rw [a1]; split <;> rfl
  rw [taking_not_due hnd, hsh, hs.src.rest_dead hl a2, List.append_nil, List.append_nil, List.append_nil] at f5
  have h0 : fl.countP Frame.truthy = 0 := by
    rw [← flat_marks hl, ← f5]
    exact List.countP_eq_zero.2 (fun z hz => by simp [f4 z hz])
  have hpart : part = [] := by
    rw [f5, List.flatMap_eq_nil_iff]
    intro f hf
    refine beats_nil c.bus hl f ?_
    have := List.countP_eq_zero.1 h0 f hf
    simpa [Frame.truthy] using this
  refine ⟨?_, by rw [f3, hpart]; rfl⟩
  have h7 := f7 rfl
  rw [hq, h0] at h7
  rw [truthy_fun, ← List.countP_eq_length_filter, f1, List.length_map]
  simpa using h7

/-- **C134, no corruption.** In every history of a source connected to a sink on a bus with `tvalid` and `tlast`, with a common reset asserted
and released any number of times at any moment, and with `clear()` on either side at any moment: the frames that the sink has received
are some of the non-empty frames sent, in the order in which they were sent, each at most once and each whole. -/
theorem C134_no_corruption (c : NetCfg) (hl : 0 < c.bus.lanes) (hv : c.bus.hasValid = true) (hla : c.bus.hasLast = true)
    (evs : List JointEv) (hc : ∀ e ∈ evs, e.common = true) :
    let s := Net.jexec c evs
    ∃ l : List Frame, l.Sublist (s.src.sent.filter (fun f => f.tdata ≠ [])) ∧
      s.snk.taken.map (·.2) ++ s.snk.queue = l.map (fun f => frameOf c.bus (beats c.bus f)) :=
  flow_frames (Flow.exec hl hv hla true evs (common_tidy hc) (by simp))

/-- **C134, what `recv()` returns.** In such a history, on a bus with `tkeep`, the bytes of a frame that `recv()` returns are exactly the kept
bytes of one of the frames sent. -/
theorem C134_recv (c : NetCfg) (hl : 0 < c.bus.lanes) (hv : c.bus.hasValid = true) (hla : c.bus.hasLast = true) (hk : c.bus.hasKeep = true)
    (evs : List JointEv) (hc : ∀ e ∈ evs, e.common = true) (r : Frame) (hr : ((Net.jexec c evs).snk.recv true true).1 = .ok r) :
    ∃ f ∈ (Net.jexec c evs).src.sent, f.tdata ≠ [] ∧ r.tdata = (keptIdx f).map fun j => (maskTo c.bus.size (f.tdata.getD j 0) : Int) := by
  obtain ⟨l, h1, h2⟩ := C134_no_corruption c hl hv hla evs hc
  cases hq : (Net.jexec c evs).snk.queue with
  | nil => rw [Rx.recv, hq] at hr; cases hr
  | cons g rest =>
    rw [Rx.recv, hq] at hr
    simp only [if_true] at hr
    have hg : g ∈ l.map (fun f => frameOf c.bus (beats c.bus f)) := by rw [← h2, hq]; simp
    obtain ⟨f, hf, rfl⟩ := List.mem_map.1 hg
    have hm := List.mem_filter.1 (h1.subset hf)
    refine ⟨f, hm.1, by simpa using hm.2, ?_⟩
    have h3 := C49_with_keep c.bus hl hk f
    rw [frameOf_foldl, hr] at h3
    cases h3; rfl

/-- **C134, what a reset costs.** Without `clear()`, and with the common reset asserted between clock edges: when the source is idle and the
sink is not in the middle of a clock edge, at most one non-empty frame per assertion of the reset is missing, and the sink has no unfinished
frame. -/
theorem C134_loss (c : NetCfg) (hl : 0 < c.bus.lanes) (hv : c.bus.hasValid = true) (hla : c.bus.hasLast = true) (evs : List JointEv)
    (hc : ∀ e ∈ evs, e.common = true) (hcl : ∀ e ∈ evs, e.noClear = true) (hb : BetweenEdges c evs) :
    let s := Net.jexec c evs
    s.src.idle = true → s.snk.pc ≠ .due →
      (s.src.sent.filter (fun f => f.tdata ≠ [])).length ≤ (s.snk.taken.map (·.2) ++ s.snk.queue).length + resets evs ∧
      s.snk.part = none :=
  flow_idle hl (Flow.exec hl hv hla false evs (common_tidy hc) (fun _ => ⟨hcl, hb⟩)) (Net.jsound hl hv evs)

/-- **C135, no corruption.** The same with the source or the sink reset alone, each only while the sink has no unfinished frame (`Tidy`).
Missing (and false, `C135_violated_source`, `C135_violated_sink`): a reset of one component in the middle of a frame. -/
theorem C135_no_corruption_partial (c : NetCfg) (hl : 0 < c.bus.lanes) (hv : c.bus.hasValid = true) (hla : c.bus.hasLast = true)
    (evs : List JointEv) (ht : TidyAll c evs) :
    let s := Net.jexec c evs
    ∃ l : List Frame, l.Sublist (s.src.sent.filter (fun f => f.tdata ≠ [])) ∧
      s.snk.taken.map (·.2) ++ s.snk.queue = l.map (fun f => frameOf c.bus (beats c.bus f)) :=
  flow_frames (Flow.exec hl hv hla true evs ht (by simp))

/-- **C135, what a reset costs.** In such a history at most one frame per reset of the source is missing; a reset of the sink alone loses
none. Missing: as above. -/
theorem C135_loss_partial (c : NetCfg) (hl : 0 < c.bus.lanes) (hv : c.bus.hasValid = true) (hla : c.bus.hasLast = true) (evs : List JointEv)
    (ht : TidyAll c evs) (hcl : ∀ e ∈ evs, e.noClear = true) (hb : BetweenEdges c evs) :
    let s := Net.jexec c evs
    s.src.idle = true → s.snk.pc ≠ .due →
      (s.src.sent.filter (fun f => f.tdata ≠ [])).length ≤ (s.snk.taken.map (·.2) ++ s.snk.queue).length + resets evs ∧
      s.snk.part = none :=
  flow_idle hl (Flow.exec hl hv hla false evs ht (fun _ => ⟨hcl, hb⟩)) (Net.jsound hl hv evs)

/-! ## Witnesses -/

/-- A clock cycle. -/
def exCycle : List JointEv := (cycleHead ++ cycleTail true).map .ev

/-- Both components out of reset, a frame of two beats and one of one beat sent, and two clock cycles: the first beat has been
received, the second is on the bus. -/
def exMiddle : List JointEv := [.reset false, .ev (.send exFrame), .ev (.send exByte)] ++ exCycle ++ exCycle

/-- The common reset in the middle of the first frame: the second is received whole. -/
def exCommon : List JointEv :=
  exMiddle ++ [.reset true, .ev .commit, .reset false] ++ exCycle ++ exCycle ++ exCycle ++ exCycle

/-- A sink reset between the two frames, with the source running; then a source reset while a third frame waits on the bus. -/
def exApart : List JointEv :=
  exMiddle ++ exCycle ++ [.ev (.snkReset true), .ev .commit] ++ exCycle ++ [.ev (.snkReset false)] ++ exCycle ++ exCycle ++ exCycle ++
    [.ev (.snkPause true)] ++ exCycle ++ exCycle ++ [.ev (.send exFrame)] ++ exCycle ++
    [.ev (.srcReset true), .ev .commit, .ev (.srcReset false), .ev (.snkPause false)] ++ exCycle ++ exCycle

def tidyB (c : NetCfg) (s : Net) : JointEv → Bool
  | .ev (.srcReset true) => s.snk.part.isNone && decide (s.snk.pc ≠ .due)
  | .ev (.snkReset true) => s.snk.part.isNone && decide (s.snk.pc ≠ .due) && (c.bus.hasReady || decide (s.src.pc = .off))
  | .ev (.srcReset false) => c.bus.hasReady || decide (s.snk.pc ≠ .off)
  | _ => true

theorem tidy_of_bool {c : NetCfg} {evs : List JointEv}
    (h : (List.range evs.length).all (fun n => match evs[n]? with
      | some e => tidyB c (Net.jexec c (evs.take n)) e
      | none => true) = true) : TidyAll c evs := by
  intro n e hn
  have h1 := List.all_eq_true.mp h n (List.mem_range.mpr (List.getElem?_eq_some_iff.1 hn).1)
  simp only [hn] at h1
  unfold tidyB at h1
  unfold Tidy
  split at h1 <;> simp_all

theorem between_of_bool {c : NetCfg} {evs : List JointEv}
    (h : (List.range evs.length).all (fun n => match evs[n]? with
      | some (.reset true) => decide ((Net.jexec c (evs.take n)).snk.pc ≠ .due)
      | _ => true) = true) : BetweenEdges c evs := by
  intro n hn
  have h1 := List.all_eq_true.mp h n (List.mem_range.mpr (List.getElem?_eq_some_iff.1 hn).1)
  simp only [hn] at h1
  simpa using h1

/-- The common reset: one frame lost, the other received. -/
example : (∀ e ∈ exCommon, e.common = true) ∧ (∀ e ∈ exCommon, e.noClear = true) ∧ resets exCommon = 1 ∧
    (let s := Net.jexec { bus := exCfg } exCommon
     s.src.idle = true ∧ s.snk.pc ≠ .due ∧ s.src.sent.length = 2 ∧
       (s.snk.recv true true).1.toOption.map (·.tdata) = some [9]) := by decide +kernel

example : BetweenEdges { bus := exCfg } exCommon := between_of_bool (by decide +kernel)

/-- The reset was in the middle of the first frame. -/
example : (Net.jexec { bus := exCfg } exMiddle).snk.part.map (·.tdata) = some [1, 2, 3, 4] := by decide +kernel

/-- Resets of one component: nothing lost by that of the sink, the third frame lost by that of the source. -/
example : TidyAll { bus := exCfg } exApart := tidy_of_bool (by decide +kernel)
example : BetweenEdges { bus := exCfg } exApart := between_of_bool (by decide +kernel)
example : (∀ e ∈ exApart, e.noClear = true) ∧ resets exApart = 1 ∧
    (let s := Net.jexec { bus := exCfg } exApart
     s.src.idle = true ∧ s.snk.pc ≠ .due ∧ s.src.sent.length = 3 ∧
       s.snk.queue.map (·.tdata) = [[1, 2, 3, 4, 5, 0, 0, 0], [9, 0, 0, 0]]) := by decide +kernel

/-- A common reset between a clock edge and the sink's reaction to it, after the source's: both frames are lost, so `BetweenEdges` is needed
in `C134_loss`. -/
example : let evs := [.reset false, .ev (.send exByte), .ev (.send exByte)] ++ exCycle ++ cycleHead.map .ev ++
      [.ev .srcRun, .reset true, .ev .commit, .reset false] ++ exCycle ++ exCycle ++ exCycle
    resets evs = 1 ∧ (Net.jexec { bus := exCfg } evs).src.sent.length = 2 ∧ (Net.jexec { bus := exCfg } evs).src.idle = true ∧
      (Net.jexec { bus := exCfg } evs).snk.queue = [] := by decide +kernel

/-- **C135, violated.** The source is reset alone in the middle of a frame: `recv()` returns one frame made of the first beat of the
frame cut off and of the next frame. It was never sent. -/
theorem C135_violated_source :
    let s := Net.jexec { bus := exCfg }
      (exMiddle ++ [.ev (.srcReset true), .ev .commit, .ev (.srcReset false)] ++ exCycle ++ exCycle ++ exCycle ++ exCycle)
    s.src.sent.map (·.tdata) = [[1, 2, 3, 4, 5], [9]] ∧ s.src.idle = true ∧ s.snk.queue.length = 1 ∧
      (s.snk.recv true true).1.toOption.map (·.tdata) = some [1, 2, 3, 4, 9] := by decide +kernel

/-- **C135, violated.** The sink is reset alone in the middle of a frame: `recv()` returns the rest of the frame as a frame. -/
theorem C135_violated_sink :
    let s := Net.jexec { bus := exCfg }
      (exMiddle ++ [.ev (.snkReset true), .ev .commit, .ev (.snkReset false)] ++ exCycle ++ exCycle ++ exCycle ++ exCycle)
    s.src.sent.map (·.tdata) = [[1, 2, 3, 4, 5], [9]] ∧ s.src.idle = true ∧ s.snk.queue.length = 2 ∧
      (s.snk.recv true true).1.toOption.map (·.tdata) = some [5] := by decide +kernel

end Verif.Axis
