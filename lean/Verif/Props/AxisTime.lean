import Verif.Spec.AxisTime
import Verif.Proof.AxisTimeOrder
import Verif.Proof.AxisTimeFrame
import Verif.Props.Axis

/-!
# C127, C128: the simulation times of AXI stream frames
-/

namespace Verif.Axis

/-- The history of a component with `d` steps of simulated time in front of every clock edge. -/
def timed {ε : Type} (edge : ε → Bool) (d : Nat) (evs : List ε) : List (TEv ε) :=
  evs.flatMap fun e => if edge e then [.sleep d, .ev e] else [.ev e]

/-! ## Received frames -/

/-- **C127.** A sink between clock edges, without reset and `clear()`: the frames received, in order, are the packets transferred on
the bus, and the times of each are those of the clock edges at which its first and its last beat were transferred. -/
theorem C127_sink (c : Cfg) (hl : 0 < c.lanes) (evs : List (TEv SnkEv)) (hcl : ∀ e ∈ evs, e.clean SnkEv.clean = true) (s : TSnk)
    (hs : s = TSnk.exec c (.ev (.reset false) :: evs)) (hnd : s.sys.snk.pc ≠ .due) :
    s.sys.snk.taken.map (·.2) ++ s.sys.snk.queue = (tpackets c (txfers c s.t.seen)).1.map (fun p => frameOf c (p.map (·.2))) ∧
    s.t.taken ++ s.t.queue = (tpackets c (txfers c s.t.seen)).1.map span ∧
    s.t.taken.length = s.sys.snk.taken.length ∧ s.sys.trace = s.t.seen.map (fun o => o.map (·.2)) := by
  have hi := TSnk.exec_inv hl evs hcl
  have ho := TSnk.exec_ord c (.ev (.reset false) :: evs)
  rw [← hs] at hi ho
  have hacc := hi.st.acc
  rw [pend_not_due _ _ hnd, List.map_nil, List.append_nil] at hacc
  refine ⟨?_, by rw [hacc]; exact hi.st.got, ho.lenT, hi.st.tr⟩
  rw [hi.pack.got, ← hi.st.cap, tpackets_map, hacc, List.map_map]
  rfl

/-- **C127.** The same of a monitor. -/
theorem C127_monitor (c : Cfg) (hl : 0 < c.lanes) (evs : List (TEv MonEv)) (hcl : ∀ e ∈ evs, e.clean MonEv.clean = true) (s : TMon)
    (hs : s = TMon.exec c (.ev (.reset false) :: evs)) (hnd : s.sys.mon.pc ≠ .due) :
    s.sys.mon.taken.map (·.2) ++ s.sys.mon.queue = (tpackets c (txfers c s.t.seen)).1.map (fun p => frameOf c (p.map (·.2))) ∧
    s.t.taken ++ s.t.queue = (tpackets c (txfers c s.t.seen)).1.map span ∧
    s.t.taken.length = s.sys.mon.taken.length ∧ s.sys.trace = s.t.seen.map (fun o => o.map (·.2)) := by
  have hi := TMon.exec_inv hl evs hcl
  have ho := TMon.exec_ord c (.ev (.reset false) :: evs)
  rw [← hs] at hi ho
  have hacc := hi.st.acc
  rw [MonSys.pend, if_neg (fun hh => hnd hh.1), List.map_nil, List.append_nil] at hacc
  refine ⟨?_, by rw [hacc]; exact hi.st.got, ho.lenT, hi.st.tr⟩
  rw [hi.pack.got, ← hi.st.cap, tpackets_map, hacc, List.map_map]
  rfl

/-- `exPackets`, with a clock period of ten. -/
def exTimedSnk : List (TEv SnkEv) := timed (fun e => match e with | .tick => true | _ => false) 10 exPackets

/-- `exMonitor`, with a clock period of ten. -/
def exTimedMon : List (TEv MonEv) := timed (fun e => match e with | .tick => true | _ => false) 10 exMonitor

example : (exTimedSnk.all fun e => e.clean SnkEv.clean) = true ∧ (TSnk.exec exCfg (.ev (.reset false) :: exTimedSnk)).sys.snk.pc ≠ .due ∧
    (TSnk.exec exCfg (.ev (.reset false) :: exTimedSnk)).t.taken = [(20, 40)] ∧
    (txfers exCfg (TSnk.exec exCfg (.ev (.reset false) :: exTimedSnk)).t.seen).map (·.1) = [20, 40, 50] := by decide +kernel

example : (exTimedMon.all fun e => e.clean MonEv.clean) = true ∧ (TMon.exec exCfg (.ev (.reset false) :: exTimedMon)).sys.mon.pc ≠ .due ∧
    (TMon.exec exCfg (.ev (.reset false) :: exTimedMon)).t.taken = [(30, 40)] := by decide +kernel

/-- **C127.** For every history of a sink, with reset and `clear()`: every frame has its times, a frame does not end before it starts,
and a frame starts after the end of every frame received before it. -/
theorem C127_sink_order (c : Cfg) (evs : List (TEv SnkEv)) (s : TSnk) (hs : s = TSnk.exec c evs) :
    s.t.taken.length = s.sys.snk.taken.length ∧ s.t.queue.length = s.sys.snk.queue.length ∧
    (∀ p ∈ s.t.taken ++ s.t.queue, p.1 ≤ p.2 ∧ p.2 ≤ s.t.now) ∧ (s.t.taken ++ s.t.queue).Pairwise fun p q => p.2 < q.1 := by
  have ho := TSnk.exec_ord c evs
  rw [← hs] at ho
  refine ⟨ho.lenT, ho.lenQ, fun p hp => ?_, ho.pw⟩
  obtain ⟨a, l, e, b, _⟩ := ho.each p hp
  exact ⟨a, Nat.le_trans b (ho.last l e)⟩

/-- **C127.** The same of a monitor. -/
theorem C127_monitor_order (c : Cfg) (evs : List (TEv MonEv)) (s : TMon) (hs : s = TMon.exec c evs) :
    s.t.taken.length = s.sys.mon.taken.length ∧ s.t.queue.length = s.sys.mon.queue.length ∧
    (∀ p ∈ s.t.taken ++ s.t.queue, p.1 ≤ p.2 ∧ p.2 ≤ s.t.now) ∧ (s.t.taken ++ s.t.queue).Pairwise fun p q => p.2 < q.1 := by
  have ho := TMon.exec_ord c evs
  rw [← hs] at ho
  refine ⟨ho.lenT, ho.lenQ, fun p hp => ?_, ho.pw⟩
  obtain ⟨a, l, e, b, _⟩ := ho.each p hp
  exact ⟨a, Nat.le_trans b (ho.last l e)⟩

/-- Reset in the middle of a frame: its beats so far are forgotten, and the next frame starts with its own first beat. -/
def exTimedReset : List (TEv SnkEv) :=
  .ev (.reset false) :: exTimedSnk ++ [.ev (.reset true), .ev (.env false {}), .ev .commit, .ev (.reset false), .ev .wake, .ev .commit, .sleep 5,
    .ev .tick, .ev .run, .ev .commit, .ev (.env true { tdata := 9, tkeep := 1, tlast := true }), .ev .wake, .ev .commit, .sleep 10, .ev .tick,
    .ev .run, .ev .commit]

example : (TSnk.exec exCfg exTimedReset).t.taken = [(20, 40)] ∧ (TSnk.exec exCfg exTimedReset).t.queue = [(65, 65)] := by decide +kernel

/-! ## Sent frames -/

/-- **C128**, what holds of the code, for a source without reset and `clear()`: the `k`-th packet transferred on the bus consists of
the beats of the frame signalled as the `k`-th, and that frame has both times. `sim_time_start` is before the transfer of its first beat and not before the transfer of
the last beat of the packet before; `sim_time_end` is not before `sim_time_start`, and before the transfer of its last beat.
Missing: that the times are those of the first and the last transfer. -/
theorem C128_source_partial (c : Cfg) (hl : 0 < c.lanes) (hv : c.hasValid = true) (hla : c.hasLast = true) (evs : List (TEv SrcEv))
    (hcl : ∀ e ∈ evs, e.clean SrcEv.clean = true) (s : TSrc) (hs : s = TSrc.exec c evs) (k : Nat) (p : List (Nat × Beat))
    (hp : (tpackets c (txfers c s.t.seen)).1[k]? = some p) :
    ∃ i f a b, s.t.done[k]? = some (i, some a, some b) ∧ s.sys.src.sent[i]? = some f ∧ p.map (·.2) = beats c f ∧
      a < (span p).1 ∧ a ≤ b ∧ b < (span p).2 ∧
      ∀ k' q, k = k' + 1 → (tpackets c (txfers c s.t.seen)).1[k']? = some q → (span q).2 ≤ a := by
  have hi := TSrc.exec_inv hl hv evs hcl
  have hf := (TSrc.exec_frm hl hv hla evs hcl).frm
  rw [← hs] at hi hf
  have hu := Upto.all hla hi.chain (txfers c s.t.seen).length (Nat.le_refl _)
  have he := hu.each
  rw [List.take_length] at he
  obtain ⟨r, e1, e2, e3, e4⟩ := he k p hp
  have hm : (packets c ((txfers c s.t.seen).map (·.2))).1 <+: (packets c (s.t.driven.map (·.beat))).1 := by
    rw [hi.bus]; exact packets_mono c _ _
  have hpk : (packets c ((txfers c s.t.seen).map (·.2))).1[k]? = some (p.map (·.2)) := by
    rw [tpackets_map, List.getElem?_map, hp]; rfl
  have hpd : (packets c (s.t.driven.map (·.beat))).1[k]? = some (p.map (·.2)) := by
    obtain ⟨l, hl⟩ := hm
    rw [← hl, List.getElem?_append_left (List.getElem?_eq_some_iff.1 hpk).1]; exact hpk
  obtain ⟨r', f, g1, g2, g3⟩ := hf.grp k _ hpd
  have hr : (s.t.driven.filter fun r => r.beat.tlast)[k]? = some r := by
    have hsp : s.t.driven.filter (fun r => r.beat.tlast) = (s.t.driven.take (txfers c s.t.seen).length).filter (fun r => r.beat.tlast) ++
        (s.t.driven.drop (txfers c s.t.seen).length).filter (fun r => r.beat.tlast) := by
      rw [← List.filter_append, List.take_append_drop]
    rw [hsp, List.getElem?_append_left (List.getElem?_eq_some_iff.1 e1).1]
    exact e1
  have hrr : r' = r := by rw [g1] at hr; exact Option.some.inj hr
  subst hrr
  have hmem : r' ∈ s.t.driven := (List.mem_filter.1 (List.mem_of_getElem? hr)).1
  refine ⟨r'.num, f, r'.start, r'.time, ?_, g2, g3, e2, hi.chain.self r' hmem, e3, e4⟩
  rw [hi.done, List.getElem?_map, hr]
  rfl

/-- `exSend`, with a clock period of ten. -/
def exTimedSrc : List (TEv SrcEv) := timed (fun e => match e with | .tick => true | _ => false) 10 exSend

/-- The first frame is started at 10, its beats are transferred at 30 and 50; it has ended at 40 when its last beat is put on the bus. -/
example : (exTimedSrc.all fun e => e.clean SrcEv.clean) = true ∧
    (TSrc.exec exCfg exTimedSrc).t.done = [(0, some 10, some 40), (1, some 50, some 50)] ∧
    (tpackets exCfg (txfers exCfg (TSrc.exec exCfg exTimedSrc).t.seen)).1.map span = [(30, 50), (60, 60)] := by decide +kernel

/-- **C128** is false of the code: the times of the two frames sent are not those of their transfer cycles. -/
theorem C128_violated : ∃ evs, (∀ e ∈ evs, e.clean SrcEv.clean = true) ∧ let s := TSrc.exec exCfg evs
    s.t.done = [(0, some 10, some 40), (1, some 50, some 50)] ∧ (tpackets exCfg (txfers exCfg s.t.seen)).1.map span = [(30, 50), (60, 60)] :=
  ⟨exTimedSrc, by
    have h : (exTimedSrc.all fun e => e.clean SrcEv.clean) = true := by decide +kernel
    exact fun e he => List.all_eq_true.1 h e he, by decide +kernel⟩

/-- **C128.** For every history of a source, with reset and `clear()`: every signal of a frame comes with its times (`none` where the
attribute is still unset); a frame that has ended has started, and not later; no time is in the future. -/
theorem C128_signalled (c : Cfg) (evs : List (TEv SrcEv)) (s : TSrc) (hs : s = TSrc.exec c evs) :
    s.t.done.map (·.1) = s.sys.src.done ∧
    ∀ i a b, (i, a, b) ∈ s.t.done → (∀ y, b = some y → ∃ x, a = some x ∧ x ≤ y) ∧ ∀ x, a = some x → x ≤ s.t.now := by
  subst hs
  exact ⟨TSrc.exec_done c evs, (TSrc.exec_sane c evs).2⟩

/-- **C128.** The frames that a reset or `clear()` signals have no `sim_time_end`. -/
theorem C128_cut (c : Cfg) (s : TSrc) (e : SrcEv) (he : e = .clear ∨ e = .reset true)
    (hcr : s.sys.src.crashed = false) : ∃ l, (s.step c (.ev e)).t.done = s.t.done ++ l ∧ ∀ p ∈ l, p.2.2 = none :=
  TSrc.step_cut c s e (by rcases he with rfl | rfl <;> rfl) hcr

/-- A frame cut off by a reset has a start and no end, a frame discarded by `clear()` has neither. -/
def exTimedCut : List (TEv SrcEv) :=
  [.ev (.reset false), .ev .wake, .ev (.send exFrame), .ev (.send exByte), .ev .commit, .sleep 10, .ev .tick, .ev .run, .ev .commit, .ev (.reset true),
   .ev .clear]

example : (TSrc.exec exCfg exTimedCut).t.done = [(0, some 10, none), (1, none, none)] := by decide +kernel

end Verif.Axis
