import Verif.Spec.AxisLive
import Verif.Proof.AxisLine
import Verif.Proof.PauseGenTurn

/-!
# An AXI stream source connected to a sink, under an arbitrary schedule with pauses
-/

namespace Verif.Axis

open Verif.Stream (Pc wakeUp_ne wakeUp_off wakeUp_woken wakeUp_due wakeUp_edge tick_due tick_off tick_asleep tick_woken tick_edge
  still_iff foldl_inv foldl_inv')
open Verif.PauseGen (first_turn next_edge)

/-! ## How far the source is from driving a beat -/

/-- The number of turns without effect on the bus before the next beat: none if a frame is being sent, otherwise one and one for every empty frame in
front of the queue. -/
def Src.lead (s : Src) : Nat := if live s.frame then 0 else 1 + (s.queue.takeWhile fun p => !p.2.truthy).length

theorem mem_takeWhile_pred {α : Type} {p : α → Bool} {l : List α} {a : α} (h : a ∈ l.takeWhile p) : p a = true := by
  induction l with
  | nil => simp at h
  | cons b l ih =>
    rw [List.takeWhile_cons] at h
    split at h
    · rcases List.mem_cons.1 h with rfl | h
      · assumption
      · exact ih h
    · simp at h

theorem SrcKeep.todo {c : Cfg} {s t : Src} (h : SrcKeep s t) (hi : SrcInv c s) : s.todo c <+: t.todo c := by
  have hr : t.rest c = s.rest c := by
    unfold Src.rest
    rw [h.frame, h.off]
    split
    · rename_i i g hf
      obtain ⟨_, f, hs, _⟩ := hi.frm i g hf
      obtain ⟨x, hx⟩ := h.sent
      have : t.sent[i]? = some f := by
        rw [← hx, List.getElem?_append_left (List.getElem?_eq_some_iff.1 hs).1]; exact hs
      rw [this, hs]
    · rfl
  obtain ⟨x, hx⟩ := h.queue
  unfold Src.todo
  rw [hr, ← hx, List.flatMap_append, ← List.append_assoc]
  exact List.prefix_append _ _

theorem SrcKeep.lead {c : Cfg} (hl : 0 < c.lanes) {s t : Src} (h : SrcKeep s t) (hi : SrcInv c s) (ht : s.todo c ≠ []) :
    t.lead = s.lead := by
  unfold Src.lead
  rw [h.frame]
  split
  · rfl
  · rename_i hd
    have hd' : live s.frame = false := by simpa using hd
    have hex : ∃ p ∈ s.queue, ¬ (!p.2.truthy) = true := by
      refine Classical.byContradiction fun hno => ht ?_
      unfold Src.todo
      rw [hi.rest_dead hl hd', List.nil_append, List.flatMap_eq_nil_iff]
      intro p hp
      have hf : p.2.truthy = false := by
        cases hh : p.2.truthy
        · rfl
        · exact absurd ⟨p, hp, by simp [hh]⟩ hno
      exact beats_nil c hl p.2 (by
        refine Classical.byContradiction fun hne => ?_
        rw [truthy_iff.2 hne] at hf; cases hf)
    obtain ⟨x, hx⟩ := h.queue
    have hlen : (s.queue.takeWhile fun p => !p.2.truthy).length ≠ s.queue.length := by
      intro hh
      obtain ⟨p, hp, hpt⟩ := hex
      have heq : s.queue.takeWhile (fun p => !p.2.truthy) = s.queue := (List.takeWhile_prefix _).eq_of_length hh
      rw [← heq] at hp
      exact hpt (mem_takeWhile_pred (p := fun p : Nat × Frame => !p.2.truthy) hp)
    rw [← hx, List.takeWhile_append, if_neg hlen]

/-- The source's turn when nothing is transferred at the edge. -/
theorem run_lead {c : Cfg} (hl : 0 < c.lanes) (hv : c.hasValid = true) {s : Src} (hi : SrcInv c s) (hd : s.pc = .due)
    (hval : s.valid = s.nvalid) (hcr : s.crashed = false) (hpr : ∀ p ∈ s.queue, p.2.proper) (r : Bool) (hno : (s.valid && (!c.hasReady || r)) = false) :
    (s.nvalid = true → (s.run c r).nvalid = true) ∧
    (s.nvalid = false → (s.run c r).nvalid = true ∨
      (s.run c r).todo c = s.todo c ∧ (s.todo c ≠ [] → (s.run c r).lead ≤ s.lead ∧ (s.pause = false → (s.run c r).lead < s.lead))) := by
  refine SrcInv.run_cases (P := fun t => (s.nvalid = true → t.nvalid = true) ∧ (s.nvalid = false → t.nvalid = true ∨
      t.todo c = s.todo c ∧ (s.todo c ≠ [] → t.lead ≤ s.lead ∧ (s.pause = false → t.lead < s.lead)))) hv s r ?_ ?_
  · intro h1 h2 h3
    exact ⟨id, fun h => by rw [hval, h] at h1; cases h1⟩
  · intro hgo u hu
    have hnv : s.nvalid = false := by
      cases hh : s.nvalid
      · rfl
      · rw [hval, hh] at hgo
        have := hgo rfl
        rw [hval, hh, this] at hno
        cases hno
    have huc : u.crashed = false := by
      rw [hu]
      split
      · exact hcr
      · rw [take_proper s hpr, hcr]
    refine ⟨fun h => (by rw [huc] at h; cases h), fun _ i g hf hg _ => ?_, fun _ hh => ?_⟩
    · have hui : SrcInv c u := by
        rw [hu]
        split
        · exact hi
        · rename_i hlv; exact hi.take (by simpa using hlv) hd
      obtain ⟨_, d2, _, _⟩ := hui.drive_todo hl hv hf hg
      exact ⟨fun _ => d2, fun _ => .inl d2⟩
    · refine ⟨fun h => (by rw [hnv] at h; cases h), fun _ => .inr ?_⟩
      obtain ⟨d1, _, _, _⟩ := quiet_facts (c := c) hv u
      have hq : (u.quiet c).queue = u.queue ∧ (u.quiet c).frame = u.frame := by
        unfold Src.quiet
        simp only
        split <;> exact ⟨rfl, rfl⟩
      have hlead : (u.quiet c).lead = u.lead := by unfold Src.lead; rw [hq.1, hq.2]
      rw [d1, hlead]
      by_cases hlv : live s.frame = true
      · rw [if_pos hlv] at hu
        subst hu
        refine ⟨rfl, fun _ => ⟨Nat.le_refl _, fun hp => ?_⟩⟩
        rcases hh with hh | hh
        · rw [hlv] at hh; cases hh
        · rw [hp] at hh; cases hh
      · rw [if_neg hlv] at hu
        have hlv' : live s.frame = false := by simpa using hlv
        subst hu
        refine ⟨hi.take_todo hl hlv', fun hne => ?_⟩
        rcases SrcInv.take_cases s with ⟨he, _⟩ | ⟨_, e⟩ | ⟨i, f, rest, he, hp, e⟩
        · refine absurd ?_ hne
          unfold Src.todo
          rw [hi.rest_dead hl hlv', he]
          rfl
        · rw [e] at huc; cases huc
        · suffices s.take.lead < s.lead from ⟨Nat.le_of_lt this, fun _ => this⟩
          have e1 : s.take.frame = some (i, normalized f) := by rw [e]
          have e2 : s.take.queue = rest := by rw [e]
          have e3 : live (some (i, normalized f)) = f.truthy := rfl
          unfold Src.lead
          rw [e1, e2, e3, hlv', he, List.takeWhile_cons]
          cases f.truthy <;> simp

/-! ## An endless history -/

/-- An endless history of the pair without `clear()` and reset, both running, and with frames that can be transmitted. What came before may have had resets. -/
structure NetLive (c : NetCfg) (S : Nat → Net) (sched : Nat → NetEv) : Prop where
  lanes : 0 < c.bus.lanes
  valid : c.bus.hasValid = true
  step : ∀ n, S (n + 1) = (S n).step c (sched n)
  clean : ∀ n, (sched n).clean = true
  known : ∀ n, Base c (S n)
  proper : ∀ n, ∀ f ∈ (S n).src.sent, f.proper
  ok : (S 0).src.crashed = false
  son : (S 0).src.pc ≠ .off
  kon : (S 0).snk.pc ≠ .off

section

variable {c : NetCfg} {S : Nat → Net} {sched : Nat → NetEv} (h : NetLive c S sched)
include h

theorem NetLive.bus (n : Nat) : Bus c (S n) := (h.known n).bus

theorem NetLive.src (n : Nat) : (sched n = .srcRun ∧ (S n).src.pc = .due ∧ (S (n + 1)).src = (S n).src.run c.bus (S n).snk.ready) ∨
    SrcKeep (S n).src (S (n + 1)).src := by
  rw [h.step n]
  exact (step_src c (S n) (sched n) (h.clean n)).imp (fun a => ⟨a.1, a.2.1, a.2.2.1⟩) id

theorem NetLive.snk (n : Nat) : (sched n = .snkRun ∧ (S n).snk.pc = .due ∧
      (S (n + 1)).snk = (S n).snk.runSnk c.snk (S n).src.valid (S n).src.beat) ∨ RxKeep (S n).snk (S (n + 1)).snk := by
  rw [h.step n]
  exact (step_snk c (S n) (sched n) (h.clean n)).imp (fun a => ⟨a.1, a.2.1, a.2.2.1⟩) id

theorem NetLive.signals (n : Nat) (hd : (S n).src.pc = .due ∨ (S n).snk.pc = .due ∨ sched n ≠ .commit) :
    (S (n + 1)).src.valid = (S n).src.valid ∧ (S (n + 1)).src.beat = (S n).src.beat ∧ (S (n + 1)).snk.ready = (S n).snk.ready := by
  rw [h.step n]
  exact step_signals c (S n) (sched n) hd

theorem NetLive.edge_of_due (n : Nat) (hd : (S n).src.pc ≠ .due ∧ (S (n + 1)).src.pc = .due ∨
    (S n).snk.pc ≠ .due ∧ (S (n + 1)).snk.pc = .due) : NetEdge S sched n := by
  rw [h.step n] at hd
  exact step_due c (S n) (sched n) hd

omit h in
theorem run_facts {c : Cfg} (hv : c.hasValid = true) (s : Src) (r : Bool) (hpr : ∀ p ∈ s.queue, p.2.proper) (hcr : s.crashed = false) :
    (s.run c r).crashed = false ∧ (s.run c r).pc ≠ .off ∧ (s.run c r).sent = s.sent := by
  refine SrcInv.run_cases (P := fun t => t.crashed = false ∧ t.pc ≠ .off ∧ t.sent = s.sent) hv s r (fun _ _ _ => ⟨hcr, by simp, rfl⟩) ?_
  intro _ u hu
  have huc : u.crashed = false ∧ u.sent = s.sent := by
    rw [hu]
    split
    · exact ⟨hcr, rfl⟩
    · exact ⟨by rw [take_proper s hpr, hcr], (take_facts s).1⟩
  refine ⟨fun hh => (by rw [huc.1] at hh; cases hh), fun _ i g _ _ _ => ?_, fun _ _ => ?_⟩
  · unfold Src.drive
    simp only
    split
    · exact ⟨huc.1, by simp, huc.2⟩
    · exact ⟨huc.1, by simp, huc.2⟩
  · unfold Src.quiet
    simp only
    split
    · exact ⟨huc.1, by simp, huc.2⟩
    · exact ⟨huc.1, by simp, huc.2⟩

theorem NetLive.queue_proper (n : Nat) : ∀ p ∈ (S n).src.queue, p.2.proper :=
  fun _ hp => h.proper n _ ((h.known n).src.queue_sent hp)

theorem NetLive.running (n : Nat) : (S n).src.crashed = false ∧ (S n).src.pc ≠ .off ∧ (S n).snk.pc ≠ .off := by
  induction n with
  | zero => exact ⟨h.ok, h.son, h.kon⟩
  | succ n ih =>
    obtain ⟨h1, h2, h3⟩ := ih
    have hs : (S (n + 1)).src.crashed = false ∧ (S (n + 1)).src.pc ≠ .off := by
      rcases h.src n with ⟨_, _, e⟩ | k
      · obtain ⟨a, b, _⟩ := run_facts h.valid (S n).src (S n).snk.ready (h.queue_proper n) h1
        rw [e]; exact ⟨a, b⟩
      · exact ⟨k.crashed.trans h1, fun hh => h2 (k.on hh)⟩
    refine ⟨hs.1, hs.2, ?_⟩
    rcases h.snk n with ⟨_, _, e⟩ | k
    · rw [e]; exact (finish_same c.snk _ _).2.2.2.2.2.2.2.2.2.1
    · exact fun hh => h3 (k.on hh)

theorem NetLive.sent_mono (n d : Nat) : (S n).src.sent <+: (S (n + d)).src.sent := by
  induction d with
  | zero => exact List.prefix_refl _
  | succ d ih =>
    refine ih.trans ?_
    rw [← Nat.add_assoc]
    rcases h.src (n + d) with ⟨_, _, e⟩ | k
    · rw [e, (run_facts h.valid _ _ (h.queue_proper _) (h.running _).1).2.2]
      exact List.prefix_refl _
    · exact k.sent

theorem NetLive.captured_step (n : Nat) : (S n).snk.captured <+: (S (n + 1)).snk.captured := by
  rcases h.snk n with ⟨_, _, e⟩ | k
  · rw [e, runSnk_captured]; exact List.prefix_append _ _
  · rw [k.captured]; exact List.prefix_refl _

theorem NetLive.captured_mono (n d : Nat) : (S n).snk.captured <+: (S (n + d)).snk.captured := by
  induction d with
  | zero => exact List.prefix_refl _
  | succ d ih => exact ih.trans (h.captured_step (n + d))

/-- The signals stay while the sink is about to run. -/
theorem NetLive.signals_hold {i r : Nat} (hi : sched i = .tick) (hd : ∀ m, i < m → m ≤ r → (S m).snk.pc = .due) (hr : i < r) :
    (S r).src.valid = (S i).src.valid ∧ (S r).snk.ready = (S i).snk.ready := by
  obtain ⟨d, rfl⟩ := Nat.exists_eq_add_of_lt hr
  induction d with
  | zero =>
    have := h.signals i (.inr (.inr (by rw [hi]; simp)))
    exact ⟨this.1, this.2.2⟩
  | succ d ih =>
    obtain ⟨e1, e2⟩ := ih (fun m a b => hd m a (by omega)) (by omega)
    have := h.signals (i + d + 1) (.inr (.inl (hd _ (by omega) (by omega))))
    exact ⟨this.1.trans e1, this.2.2.trans e2⟩

theorem NetLive.sample_hold {i r : Nat} (hi : sched i = .tick) (hd : ∀ m, i < m → m ≤ r → (S m).snk.pc = .due) (hr : i < r) :
    (S r).snk.pauseSample = (S i).snk.pauseSample := by
  obtain ⟨d, rfl⟩ := Nat.exists_eq_add_of_lt hr
  induction d with
  | zero =>
    have e := h.step i
    rw [hi] at e
    show (S (i + 1)).snk.pauseSample = _
    rw [e]
    unfold Net.step
    split
    · rfl
    · simp only
      split <;> rfl
  | succ d ih =>
    rw [← ih (fun m a b => hd m a (by omega)) (by omega)]
    have hdue := hd (i + d + 1) (by omega) (by omega)
    have hdue' := hd (i + d + 1 + 1) (by omega) (by omega)
    show (S (i + d + 1 + 1)).snk.pauseSample = _
    rcases h.snk (i + d + 1) with ⟨_, _, e⟩ | k
    · rw [e] at hdue'
      exact absurd hdue' (finish_same c.snk _ _).2.2.2.2.2.2.2.2.1
    · exact k.sample hdue

/-- At a clock edge a sink that is not asleep becomes due. -/
theorem NetLive.due_after {i : Nat} (he : NetEdge S sched i) (hp : (S i).snk.pc ≠ .asleep) : (S (i + 1)).snk.pc = .due := by
  obtain ⟨e1, e2, e3, e4⟩ := he
  have hoff := (h.running i).2.2
  have e := h.step i
  rw [e1] at e
  rw [e]
  unfold Net.step
  rw [if_neg (by rw [(h.running i).1]; simp)]
  simp only [e2, e3, e4, Bool.and_self, if_true]
  rw [still_iff] at e4
  have : (S i).snk.pc = .edge := by
    cases hh : (S i).snk.pc <;> simp_all
  rw [this]; rfl

/-- The sink's turn in a clock cycle. -/
theorem NetLive.snk_turn {i j : Nat} (he : NetEdge S sched i) (hj : NetEdge S sched j) (hij : i < j) (hp : (S i).snk.pc ≠ .asleep) :
    ∃ r, i < r ∧ r < j ∧ (S (r + 1)).snk = (S r).snk.runSnk c.snk (S r).src.valid (S r).src.beat ∧
      ∀ m, i < m → m ≤ r → (S m).snk.pc = .due := by
  obtain ⟨r, h1, h2, h3, h4⟩ := first_turn (x := fun n => decide ((S n).snk.pc = .due)) hij (by simpa using h.due_after he hp)
    (by simpa using (still_iff.1 hj.2.2.2).1)
  have hdue : ∀ m, i < m → m ≤ r → (S m).snk.pc = .due := fun m a b => by simpa using h4 m a b
  refine ⟨r, h1, h2, ?_, hdue⟩
  rcases h.snk r with ⟨_, _, e⟩ | k
  · exact e
  · simp only [decide_eq_false_iff_not] at h3
    exact absurd (k.due (hdue r h1 (Nat.le_refl r))) h3

/-- What both sides show at a clock edge is captured. -/
theorem NetLive.captures {i j : Nat} (he : NetEdge S sched i) (hj : NetEdge S sched j) (hij : i < j)
    (hx : ((S i).src.nvalid && (!c.bus.hasReady || (S i).snk.nready)) = true) :
    (S i).snk.captured.length < (S j).snk.captured.length := by
  obtain ⟨b1, _, b3⟩ := (h.bus i).set he.2.1
  have hp : (S i).snk.pc ≠ .asleep := by
    intro hh
    have := (h.known i).snk.sleep hh
    simp only [NetCfg.snk, h.valid, Bool.not_true, Bool.false_or] at this
    rw [b1, hx] at this
    cases this
  obtain ⟨r, r1, r2, e, hd⟩ := h.snk_turn he hj hij hp
  obtain ⟨s1, s2⟩ := h.signals_hold he.1 hd r1
  have m1 : (S i).snk.captured.length ≤ (S r).snk.captured.length := by
    have := (h.captured_mono i (r - i)).length_le
    rwa [show i + (r - i) = r by omega] at this
  have m2 : (S (r + 1)).snk.captured.length ≤ (S j).snk.captured.length := by
    have := (h.captured_mono (r + 1) (j - (r + 1))).length_le
    rwa [show r + 1 + (j - (r + 1)) = j by omega] at this
  have m3 : (S (r + 1)).snk.captured.length = (S r).snk.captured.length + 1 := by
    rw [e, runSnk_captured, if_pos]
    · simp
    · simp only [NetCfg.snk, h.valid, Bool.not_true, Bool.false_or]
      rw [s1, s2, b1, b3, Bool.and_comm]
      exact hx
  omega

/-! ## Nothing is ever captured again? -/

theorem NetLive.total_step (n : Nat) : ∃ x : List Frame, (S (n + 1)).src.sent = (S n).src.sent ++ x ∧
    (S (n + 1)).total c = (S n).total c ++ x.flatMap (beats c.bus) := by
  rw [h.step n]
  exact step_total h.lanes h.valid (h.known n).toSound (h.running n).1 (h.queue_proper n) (h.running n).2.2 (sched n) (h.clean n)

/-- Nothing is lost, and nothing appears but the frames sent. -/
theorem NetLive.total_more (n d : Nat) : ∃ x : List Frame, (S (n + d)).src.sent = (S n).src.sent ++ x ∧
    (S (n + d)).total c = (S n).total c ++ x.flatMap (beats c.bus) := by
  induction d with
  | zero => exact ⟨[], by simp, by simp⟩
  | succ d ih =>
    obtain ⟨x, x1, x2⟩ := ih
    obtain ⟨y, y1, y2⟩ := h.total_step (n + d)
    refine ⟨x ++ y, ?_, ?_⟩
    · rw [← Nat.add_assoc, y1, x1, List.append_assoc]
    · rw [← Nat.add_assoc, y2, x2, List.flatMap_append, List.append_assoc]

omit h in
theorem not_full_of_room {c : NetCfg} {s : Net} (hr : Base c s) (hroom : NetRoom c s) :
    isFull c.snk s.snk.occBytes s.snk.occFrames = false := by
  obtain ⟨o1, o2⟩ := hr.occ
  rw [not_full_iff, o1, o2]
  exact hroom

omit h in
theorem room_suffix {c : NetCfg} {s t : Net} (hq : t.snk.queue <:+ s.snk.queue) (h : NetRoom c s) : NetRoom c t := by
  obtain ⟨x, hx⟩ := hq
  have h1 : bytes t.snk.queue ≤ bytes s.snk.queue := by rw [← hx, bytes_append]; omega
  have h2 : t.snk.queue.length ≤ s.snk.queue.length := by rw [← hx, List.length_append]; omega
  refine ⟨fun hh => ?_, fun hh => ?_⟩
  · have := h.1 hh; omega
  · have := h.2 hh; omega

/-- Something outstanding is captured in the end. -/
theorem NetLive.goes_on (hf : NetFlows c S sched) (N : Nat) (hout : (S N).snk.captured.length < ((S N).total c).length) :
    ∃ k, N ≤ k ∧ (S N).snk.captured.length < (S k).snk.captured.length := by
  refine Classical.byContradiction fun hno => ?_
  have hst : ∀ k, N ≤ k → (S k).snk.captured.length = (S N).snk.captured.length := by
    intro k hk
    have := (h.captured_mono N (k - N)).length_le
    rw [show N + (k - N) = k by omega] at this
    have : ¬ (S N).snk.captured.length < (S k).snk.captured.length := fun hh => hno ⟨k, hk, hh⟩
    omega
  have hsteps : ∀ k, N ≤ k → (S (k + 1)).snk.captured = (S k).snk.captured := by
    intro k hk
    exact ((h.captured_step k).eq_of_length (by rw [hst k hk, hst (k + 1) (by omega)])).symm
  -- no transfer at an edge
  have hedge : ∀ i, N ≤ i → NetEdge S sched i → ((S i).src.nvalid && (!c.bus.hasReady || (S i).snk.nready)) = false := by
    intro i hi he
    obtain ⟨j, hj, hje⟩ := hf.edges (i + 1)
    rw [Bool.eq_false_iff]
    intro hx
    have := h.captures he hje (by omega) hx
    rw [hst i hi, hst j (by omega)] at this
    omega
  obtain ⟨i0, hi0, he0⟩ := hf.edges N
  -- a source about to run has nothing transferred
  have hJ : ∀ d, (S (i0 + d)).src.pc = .due → ((S (i0 + d)).src.valid && (!c.bus.hasReady || (S (i0 + d)).snk.ready)) = false := by
    intro d
    induction d with
    | zero => intro hd; exact absurd hd (still_iff.1 he0.2.2.1).1
    | succ d ih =>
      intro hd
      rw [← Nat.add_assoc] at hd ⊢
      by_cases hd' : (S (i0 + d)).src.pc = .due
      · obtain ⟨e1, _, e3⟩ := h.signals (i0 + d) (.inl hd')
        rw [e1, e3]; exact ih hd'
      · have he := h.edge_of_due (i0 + d) (.inl ⟨hd', hd⟩)
        obtain ⟨e1, _, e3⟩ := h.signals (i0 + d) (.inr (.inr (by rw [he.1]; simp)))
        obtain ⟨b1, _, b3⟩ := (h.bus (i0 + d)).set he.2.1
        rw [e1, e3, b1, b3]
        exact hedge (i0 + d) (by omega) he
  -- the source always has something
  have run : ∀ d, (S (i0 + d)).src.pc = .due → _ := fun d hd =>
    run_lead h.lanes h.valid (h.known (i0 + d)).src hd ((h.bus (i0 + d)).due hd) (h.running (i0 + d)).1 (h.queue_proper (i0 + d))
      (S (i0 + d)).snk.ready (hJ d hd)
  have hK : ∀ d, (S (i0 + d)).src.nvalid = true ∨ (S (i0 + d)).src.todo c.bus ≠ [] := by
    intro d
    induction d with
    | zero =>
      have hacc := total_still (c := c) (still_iff.1 he0.2.2.1).1 (still_iff.1 he0.2.2.2).1
      cases hnv : (S i0).src.nvalid
      · right
        intro ht
        rw [Nat.add_zero] at ht
        rw [hnv, ht] at hacc
        simp only [Bool.false_eq_true, if_false, List.append_nil] at hacc
        have h1 := congrArg List.length hacc
        rw [hst i0 hi0] at h1
        obtain ⟨x, _, hx⟩ := h.total_more N (i0 - N)
        rw [show N + (i0 - N) = i0 by omega] at hx
        rw [hx, List.length_append] at h1
        omega
      · exact .inl rfl
    | succ d ih =>
      rw [← Nat.add_assoc]
      rcases h.src (i0 + d) with ⟨_, hd, e⟩ | k
      · obtain ⟨r1, r2⟩ := run d hd
        rw [e]
        rcases ih with ih | ih
        · exact .inl (r1 ih)
        · cases hnv : (S (i0 + d)).src.nvalid
          · rcases r2 hnv with r2 | ⟨r2, _⟩
            · exact .inl r2
            · right; rw [r2]; exact ih
          · exact .inl (r1 hnv)
      · rcases ih with ih | ih
        · left; rw [k.nvalid]; exact ih
        · right
          intro hn
          have := k.todo (c := c.bus) (h.known (i0 + d)).src
          rw [hn] at this
          exact ih (List.prefix_nil.1 this)
  -- a beat once presented stays
  have hV : ∀ d, (S (i0 + d)).src.nvalid = true → ∀ m, (S (i0 + d + m)).src.nvalid = true := by
    intro d hd m
    induction m with
    | zero => exact hd
    | succ m ih =>
      rw [← Nat.add_assoc]
      rcases h.src (i0 + d + m) with ⟨_, hdue, e⟩ | k
      · rw [e]
        rw [Nat.add_assoc] at hdue ih ⊢
        exact (run (d + m) hdue).1 ih
      · rw [k.nvalid]; exact ih
  -- while none is presented the source gets nearer
  have hM : ∀ d m, (∀ x, x ≤ m → (S (i0 + d + x)).src.nvalid = false) → (S (i0 + d + m)).src.lead ≤ (S (i0 + d)).src.lead := by
    intro d m
    induction m with
    | zero => intro _; exact Nat.le_refl _
    | succ m ih =>
      intro hx
      refine Nat.le_trans ?_ (ih (fun x hxm => hx x (by omega)))
      have hnv := hx m (by omega)
      have hnv' := hx (m + 1) (Nat.le_refl _)
      rw [← Nat.add_assoc] at hnv' ⊢
      have ht := (hK (d + m)).resolve_left (by rw [← Nat.add_assoc, hnv]; simp)
      rw [← Nat.add_assoc] at ht
      rcases h.src (i0 + d + m) with ⟨_, hdue, e⟩ | k
      · rw [e] at hnv' ⊢
        rw [Nat.add_assoc] at hdue hnv hnv' ht ⊢
        rcases (run (d + m) hdue).2 hnv with r | ⟨_, r⟩
        · rw [r] at hnv'; cases hnv'
        · exact (r ht).1
      · exact Nat.le_of_eq (k.lead h.lanes (h.known _).src ht)
  have hex : ∀ L d, (S (i0 + d)).src.lead ≤ L → ∃ m, (S (i0 + d + m)).src.nvalid = true := by
    intro L
    induction L using Nat.strongRecOn with
    | ind L ih =>
      intro d hL
      refine Classical.byContradiction fun hnone => ?_
      have hall : ∀ m, (S (i0 + d + m)).src.nvalid = false := fun m => by
        rw [Bool.eq_false_iff]; exact fun hh => hnone ⟨m, hh⟩
      obtain ⟨k, hk, ht⟩ := hf.src (i0 + d)
      obtain ⟨m, rfl⟩ := Nat.exists_eq_add_of_le hk
      have hnv := hall m
      have htodo := (hK (d + m)).resolve_left (by rw [← Nat.add_assoc, hnv]; simp)
      rw [← Nat.add_assoc] at htodo
      rcases ht with ht | ⟨t1, t2, t3⟩
      · obtain ⟨q1, q2⟩ := (h.known (i0 + d + m)).src.sleep ht
        refine htodo ?_
        unfold Src.todo
        rw [(h.known (i0 + d + m)).src.rest_dead h.lanes q2, q1]
        rfl
      · have hnext := hall (m + 1)
        have e : (S (i0 + d + m + 1)).src = (S (i0 + d + m)).src.run c.bus (S (i0 + d + m)).snk.ready := by
          rw [h.step, t1]
          unfold Net.step
          rw [if_neg (by rw [(h.running _).1]; simp)]
          simp only
          rw [if_pos t2]
        rw [← Nat.add_assoc, e] at hnext
        have hle := hM d m (fun x _ => hall x)
        rw [Nat.add_assoc] at t2 t3 hnv hnext htodo
        rcases (run (d + m) t2).2 hnv with r | ⟨_, r⟩
        · rw [r] at hnext; cases hnext
        · have hlt := (r htodo).2 t3
          rw [← Nat.add_assoc] at hlt
          rw [← e] at hlt
          obtain ⟨m', hm'⟩ := ih (S (i0 + d + m + 1)).src.lead (by omega) (d + m + 1) (by
            rw [← Nat.add_assoc, ← Nat.add_assoc]; exact Nat.le_refl _)
          refine hnone ⟨m + 1 + m', ?_⟩
          rw [show i0 + d + (m + 1 + m') = i0 + (d + m + 1) + m' by omega]
          exact hm'
  obtain ⟨k1, hk1⟩ := hex _ 0 (Nat.le_refl _)
  rw [Nat.add_zero] at hk1
  have hval : ∀ k, i0 + k1 ≤ k → (S k).src.nvalid = true := by
    intro k hk
    have := hV k1 hk1 (k - (i0 + k1))
    rwa [show i0 + k1 + (k - (i0 + k1)) = k by omega] at this
  -- the sink
  cases hrd : c.bus.hasReady with
  | false =>
    obtain ⟨i, hi, he⟩ := hf.edges (i0 + k1)
    have := hedge i (by omega) he
    rw [hval i hi, hrd] at this
    cases this
  | true =>
    have hrds : c.snk.hasReady = true := hrd
    obtain ⟨k2, hk2, hroom⟩ := hf.room hrd (i0 + k1)
    have hqs : ∀ m, (S (k2 + m)).snk.queue <:+ (S k2).snk.queue := by
      intro m
      induction m with
      | zero => exact List.suffix_refl _
      | succ m ih =>
        rw [← Nat.add_assoc]
        refine List.IsSuffix.trans ?_ ih
        have hc := hsteps (k2 + m) (by omega)
        rcases h.snk (k2 + m) with ⟨_, _, e⟩ | k
        · rw [e] at hc ⊢
          rw [runSnk_queue _ _ _ _ hc]
          exact List.suffix_refl _
        · exact k.queue
    have hnf : ∀ k, k2 ≤ k → isFull c.snk (S k).snk.occBytes (S k).snk.occFrames = false := by
      intro k hk
      have := hqs (k - k2)
      rw [show k2 + (k - k2) = k by omega] at this
      exact not_full_of_room (h.known k) (room_suffix this hroom)
    have hlow : ∀ i, k2 ≤ i → NetEdge S sched i → (S i).snk.nready = false := by
      intro i hi he
      have := hedge i (by omega) he
      rw [hval i (by omega), hrd] at this
      simpa using this
    obtain ⟨i, hi, he, hsam⟩ := hf.snk hrd k2
    have hslow := hlow i hi he
    have hpc : (S i).snk.pc ≠ .asleep := by
      intro hh
      have h1 := (h.known i).live hh hrds
      have h2 := (h.bus i).slept hh hrds
      rw [hsam] at h2
      rw [← h2, hnf i hi, hslow] at h1
      cases h1
    obtain ⟨j, hj, hje, hjno⟩ := next_edge hf.edges (i + 1)
    obtain ⟨r, r1, r2, e, hd⟩ := h.snk_turn he hje (by omega) hpc
    have hs := h.sample_hold he.1 hd r1
    rw [hsam] at hs
    have hn : (S (r + 1)).snk.nready = true := by
      have h1 := run_nready (c := c.snk) hrds (s := (S r).snk) (v := (S r).src.valid) (b := (S r).src.beat) hs
      rw [← e, hnf (r + 1) (by omega)] at h1
      exact h1
    have hkeep : ∀ m, r + 1 + m ≤ j → (S (r + 1 + m)).snk.nready = true ∧ (S (r + 1 + m)).snk.pc ≠ .due := by
      intro m
      induction m with
      | zero =>
        intro _
        refine ⟨hn, ?_⟩
        rw [Nat.add_zero, e]
        exact (finish_same c.snk _ _).2.2.2.2.2.2.2.2.1
      | succ m ih =>
        intro hm
        obtain ⟨i1, i2⟩ := ih (by omega)
        rw [← Nat.add_assoc]
        rcases h.snk (r + 1 + m) with ⟨_, hdue, _⟩ | k
        · exact absurd hdue i2
        · refine ⟨k.nready.trans i1, fun hh => ?_⟩
          exact hjno (r + 1 + m) (by omega) (by omega) (h.edge_of_due (r + 1 + m) (.inr ⟨i2, hh⟩))
    have hfin := (hkeep (j - (r + 1)) (by omega)).1
    rw [show r + 1 + (j - (r + 1)) = j by omega] at hfin
    rw [hlow j (by omega) hje] at hfin
    cases hfin

/-- Everything that the source holds at some instant is captured in the end. -/
theorem NetLive.all_captured (hf : NetFlows c S sched) (n : Nat) : ∃ N, n ≤ N ∧ ((S n).total c).length ≤ (S N).snk.captured.length := by
  refine Classical.byContradiction fun hno => ?_
  have key : ∀ L, ∃ k, n ≤ k ∧ L ≤ (S k).snk.captured.length := by
    intro L
    induction L with
    | zero => exact ⟨n, Nat.le_refl _, Nat.zero_le _⟩
    | succ L ih =>
      obtain ⟨k, hk, hL⟩ := ih
      have h1 : ¬ ((S n).total c).length ≤ (S k).snk.captured.length := fun hh => hno ⟨k, hk, hh⟩
      have h2 : ((S n).total c).length ≤ ((S k).total c).length := by
        obtain ⟨x, _, hx⟩ := h.total_more n (k - n)
        rw [show n + (k - n) = k by omega] at hx
        rw [hx, List.length_append]
        omega
      obtain ⟨k', hk', hlt⟩ := h.goes_on hf k (by omega)
      exact ⟨k', by omega, by omega⟩
  obtain ⟨k, hk, hL⟩ := key ((S n).total c).length
  exact hno ⟨k, hk, hL⟩

end

end Verif.Axis
