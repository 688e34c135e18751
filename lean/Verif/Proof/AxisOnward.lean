import Verif.Proof.AxisSplit
import Verif.Proof.AxisSend

/-!
# AXI stream after resets: what is on its way arrives
-/

namespace Verif.Axis

open Verif.Stream (Pc)

/-- What the sink makes of the beats captured from some moment on, at which `r` had been received and `p` was the unfinished frame. -/
def PackFrom (c : Cfg) (p : List Beat) (r : List Frame) (cap : List Beat) (s : Rx) : Prop :=
  ∃ y, s.captured = cap ++ y ∧ s.taken.map (·.2) ++ s.queue = r ++ (packets c (p ++ y)).1.map (frameOf c) ∧
    s.part = if (packets c (p ++ y)).2 = [] then none else some (frameOf c (packets c (p ++ y)).2)

theorem PackFrom.same {c : Cfg} {p : List Beat} {r : List Frame} {cap : List Beat} {s t : Rx} (h : PackFrom c p r cap s)
    (h1 : t.taken.map (·.2) ++ t.queue = s.taken.map (·.2) ++ s.queue) (h2 : t.captured = s.captured) (h3 : t.part = s.part) :
    PackFrom c p r cap t := by
  obtain ⟨y, e1, e2, e3⟩ := h
  exact ⟨y, h2.trans e1, h1.trans e2, h3.trans e3⟩

theorem PackFrom.collect {c : Cfg} (hl : 0 < c.lanes) {p : List Beat} {r : List Frame} {cap : List Beat} {s : Rx} (h : PackFrom c p r cap s)
    (b : Beat) : PackFrom c p r cap (s.collect c b) := by
  obtain ⟨y, e1, e2, e3⟩ := h
  obtain ⟨act, e⟩ := RxInv.collect_eq hl b _ e3
  rw [e]
  split
  · rename_i hb
    refine ⟨y ++ [b], ?_, ?_, ?_⟩
    · simp only [e1, List.append_assoc]
    · simp only
      rw [← List.append_assoc p, packets_snoc, if_pos hb, ← List.append_assoc, e2]
      simp
    · simp only
      rw [← List.append_assoc p, packets_snoc, if_pos hb]
      rfl
  · rename_i hb
    refine ⟨y ++ [b], ?_, ?_, ?_⟩
    · simp only [e1, List.append_assoc]
    · simp only
      rw [← List.append_assoc p, packets_snoc, if_neg hb]
      exact e2
    · simp only
      rw [← List.append_assoc p, packets_snoc, if_neg hb]
      simp

theorem PackFrom.runSnk {c : Cfg} (hl : 0 < c.lanes) {p : List Beat} {r : List Frame} {cap : List Beat} {s : Rx} (h : PackFrom c p r cap s)
    (v : Bool) (b : Beat) : PackFrom c p r cap (s.runSnk c v b) := by
  obtain ⟨e1, e2, _, _, e5, e6, _⟩ := finish_same c (s.capture c v b) v
  have : PackFrom c p r cap (s.capture c v b) := by
    unfold Rx.capture
    split
    · exact h.collect hl b
    · exact h.same rfl rfl rfl
  exact this.same (by rw [Rx.runSnk, e1, e6]) e5 e2

theorem PackFrom.step {c : NetCfg} (hl : 0 < c.bus.lanes) {p : List Beat} {r : List Frame} {cap : List Beat} {s : Net}
    (h : PackFrom c.snk p r cap s.snk) (e : NetEv) (hcl : e.clean = true) : PackFrom c.snk p r cap (s.step c e).snk := by
  by_cases h3 : e = .snkRun
  · subst h3
    unfold Net.step
    split
    · exact h
    simp only
    split
    · exact h.runSnk (c := c.snk) hl _ _
    · exact h
  · obtain ⟨g1, g2⟩ := step_part c s e hcl h3
    have hx : RxKeep s.snk (s.step c e).snk := by
      rcases step_snk c s e hcl with h | h
      · exact absurd h.1 h3
      · exact h
    exact h.same g1 hx.captured g2

/-- Frames sent remain so, whatever happens. -/
theorem step_sent' {c : NetCfg} (hv : c.bus.hasValid = true) (s : Net) (e : NetEv) : s.src.sent <+: (s.step c e).src.sent := by
  by_cases he : e.clean = true
  · rcases step_src c s e he with ⟨_, _, e', _⟩ | k
    · rw [e', (run_waiters hv s.src s.snk.ready).2]
      exact List.prefix_refl _
    · exact k.sent
  · unfold Net.step
    split
    · exact List.prefix_refl _
    cases e <;> simp only <;> try (exact absurd rfl he)
    case srcClear => exact List.prefix_refl _
    case snkClear => exact List.prefix_refl _
    case snkReset v => exact List.prefix_refl _
    case srcReset v =>
      unfold Src.reset
      simp only
      repeat' split
      all_goals exact List.prefix_refl _

/-- A source whose frames can all be transmitted does not crash. -/
theorem exec_ok {c : NetCfg} (hl : 0 < c.bus.lanes) (hv : c.bus.hasValid = true) (evs : List NetEv)
    (hp : ∀ f ∈ (Net.exec c evs).src.sent, f.proper) : (Net.exec c evs).src.crashed = false := by
  induction evs using snoc_ind with
  | nil => rfl
  | snoc evs e ih =>
    have hs : Net.exec c (evs ++ [e]) = (Net.exec c evs).step c e := by simp [Net.exec]
    rw [hs] at hp ⊢
    have hp' : ∀ f ∈ (Net.exec c evs).src.sent, f.proper := fun f hf => hp f ((step_sent' hv _ e).subset hf)
    have hok := ih hp'
    by_cases he : e.clean = true
    · rcases step_src c (Net.exec c evs) e he with ⟨_, _, e', _⟩ | k
      · rw [e']
        exact (run_facts hv _ _ (fun p hq => hp' _ ((Net.sound hl hv evs).src.queue_sent hq)) hok).1
      · rw [k.crashed]; exact hok
    · unfold Net.step
      rw [if_neg (by rw [hok]; simp)]
      cases e <;> simp only <;> try (exact absurd rfl he)
      case srcClear => exact hok
      case snkClear => exact hok
      case snkReset v => exact hok
      case srcReset v =>
        unfold Src.reset
        simp only
        repeat' split
        all_goals exact hok

/-- The history goes on without reset and `clear()`. -/
theorem netLive_joint {c : NetCfg} (hl : 0 < c.bus.lanes) (hv : c.bus.hasValid = true) {evs : List JointEv} (hev : ∀ e ∈ evs, e ≠ .ev .snkClear)
    {sched : Nat → NetEv} (hsc : ∀ n, (sched n).clean = true) {S : Nat → Net}
    (hS : ∀ n, S n = Net.jexec c (evs ++ (List.range n).map fun m => .ev (sched m))) (hpr : ∀ n, ∀ f ∈ (S n).src.sent, f.proper)
    (hson : (S 0).src.pc ≠ .off) (hkon : (S 0).snk.pc ≠ .off) : NetLive c S sched where
  lanes := hl
  valid := hv
  step := by
    intro n
    rw [hS, hS, List.range_succ, List.map_append, ← List.append_assoc]
    simp only [Net.jexec, List.foldl_append, List.map_cons, List.map_nil, List.foldl_cons, List.foldl_nil, Net.jstep]
  clean := hsc
  known := by
    intro n
    rw [hS, jexec_flat]
    refine Net.base hl hv _ fun e he h => ?_
    subst h
    unfold flat at he
    obtain ⟨x, hx, hxe⟩ := List.mem_flatMap.1 he
    rcases List.mem_append.1 hx with hx | hx
    · have := hev x hx
      cases x with
      | ev e => simp only [List.mem_singleton] at hxe; subst hxe; exact this rfl
      | reset v => simp at hxe
    · obtain ⟨k, _, rfl⟩ := List.mem_map.1 hx
      simp only [List.mem_singleton] at hxe
      have := hsc k
      rw [← hxe] at this
      cases this
  proper := hpr
  ok := by
    have h0 := hpr 0
    rw [hS, jexec_flat] at h0 ⊢
    exact exec_ok hl hv _ h0
  son := hson
  kon := hkon

/-- From a moment on: the frames received are those received then, and those made of the beats captured since. -/
theorem onward {c : NetCfg} (hla : c.bus.hasLast = true) {S : Nat → Net} {sched : Nat → NetEv}
    (h : NetLive c S sched) {m : Nat} {cl : Bool} (hfl : Flow c m cl (S 0)) :
    ∃ (done way : List Frame) (p : List Beat), (∀ f ∈ done, f.truthy = true) ∧
      (S 0).snk.taken.map (·.2) ++ (S 0).snk.queue = done.map (fun f => frameOf c.bus (beats c.bus f)) ∧
      (done ++ way).Sublist (S 0).src.sent ∧ (S 0).src.queue.map (·.2) <:+ way ∧
      (cl = false → (S 0).src.sent.countP Frame.truthy ≤ done.length + way.countP Frame.truthy + m) ∧
      ∀ n, ∃ (x : List Frame) (y : List Beat), (S n).src.sent = (S 0).src.sent ++ x ∧ (S n).snk.captured = (S 0).snk.captured ++ y ∧
        p ++ y ++ (S n).taking c ++ (S n).shown c ++ (S n).src.todo c.bus = (way ++ x).flatMap (beats c.bus) ∧
        (S n).snk.taken.map (·.2) ++ (S n).snk.queue =
          done.map (fun f => frameOf c.bus (beats c.bus f)) ++ (packets c.bus (p ++ y)).1.map (frameOf c.bus) ∧
        (S n).snk.part = if (packets c.bus (p ++ y)).2 = [] then none else some (frameOf c.bus (packets c.bus (p ++ y)).2) := by
  obtain ⟨_, _, done, fl, part, f1, f2, f3, f4, f5, f6, f7⟩ := hfl
  refine ⟨done, fl ++ (S 0).src.queue.map (·.2), part, f2, f1, by rw [← List.append_assoc]; exact f6, List.suffix_append _ _, ?_, ?_⟩
  · intro hc
    have := f7 hc
    rw [List.countP_append]
    omega
  · intro n
    have hp0 : packets c.bus part = ([], part) := by
      have := packets_open c.bus hla [] part f4
      simpa [packets] using this
    have h0 : PackFrom c.snk part (done.map (fun f => frameOf c.bus (beats c.bus f))) (S 0).snk.captured (S 0).snk := by
      refine ⟨[], by simp, ?_, ?_⟩
      · have hp0' : packets c.snk part = ([], part) := hp0
        rw [List.append_nil, hp0', f1]; simp
      · have hp0' : packets c.snk part = ([], part) := hp0
        rw [List.append_nil, hp0']; exact f3
    have hn : PackFrom c.snk part (done.map (fun f => frameOf c.bus (beats c.bus f))) (S 0).snk.captured (S n).snk := by
      induction n with
      | zero => exact h0
      | succ n ih => rw [h.step n]; exact ih.step h.lanes (sched n) (h.clean n)
    obtain ⟨y, y1, y2, y3⟩ := hn
    obtain ⟨x, x1, x2⟩ := h.total_more 0 n
    rw [Nat.zero_add] at x1 x2
    refine ⟨x, y, x1, y1, ?_, y2, y3⟩
    have ht : (S n).total c = (S n).total c := rfl
    conv at ht => rhs; unfold Net.total
    rw [x2, y1] at ht
    unfold Net.total Src.todo at ht
    simp only [List.append_assoc] at ht
    have hb := List.append_cancel_left ht
    simp only [List.append_assoc]
    rw [Src.todo, ← hb, List.flatMap_append, List.flatMap_append, ← f5, List.flatMap_map]
    simp only [List.append_assoc]

end Verif.Axis
