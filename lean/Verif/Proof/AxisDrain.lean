import Verif.Proof.AxisLive

/-!
# An AXI stream source that has sent everything comes to rest
-/

namespace Verif.Axis

open Verif.Stream (Pc still_iff tick_due tick_asleep foldl_inv')
open Verif.PauseGen (first_turn)

/-- The turn of a source that has nothing to send: it goes to sleep, or drops an empty frame. -/
theorem run_drain {c : Cfg} (hl : 0 < c.lanes) (hv : c.hasValid = true) {s : Src} (hi : SrcInv c s) (hd : s.pc = .due)
    (hval : s.valid = false) (hcr : s.crashed = false) (hpr : ∀ p ∈ s.queue, p.2.proper) (ht : s.todo c = []) (r : Bool) :
    (s.run c r).nvalid = false ∧ (s.run c r).todo c = [] ∧ ((s.run c r).pc = .asleep ∧ (s.run c r).active = false ∧ (s.run c r).queue = [] ∨
      (s.run c r).queue.length < s.queue.length) := by
  refine SrcInv.run_cases (P := fun t => t.nvalid = false ∧ t.todo c = [] ∧ (t.pc = .asleep ∧ t.active = false ∧ t.queue = [] ∨
      t.queue.length < s.queue.length)) hv s r (fun h1 => by rw [hval] at h1; cases h1) ?_
  intro _ u hu
  have huc : u.crashed = false ∧ SrcInv c u ∧ u.todo c = [] := by
    rw [hu]
    split
    · exact ⟨hcr, hi, ht⟩
    · rename_i hlv
      have hlv' : live s.frame = false := by simpa using hlv
      exact ⟨by rw [take_proper s hpr, hcr], hi.take hlv' hd, by rw [hi.take_todo hl hlv', ht]⟩
  obtain ⟨u1, u2, u3⟩ := huc
  have hdead : live u.frame = false := by
    cases hh : live u.frame with
    | false => rfl
    | true =>
      cases hf : u.frame with
      | none => rw [hf] at hh; cases hh
      | some p =>
        obtain ⟨i, g⟩ := p
        rw [hf] at hh
        have := (u2.drive_todo hl hv hf hh).1
        rw [u3] at this
        cases this
  refine ⟨fun hh => (by rw [u1] at hh; cases hh), fun _ i g hf hg _ => ?_, fun _ _ => ?_⟩
  · rw [hf] at hdead
    rw [show g.truthy = live (some (i, g)) from rfl, hdead] at hg
    cases hg
  · obtain ⟨d1, d2, _, _⟩ := quiet_facts (c := c) hv u
    refine ⟨d2, by rw [d1, u3], ?_⟩
    by_cases hq : u.queue = []
    · left
      unfold Src.quiet
      simp [hdead, hq]
    · right
      have hqq : (u.quiet c).queue = u.queue := by
        unfold Src.quiet
        simp only
        split <;> rfl
      rw [hqq]
      by_cases hlv : live s.frame = true
      · rw [if_pos hlv] at hu
        rw [hu, hlv] at hdead
        cases hdead
      · rw [if_neg hlv] at hu
        rcases SrcInv.take_cases s with ⟨he, e⟩ | ⟨_, e⟩ | ⟨i, f, rest, he, hp, e⟩
        · rw [hu, e] at hq; exact absurd he hq
        · rw [hu, e] at u1; cases u1
        · rw [hu, e, he]; simp

section

variable {c : NetCfg} {S : Nat → Net} {sched : Nat → NetEv} (h : NetLive c S sched)
include h

/-- At a clock edge a source that is not asleep becomes due. -/
theorem NetLive.src_due_after {i : Nat} (he : NetEdge S sched i) (hp : (S i).src.pc ≠ .asleep) : (S (i + 1)).src.pc = .due := by
  obtain ⟨e1, e2, e3, e4⟩ := he
  have hoff := (h.running i).2.1
  have e := h.step i
  rw [e1] at e
  rw [e]
  unfold Net.step
  rw [if_neg (by rw [(h.running i).1]; simp)]
  simp only [e2, e3, e4, Bool.and_self, if_true]
  rw [still_iff] at e3
  have : (S i).src.pc = .edge := by
    cases hh : (S i).src.pc <;> simp_all
  rw [this]; rfl

/-- The source's turn in a clock cycle. -/
theorem NetLive.src_turn {i j : Nat} (he : NetEdge S sched i) (hj : NetEdge S sched j) (hij : i < j) (hp : (S i).src.pc ≠ .asleep) :
    ∃ r, i < r ∧ r < j ∧ (S r).src.pc = .due ∧ (S (r + 1)).src = (S r).src.run c.bus (S r).snk.ready := by
  obtain ⟨r, h1, h2, h3, h4⟩ := first_turn (x := fun n => decide ((S n).src.pc = .due)) hij (by simpa using h.src_due_after he hp)
    (by simpa using (still_iff.1 hj.2.2.1).1)
  have hdue : (S r).src.pc = .due := by simpa using h4 r h1 (Nat.le_refl r)
  refine ⟨r, h1, h2, hdue, ?_⟩
  rcases h.src r with ⟨_, _, e⟩ | k
  · exact e
  · simp only [decide_eq_false_iff_not] at h3
    exact absurd (k.due hdue) h3

/-- Once everything sent has been captured, and while nothing more is sent, the source comes to rest. -/
theorem NetLive.drains (hf : NetFlows c S sched) (n : Nat) (hsent : ∀ k, n ≤ k → (S k).src.sent = (S n).src.sent) :
    ∃ N, n ≤ N ∧ ∀ k, N ≤ k → (S k).src.pc = .asleep ∧ (S k).src.active = false ∧ (S k).src.queue = [] := by
  obtain ⟨N0, hN0, hall⟩ := h.all_captured hf n
  obtain ⟨i0, hi0, he0⟩ := hf.edges N0
  have htot : ∀ k, n ≤ k → ((S k).total c).length = ((S n).total c).length := fun k hk => by
    obtain ⟨x, x1, x2⟩ := h.total_more n (k - n)
    rw [show n + (k - n) = k by omega] at x1 x2
    rw [hsent k hk] at x1
    rw [x2, List.self_eq_append_right.1 x1]
    simp
  have hstart : (S i0).src.nvalid = false ∧ (S i0).src.todo c.bus = [] := by
    have hacc := total_still (c := c) (still_iff.1 he0.2.2.1).1 (still_iff.1 he0.2.2.2).1
    have h1 : ((S i0).total c).length = _ := congrArg List.length hacc
    rw [htot i0 (by omega)] at h1
    have h2 := (h.captured_mono N0 (i0 - N0)).length_le
    rw [show N0 + (i0 - N0) = i0 by omega] at h2
    simp only [List.length_append] at h1
    have h3 : (if (S i0).src.nvalid = true then [(S i0).src.nbeat] else []).length = 0 := by omega
    have h4 : ((S i0).src.todo c.bus).length = 0 := by omega
    refine ⟨?_, List.length_eq_zero_iff.1 h4⟩
    cases hh : (S i0).src.nvalid
    · rfl
    · rw [hh] at h3; simp at h3
  have todo_keep : ∀ d, SrcKeep (S (i0 + d)).src (S (i0 + d + 1)).src → (S (i0 + d)).src.todo c.bus = [] →
      (S (i0 + d + 1)).src.todo c.bus = [] ∧ (S (i0 + d + 1)).src.queue = (S (i0 + d)).src.queue := by
    intro d k ht
    have e1 := hsent (i0 + d) (by omega)
    have e2 := hsent (i0 + d + 1) (by omega)
    have hlen := k.len
    rw [e1, e2] at hlen
    have hq : (S (i0 + d + 1)).src.queue = (S (i0 + d)).src.queue := (k.queue.eq_of_length (by omega)).symm
    refine ⟨?_, hq⟩
    rw [← ht]
    unfold Src.todo Src.rest
    rw [k.frame, k.off, e1, e2, hq]
  have run : ∀ d, (S (i0 + d)).src.nvalid = false → (S (i0 + d)).src.todo c.bus = [] → (S (i0 + d)).src.pc = .due → _ := fun d h1 h2 hd =>
    run_drain h.lanes h.valid (h.known (i0 + d)).src hd (by rw [(h.bus (i0 + d)).due hd, h1]) (h.running (i0 + d)).1 (h.queue_proper (i0 + d))
      h2 (S (i0 + d)).snk.ready
  have hall : ∀ d, (S (i0 + d)).src.nvalid = false ∧ (S (i0 + d)).src.todo c.bus = [] := by
    intro d
    induction d with
    | zero => exact hstart
    | succ d ih =>
      rw [← Nat.add_assoc]
      rcases h.src (i0 + d) with ⟨_, hd, e⟩ | k
      · obtain ⟨r1, r2, _⟩ := run d ih.1 ih.2 hd
        rw [e]; exact ⟨r1, r2⟩
      · exact ⟨k.nvalid.trans ih.1, (todo_keep d k ih.2).1⟩
  have hqle : ∀ d m, (S (i0 + d + m)).src.queue.length ≤ (S (i0 + d)).src.queue.length := by
    intro d m
    induction m with
    | zero => exact Nat.le_refl _
    | succ m ih =>
      refine Nat.le_trans ?_ ih
      rw [← Nat.add_assoc]
      rcases h.src (i0 + d + m) with ⟨_, hd, e⟩ | k
      · rw [e]
        rw [Nat.add_assoc] at hd ⊢
        rcases (run (d + m) (hall _).1 (hall _).2 hd).2.2 with ⟨_, _, r⟩ | r
        · rw [r]; exact Nat.zero_le _
        · exact Nat.le_of_lt r
      · rw [Nat.add_assoc i0 d m] at k ⊢
        rw [(todo_keep (d + m) k (hall _).2).2]
        exact Nat.le_refl _
  -- at rest for ever
  have stays : ∀ d, (S (i0 + d)).src.pc = .asleep ∧ (S (i0 + d)).src.active = false ∧ (S (i0 + d)).src.queue = [] →
      ∀ m, (S (i0 + d + m)).src.pc = .asleep ∧ (S (i0 + d + m)).src.active = false ∧ (S (i0 + d + m)).src.queue = [] := by
    intro d hd m
    induction m with
    | zero => exact hd
    | succ m ih =>
      rw [← Nat.add_assoc]
      rcases h.src (i0 + d + m) with ⟨_, hdue, _⟩ | k
      · rw [ih.1] at hdue; cases hdue
      · refine ⟨k.rests ih.1 ?_, k.active.trans ih.2.1, ?_⟩
        · rw [hsent (i0 + d + m + 1) (by omega), hsent (i0 + d + m) (by omega)]
        · rw [Nat.add_assoc i0 d m] at k ih ⊢
          rw [(todo_keep (d + m) k (hall _).2).2]
          exact ih.2.2
  have hex : ∀ L d, (S (i0 + d)).src.queue.length ≤ L → ∃ m, (S (i0 + d + m)).src.pc = .asleep := by
    intro L
    induction L using Nat.strongRecOn with
    | ind L ih =>
      intro d hL
      obtain ⟨i, hi, he⟩ := hf.edges (i0 + d)
      obtain ⟨j, hj, hje⟩ := hf.edges (i + 1)
      obtain ⟨x, rfl⟩ := Nat.exists_eq_add_of_le hi
      by_cases hs : (S (i0 + d + x)).src.pc = .asleep
      · exact ⟨x, hs⟩
      · obtain ⟨r, r1, _, hd, e⟩ := h.src_turn he hje (by omega) hs
        obtain ⟨y, rfl⟩ := Nat.exists_eq_add_of_lt r1
        have hq := hqle d (x + y + 1)
        rw [show i0 + d + (x + y + 1) = i0 + d + x + y + 1 by omega] at hq
        have ed : i0 + d + x + y + 1 = i0 + (d + x + y + 1) := by omega
        rw [ed] at hd e hq
        rcases (run (d + x + y + 1) (hall _).1 (hall _).2 hd).2.2 with ⟨r, _, _⟩ | r
        · exact ⟨x + y + 2, by rw [show i0 + d + (x + y + 2) = i0 + (d + x + y + 1) + 1 by omega, e]; exact r⟩
        · rw [← e] at r
          obtain ⟨m, hm⟩ := ih (S (i0 + (d + x + y + 1) + 1)).src.queue.length (by omega) (d + x + y + 2) (by
            rw [show i0 + (d + x + y + 2) = i0 + (d + x + y + 1) + 1 by omega]; exact Nat.le_refl _)
          exact ⟨x + y + 2 + m, by rw [show i0 + d + (x + y + 2 + m) = i0 + (d + x + y + 2) + m by omega]; exact hm⟩
  obtain ⟨m, hm⟩ := hex _ 0 (Nat.le_refl _)
  refine ⟨i0 + 0 + m, by omega, fun k hk => ?_⟩
  rw [Nat.add_assoc] at hm
  have := stays (0 + m) ⟨hm, (h.known _).rest hm, ((h.known _).src.sleep hm).1⟩ (k - (i0 + 0 + m))
  rwa [← Nat.add_assoc, show i0 + 0 + m + (k - (i0 + 0 + m)) = k by omega] at this

end

end Verif.Axis
