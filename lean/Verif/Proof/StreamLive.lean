import Verif.Proof.StreamStep
import Verif.Proof.PauseGenTurn

/-!
# A stream source connected to a sink, under an arbitrary schedule with pauses
-/

namespace Verif.Stream

open Verif.PauseGen (first_turn next_edge)

variable {α : Type}

/-- An endless history of the pair without `clear()` and reset, both running. -/
structure NetLive (c : NetCfg) (S : Nat → Net α) (sched : Nat → NetEv α) : Prop where
  step : ∀ n, S (n + 1) = (S n).step c (sched n)
  clean : ∀ n, (sched n).clean = true
  known : ∀ n, Known c (S n)
  son : (S 0).src.pc ≠ .off
  kon : (S 0).snk.pc ≠ .off

section

variable {c : NetCfg} {S : Nat → Net α} {sched : Nat → NetEv α} (h : NetLive c S sched)
include h

theorem NetLive.src (n : Nat) : (sched n = .srcRun ∧ (S n).src.pc = .due ∧ (S (n + 1)).src = (S n).src.run c.src (S n).snk.ready) ∨
    SrcKeep (S n).src (S (n + 1)).src := by
  rw [h.step n]
  exact (step_src c (S n) (sched n) (h.clean n)).imp (fun a => ⟨a.1, a.2.1, a.2.2.1⟩) id

theorem NetLive.snk (n : Nat) : (sched n = .snkRun ∧ (S n).snk.pc = .due ∧
      (S (n + 1)).snk = (S n).snk.run c.snk (S n).src.valid (S n).src.data) ∨ SnkKeep (S n).snk (S (n + 1)).snk := by
  rw [h.step n]
  exact (step_snk c (S n) (sched n) (h.clean n)).imp (fun a => ⟨a.1, a.2.1, a.2.2.1⟩) id

theorem NetLive.signals (n : Nat) (hd : (S n).src.pc = .due ∨ (S n).snk.pc = .due ∨ sched n ≠ .commit) :
    (S (n + 1)).src.valid = (S n).src.valid ∧ (S (n + 1)).src.data = (S n).src.data ∧ (S (n + 1)).snk.ready = (S n).snk.ready := by
  rw [h.step n]
  exact step_signals c (S n) (sched n) hd

theorem NetLive.edge_of_due (n : Nat) (hd : (S n).src.pc ≠ .due ∧ (S (n + 1)).src.pc = .due ∨
    (S n).snk.pc ≠ .due ∧ (S (n + 1)).snk.pc = .due) : NetEdge S sched n := by
  rw [h.step n] at hd
  exact step_due c (S n) (sched n) hd

theorem NetLive.running (n : Nat) : (S n).src.pc ≠ .off ∧ (S n).snk.pc ≠ .off := by
  induction n with
  | zero => exact ⟨h.son, h.kon⟩
  | succ n ih =>
    obtain ⟨h2, h3⟩ := ih
    refine ⟨?_, ?_⟩
    · rcases h.src n with ⟨_, _, e⟩ | k
      · rw [e]
        rcases (srun_facts (c := c.src) (S n).src (S n).snk.ready).2.2 with hh | hh <;> rw [hh] <;> simp
      · exact fun hh => h2 (k.on hh)
    · rcases h.snk n with ⟨_, _, e⟩ | k
      · rw [e]; exact finish_off
      · exact fun hh => h3 (k.on hh)

theorem NetLive.sent_mono (n d : Nat) : (S n).src.sent <+: (S (n + d)).src.sent := by
  induction d with
  | zero => exact List.prefix_refl _
  | succ d ih =>
    refine ih.trans ?_
    rw [← Nat.add_assoc]
    rcases h.src (n + d) with ⟨_, _, e⟩ | k
    · rw [e, (srun_facts _ _).2.1]
      exact List.prefix_refl _
    · exact k.sent

theorem NetLive.captured_step (n : Nat) : (S n).snk.captured <+: (S (n + 1)).snk.captured := by
  rcases h.snk n with ⟨_, _, e⟩ | k
  · rw [e, snk_run_captured]; exact List.prefix_append _ _
  · rw [k.captured]; exact List.prefix_refl _

theorem NetLive.captured_mono (n d : Nat) : (S n).snk.captured <+: (S (n + d)).snk.captured := by
  induction d with
  | zero => exact List.prefix_refl _
  | succ d ih => exact ih.trans (h.captured_step (n + d))

/-- The signals stay while the sink is about to run. -/
theorem NetLive.signals_hold {i r : Nat} (hi : sched i = .tick) (hd : ∀ m, i < m → m ≤ r → (S m).snk.pc = .due) (hr : i < r) :
    (S r).src.valid = (S i).src.valid ∧ (S r).src.data = (S i).src.data ∧ (S r).snk.ready = (S i).snk.ready := by
  obtain ⟨d, rfl⟩ := Nat.exists_eq_add_of_lt hr
  induction d with
  | zero => exact h.signals i (.inr (.inr (by rw [hi]; simp)))
  | succ d ih =>
    obtain ⟨e1, e2, e3⟩ := ih (fun m a b => hd m a (by omega)) (by omega)
    have := h.signals (i + d + 1) (.inr (.inl (hd _ (by omega) (by omega))))
    exact ⟨this.1.trans e1, this.2.1.trans e2, this.2.2.trans e3⟩

theorem NetLive.sample_hold {i r : Nat} (hi : sched i = .tick) (hd : ∀ m, i < m → m ≤ r → (S m).snk.pc = .due) (hr : i < r) :
    (S r).snk.pauseSample = (S i).snk.pauseSample := by
  obtain ⟨d, rfl⟩ := Nat.exists_eq_add_of_lt hr
  induction d with
  | zero =>
    have e := h.step i
    rw [hi] at e
    show (S (i + 1)).snk.pauseSample = _
    rw [e]
    simp only [Net.step]
    split <;> rfl
  | succ d ih =>
    rw [← ih (fun m a b => hd m a (by omega)) (by omega)]
    have hdue := hd (i + d + 1) (by omega) (by omega)
    have hdue' := hd (i + d + 1 + 1) (by omega) (by omega)
    show (S (i + d + 1 + 1)).snk.pauseSample = _
    rcases h.snk (i + d + 1) with ⟨_, _, e⟩ | k
    · rw [e] at hdue'
      exact absurd hdue' finish_due
    · exact k.sample hdue

/-- At a clock edge a sink that is not asleep becomes due. -/
theorem NetLive.due_after {i : Nat} (he : NetEdge S sched i) (hp : (S i).snk.pc ≠ .asleep) : (S (i + 1)).snk.pc = .due := by
  obtain ⟨e1, e2, e3, e4⟩ := he
  have hoff := (h.running i).2
  have e := h.step i
  rw [e1] at e
  rw [e]
  simp only [Net.step, e2, e3, e4, Bool.and_self, if_true]
  rw [still_iff] at e4
  have : (S i).snk.pc = .edge := by
    cases hh : (S i).snk.pc <;> simp_all
  rw [this]; rfl

/-- At a clock edge a source that is not asleep becomes due. -/
theorem NetLive.src_due_after {i : Nat} (he : NetEdge S sched i) (hp : (S i).src.pc ≠ .asleep) : (S (i + 1)).src.pc = .due := by
  obtain ⟨e1, e2, e3, e4⟩ := he
  have hoff := (h.running i).1
  have e := h.step i
  rw [e1] at e
  rw [e]
  simp only [Net.step, e2, e3, e4, Bool.and_self, if_true]
  rw [still_iff] at e3
  have : (S i).src.pc = .edge := by
    cases hh : (S i).src.pc <;> simp_all
  rw [this]; rfl

/-- The sink's turn in a clock cycle. -/
theorem NetLive.snk_turn {i j : Nat} (he : NetEdge S sched i) (hj : NetEdge S sched j) (hij : i < j) (hp : (S i).snk.pc ≠ .asleep) :
    ∃ r, i < r ∧ r < j ∧ (S (r + 1)).snk = (S r).snk.run c.snk (S r).src.valid (S r).src.data ∧
      ∀ m, i < m → m ≤ r → (S m).snk.pc = .due := by
  obtain ⟨r, h1, h2, h3, h4⟩ := first_turn (x := fun n => decide ((S n).snk.pc = .due)) hij (by simpa using h.due_after he hp)
    (by simpa using (still_iff.1 hj.2.2.2).1)
  have hdue : ∀ m, i < m → m ≤ r → (S m).snk.pc = .due := fun m a b => by simpa using h4 m a b
  refine ⟨r, h1, h2, ?_, hdue⟩
  rcases h.snk r with ⟨_, _, e⟩ | k
  · exact e
  · simp only [decide_eq_false_iff_not] at h3
    exact absurd (k.due (hdue r h1 (Nat.le_refl r))) h3

/-- The source's turn in a clock cycle. -/
theorem NetLive.src_turn {i j : Nat} (he : NetEdge S sched i) (hj : NetEdge S sched j) (hij : i < j) (hp : (S i).src.pc ≠ .asleep) :
    ∃ r, i < r ∧ r < j ∧ (S r).src.pc = .due ∧ (S (r + 1)).src = (S r).src.run c.src (S r).snk.ready := by
  obtain ⟨r, h1, h2, h3, h4⟩ := first_turn (x := fun n => decide ((S n).src.pc = .due)) hij (by simpa using h.src_due_after he hp)
    (by simpa using (still_iff.1 hj.2.2.1).1)
  have hdue : (S r).src.pc = .due := by simpa using h4 r h1 (Nat.le_refl r)
  refine ⟨r, h1, h2, hdue, ?_⟩
  rcases h.src r with ⟨_, _, e⟩ | k
  · exact e
  · simp only [decide_eq_false_iff_not] at h3
    exact absurd (k.due hdue) h3

/-- What both sides show at a clock edge is captured. -/
theorem NetLive.captures {i j : Nat} (he : NetEdge S sched i) (hj : NetEdge S sched j) (hij : i < j)
    (hx : ((S i).src.nvalid && (!c.hasReady || (S i).snk.nready)) = true) :
    (S i).snk.captured.length < (S j).snk.captured.length := by
  obtain ⟨b1, b2, b3⟩ := (h.known i).inv.set he.2.1
  have hp : (S i).snk.pc ≠ .asleep := by
    intro hh
    have := (h.known i).inv.snk.sleep hh
    simp only [NetCfg.snk, Bool.not_true, Bool.false_or] at this
    rw [b1, hx] at this
    cases this
  obtain ⟨r, r1, r2, e, hd⟩ := h.snk_turn he hj hij hp
  obtain ⟨s1, s2, s3⟩ := h.signals_hold he.1 hd r1
  have m1 : (S i).snk.captured.length ≤ (S r).snk.captured.length := by
    have := (h.captured_mono i (r - i)).length_le
    rwa [show i + (r - i) = r by omega] at this
  have m2 : (S (r + 1)).snk.captured.length ≤ (S j).snk.captured.length := by
    have := (h.captured_mono (r + 1) (j - (r + 1))).length_le
    rwa [show r + 1 + (j - (r + 1)) = j by omega] at this
  have hv : (S i).src.nvalid = true := by
    cases hh : (S i).src.nvalid
    · rw [hh] at hx; cases hx
    · rfl
  have m3 : (S (r + 1)).snk.captured.length = (S r).snk.captured.length + 1 := by
    rw [e, snk_run_captured, if_pos]
    · rw [List.length_append, s2, b2, (h.known i).data hv]
    · simp only [NetCfg.snk, Bool.not_true, Bool.false_or]
      rw [s1, s3, b1, b3, Bool.and_comm]
      exact hx
  omega

/-- Something outstanding is captured in the end. -/
theorem NetLive.goes_on (hf : NetFlows c S sched) (N : Nat) (hout : (S N).snk.captured.length < (S N).src.sent.length) :
    ∃ k, N ≤ k ∧ (S N).snk.captured.length < (S k).snk.captured.length := by
  refine Classical.byContradiction fun hno => ?_
  have hst : ∀ k, N ≤ k → (S k).snk.captured.length = (S N).snk.captured.length := by
    intro k hk
    have := (h.captured_mono N (k - N)).length_le
    rw [show N + (k - N) = k by omega] at this
    have : ¬ (S N).snk.captured.length < (S k).snk.captured.length := fun hh => hno ⟨k, hk, hh⟩
    omega
  have hsteps : ∀ k, N ≤ k → (S (k + 1)).snk.captured = (S k).snk.captured := by
    intro k hk
    exact ((h.captured_step k).eq_of_length (by rw [hst k hk, hst (k + 1) (by omega)])).symm
  -- no transfer at an edge
  have hedge : ∀ i, N ≤ i → NetEdge S sched i → ((S i).src.nvalid && (!c.hasReady || (S i).snk.nready)) = false := by
    intro i hi he
    obtain ⟨j, hj, hje⟩ := hf.edges (i + 1)
    rw [Bool.eq_false_iff]
    intro hx
    have := h.captures he hje (by omega) hx
    rw [hst i hi, hst j (by omega)] at this
    omega
  obtain ⟨i0, hi0, he0⟩ := hf.edges N
  -- a source about to run has nothing transferred
  have hJ : ∀ d, (S (i0 + d)).src.pc = .due → ((S (i0 + d)).src.valid && (!c.hasReady || (S (i0 + d)).snk.ready)) = false := by
    intro d
    induction d with
    | zero => intro hd; exact absurd hd (still_iff.1 he0.2.2.1).1
    | succ d ih =>
      intro hd
      rw [← Nat.add_assoc] at hd ⊢
      by_cases hd' : (S (i0 + d)).src.pc = .due
      · obtain ⟨e1, _, e3⟩ := h.signals (i0 + d) (.inl hd')
        rw [e1, e3]; exact ih hd'
      · have he := h.edge_of_due (i0 + d) (.inl ⟨hd', hd⟩)
        obtain ⟨e1, _, e3⟩ := h.signals (i0 + d) (.inr (.inr (by rw [he.1]; simp)))
        obtain ⟨b1, _, b3⟩ := (h.known (i0 + d)).inv.set he.2.1
        rw [e1, e3, b1, b3]
        exact hedge (i0 + d) (by omega) he
  -- the source always has something
  have run : ∀ d, (S (i0 + d)).src.pc = .due → _ := fun d hd =>
    run_idle (c := c) ((h.known (i0 + d)).inv.due hd).1 (hJ d hd)
  have hK : ∀ d, (S (i0 + d)).src.nvalid = true ∨ (S (i0 + d)).src.queue ≠ [] := by
    intro d
    induction d with
    | zero =>
      have hacc := (h.known i0).acc (still_iff.1 he0.2.2.1).1 (still_iff.1 he0.2.2.2).1
      cases hnv : (S i0).src.nvalid
      · right
        intro ht
        rw [Nat.add_zero] at ht
        rw [hnv, ht] at hacc
        simp only [Bool.false_eq_true, if_false, List.append_nil] at hacc
        have h1 := congrArg List.length hacc
        rw [hst i0 hi0] at h1
        have h2 := (h.sent_mono N (i0 - N)).length_le
        rw [show N + (i0 - N) = i0 by omega] at h2
        omega
      · exact .inl rfl
    | succ d ih =>
      rw [← Nat.add_assoc]
      rcases h.src (i0 + d) with ⟨_, hd, e⟩ | k
      · obtain ⟨r1, r2⟩ := run d hd
        rw [e]
        rcases ih with ih | ih
        · exact .inl (r1 ih).1
        · cases hnv : (S (i0 + d)).src.nvalid
          · rcases r2 hnv with ⟨r2, _⟩ | r2
            · right; rw [r2]; exact ih
            · exact .inl r2
          · exact .inl (r1 hnv).1
      · rcases ih with ih | ih
        · left; rw [k.nvalid]; exact ih
        · right
          intro hn
          have := k.queue
          rw [hn] at this
          exact ih (List.prefix_nil.1 this)
  -- an item once presented stays
  have hV : ∀ d, (S (i0 + d)).src.nvalid = true → ∀ m, (S (i0 + d + m)).src.nvalid = true := by
    intro d hd m
    induction m with
    | zero => exact hd
    | succ m ih =>
      rw [← Nat.add_assoc]
      rcases h.src (i0 + d + m) with ⟨_, hdue, e⟩ | k
      · rw [e]
        rw [Nat.add_assoc] at hdue ih ⊢
        exact ((run (d + m) hdue).1 ih).1
      · rw [k.nvalid]; exact ih
  have hex : ∃ m, (S (i0 + m)).src.nvalid = true := by
    refine Classical.byContradiction fun hnone => ?_
    have hall : ∀ m, (S (i0 + m)).src.nvalid = false := fun m => by
      rw [Bool.eq_false_iff]; exact fun hh => hnone ⟨m, hh⟩
    obtain ⟨k, hk, ht⟩ := hf.src i0
    obtain ⟨m, rfl⟩ := Nat.exists_eq_add_of_le hk
    have hqueue := (hK m).resolve_left (by rw [hall m]; simp)
    rcases ht with ht | ⟨t1, t2, t3⟩
    · exact hqueue ((h.known (i0 + m)).inv.src.sleep ht)
    · have hnext := hall (m + 1)
      have e : (S (i0 + m + 1)).src = (S (i0 + m)).src.run c.src (S (i0 + m)).snk.ready := by
        rw [h.step, t1]
        simp only [Net.step]
        rw [if_pos t2]
      rw [← Nat.add_assoc, e] at hnext
      rcases (run m t2).2 (hall m) with ⟨_, _, r | r, _⟩ | r
      · exact hqueue r
      · rw [t3] at r; cases r
      · rw [r] at hnext; cases hnext
  obtain ⟨k1, hk1⟩ := hex
  have hval : ∀ k, i0 + k1 ≤ k → (S k).src.nvalid = true := by
    intro k hk
    have := hV k1 hk1 (k - (i0 + k1))
    rwa [show i0 + k1 + (k - (i0 + k1)) = k by omega] at this
  -- the sink
  cases hrd : c.hasReady with
  | false =>
    obtain ⟨i, hi, he⟩ := hf.edges (i0 + k1)
    have := hedge i (by omega) he
    rw [hval i hi, hrd] at this
    cases this
  | true =>
    have hrds : c.snk.hasReady = true := hrd
    obtain ⟨k2, hk2, hroom⟩ := hf.room hrd (i0 + k1)
    have hqs : ∀ m, (S (k2 + m)).snk.queue <:+ (S k2).snk.queue := by
      intro m
      induction m with
      | zero => exact List.suffix_refl _
      | succ m ih =>
        rw [← Nat.add_assoc]
        refine List.IsSuffix.trans ?_ ih
        have hc := hsteps (k2 + m) (by omega)
        rcases h.snk (k2 + m) with ⟨_, _, e⟩ | k
        · rw [e] at hc ⊢
          rw [snk_run_queue _ _ _ _ hc]
          exact List.suffix_refl _
        · exact k.queue
    have hnf : ∀ k, k2 ≤ k → isFull c.snk.limit (S k).snk.queue.length = false := by
      intro k hk
      have := (hqs (k - k2)).length_le
      rw [show k2 + (k - k2) = k by omega] at this
      rw [not_full_iff]
      intro hl
      have := hroom hl
      show _ < c.snkLimit
      omega
    have hlow : ∀ i, k2 ≤ i → NetEdge S sched i → (S i).snk.nready = false := by
      intro i hi he
      have := hedge i (by omega) he
      rw [hval i (by omega), hrd] at this
      simpa using this
    obtain ⟨i, hi, he, hsam⟩ := hf.snk hrd k2
    have hslow := hlow i hi he
    have hpc : (S i).snk.pc ≠ .asleep := by
      intro hh
      have h1 := (h.known i).live hh hrds
      have h2 := (h.known i).slept hh hrds
      rw [hsam] at h2
      rw [← h2, hnf i hi, hslow] at h1
      cases h1
    obtain ⟨j, hj, hje, hjno⟩ := next_edge hf.edges (i + 1)
    obtain ⟨r, r1, r2, e, hd⟩ := h.snk_turn he hje (by omega) hpc
    have hs := h.sample_hold he.1 hd r1
    rw [hsam] at hs
    have hn : (S (r + 1)).snk.nready = true := by
      have h1 := run_nready (c := c.snk) hrds (s := (S r).snk) (v := (S r).src.valid) (d := (S r).src.data) hs
      rw [← e, hnf (r + 1) (by omega)] at h1
      exact h1
    have hkeep : ∀ m, r + 1 + m ≤ j → (S (r + 1 + m)).snk.nready = true ∧ (S (r + 1 + m)).snk.pc ≠ .due := by
      intro m
      induction m with
      | zero =>
        intro _
        refine ⟨hn, ?_⟩
        rw [Nat.add_zero, e]
        exact finish_due
      | succ m ih =>
        intro hm
        obtain ⟨i1, i2⟩ := ih (by omega)
        rw [← Nat.add_assoc]
        rcases h.snk (r + 1 + m) with ⟨_, hdue, _⟩ | k
        · exact absurd hdue i2
        · refine ⟨k.nready.trans i1, fun hh => ?_⟩
          exact hjno (r + 1 + m) (by omega) (by omega) (h.edge_of_due (r + 1 + m) (.inr ⟨i2, hh⟩))
    have hfin := (hkeep (j - (r + 1)) (by omega)).1
    rw [show r + 1 + (j - (r + 1)) = j by omega] at hfin
    rw [hlow j (by omega) hje] at hfin
    cases hfin

/-- Everything sent by some instant is captured in the end. -/
theorem NetLive.all_captured (hf : NetFlows c S sched) (n : Nat) : ∃ N, n ≤ N ∧ (S n).src.sent.length ≤ (S N).snk.captured.length := by
  refine Classical.byContradiction fun hno => ?_
  have key : ∀ L, ∃ k, n ≤ k ∧ L ≤ (S k).snk.captured.length := by
    intro L
    induction L with
    | zero => exact ⟨n, Nat.le_refl _, Nat.zero_le _⟩
    | succ L ih =>
      obtain ⟨k, hk, hL⟩ := ih
      have h1 : ¬ (S n).src.sent.length ≤ (S k).snk.captured.length := fun hh => hno ⟨k, hk, hh⟩
      have h2 := (h.sent_mono n (k - n)).length_le
      rw [show n + (k - n) = k by omega] at h2
      obtain ⟨k', hk', hlt⟩ := h.goes_on hf k (by omega)
      exact ⟨k', by omega, by omega⟩
  obtain ⟨k, hk, hL⟩ := key (S n).src.sent.length
  exact hno ⟨k, hk, hL⟩

theorem NetLive.captured_sent (n : Nat) : (S n).snk.captured <+: (S n).src.sent := by
  have := (h.known n).inv.acc
  simp only [Acc, if_true] at this
  rw [this, List.append_assoc, List.append_assoc]
  exact List.prefix_append _ _

/-! ## Rest -/

/-- Once everything sent has been captured, and while nothing more is sent, the source comes to rest. -/
theorem NetLive.drains (hf : NetFlows c S sched) (n : Nat) (hsent : ∀ k, n ≤ k → (S k).src.sent = (S n).src.sent) :
    ∃ N, n ≤ N ∧ ∀ k, N ≤ k → (S k).src.pc = .asleep ∧ (S k).src.active = false ∧ (S k).src.queue = [] := by
  obtain ⟨N0, hN0, hall⟩ := h.all_captured hf n
  obtain ⟨i0, hi0, he0⟩ := hf.edges N0
  have hstart : (S i0).src.nvalid = false ∧ (S i0).src.queue = [] := by
    have hacc := congrArg List.length ((h.known i0).acc (still_iff.1 he0.2.2.1).1 (still_iff.1 he0.2.2.2).1)
    rw [hsent i0 (by omega)] at hacc
    have h2 := (h.captured_mono N0 (i0 - N0)).length_le
    rw [show N0 + (i0 - N0) = i0 by omega] at h2
    simp only [List.length_append] at hacc
    refine ⟨?_, List.length_eq_zero_iff.1 (by omega)⟩
    cases hh : (S i0).src.nvalid
    · rfl
    · rw [hh, if_pos rfl, (h.known i0).data hh] at hacc; omega
  have qk : ∀ d, SrcKeep (S (i0 + d)).src (S (i0 + d + 1)).src → (S (i0 + d + 1)).src.queue = (S (i0 + d)).src.queue := by
    intro d k
    have hlen := k.len
    rw [hsent (i0 + d) (by omega), hsent (i0 + d + 1) (by omega)] at hlen
    exact (k.queue.eq_of_length (by omega)).symm
  have run : ∀ d, (S (i0 + d)).src.nvalid = false → (S (i0 + d)).src.queue = [] → (S (i0 + d)).src.pc = .due →
      ((S (i0 + d)).src.run c.src (S (i0 + d)).snk.ready).nvalid = false ∧
      ((S (i0 + d)).src.run c.src (S (i0 + d)).snk.ready).queue = [] ∧
      ((S (i0 + d)).src.run c.src (S (i0 + d)).snk.ready).pc = .asleep := by
    intro d h1 h2 hd
    have hv := ((h.known (i0 + d)).inv.due hd).1
    rw [h1] at hv
    unfold Src.run
    simp [h2, hv, NetCfg.src]
  have hall : ∀ d, (S (i0 + d)).src.nvalid = false ∧ (S (i0 + d)).src.queue = [] := by
    intro d
    induction d with
    | zero => exact hstart
    | succ d ih =>
      rw [← Nat.add_assoc]
      rcases h.src (i0 + d) with ⟨_, hd, e⟩ | k
      · obtain ⟨r1, r2, _⟩ := run d ih.1 ih.2 hd
        rw [e]; exact ⟨r1, r2⟩
      · exact ⟨k.nvalid.trans ih.1, (qk d k).trans ih.2⟩
  have stays : ∀ d, (S (i0 + d)).src.pc = .asleep → ∀ m, (S (i0 + d + m)).src.pc = .asleep := by
    intro d hd m
    induction m with
    | zero => exact hd
    | succ m ih =>
      rw [← Nat.add_assoc]
      rcases h.src (i0 + d + m) with ⟨_, hdue, _⟩ | k
      · rw [ih] at hdue; cases hdue
      · refine k.rests ih ?_
        rw [hsent (i0 + d + m + 1) (by omega), hsent (i0 + d + m) (by omega)]
  have hex : ∃ m, (S (i0 + m)).src.pc = .asleep := by
    obtain ⟨j, hj, hje⟩ := hf.edges (i0 + 1)
    by_cases hs : (S i0).src.pc = .asleep
    · exact ⟨0, hs⟩
    · obtain ⟨r, r1, _, hd, e⟩ := h.src_turn he0 hje (by omega) hs
      obtain ⟨y, rfl⟩ := Nat.exists_eq_add_of_lt r1
      rw [show i0 + y + 1 = i0 + (y + 1) by omega] at hd e
      exact ⟨y + 1 + 1, by rw [← Nat.add_assoc, e]; exact (run _ (hall _).1 (hall _).2 hd).2.2⟩
  obtain ⟨m, hm⟩ := hex
  refine ⟨i0 + m, by omega, fun k hk => ?_⟩
  have h1 := stays m hm (k - (i0 + m))
  have h2 := (hall (k - i0)).2
  rw [show i0 + m + (k - (i0 + m)) = k by omega] at h1
  rw [show i0 + (k - i0) = k by omega] at h2
  exact ⟨h1, (h.known k).rest h1, h2⟩

end

/-! ## Blocked calls -/

theorem run_waiters (c : Cfg) (s : Src α) (r : Bool) : (s.run c r).waiters.map (·.1) = s.waiters.map (·.1) := by
  unfold Src.run
  simp only
  repeat' split
  all_goals simp [Src.setDeq, Function.comp_def]

/-- What an event does to the blocked calls, if `send` and `send_nowait` are not called. -/
inductive SendStep (c : Cfg) (e : NetEv α) (s t : Src α) : Prop
  | same (h1 : t.waiters.map (·.1) = s.waiters.map (·.1)) (h2 : t.sent = s.sent)
      (h3 : ∀ i x, e = .resume i → s.waiters[i]? = some (x, true) → isFull c.limit s.queue.length = true)
  | go (i : Nat) (x : α) (h1 : s.waiters[i]? = some (x, true)) (h2 : t.waiters = s.waiters.eraseIdx i)
      (h3 : t.sent = s.sent ++ [x])

theorem step_send (c : NetCfg) (s : Net α) (e : NetEv α) (hcl : e.clean = true) (hs : e.sends = false) :
    SendStep c.src e s.src (s.step c e).src := by
  have no : ∀ {t : Src α}, t.waiters = s.src.waiters → t.sent = s.src.sent → (∀ i, e ≠ .resume i) → SendStep c.src e s.src t :=
    fun a b d => .same (by rw [a]) b fun i _ hi _ => absurd hi (d i)
  unfold Net.step
  cases e with
  | send f => cases hs
  | sendNowait f => cases hs
  | srcClear => cases hcl
  | snkClear => cases hcl
  | tick => simp only; split <;> exact no rfl rfl (by simp)
  | srcRun =>
    simp only
    split
    · exact .same (run_waiters _ _ _) (srun_facts _ _).2.1 fun _ _ hh => by simp at hh
    · exact no rfl rfl (by simp)
  | srcWake => simp only; split <;> exact no rfl rfl (by simp)
  | snkRun => simp only; split <;> exact no rfl rfl (by simp)
  | snkWake => simp only; split <;> exact no rfl rfl (by simp)
  | snkSpurious => simp only; split <;> exact no rfl rfl (by simp)
  | commit => simp only; split <;> exact no rfl rfl (by simp)
  | srcPause v => exact no rfl rfl (by simp)
  | recv => exact no rfl rfl (by simp)
  | snkPause v => exact no rfl rfl (by simp)
  | snkReset v => exact no rfl rfl (by simp)
  | srcReset v =>
    cases v
    · simp only [Src.reset, Bool.false_eq_true, if_false]
      split <;> exact no rfl rfl (by simp)
    · cases hcl
  | resume i =>
    simp only [Src.resume]
    split
    · rename_i x hw
      split
      · rename_i hfull
        refine .same ?_ rfl fun _ _ _ _ => hfull
        simp only [List.map_set]
        apply List.ext_getElem?
        intro j
        rw [List.getElem?_set, List.getElem?_map]
        split
        · rename_i hj
          subst hj
          rw [hw, List.length_map, if_pos (List.getElem?_eq_some_iff.1 hw).1]
          rfl
        · rfl
      · exact .go i x hw rfl rfl
    · rename_i h1
      exact .same rfl rfl fun j x hj hw => by
        cases hj
        exact absurd hw (h1 x)

theorem SendStep.length {c : Cfg} {e : NetEv α} {s t : Src α} (h : SendStep c e s t) :
    t.waiters.length < s.waiters.length ∨ (t.waiters.length = s.waiters.length ∧ t.sent = s.sent) := by
  cases h with
  | same h1 h2 _ => exact .inr ⟨by simpa using congrArg List.length h1, h2⟩
  | go i x h1 h2 h3 =>
    left
    have := (List.getElem?_eq_some_iff.1 h1).1
    rw [h2, List.length_eraseIdx, if_pos this]
    omega

theorem erase_perm : ∀ {l : List (α × Bool)} {i : Nat} (hi : i < l.length), List.Perm (l[i] :: l.eraseIdx i) l
  | _ :: _, 0, _ => .refl _
  | a :: l, i + 1, hi => by
    have hi' : i < l.length := by simpa using hi
    simp only [List.getElem_cons_succ, List.eraseIdx_cons_succ]
    exact (List.Perm.swap _ _ _).trans (.cons _ (erase_perm hi'))

theorem SendStep.perm {c : Cfg} {e : NetEv α} {s t : Src α} (h : SendStep c e s t) : List.Perm (t.sent ++ t.blocked) (s.sent ++ s.blocked) := by
  cases h with
  | same h1 h2 _ => rw [h2, Src.blocked, Src.blocked, h1]
  | go i x h1 h2 h3 =>
    rw [h3, List.append_assoc]
    refine List.Perm.append_left _ ?_
    obtain ⟨hi, hw⟩ := List.getElem?_eq_some_iff.1 h1
    have hp : List.Perm ((x, true) :: s.waiters.eraseIdx i) s.waiters := by
      rw [← hw]
      exact erase_perm hi
    rw [Src.blocked, h2]
    exact hp.map (·.1)

section

variable {c : NetCfg} {S : Nat → Net α} {sched : Nat → NetEv α} (h : NetLive c S sched) (hq : ∀ k, (sched k).sends = false)
include h hq

theorem NetLive.send (k : Nat) : SendStep c.src (sched k) (S k).src (S (k + 1)).src := by
  rw [h.step k]
  exact step_send c (S k) (sched k) (h.clean k) (hq k)

theorem NetLive.send_perm (k : Nat) : List.Perm ((S k).src.sent ++ (S k).src.blocked) ((S 0).src.sent ++ (S 0).src.blocked) := by
  induction k with
  | zero => exact .refl _
  | succ k ih => exact (h.send hq k).perm.trans ih

theorem NetLive.waiters_mono (n d : Nat) : (S (n + d)).src.waiters.length ≤ (S n).src.waiters.length := by
  induction d with
  | zero => exact Nat.le_refl _
  | succ d ih =>
    have := (h.send hq (n + d)).length
    rw [← Nat.add_assoc]
    omega

/-- No call blocks for ever. -/
theorem NetLive.unblocked (hf : NetFlows c S sched) (hr : ∀ n, ∃ k, n ≤ k ∧ NetResume S sched k) : ∃ N, ∀ k, N ≤ k → (S k).src.waiters = [] := by
  have key : ∀ m n, (S n).src.waiters.length ≤ m → ∃ N, (S N).src.waiters = [] := by
    intro m
    induction m with
    | zero => exact fun n hn => ⟨n, List.length_eq_zero_iff.1 (by omega)⟩
    | succ m ih =>
      intro n hn
      refine Classical.byContradiction fun hno => ?_
      have hge : ∀ k, m < (S k).src.waiters.length := fun k => by
        refine Classical.byContradiction fun hk => ?_
        exact hno (ih k (by omega))
      have hconst : ∀ k, n ≤ k → (S k).src.waiters.length = m + 1 := fun k hk => by
        obtain ⟨d, rfl⟩ := Nat.exists_eq_add_of_le hk
        have := h.waiters_mono hq n d
        have := hge (n + d)
        omega
      have hsent : ∀ k, n ≤ k → (S k).src.sent = (S n).src.sent := by
        intro k hk
        obtain ⟨d, rfl⟩ := Nat.exists_eq_add_of_le hk
        clear hk
        induction d with
        | zero => rfl
        | succ d ihd =>
          rw [← ihd, ← Nat.add_assoc]
          have h1 := hconst (n + d) (by omega)
          have h2 := hconst (n + d + 1) (by omega)
          rcases (h.send hq (n + d)).length with h3 | h3
          · omega
          · exact h3.2
      obtain ⟨N, hN, hd⟩ := h.drains hf n hsent
      obtain ⟨k, hk, hrk⟩ := hr N
      obtain ⟨_, _, hqu⟩ := hd k hk
      have hi := (h.known k).inv.src
      have hnf : isFull c.src.limit (S k).src.queue.length = false := by
        rw [not_full_iff, hqu]
        intro hh
        simpa using hh
      have hwok : ∀ w ∈ (S k).src.waiters, w.2 = true := by
        rintro ⟨f, b⟩ hw
        cases b
        · have := hi.wait f hw
          rw [hnf] at this
          cases this
        · rfl
      have hlen := hconst k (by omega)
      rcases hrk with hno' | ⟨i, f, h1, h2⟩
      · obtain ⟨w, hw⟩ : ∃ w, w ∈ (S k).src.waiters := List.exists_mem_of_length_pos (by omega)
        have a := hwok w hw
        have b := hno' w hw
        rw [a] at b
        cases b
      · cases h.send hq k with
        | same _ _ h3 =>
          have := h3 i f h1 h2
          rw [hnf] at this
          cases this
        | go j g h4 h5 h6 =>
          have := (List.getElem?_eq_some_iff.1 h4).1
          have h7 := hconst (k + 1) (by omega)
          rw [h5, List.length_eraseIdx, if_pos this] at h7
          omega
  obtain ⟨N, hN⟩ := key _ 0 (Nat.le_refl _)
  refine ⟨N, fun k hk => ?_⟩
  obtain ⟨d, rfl⟩ := Nat.exists_eq_add_of_le hk
  have := h.waiters_mono hq N d
  rw [hN] at this
  exact List.length_eq_zero_iff.1 (by simpa using this)

theorem NetLive.sent_const {N : Nat} (hN : ∀ k, N ≤ k → (S k).src.waiters = []) : ∀ k, N ≤ k → (S k).src.sent = (S N).src.sent := by
  intro k hk
  obtain ⟨d, rfl⟩ := Nat.exists_eq_add_of_le hk
  clear hk
  induction d with
  | zero => rfl
  | succ d ih =>
    rw [← ih, ← Nat.add_assoc]
    rcases (h.send hq (N + d)).length with h3 | h3
    · rw [hN (N + d) (by omega)] at h3; simp at h3
    · exact h3.2

end

end Verif.Stream
