import Verif.Props.LiteClockProgress

/-!
# C99: an example with pauses for ever

A schedule in which the `pause` of the sink of the W channel is set anew after every clock edge: in one clock cycle out of four it is
paused.
-/

namespace Verif.LiteOps

open Verif.AxiSys (Inner Chan Cycles)
open Verif.Stream (Net NetEv Src Snk)

def ClkEv.isTick {χ ρ χ' ρ' : Type} : ClkEv χ ρ χ' ρ' → Bool
  | .tick => true
  | _ => false

/-- The system, how far the round robin is, the number of clock edges, and whether `pause` is about to be set. -/
structure Drv where
  s : RamClk
  n : Nat := 0
  q : Nat := 0
  p : Bool := false

namespace Drv

def ev (d : Drv) : RamClkEv := if d.p then .chan .w (.snkPause (d.q % 4 == 1)) else clkRobin d.n

def edge (d : Drv) : Bool := !d.p && d.ev.isTick && LiteOps.ticks d.s

def next (d : Drv) : Drv :=
  { s := d.s.step xferHalves (Word.slaveWrite ramTarget exC.lanes true) (Word.slaveRead ramTarget exC.lanes) d.ev
    n := if d.p then d.n else d.n + 1
    q := if d.edge then d.q + 1 else d.q
    p := d.edge }

/-- Only the sink of the W channel is ever paused, and not in three clock cycles out of four. -/
def Ok (d : Drv) : Prop := ∃ b, d.s.flags = [(false, false), (false, b), (false, false), (false, false), (false, false)] ∧
  (d.q % 4 ≠ 1 → ¬ (d.q % 4 = 2 ∧ d.p = true) → b = false)

theorem Ok.next {d : Drv} (h : Ok d) : Ok d.next := by
  obtain ⟨b, hf, hb⟩ := h
  cases hp : d.p with
  | true =>
    refine ⟨d.q % 4 == 1, ?_, ?_⟩
    · have e : d.ev = .chan .w (.snkPause (d.q % 4 == 1)) := by simp [ev, hp]
      simp only [Clk.flags, AxiSys.flags, List.cons.injEq, Prod.mk.injEq, and_true] at hf ⊢
      obtain ⟨h1, h2, h3, h4, h5⟩ := hf
      simp only [Drv.next, e, Clk.step, Clk.inner, Inner.step, Net.step]
      refine ⟨h1, ⟨h2.1, ?_⟩, h3, h4, h5⟩
      unfold Snk.setPause
      split <;> rfl
    · simp [Drv.next, edge, hp]
  | false =>
    refine ⟨b, ?_, ?_⟩
    · have e : d.ev = clkRobin d.n := by simp [ev, hp]
      simp only [Drv.next, e]
      rw [Clk.step_flags _ _ (clkRobin_progress _)]
      exact hf
    · simp only [Drv.next]
      cases d.edge
      · simp only [Bool.false_eq_true, if_false, and_false, not_false_eq_true, true_implies]
        intro h1
        exact hb h1 (by simp [hp])
      · simp only [if_true, and_true]
        intro h1 h2
        exact hb (by omega) (by simp [hp])

end Drv

def drv : Nat → Drv
  | 0 => { s := exAfter [] }
  | k + 1 => (drv k).next

def exPauses (k : Nat) : RamClkEv := (drv k).ev

def exS (k : Nat) : RamClk := exAfter ((List.range k).map exPauses)

theorem drv_s (k : Nat) : exS k = (drv k).s := by
  unfold exS
  induction k with
  | zero => simp [drv]
  | succ k ih =>
    unfold exAfter
    rw [List.range_succ, List.map_append, ← List.append_assoc]
    refine (Clk.run_append xferHalves (Word.slaveWrite ramTarget exC.lanes true) (Word.slaveRead ramTarget exC.lanes) exM _ _).trans ?_
    unfold exAfter at ih
    rw [ih]
    rfl

theorem drv_ok (k : Nat) : (drv k).Ok := by
  induction k with
  | zero =>
    refine ⟨false, ?_, fun _ _ => rfl⟩
    have := unpaused_iff.1 exBlocked_unpaused
    simp only [drv]
    exact this
  | succ k ih => exact ih.next

theorem exPauses_quiet (k : Nat) : (exPauses k).quiet = true := by
  unfold exPauses Drv.ev
  split
  · rfl
  · exact ClkEv.quiet_of (clkRobin_progress _)

/-- The round robin gets everywhere. -/
theorem drv_reaches (m : Nat) : ∃ k, m ≤ k ∧ (drv k).n = m ∧ (drv k).p = false := by
  induction m with
  | zero => exact ⟨0, Nat.le_refl _, rfl, rfl⟩
  | succ m ih =>
    obtain ⟨k, hk, h1, h2⟩ := ih
    have h3 : (drv (k + 1)).n = m + 1 := by simp [drv, Drv.next, h1, h2]
    cases h4 : (drv (k + 1)).p with
    | false => exact ⟨k + 1, by omega, h3, h4⟩
    | true => exact ⟨k + 2, by omega, by simp [drv, Drv.next, h2, h1] at h3 h4 ⊢; simp [h4], by
        have : (drv (k + 2)).p = (drv (k + 1)).edge := rfl
        rw [this]; simp [Drv.edge, h4]⟩

theorem exPauses_fair : ClkFair xferHalves (Word.slaveWrite ramTarget exC.lanes true) (Word.slaveRead ramTarget exC.lanes) exS exPauses := by
  intro e he hs n
  cases hn : e.never with
  | true => exact ⟨n, Nat.le_refl _, .inr (ClkEv.never_step _ _ _ _ e hn)⟩
  | false =>
  obtain ⟨m, hm, h1⟩ := clkRobin_all e he hs hn n
  obtain ⟨k, hk, h2, h3⟩ := drv_reaches m
  refine ⟨k, by omega, .inl ?_⟩
  simp [exPauses, Drv.ev, h2, h3, h1]

theorem exS_succ (k : Nat) : exS (k + 1) = (exS k).step xferHalves (Word.slaveWrite ramTarget exC.lanes true) (Word.slaveRead ramTarget exC.lanes) (exPauses k) := by
  rw [drv_s, drv_s]
  rfl

theorem drv_edge {k : Nat} : (drv k).edge = true ↔ Edge exS exPauses k := by
  constructor
  · intro h
    simp only [Drv.edge, Bool.and_eq_true] at h
    have h1 : exPauses k = .tick := by
      have := h.1.2
      unfold exPauses
      cases hh : (drv k).ev <;> rw [hh] at this <;> first | rfl | cases this
    refine ⟨h1, ?_⟩
    rw [exS_succ, h1, drv_s]
    simp only [Clk.step]
    rw [if_pos (by exact h.2)]
    exact clk_tick_ne h.2
  · intro h
    have h2 := (clk_edge_ticks exS_succ h).1
    obtain ⟨h1, _⟩ := h
    have h3 : (drv k).p = false := by
      cases hp : (drv k).p with
      | false => rfl
      | true => simp [exPauses, Drv.ev, hp] at h1
    rw [drv_s] at h2
    unfold exPauses at h1
    simp [Drv.edge, h3, h1, h2, ClkEv.isTick]

theorem exPauses_edges (n : Nat) : ∃ k, n ≤ k ∧ Edge exS exPauses k := by
  refine clkEdges xferHalves (Word.slaveWrite ramTarget exC.lanes true) (Word.slaveRead ramTarget exC.lanes) exM xferHalves_join exBlocked exPauses exPauses_quiet (exPauses_fair.on _) (fun m hm => ?_) n
  refine ⟨m + 1, fun k hk => ?_⟩
  obtain ⟨d, rfl⟩ := Nat.exists_eq_add_of_le hk
  have h1 : (drv (m + 1 + d)).p = false := by
    have e : m + 1 + d = (m + d) + 1 := by omega
    rw [e]
    show (drv (m + d)).edge = false
    have := hm (m + d) (by omega)
    cases h : (drv (m + d)).edge with
    | false => rfl
    | true => exact absurd (drv_edge.1 h) this
  simp only [exPauses, Drv.ev, h1, Bool.false_eq_true, if_false]
  exact clkRobin_progress _

theorem drv_mono (k d : Nat) : (drv k).q ≤ (drv (k + d)).q := by
  induction d with
  | zero => exact Nat.le_refl _
  | succ d ih =>
    refine Nat.le_trans ih ?_
    show _ ≤ (drv (k + d)).next.q
    simp only [Drv.next]
    split <;> omega

/-- Every number of clock edges is reached. -/
theorem drv_counts (Q : Nat) : ∃ k, (drv k).q = Q ∧ Edge exS exPauses k := by
  have first : ∀ d k, Edge exS exPauses (k + d) → ∃ k', (drv k').q = (drv k).q ∧ Edge exS exPauses k' := by
    intro d
    induction d with
    | zero => exact fun k h => ⟨k, rfl, h⟩
    | succ d ih =>
      intro k h
      by_cases hk : Edge exS exPauses k
      · exact ⟨k, rfl, hk⟩
      · obtain ⟨k', h1, h2⟩ := ih (k + 1) (by rw [show k + 1 + d = k + (d + 1) by omega]; exact h)
        refine ⟨k', ?_, h2⟩
        rw [h1]
        show (drv k).next.q = _
        have : (drv k).edge ≠ true := fun hh => hk (drv_edge.1 hh)
        simp [Drv.next, this]
  have from_ : ∀ k, ∃ k', (drv k').q = (drv k).q ∧ Edge exS exPauses k' := by
    intro k
    obtain ⟨j, hj, h⟩ := exPauses_edges k
    obtain ⟨d, rfl⟩ := Nat.exists_eq_add_of_le hj
    exact first d k h
  induction Q with
  | zero => exact from_ 0
  | succ Q ih =>
    obtain ⟨k, h1, h2⟩ := ih
    obtain ⟨k', h3, h4⟩ := from_ (k + 1)
    refine ⟨k', ?_, h4⟩
    rw [h3]
    show (drv k).next.q = _
    simp [Drv.next, drv_edge.2 h2, h1]

/-- The sink of the W channel is paused in infinitely many clock cycles. -/
theorem exPauses_pauses (n : Nat) : ∃ k, n ≤ k ∧ (exS k).w.w.snk.pause = true := by
  obtain ⟨k, h1, h2⟩ := drv_counts (4 * n)
  have hk : n ≤ k := by
    have : ∀ k, (drv k).q ≤ k := by
      intro k
      induction k with
      | zero => exact Nat.le_refl _
      | succ k ih =>
        show (drv k).next.q ≤ _
        simp only [Drv.next]
        split <;> omega
    have := this k
    omega
  refine ⟨k + 2, by omega, ?_⟩
  have e := drv_edge.2 h2
  have h3 : (drv (k + 1)).p = true := e
  have h4 : (drv (k + 1)).q = 4 * n + 1 := by
    show (drv k).next.q = _
    simp [Drv.next, e, h1]
  rw [exS_succ]
  have e2 : exPauses (k + 1) = .chan .w (.snkPause true) := by
    simp only [exPauses, Drv.ev, h3, h4, if_true]
    have : (4 * n + 1) % 4 = 1 := by omega
    rw [this]; rfl
  rw [e2]
  simp only [Clk.step, Clk.inner, Inner.step, Net.step]
  unfold Snk.setPause
  split <;> rfl

theorem exPauses_cycles : Cycles (Edge exS exPauses) (fun n => (exS n).w.aw) ∧ Cycles (Edge exS exPauses) (fun n => (exS n).w.w) ∧
    Cycles (Edge exS exPauses) (fun n => (exS n).w.b) ∧ Cycles (Edge exS exPauses) (fun n => (exS n).r.ar) ∧
    Cycles (Edge exS exPauses) (fun n => (exS n).r.r) := by
  have cyc : ∀ P : Nat → Prop, (∀ m, P m) → ∀ n, ∃ i j, n ≤ i ∧ i < j ∧ Edge exS exPauses i ∧ Edge exS exPauses j ∧
      ∀ m, i < m → m ≤ j → P m := by
    intro P hP n
    obtain ⟨i, h1, h2⟩ := exPauses_edges n
    obtain ⟨j, h3, h4⟩ := exPauses_edges (i + 1)
    exact ⟨i, j, h1, by omega, h2, h4, fun m _ _ => hP m⟩
  have hfl : ∀ k, ∃ b, (exS k).flags = [(false, false), (false, b), (false, false), (false, false), (false, false)] := by
    intro k
    obtain ⟨b, h, _⟩ := drv_ok k
    exact ⟨b, by rw [drv_s]; exact h⟩
  simp only [Clk.flags, AxiSys.flags, List.cons.injEq, Prod.mk.injEq, and_true] at hfl
  refine ⟨⟨cyc _ fun m => ?_, cyc _ fun m => ?_⟩, ⟨cyc _ fun m => ?_, ?_⟩, ⟨cyc _ fun m => ?_, cyc _ fun m => ?_⟩,
    ⟨cyc _ fun m => ?_, cyc _ fun m => ?_⟩, ⟨cyc _ fun m => ?_, cyc _ fun m => ?_⟩⟩
  case refine_4 =>
    intro n
    obtain ⟨i, hi, ei⟩ := drv_counts (4 * n + 2)
    obtain ⟨j, hj, ej⟩ := drv_counts (4 * n + 3)
    have hq : ∀ k, (drv k).q ≤ k := by
      intro k
      induction k with
      | zero => exact Nat.le_refl _
      | succ k ih =>
        show (drv k).next.q ≤ _
        simp only [Drv.next]
        split <;> omega
    have hij : i < j := by
      refine Nat.lt_of_not_le fun hh => ?_
      obtain ⟨d, rfl⟩ := Nat.exists_eq_add_of_le hh
      have := drv_mono j d
      omega
    refine ⟨i, j, by have := hq i; omega, hij, ei, ej, ?_⟩
    intro m h1 h2
    have h3 : (drv (i + 1)).q = 4 * n + 3 := by
      show (drv i).next.q = _
      simp [Drv.next, drv_edge.2 ei, hi]
    have h4 : (drv m).q = 4 * n + 3 := by
      obtain ⟨d, rfl⟩ := Nat.exists_eq_add_of_le (show i + 1 ≤ m from h1)
      obtain ⟨d', rfl⟩ := Nat.exists_eq_add_of_le h2
      have := drv_mono (i + 1) d
      have := drv_mono (i + 1 + d) d'
      omega
    obtain ⟨b, h5, h6⟩ := drv_ok m
    rw [h6 (by omega) (by omega)] at h5
    simp only [Clk.flags, AxiSys.flags, List.cons.injEq, Prod.mk.injEq, and_true] at h5
    show (exS m).w.w.snk.pause = false
    rw [drv_s]
    exact h5.2.1.2
  all_goals
    obtain ⟨b, h1, h2, h3, h4, h5⟩ := hfl m
    simp [h1, h2, h3, h4, h5]

/-- All operations complete although the sink of the W channel is paused again and again. -/
example : ∃ N, ∀ n, N ≤ n → (∃ got, (exW0, some got) ∈ (exS n).w.m.results) ∧ (∃ got, (exW1, some got) ∈ (exS n).w.m.results) ∧
    ∃ got, (exR0, some got) ∈ (exS n).r.m.results := by
  obtain ⟨h1, h2, h3, h4, h5, h6, h7, _⟩ := exBlocked_state
  have h0 : (List.range 0).map exPauses = [] := by simp
  obtain ⟨c1, c2, c3, c4, c5⟩ := exPauses_cycles
  have := C99_completes_cycles xferHalves (Word.slaveWrite ramTarget exC.lanes true) (Word.slaveRead ramTarget exC.lanes) exM xferHalves_join exBlocked exPauses exPauses_quiet
    exPauses_fair c1 c2 c3 c4 c5 (by simp only [h0]; exact h1) (by simp only [h0]; exact h2)
  simp only [h0, h3, h4, h5, h6, h7] at this
  obtain ⟨N, hN⟩ := this
  refine ⟨N, fun n hn => ?_⟩
  obtain ⟨_, _, hw, hr⟩ := hN n hn
  exact ⟨hw exW0 (by simp) (by simp), hw exW1 (by simp) (by simp), hr exR0 (by simp) (by simp)⟩

end Verif.LiteOps
