import Verif.Proof.AxisDrain
import Verif.Proof.PauseGenTurn
import Verif.Proof.AxiClockLive

/-!
# An AXI stream sink that is paused once per clock cycle notices when it is released
-/

namespace Verif.Axis

open Verif.Stream (Pc wakeUp_ne wakeUp_off wakeUp_woken wakeUp_due wakeUp_edge tick_due tick_off tick_asleep tick_woken tick_edge
  still_iff foldl_inv foldl_inv')
open Verif.PauseGen (first_turn next_edge Drives Cyc)

/-! ## What an event does to the sink -/

/-- A reader that takes nothing out wakes nobody. -/
def Idler (s t : Rx) : Prop := t.queue.length ≤ s.queue.length ∧ (t.pc = s.pc ∨ t.queue.length < s.queue.length)

theorem Idler.popped {s t : Rx} (h : Idler s t) (r : Bool) (f : Frame) (rest : List Frame) (hq : t.queue = f :: rest) :
    Idler s (t.popped true r f rest) := by
  have hlen : (t.popped true r f rest).queue.length < t.queue.length := by
    rw [hq]
    show rest.length < _
    simp
  exact ⟨by have := h.1; omega, .inr (by have := h.1; omega)⟩

theorem recv_idler (s : Rx) (k : Bool) : Idler s (s.recv true k).2 :=
  recv_ind true (Idler s) (fun _ f rest hq h => h.popped false f rest hq) s k ⟨Nat.le_refl _, .inl rfl⟩

theorem read_idler (s : Rx) (n : Int) : Idler s (s.readNowait true n).2 :=
  read_ind true (Idler s) (fun _ f rest hq h => h.popped true f rest hq) (fun _ _ h => h) (fun _ _ h => h) s n ⟨Nat.le_refl _, .inl rfl⟩

/-- `tvalid` rises. -/
def Rises (s : Net) (e : NetEv) : Prop :=
  e = .commit ∧ (s.src.pc.still && s.snk.pc.still) = true ∧ s.src.nvalid = true ∧ s.src.valid = false

/-- The sink looks at `pause`, or it does not. -/
inductive SnkMove (s : Net) (e : NetEv) (t : Rx) : Prop
  | top (h1 : t.pauseSample = t.pause) (h2 : t.pause = s.snk.pause) (h3 : s.snk.pc = .woken ∨ (s.snk.pc = .asleep ∧ e = .snkSpurious))
  | keep (h1 : t.pauseSample = s.snk.pauseSample) (h2 : s.snk.pc = .woken → t.pc = .woken)
      (h3 : s.snk.pc = .asleep → t.pause ≠ s.snk.pause → t.pc = .woken)
      (h4 : s.snk.pc = .asleep → t.queue.length = s.snk.queue.length → t.pause = s.snk.pause → ¬ Rises s e ∧ s.snk.nready = false → t.pc = .asleep)

theorem SnkMove.refl (s : Net) (e : NetEv) : SnkMove s e s.snk :=
  .keep rfl id (fun _ h => absurd rfl h) fun h _ _ _ => h

theorem SnkMove.woke {s : Net} {e : NetEv} {t : Rx} (w : Woke s.snk t) (i : Idler s.snk t) : SnkMove s e t := by
  refine .keep w.sample (fun hh => ?_) (fun _ h => absurd w.pause h) fun hh hq _ _ => ?_
  · rcases w.pc with h | h
    · rw [h, hh]
    · rw [h, hh]; rfl
  · rcases i.2 with h | h
    · rw [h, hh]
    · omega

theorem snk_move_net (c : NetCfg) (s : Net) (e : NetEv) (hcl : e.clean = true) (hno : ¬ (e = .snkRun ∧ s.snk.pc = .due)) :
    SnkMove s e (s.step c e).snk := by
  by_cases hcr : s.src.crashed = true
  · unfold Net.step; rw [if_pos hcr]; exact .refl _ _
  rw [Bool.not_eq_true] at hcr
  unfold Net.step
  rw [if_neg (by simp [hcr])]
  cases e <;> simp only
  case tick =>
    split
    · rename_i h
      simp only [Bool.and_eq_true, still_iff] at h
      exact .keep rfl (fun hh => absurd hh h.2.2) (fun _ h => absurd rfl h) fun hh _ _ _ => tick_asleep.2 hh
    · exact .refl _ _
  case snkRun =>
    split
    · rename_i h; exact absurd ⟨rfl, h⟩ hno
    · exact .refl _ _
  case snkWake =>
    split
    · rename_i h; exact .top rfl rfl (.inl h)
    · exact .refl _ _
  case snkSpurious =>
    split
    · rename_i h; exact .top rfl rfl (.inr ⟨h, rfl⟩)
    · exact .refl _ _
  case commit =>
    split
    · rename_i hst
      split
      · rename_i hr
        simp only [Bool.or_eq_true, Bool.and_eq_true, Bool.not_eq_true'] at hr
        refine .keep rfl (fun hh => by simp [Rx.setWake, hh, Pc.wakeUp]) (fun _ h => absurd rfl h) fun _ _ _ h => ?_
        rcases hr with hr | hr
        · exact absurd ⟨rfl, hst, hr.1, hr.2⟩ h.1
        · rw [h.2] at hr; cases hr.1
      · exact .keep rfl id (fun _ h => absurd rfl h) fun hh _ _ _ => hh
    · exact .refl _ _
  case recv k => exact .woke (recv_woke _ _) (recv_idler _ _)
  case readNowait n => exact .woke (read_woke _ _) (read_idler _ _)
  case snkPause v =>
    unfold Rx.setPause
    simp only
    split
    · rename_i hv
      refine .keep rfl (fun hh => ?_) (fun hh _ => ?_) fun _ _ hp _ => absurd hp.symm hv
      · show s.snk.pc.wakeUp = .woken
        rw [hh]; rfl
      · show s.snk.pc.wakeUp = .woken
        rw [hh]; rfl
    · rename_i hv
      have : s.snk.pause = v := Classical.byContradiction fun hne => hv hne
      exact .keep rfl id (fun _ h => absurd this.symm h) fun hh _ _ _ => hh
  case snkClear => simp [NetEv.clean] at hcl
  case snkReset v =>
    cases v
    · unfold Rx.reset
      simp only [Bool.false_eq_true, if_false]
      split
      · rename_i h
        exact .keep rfl (fun _ => rfl) (fun _ h => absurd rfl h) fun hh _ _ _ => by rw [h] at hh; cases hh
      · exact .refl _ _
    · simp [NetEv.clean] at hcl
  all_goals first | exact .refl _ _ | (split <;> exact .refl _ _)

theorem run_sample {c : Cfg} (hr : c.hasReady = true) (s : Rx) (v : Bool) (b : Beat) :
    (s.runSnk c v b).pause = s.pause ∧ (s.runSnk c v b).pauseSample = s.pause ∧
    (s.pauseSample = true → (s.runSnk c v b).nready = false ∧ (s.pause = true → (s.runSnk c v b).pc = .asleep)) := by
  obtain ⟨p1, p2⟩ := capture_pause c s v b
  unfold Rx.runSnk
  generalize s.capture c v b = u at p1 p2
  unfold Rx.finish
  simp only [hr, if_true]
  split
  · rename_i hc
    simp only [Bool.and_eq_true, decide_eq_true_eq] at hc
    refine ⟨p1, by show u.pauseSample = _; rw [hc.2, p1], fun hs => ⟨?_, fun _ => rfl⟩⟩
    rw [p2, hs]
    simp
  · rename_i hc
    refine ⟨p1, p1, fun hs => ⟨?_, fun hp => absurd ?_ hc⟩⟩
    · simp only [Rx.top]
      rw [p2, hs]
      simp
    · rw [p1, p2, hs, hp]
      simp

theorem run_queue_le (c : Cfg) (s : Rx) (v : Bool) (b : Beat) : (s.runSnk c v b).queue.length ≤ s.queue.length + 1 := by
  unfold Rx.runSnk
  rw [(finish_same c _ v).1]
  unfold Rx.capture
  split
  · unfold Rx.collect
    simp only
    split
    · simp
    · simp
  · simp

/-! ## The sink notices -/

section

variable {c : NetCfg} {S : Nat → Net} {sched : Nat → NetEv} (h : NetLive c S sched)
include h

theorem NetLive.move (n : Nat) (hno : ¬ (sched n = .snkRun ∧ (S n).snk.pc = .due)) : SnkMove (S n) (sched n) (S (n + 1)).snk := by
  rw [h.step n]
  exact snk_move_net c (S n) (sched n) (h.clean n) hno

/-- The sink has seen that it is paused, and is about to run after an edge or sleeps. -/
def Doze (s : Rx) : Prop := (s.pc = .due ∨ s.pc = .asleep) ∧ s.pauseSample = true

/-- The sink is about to look at `pause`, or knows that it is not paused. -/
def Alert (s : Rx) : Prop := s.pc = .due ∨ s.pc = .woken ∨ s.pauseSample = false

theorem NetLive.alert (hr : c.bus.hasReady = true) (n : Nat) (ha : Alert (S n).snk) (hp : (S (n + 1)).snk.pause = false) :
    Alert (S (n + 1)).snk := by
  rcases h.snk n with ⟨_, _, e⟩ | k
  · right; right
    obtain ⟨r1, r2, _⟩ := run_sample (c := c.snk) hr (S n).snk (S n).src.valid (S n).src.beat
    rw [e] at hp ⊢
    rw [r2, ← r1, hp]
  · by_cases hd : (S n).snk.pc = .due
    · exact .inl (k.due hd)
    · cases h.move n (fun hh => hd hh.2) with
      | top h1 _ _ => exact .inr (.inr (by rw [h1, hp]))
      | keep h1 h2 _ _ =>
        rcases ha with ha | ha | ha
        · exact absurd ha hd
        · exact .inr (.inl (h2 ha))
        · exact .inr (.inr (by rw [h1, ha]))

theorem NetLive.doze (hr : c.bus.hasReady = true) (n : Nat) (hsp : sched n ≠ .snkSpurious) (hq : (S (n + 1)).snk.queue.length = (S n).snk.queue.length)
    (hri : ¬ Rises (S n) (sched n) ∧ (S n).snk.nready = false) (ha : Doze (S n).snk) (hp : (S n).snk.pause = true) :
    ((S (n + 1)).snk.pause = true → Doze (S (n + 1)).snk) ∧ ((S (n + 1)).snk.pause = false → Alert (S (n + 1)).snk) := by
  rcases h.snk n with ⟨_, _, e⟩ | k
  · obtain ⟨r1, r2, r3⟩ := run_sample (c := c.snk) hr (S n).snk (S n).src.valid (S n).src.beat
    rw [e]
    exact ⟨fun _ => ⟨.inr ((r3 ha.2).2 hp), by rw [r2, hp]⟩, fun hh => by rw [r1, hp] at hh; cases hh⟩
  · by_cases hd : (S n).snk.pc = .due
    · exact ⟨fun _ => ⟨.inl (k.due hd), by rw [k.sample hd, ha.2]⟩, fun _ => .inl (k.due hd)⟩
    · have has : (S n).snk.pc = .asleep := ha.1.resolve_left hd
      cases h.move n (fun hh => hd hh.2) with
      | top _ _ h3 =>
        rcases h3 with h3 | ⟨_, h3⟩
        · rw [has] at h3; cases h3
        · exact absurd h3 hsp
      | keep h1 _ h3 h4 =>
        refine ⟨fun hh => ⟨.inr (h4 has hq (by rw [hh, hp]) hri), by rw [h1, ha.2]⟩, fun hh => .inr (.inl (h3 has ?_))⟩
        rw [hh, hp]
        simp

/-- A sink whose `pause` changes at most once per clock cycle, and is not set again and again at clock edges, notices it. -/
theorem NetLive.snk_frees (hr : c.bus.hasReady = true) (hsp : ∀ n, sched n ≠ .snkSpurious) {d : Nat → Bool}
    (hd : Drives (NetEdge S sched) d (fun n => (S n).snk.pause))
    (hf : ∀ n, ∃ i j, n ≤ i ∧ Cyc (NetEdge S sched) i j ∧ (S j).snk.pause = false) (n0 : Nat) :
    ∃ k, n0 ≤ k ∧ NetEdge S sched k ∧ (S k).snk.pauseSample = false := by
  refine Classical.byContradiction fun hno => ?_
  have hsam : ∀ k, n0 ≤ k → NetEdge S sched k → (S k).snk.pauseSample = true := by
    intro k hk he
    cases hh : (S k).snk.pauseSample
    · exact absurd ⟨k, hk, he, hh⟩ hno
    · rfl
  have hrs : c.snk.hasReady = true := hr
  obtain ⟨e0, _, he0, hc0, _⟩ := hf n0
  have hedge0 := hc0.start
  -- a sink about to run has seen that it is paused
  have hJ : ∀ m, (S (e0 + m)).snk.pc = .due → (S (e0 + m)).snk.pauseSample = true := by
    intro m
    induction m with
    | zero => intro hh; exact absurd hh (still_iff.1 hedge0.2.2.2).1
    | succ m ih =>
      intro hh
      rw [← Nat.add_assoc] at hh ⊢
      by_cases hd' : (S (e0 + m)).snk.pc = .due
      · rcases h.snk (e0 + m) with ⟨_, _, e⟩ | k
        · rw [e] at hh
          exact absurd hh (finish_same c.snk _ _).2.2.2.2.2.2.2.2.1
        · rw [k.sample hd']; exact ih hd'
      · have he := h.edge_of_due (e0 + m) (.inr ⟨hd', hh⟩)
        rw [h.sample_hold he.1 (r := e0 + m + 1) (fun x a b => by rw [show x = e0 + m + 1 by omega]; exact hh) (by omega)]
        exact hsam (e0 + m) (by omega) he
  -- queue and `tready` settle
  obtain ⟨M, hM⟩ := Verif.AxiSys.settles (fun m => (S (e0 + m)).snk.queue.length + (if (S (e0 + m)).snk.nready then 2 else 0)) (fun m => by
    show (S (e0 + m + 1)).snk.queue.length + _ ≤ _
    rcases h.snk (e0 + m) with ⟨_, hdue, e⟩ | k
    · have hn := ((run_sample hrs (S (e0 + m)).snk (S (e0 + m)).src.valid (S (e0 + m)).src.beat).2.2 (hJ m hdue)).1
      rw [← Nat.add_assoc, e, hn]
      have hle := run_queue_le c.snk (S (e0 + m)).snk (S (e0 + m)).src.valid (S (e0 + m)).src.beat
      cases hnr : (S (e0 + m)).snk.nready with
      | true => simp only [Bool.false_eq_true, if_false, if_true]; omega
      | false =>
        have hrd := (h.known (e0 + m)).snk.due hdue
        rw [runSnk_queue c.snk _ _ _ (by
          rw [runSnk_captured, hrd, hnr, hrs]
          simp)]
        exact Nat.le_refl _
    · have := k.queue.length_le
      rw [← Nat.add_assoc, k.nready]
      omega)
  have hrunlow : ∀ m, (S (e0 + m)).snk.pc = .due → sched (e0 + m) = .snkRun → (S (e0 + m + 1)).snk.nready = false := by
    intro m hdue hs
    rcases h.snk (e0 + m) with ⟨_, _, e⟩ | k
    · rw [e]
      exact ((run_sample hrs (S (e0 + m)).snk (S (e0 + m)).src.valid (S (e0 + m)).src.beat).2.2 (hJ m hdue)).1
    · exfalso
      have e : (S (e0 + m + 1)).snk.pc = .due := k.due hdue
      rw [h.step, hs] at e
      unfold Net.step at e
      rw [if_neg (by rw [(h.running _).1]; simp)] at e
      simp only [hdue, if_true] at e
      exact (finish_same c.snk _ _).2.2.2.2.2.2.2.2.1 e
  have hmono : ∀ m x, (S (e0 + m)).snk.nready = false → (S (e0 + m + x)).snk.nready = false := by
    intro m x hm
    induction x with
    | zero => exact hm
    | succ x ih =>
      rw [show e0 + m + (x + 1) = e0 + (m + x) + 1 by omega]
      rw [Nat.add_assoc] at ih
      rcases h.snk (e0 + (m + x)) with ⟨hs, hdue, _⟩ | k
      · exact hrunlow (m + x) hdue hs
      · rw [k.nready, ih]
  -- `tready` falls
  obtain ⟨M1, hM1, hlow1⟩ : ∃ m, M ≤ m ∧ (S (e0 + m)).snk.nready = false := by
    obtain ⟨i, j, hi, hc, hj⟩ := hf (e0 + M)
    have hlt := hc.lt
    have hpc : (S j).snk.pc ≠ .asleep := by
      intro hh
      have h1 := (h.bus j).slept hh hrs
      rw [hsam j (by omega) hc.stop, hj] at h1
      cases h1
    obtain ⟨i', j', hi', hc', _⟩ := hf (j + 1)
    obtain ⟨r, r1, r2, e, hdue⟩ := h.snk_turn hc.stop hc'.start (by omega) hpc
    refine ⟨r + 1 - e0, by omega, ?_⟩
    rw [show e0 + (r + 1 - e0) = r + 1 by omega, e]
    have hj := hJ (r - e0)
    rw [show e0 + (r - e0) = r by omega] at hj
    exact ((run_sample hrs (S r).snk (S r).src.valid (S r).src.beat).2.2 (hj (hdue r r1 (Nat.le_refl r)))).1
  have hlow : ∀ k, e0 + M1 ≤ k → (S k).snk.nready = false := by
    intro k hk
    obtain ⟨x, rfl⟩ := Nat.exists_eq_add_of_le hk
    exact hmono M1 x hlow1
  have hqc : ∀ k, e0 + M1 ≤ k → (S (k + 1)).snk.queue.length = (S k).snk.queue.length := by
    intro k hk
    have a := hM (k - e0) (by omega)
    have b := hM (k + 1 - e0) (by omega)
    rw [show e0 + (k - e0) = k by omega] at a
    rw [show e0 + (k + 1 - e0) = k + 1 by omega] at b
    rw [hlow k hk] at a
    rw [hlow (k + 1) (by omega)] at b
    simp only [Bool.false_eq_true, if_false] at a b
    omega
  -- then `tvalid` does not fall
  obtain ⟨e1, _, he1, hc1, _⟩ := hf (e0 + M1)
  have hrd : ∀ x, (S (e1 + x)).snk.ready = false := by
    intro x
    induction x with
    | zero =>
      rw [Nat.add_zero, ((h.bus e1).set hc1.start.2.1).2.2]
      exact hlow e1 he1
    | succ x ih =>
      rw [← Nat.add_assoc]
      by_cases hcm : sched (e1 + x) = .commit
      · rw [h.step, hcm]
        unfold Net.step
        rw [if_neg (by rw [(h.running _).1]; simp)]
        simp only
        split
        · have := hlow (e1 + x) (by omega)
          split <;> exact this
        · exact ih
      · rw [(h.signals (e1 + x) (.inr (.inr hcm))).2.2, ih]
  have hnv : ∀ x, (S (e1 + x)).src.nvalid = true → (S (e1 + x + 1)).src.nvalid = true := by
    intro x hx
    rcases h.src (e1 + x) with ⟨_, hdue, e⟩ | k
    · rw [e]
      have hv := (h.bus (e1 + x)).due hdue
      unfold Src.run
      rw [if_neg]
      · exact hx
      · rw [hv, hx, hrd x, hr, h.valid]
        simp
    · rw [k.nvalid, hx]
  have hnorise : ∃ X, ∀ x, X ≤ x → ¬ Rises (S (e1 + x)) (sched (e1 + x)) := by
    by_cases hex : ∃ x, Rises (S (e1 + x)) (sched (e1 + x))
    · obtain ⟨x, hcm, hst, h1, h2⟩ := hex
      have hup : ∀ y, (S (e1 + (x + 1 + y))).src.nvalid = true ∧ (S (e1 + (x + 1 + y))).src.valid = true := by
        intro y
        induction y with
        | zero =>
          refine ⟨hnv x h1, ?_⟩
          show (S (e1 + x + 1)).src.valid = true
          rw [h.step, hcm]
          unfold Net.step
          rw [if_neg (by rw [(h.running _).1]; simp)]
          simp only [hst, if_true]
          exact h1
        | succ y ih =>
          refine ⟨hnv _ ih.1, ?_⟩
          show (S (e1 + (x + 1 + y) + 1)).src.valid = true
          by_cases hcm : sched (e1 + (x + 1 + y)) = .commit
          · rw [h.step, hcm]
            unfold Net.step
            rw [if_neg (by rw [(h.running _).1]; simp)]
            simp only
            split
            · exact ih.1
            · exact ih.2
          · rw [(h.signals _ (.inr (.inr hcm))).1, ih.2]
      refine ⟨x + 1, fun y hy => ?_⟩
      rintro ⟨_, _, _, h3⟩
      have := (hup (y - (x + 1))).2
      rw [show x + 1 + (y - (x + 1)) = y by omega, h3] at this
      cases this
    · exact ⟨0, fun x _ hh => hex ⟨x, hh⟩⟩
  obtain ⟨X, hX⟩ := hnorise
  obtain ⟨i, j, hi, hc, hj⟩ := hf (e1 + X)
  have hlt := hc.lt
  have hs' := hsam i (by omega) hc.start
  -- the state of the sink in this cycle
  have main : ∀ e, i + 1 + e ≤ j →
      ((S (i + 1 + e)).snk.pause = true ∧ Doze (S (i + 1 + e)).snk) ∨ ((S (i + 1 + e)).snk.pause = false ∧ Alert (S (i + 1 + e)).snk) := by
    intro e
    induction e with
    | zero =>
      intro _
      show ((S (i + 1)).snk.pause = true ∧ Doze (S (i + 1)).snk) ∨ ((S (i + 1)).snk.pause = false ∧ Alert (S (i + 1)).snk)
      have hsame : (S (i + 1)).snk.pause = (S i).snk.pause := hd.same i (hd.idle i hc.start)
      obtain ⟨q1, q2, q3, q4⟩ := hc.start
      have hstep : (S (i + 1)).snk = { (S i).snk with pc := (S i).snk.pc.tick } := by
        rw [h.step, q1]
        unfold Net.step
        rw [if_neg (by rw [(h.running _).1]; simp)]
        simp only
        rw [if_pos (by rw [q2, q3, q4]; rfl)]
      have p3 : (S (i + 1)).snk.pauseSample = (S i).snk.pauseSample := by rw [hstep]
      by_cases h1 : (S i).snk.pc = .asleep
      · have h2 := (h.bus i).slept h1 hrs
        rw [hs'] at h2
        exact .inl ⟨by rw [hsame, ← h2], .inr (by rw [hstep]; exact tick_asleep.2 h1), by rw [p3, hs']⟩
      · have p2 := h.due_after hc.start h1
        cases hp : (S (i + 1)).snk.pause with
        | true => exact .inl ⟨rfl, .inl p2, by rw [p3, hs']⟩
        | false => exact .inr ⟨rfl, .inl p2⟩
    | succ e ih =>
      intro he
      rcases ih (by omega) with ⟨h1, h2⟩ | ⟨h1, h2⟩
      · have hri := hX (i + 1 + e - e1) (by omega)
        rw [show e1 + (i + 1 + e - e1) = i + 1 + e by omega] at hri
        have q := h.doze hr (i + 1 + e) (hsp _) (hqc _ (by omega)) ⟨hri, hlow _ (by omega)⟩ h2 h1
        cases hp : (S (i + 1 + (e + 1))).snk.pause with
        | true => exact .inl ⟨rfl, q.1 hp⟩
        | false => exact .inr ⟨rfl, q.2 hp⟩
      · have hp : (S (i + 1 + (e + 1))).snk.pause = false := by
          cases hde : d (i + 1 + e) with
          | false => exact (hd.same _ hde).trans h1
          | true =>
            rcases hd.either hc (n := i + 1 + (e + 1)) (by omega) he with h3 | h3
            · have h4 : (S (i + 1 + e)).snk.pause = (S i).snk.pause := hd.before hc (n := i + 1 + e) (by omega) (by omega) hde
              exact h3.trans (h4.symm.trans h1)
            · exact h3.trans hj
        exact .inr ⟨hp, h.alert hr (i + 1 + e) h2 hp⟩
  rcases main (j - (i + 1)) (by omega) with ⟨h1, _⟩ | ⟨_, h2⟩
  · rw [show i + 1 + (j - (i + 1)) = j by omega, hj] at h1
    cases h1
  · rw [show i + 1 + (j - (i + 1)) = j by omega] at h2
    have hst := still_iff.1 hc.stop.2.2.2
    rcases h2 with h2 | h2 | h2
    · exact hst.1 h2
    · exact hst.2 h2
    · rw [hsam j (by omega) hc.stop] at h2
      cases h2

end

end Verif.Axis
