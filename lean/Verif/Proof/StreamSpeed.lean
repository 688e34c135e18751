import Verif.Spec.StreamSpeed
import Verif.Proof.StreamStep

/-!
# Throughput of a stream: proofs
-/

namespace Verif.Stream

variable {α : Type}

theorem steady_clean {e : NetEv α} (h : e.steady = true) : e.clean = true := by
  unfold NetEv.steady at h
  split at h
  · rfl
  · rfl
  · exact h

/-- A running, unpaused pair; the sink has no limit. -/
structure Steady (c : NetCfg) (s : Net α) : Prop where
  known : Known c s
  lim : c.snkLimit ≤ 0
  son : s.src.pc ≠ .off
  kon : s.snk.pc ≠ .off
  sp : s.src.pause = false
  kp : s.snk.pause = false

theorem not_full {l : Int} (h : l ≤ 0) (n : Nat) : isFull l n = false := by
  unfold isFull
  simp
  omega

theorem step_pause (c : NetCfg) (s : Net α) (e : NetEv α) (he : e.steady = true) (h1 : s.src.pause = false) (h2 : s.snk.pause = false) :
    (s.step c e).src.pause = false ∧ (s.step c e).snk.pause = false := by
  cases e <;> simp only [Net.step]
  case srcRun =>
    split
    · exact ⟨(srun_facts _ _).1.trans h1, h2⟩
    · exact ⟨h1, h2⟩
  case snkRun =>
    split
    · exact ⟨h1, (snk_run_pause _ _ _ _).trans h2⟩
    · exact ⟨h1, h2⟩
  case commit =>
    split
    · refine ⟨h1, ?_⟩
      simp only
      split <;> exact h2
    · exact ⟨h1, h2⟩
  case send x => refine ⟨?_, h2⟩; unfold Src.send; split <;> exact h1
  case resume i =>
    refine ⟨?_, h2⟩
    unfold Src.resume
    repeat' split
    all_goals exact h1
  case sendNowait x => refine ⟨?_, h2⟩; unfold Src.sendNowait; split <;> exact h1
  case srcPause v => cases v <;> simp [NetEv.steady] at he; exact ⟨rfl, h2⟩
  case snkPause v =>
    cases v <;> simp [NetEv.steady] at he
    exact ⟨h1, rfl⟩
  case srcReset v => refine ⟨?_, h2⟩; unfold Src.reset; repeat' split
                     all_goals exact h1
  case snkReset v => refine ⟨h1, ?_⟩; unfold Snk.reset; repeat' split
                     all_goals exact h2
  case recv => refine ⟨h1, ?_⟩; unfold Snk.recv; split <;> exact h2
  all_goals first | exact ⟨h1, h2⟩ | (split <;> exact ⟨h1, h2⟩)

theorem step_on (c : NetCfg) (s : Net α) (e : NetEv α) (he : e.clean = true) (h1 : s.src.pc ≠ .off) (h2 : s.snk.pc ≠ .off) :
    (s.step c e).src.pc ≠ .off ∧ (s.step c e).snk.pc ≠ .off := by
  constructor
  · rcases step_src c s e he with ⟨_, _, e', _⟩ | k
    · rw [e']
      intro hh
      have := srun_woken (c := c.src) s.src s.snk.ready
      unfold Src.run at hh
      simp only at hh
      repeat' split at hh
      all_goals simp at hh
    · exact fun hh => h1 (k.on hh)
  · rcases step_snk c s e he with ⟨_, _, e', _⟩ | k
    · rw [e']; exact finish_off
    · exact fun hh => h2 (k.on hh)

theorem Steady.step {c : NetCfg} {s : Net α} (h : Steady c s) (e : NetEv α) (he : e.steady = true) : Steady c (s.step c e) := by
  have hc := steady_clean he
  obtain ⟨p1, p2⟩ := step_pause c s e he h.sp h.kp
  obtain ⟨o1, o2⟩ := step_on c s e hc h.son h.kon
  exact ⟨⟨NetInv.step e (fun _ => hc) h.known.inv, Net.step_live e hc h.known.live, SnkSlept.step e h.known.slept, step_rest e hc h.known.rest⟩,
    h.lim, o1, o2, p1, p2⟩

/-- Besides, `ready` is set for good. -/
structure Fast (c : NetCfg) (s : Net α) : Prop extends Steady c s where
  hot : c.hasReady = true → s.snk.nready = true ∧ s.snk.pauseSample = false
  rdy : s.src.pc = .due → c.hasReady = true → s.snk.ready = true

/-- The clock edge takes place. -/
def Net.edge (s : Net α) (e : NetEv α) : Prop := e = .tick ∧ s.settled = true ∧ s.src.pc.still = true ∧ s.snk.pc.still = true

instance (s : Net α) (e : NetEv α) : Decidable (s.edge e) :=
  match e with
  | .tick => decidable_of_iff (s.settled = true ∧ s.src.pc.still = true ∧ s.snk.pc.still = true) (by simp [Net.edge])
  | .srcRun => isFalse (by simp [Net.edge])
  | .srcWake => isFalse (by simp [Net.edge])
  | .snkRun => isFalse (by simp [Net.edge])
  | .snkWake => isFalse (by simp [Net.edge])
  | .snkSpurious => isFalse (by simp [Net.edge])
  | .commit => isFalse (by simp [Net.edge])
  | .send _ => isFalse (by simp [Net.edge])
  | .resume _ => isFalse (by simp [Net.edge])
  | .sendNowait _ => isFalse (by simp [Net.edge])
  | .srcPause _ => isFalse (by simp [Net.edge])
  | .srcClear => isFalse (by simp [Net.edge])
  | .srcReset _ => isFalse (by simp [Net.edge])
  | .recv => isFalse (by simp [Net.edge])
  | .snkPause _ => isFalse (by simp [Net.edge])
  | .snkClear => isFalse (by simp [Net.edge])
  | .snkReset _ => isFalse (by simp [Net.edge])

theorem edges_cons (c : NetCfg) (s : Net α) (e : NetEv α) (evs : List (NetEv α)) :
    Net.edges c s (e :: evs) = (if s.edge e then 1 else 0) + Net.edges c (s.step c e) evs := by
  cases e
  case tick =>
    simp only [Net.edges]
    congr 1
    by_cases h : s.settled = true ∧ s.src.pc.still = true ∧ s.snk.pc.still = true
    · rw [if_pos (by rw [h.1, h.2.1, h.2.2]; rfl), if_pos ⟨rfl, h⟩]
    · rw [if_neg (by simpa [and_assoc] using h), if_neg (fun hh => h hh.2)]
  all_goals
    simp only [Net.edges]
    rw [if_neg (by simp [Net.edge])]

theorem edges_append (c : NetCfg) (l m : List (NetEv α)) : ∀ s : Net α, Net.edges c s (l ++ m) = Net.edges c s l + Net.edges c (l.foldl (Net.step c) s) m := by
  induction l with
  | nil => intro s; simp [Net.edges]
  | cons e l ih => intro s; rw [List.cons_append, edges_cons, edges_cons, ih]; simp only [List.foldl_cons]; omega

theorem edge_eq (c : NetCfg) {s : Net α} {e : NetEv α} (h : s.edge e) : s.step c e =
    { s with src := { s.src with pc := s.src.pc.tick }, snk := { s.snk with pc := s.snk.pc.tick }, settled := false } := by
  obtain ⟨rfl, h1, h2, h3⟩ := h
  simp only [Net.step]
  rw [if_pos (by rw [h1, h2, h3]; rfl)]

/-- What a sink remembers of `pause`. -/
theorem step_sample (c : NetCfg) (s : Net α) (e : NetEv α) (h : s.snk.pauseSample = false) (hp : s.snk.pause = false) :
    (s.step c e).snk.pauseSample = false := by
  cases e <;> simp only [Net.step]
  case snkRun =>
    split
    · show (s.snk.run _ _ _).pauseSample = false
      have hc : (s.snk.capture c.snk s.src.valid s.src.data).pauseSample = false ∧ (s.snk.capture c.snk s.src.valid s.src.data).pause = false := by
        unfold Snk.capture
        simp only
        split <;> exact ⟨h, hp⟩
      unfold Snk.run Snk.finish
      simp only
      repeat' split
      all_goals first | exact hc.1 | exact hc.2
    · exact h
  case snkWake => split; (exact hp); exact h
  case snkSpurious => split; (exact hp); exact h
  case commit =>
    split
    · simp only
      split <;> exact h
    · exact h
  case recv => unfold Snk.recv; split <;> exact h
  case snkPause v => unfold Snk.setPause; simp only; split <;> exact h
  case snkReset v =>
    unfold Snk.reset
    repeat' split
    all_goals exact h
  all_goals first | exact h | (split <;> exact h)

theorem Fast.step {c : NetCfg} {s : Net α} (h : Fast c s) (e : NetEv α) (he : e.steady = true) : Fast c (s.step c e) := by
  have hc := steady_clean he
  refine ⟨h.toSteady.step e he, fun hr => ⟨?_, step_sample c s e (h.hot hr).2 h.kp⟩, fun hd hr => ?_⟩
  · rcases step_snk c s e hc with ⟨_, _, e', _⟩ | k
    · rw [e', run_nready (c := c.snk) hr (h.hot hr).2, not_full (l := c.snk.limit) h.lim]
      rfl
    · rw [k.nready]; exact (h.hot hr).1
  · by_cases hs : s.src.pc = .due
    · rw [(step_signals c s e (.inl hs)).2.2]
      exact h.rdy hs hr
    · have he' := step_due c s e (.inl ⟨hs, hd⟩)
      rw [edge_eq c he']
      show s.snk.ready = true
      rw [(h.known.inv.set he'.2.1).2.2]
      exact (h.hot hr).1

/-! ## Counting -/

/-- Items that left the queue. -/
def Net.out (s : Net α) : Nat := s.src.sent.length - s.src.queue.length

/-- Items that left the queue, with the one the source is about to take. -/
def Net.credit (s : Net α) : Nat := s.out + (if s.src.pc = .due then 1 else 0)

/-- Items transferred. -/
def Net.level (c : NetCfg) (s : Net α) : Nat := (s.snk.captured ++ s.pend c).length

theorem Known.eq {c : NetCfg} {s : Net α} (h : Known c s) : s.src.sent = s.snk.captured ++ s.pend c ++ s.onBus c ++ s.src.queue := by
  have := h.inv.acc
  simp only [Acc, if_true] at this
  exact this

theorem Known.out {c : NetCfg} {s : Net α} (h : Known c s) : s.out = s.level c + (s.onBus c).length ∧ s.src.queue.length ≤ s.src.sent.length := by
  have := congrArg List.length h.eq
  unfold Net.out Net.level
  simp only [List.length_append] at this ⊢
  omega

theorem Fast.credit_step {c : NetCfg} {s : Net α} (h : Fast c s) (e : NetEv α) (he : e.steady = true) (N : Nat) (hN : N ≤ s.src.sent.length) :
    min N (s.credit + (if s.edge e then 1 else 0)) ≤ (s.step c e).credit ∧ s.src.sent.length ≤ (s.step c e).src.sent.length := by
  have hc := steady_clean he
  have hq := h.known.out.2
  have hq' := (h.step e he).known.out.2
  rcases step_src c s e hc with ⟨rfl, hd, e', _⟩ | k
  · have hne : ¬ s.edge NetEv.srcRun := by simp [Net.edge]
    rw [if_neg hne]
    obtain ⟨_, hsent, _⟩ := srun_facts (c := c.src) s.src s.snk.ready
    have hsent' : (s.step c .srcRun).src.sent = s.src.sent := by rw [e']; exact hsent
    refine ⟨?_, by rw [hsent']; exact Nat.le_refl _⟩
    have hr : (!c.src.hasReady || s.snk.ready) = true := by
      cases hh : c.hasReady
      · simp [NetCfg.src, hh]
      · rw [h.rdy hd hh]; simp
    unfold Net.credit Net.out
    rw [if_pos hd, hsent']
    have : (s.step c .srcRun).src.queue.length = s.src.queue.length - 1 := by
      rw [e']
      unfold Src.run
      simp only [hr, Bool.true_and]
      rw [if_pos (by cases (!c.src.hasValid || s.src.valid) <;> rfl)]
      split
      · rename_i hq2 _
        rw [hq2]
        simp
      · rename_i hno
        have : s.src.queue = [] := by
          cases hh : s.src.queue with
          | nil => rfl
          | cons x rest => exact absurd h.sp (hno x rest hh)
        simp [this]
    rw [this]
    omega
  · have hl := k.len
    have hs := k.sent.length_le
    refine ⟨?_, hs⟩
    unfold Net.credit Net.out
    by_cases hed : s.edge e
    · have hst := edge_eq c hed
      rw [hst]
      rw [if_pos hed]
      have h2 := still_iff.1 hed.2.2.1
      rw [if_neg h2.1]
      show min N _ ≤ s.src.sent.length - s.src.queue.length + if s.src.pc.tick = .due then 1 else 0
      cases hp : s.src.pc with
      | off => exact absurd hp h.son
      | edge => rw [if_pos (show Pc.edge.tick = .due from rfl)]; omega
      | due => exact absurd hp h2.1
      | asleep =>
        have := h.known.inv.src.sleep hp
        rw [this]
        simp only [List.length_nil]
        omega
      | woken => exact absurd hp h2.2
    · rw [if_neg hed]
      by_cases hd : s.src.pc = .due
      · rw [if_pos hd, if_pos (k.due hd)]
        omega
      · rw [if_neg hd]
        omega

theorem Fast.edge_level {c : NetCfg} {s : Net α} (h : Fast c s) {e : NetEv α} (he : e.steady = true) (hed : s.edge e) : (s.step c e).level c = s.out := by
  have hst := edge_eq c hed
  have hf := h.step e he
  have hbus : (s.step c e).onBus c = [] := by
    rw [hst]
    unfold Net.onBus
    split
    · rfl
    · rename_i hno
      split
      · rename_i hv
        refine absurd ?_ hno
        have hv' : s.src.nvalid = true := hv
        obtain ⟨b1, _, b3⟩ := h.known.inv.set hed.2.1
        have h2 := still_iff.1 hed.2.2.1
        refine ⟨?_, ?_⟩
        · show s.src.pc.tick = .due
          have := h.known.inv.src.quiet
          cases hp : s.src.pc with
          | off => exact absurd hp h.son
          | edge => rfl
          | due => exact absurd hp h2.1
          | asleep => rw [this (.inl hp)] at hv'; cases hv'
          | woken => exact absurd hp h2.2
        · show (s.src.valid && (!c.hasReady || s.snk.ready)) = true
          rw [b1, hv', b3, Bool.true_and]
          cases hr : c.hasReady
          · rfl
          · rw [(h.hot hr).1]; rfl
      · rfl
  have := hf.known.out.1
  rw [hbus, List.length_nil, Nat.add_zero] at this
  rw [← this, hst]
  rfl

theorem level_step {c : NetCfg} {s : Net α} (e : NetEv α) (hc : e.clean = true) (hne : ¬ s.edge e) :
    s.level c ≤ (s.step c e).level c := by
  unfold Net.level
  rcases step_snk c s e hc with ⟨rfl, hd, e', _⟩ | k
  · rw [e', snk_run_captured]
    have : s.pend c = if ((!c.snk.hasReady || s.snk.ready) && (!c.snk.hasValid || s.src.valid)) = true then s.src.data.toList else [] := by
      unfold Net.pend Net.xfer
      simp only [hd, true_and, NetCfg.snk, Bool.not_true, Bool.false_or, Bool.and_comm]
    rw [this]
    simp only [List.length_append]
    omega
  · rw [k.captured]
    by_cases hd : s.snk.pc = .due
    · obtain ⟨a, b, d⟩ := step_signals c s e (.inr (.inl hd))
      have : (s.step c e).pend c = s.pend c := by
        unfold Net.pend Net.xfer
        rw [a, b, d]
        simp only [hd, k.due hd]
      rw [this]
      exact Nat.le_refl _
    · rw [net_pend_not_due c s hd]
      simp only [List.append_nil, List.length_append]
      omega

theorem Fast.run {c : NetCfg} {N : Nat} : ∀ (evs : List (NetEv α)) {s : Net α} (B : Nat), Fast c s → (∀ e ∈ evs, e.steady = true) → N ≤ s.src.sent.length →
    min N B ≤ s.credit → min N (B - 1) ≤ s.level c →
    Fast c (evs.foldl (Net.step c) s) ∧ min N (B + Net.edges c s evs - 1) ≤ (evs.foldl (Net.step c) s).level c := by
  intro evs
  induction evs with
  | nil => intro s B h _ _ h1 h2; exact ⟨h, by simpa [Net.edges] using h2⟩
  | cons e evs ih =>
    intro s B h hev hN h1 h2
    have he := hev e List.mem_cons_self
    have hev' := fun x hx => hev x (List.mem_cons_of_mem _ hx)
    obtain ⟨c1, c2⟩ := h.credit_step e he N hN
    rw [edges_cons]
    by_cases hed : s.edge e
    · rw [if_pos hed] at c1 ⊢
      have hl := h.edge_level he hed
      have h3 : s.credit = s.out := by
        unfold Net.credit
        rw [if_neg (still_iff.1 hed.2.2.1).1]; rfl
      have := ih (B + 1) (h.step e he) hev' (Nat.le_trans hN c2) (by omega) (by rw [hl]; omega)
      rw [show B + (1 + Net.edges c (s.step c e) evs) = B + 1 + Net.edges c (s.step c e) evs by omega]
      exact this
    · rw [if_neg hed] at c1 ⊢
      have hl := level_step (c := c) e (steady_clean he) hed
      have := ih B (h.step e he) hev' (Nat.le_trans hN c2) (by omega) (by omega)
      rw [Nat.zero_add]
      exact this

/-! ## Until `ready` is set -/

/-- How many clock edges it takes until `ready` is set for good. -/
def Net.need (c : NetCfg) (s : Net α) : Nat :=
  if c.hasReady = false then 0
  else if s.snk.pauseSample = false then (if s.snk.nready = true ∨ s.snk.pc = .due then 0 else 1)
  else (if s.snk.pc = .due then 1 else 2)

theorem need_le (c : NetCfg) (s : Net α) : s.need c ≤ 2 := by
  unfold Net.need
  repeat' split
  all_goals omega

/-- `ready` is set for good, except that the edge at hand was not prepared for it. -/
def Near (c : NetCfg) (s : Net α) : Prop := Steady c s ∧ (c.hasReady = true → s.snk.nready = true ∧ s.snk.pauseSample = false)

theorem snkRun_sample {c : Cfg} {s : Snk α} {v : Bool} {d : Option α} (hr : c.hasReady = true) (hp : s.pause = false) :
    (s.run c v d).pauseSample = false := by
  have hcp : (s.capture c v d).pause = s.pause := by unfold Snk.capture; simp only; split <;> rfl
  cases h : (s.run c v d).pc
  · exact absurd h finish_off
  · rw [← hp, ← hcp]; exact finish_sample h
  · exact absurd h finish_due
  · have := SnkSlept.finish (c := c) (s := s.capture c v d) (v := v) h hr
    have h2 : (s.run c v d).pause = false := (snk_run_pause c s v d).trans hp
    rw [show (s.run c v d).pauseSample = (s.run c v d).pause from this]
    exact h2
  · exact absurd h finish_woken

theorem Steady.need_step {c : NetCfg} {s : Net α} (h : Steady c s) (e : NetEv α) (he : e.steady = true) (hN : ¬ Near c s) :
    (s.step c e).need c + (if s.edge e then 1 else 0) ≤ s.need c := by
  have hr : c.hasReady = true := Classical.byContradiction fun hh => hN ⟨h, fun h2 => absurd h2 hh⟩
  have hno : ¬ (s.snk.nready = true ∧ s.snk.pauseSample = false) := fun hh => hN ⟨h, fun _ => hh⟩
  have hc := steady_clean he
  have hasleep : s.snk.pc ≠ .asleep := by
    intro hp
    have h1 := h.known.live hp hr
    have h2 := h.known.slept hp hr
    rw [not_full (l := c.snk.limit) h.lim, h.kp] at h1
    rw [h.kp] at h2
    exact hno ⟨h1, h2⟩
  unfold Net.need
  simp only [hr, Bool.true_eq_false, if_false]
  rcases step_snk c s e hc with ⟨rfl, hd, e', _⟩ | k
  · have hne : ¬ s.edge NetEv.snkRun := by simp [Net.edge]
    rw [if_neg hne, e']
    rw [if_pos (snkRun_sample (c := c.snk) hr h.kp)]
    cases hps : s.snk.pauseSample
    · rw [run_nready (c := c.snk) hr hps, not_full (l := c.snk.limit) h.lim]
      simp
    · simp [hd]
      split <;> omega
  · by_cases hed : s.edge e
    · rw [if_pos hed]
      have hst := edge_eq c hed
      have hp : s.snk.pc = .edge := by
        have h2 := still_iff.1 hed.2.2.2
        cases hp : s.snk.pc with
        | off => exact absurd hp h.kon
        | edge => rfl
        | due => exact absurd hp h2.1
        | asleep => exact absurd hp hasleep
        | woken => exact absurd hp h2.2
      rw [hst]
      simp only [hp, Pc.tick]
      cases hps : s.snk.pauseSample
      · cases hn : s.snk.nready
        · simp
        · exact absurd ⟨hn, hps⟩ hno
      · simp
    · rw [if_neg hed]
      cases hps : s.snk.pauseSample
      · rw [step_sample c s e hps h.kp]
        have hn : s.snk.nready = false := by
          cases hn : s.snk.nready
          · rfl
          · exact absurd ⟨hn, hps⟩ hno
        simp only [k.nready, hn]
        by_cases hd : s.snk.pc = .due
        · simp [hd, k.due hd]
        · simp [hd]
          split <;> omega
      · by_cases hd : s.snk.pc = .due
        · rw [k.sample hd, hps]
          simp [hd, k.due hd]
        · simp [hd]
          repeat' split
          all_goals omega

theorem Near.step {c : NetCfg} {s : Net α} (h : Near c s) (e : NetEv α) (he : e.steady = true) : Near c (s.step c e) := by
  refine ⟨h.1.step e he, fun hr => ⟨?_, step_sample c s e (h.2 hr).2 h.1.kp⟩⟩
  rcases step_snk c s e (steady_clean he) with ⟨_, _, e', _⟩ | k
  · rw [e', run_nready (c := c.snk) hr (h.2 hr).2, not_full (l := c.snk.limit) h.1.lim]
    rfl
  · rw [k.nready]; exact (h.2 hr).1

theorem Near.need {c : NetCfg} {s : Net α} (h : Near c s) : s.need c = 0 := by
  unfold Net.need
  cases hr : c.hasReady
  · simp
  · obtain ⟨a, b⟩ := h.2 hr
    simp [a, b]

theorem Steady.slow_step {c : NetCfg} {s : Net α} (h : Steady c s) (e : NetEv α) (he : e.steady = true) (hF : ¬ Fast c s) :
    (s.step c e).need c + (if s.edge e then 1 else 0) ≤ s.need c := by
  by_cases hN : Near c s
  · rw [(hN.step e he).need]
    have : s.src.pc = .due := Classical.byContradiction fun hd => hF ⟨h, hN.2, fun hh => absurd hh hd⟩
    rw [if_neg (fun hed => (still_iff.1 hed.2.2.1).1 this)]
    omega
  · exact h.need_step e he hN

theorem Steady.reach {c : NetCfg} : ∀ (evs : List (NetEv α)) {s : Net α}, Steady c s → (∀ e ∈ evs, e.steady = true) →
    (∃ l m, evs = l ++ m ∧ Net.edges c s l ≤ s.need c ∧ Fast c (l.foldl (Net.step c) s)) ∨ Net.edges c s evs ≤ s.need c := by
  intro evs
  induction evs with
  | nil => intro s _ _; right; exact Nat.zero_le _
  | cons e evs ih =>
    intro s h hev
    by_cases hN : Fast c s
    · exact .inl ⟨[], e :: evs, rfl, Nat.zero_le _, hN⟩
    have he := hev e List.mem_cons_self
    have hn := h.slow_step e he hN
    rcases ih (h.step e he) (fun x hx => hev x (List.mem_cons_of_mem _ hx)) with ⟨l, m, h1, h2, h3⟩ | h2
    · refine .inl ⟨e :: l, m, by rw [h1]; rfl, ?_, h3⟩
      rw [edges_cons]
      omega
    · right
      rw [edges_cons]
      omega

theorem calm_start {c : NetCfg} (hist : List (NetEv α)) (hcl : ∀ e ∈ hist, e.clean = true) (hlim : c.snkLimit ≤ 0) (s : Net α)
    (hs : s = Net.exec c (.snkReset false :: hist)) (hon : s.src.pc ≠ .off) (hp : s.src.pause = false) (hp' : s.snk.pause = false) : Steady c s := by
  subst hs
  refine ⟨known_exec c hist hcl, hlim, hon, ?_, hp, hp'⟩
  refine foldl_inv' _ (fun s : Net α => s.snk.pc ≠ .off) (fun e => e.clean = true) (fun s e hq h => ?_) hist _ hcl (by simp [Net.step, Snk.reset])
  rcases step_snk c s e hq with ⟨_, _, e', _⟩ | k
  · rw [e']; exact finish_off
  · exact fun hh => h (k.on hh)

/-- Once `ready` is set for good. -/
theorem Steady.fast {c : NetCfg} {s : Net α} (h : Steady c s) (evs : List (NetEv α)) (hev : ∀ e ∈ evs, e.steady = true) (hk : 2 < Net.edges c s evs) :
    Fast c (evs.foldl (Net.step c) s) := by
  have hn := need_le c s
  rcases h.reach evs hev with ⟨l, m, rfl, _, hf⟩ | h2
  · rw [List.foldl_append]
    exact (hf.run m 0 (fun x hx => hev x (List.mem_append_right _ hx)) (Nat.zero_le _) (by omega) (by omega)).1
  · omega

theorem level_mono {c : NetCfg} : ∀ (evs : List (NetEv α)) {s : Net α}, Steady c s → (∀ e ∈ evs, e.steady = true) →
    s.level c ≤ (evs.foldl (Net.step c) s).level c ∧ s.src.sent.length ≤ (evs.foldl (Net.step c) s).src.sent.length ∧ Steady c (evs.foldl (Net.step c) s) := by
  intro evs
  induction evs with
  | nil => intro s h _; exact ⟨Nat.le_refl _, Nat.le_refl _, h⟩
  | cons e evs ih =>
    intro s h hev
    have he := hev e List.mem_cons_self
    have hc := steady_clean he
    obtain ⟨a, b, d⟩ := ih (h.step e he) (fun x hx => hev x (List.mem_cons_of_mem _ hx))
    refine ⟨Nat.le_trans ?_ a, Nat.le_trans ?_ b, d⟩
    · by_cases hed : s.edge e
      · have h2 := still_iff.1 hed.2.2.2
        unfold Net.level
        rw [net_pend_not_due c s h2.1, edge_eq c hed]
        simp only [List.append_nil, List.length_append]
        omega
      · exact level_step e hc hed
    · rcases step_src c s e hc with ⟨_, _, e', _⟩ | k
      · rw [e', (srun_facts _ _).2.1]; exact Nat.le_refl _
      · exact k.sent.length_le

theorem Steady.rate {c : NetCfg} {s : Net α} (h : Steady c s) (evs : List (NetEv α)) (hev : ∀ e ∈ evs, e.steady = true) :
    min s.src.sent.length (s.level c + Net.edges c s evs - 3) ≤ (evs.foldl (Net.step c) s).level c := by
  have hn := need_le c s
  rcases h.reach evs hev with ⟨l, m, rfl, hl, hf⟩ | h2
  · rw [List.foldl_append, edges_append]
    obtain ⟨a, b, _⟩ := level_mono l h (fun x hx => hev x (List.mem_append_left _ hx))
    have ho := hf.known.out.1
    have := (hf.run (N := s.src.sent.length) m (s.level c) (fun x hx => hev x (List.mem_append_right _ hx)) b (by unfold Net.credit; omega) (by omega)).2
    omega
  · have := (level_mono evs h hev).1
    omega

end Verif.Stream
