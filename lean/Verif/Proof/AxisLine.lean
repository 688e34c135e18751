import Verif.Proof.AxisStep
import Verif.Spec.AxisSplit

/-!
# What is on its way over an AXI stream connection
-/

namespace Verif.Axis

open Verif.Stream (Pc wakeUp_ne wakeUp_off wakeUp_woken wakeUp_due wakeUp_edge tick_due tick_off tick_asleep tick_woken tick_edge
  still_iff foldl_inv foldl_inv')

/-! ## What holds of every state, whatever the resets -/

structure Sound (c : NetCfg) (s : Net) : Prop where
  src : SrcInv c.bus s.src
  snk : SnkInv c.snk s.snk s.src.valid
  set : s.settled = true → s.src.valid = s.src.nvalid ∧ s.src.beat = s.src.nbeat ∧ s.snk.ready = s.snk.nready
  due : s.src.pc = .due → s.src.valid = s.src.nvalid ∧ s.src.beat = s.src.nbeat

theorem Net.sides (c : NetCfg) (evs : List NetEv) : ∃ (l₁ : List SrcEv) (l₂ : List SnkEv),
    Sim c (Net.exec c evs) (SrcSys.exec c.bus l₁) (SnkSys.exec c.snk l₂) := by
  induction evs using snoc_ind with
  | nil => exact ⟨[], [], rfl, rfl, rfl, rfl, rfl, by simp [Net.exec], rfl⟩
  | snoc evs e ih =>
    obtain ⟨l₁, l₂, h⟩ := ih
    obtain ⟨k₁, k₂, g, _⟩ := h.step e
    refine ⟨l₁ ++ k₁, l₂ ++ k₂, ?_⟩
    simp only [Net.exec, SrcSys.exec, SnkSys.exec, List.foldl_append, List.foldl_cons, List.foldl_nil] at g ⊢
    exact g

theorem Net.sound {c : NetCfg} (hl : 0 < c.bus.lanes) (hv : c.bus.hasValid = true) (evs : List NetEv) : Sound c (Net.exec c evs) := by
  obtain ⟨l₁, l₂, sim⟩ := Net.sides c evs
  have ha := SrcSys.exec_acc (c := c.bus) hl hv false l₁ (by simp)
  have hk : SnkAcc c.snk false (SnkSys.exec c.snk l₂) :=
    foldl_inv' _ (fun s : SnkSys => SnkAcc c.snk false s) (fun _ => True)
      (fun _ e _ h => SnkAcc.step (c := c.snk) hl e (fun h => by cases h) h) l₂ _ (fun _ _ => trivial)
      ⟨SnkInv.init _ _, by simp, by simp, by simp [Stream.Acc, SnkSys.pend]⟩
  refine ⟨by rw [← sim.src]; exact ha.inv, by rw [← sim.snk, ← sim.valid]; exact hk.inv, fun hset => ?_, fun hd => ?_⟩
  · obtain ⟨h1, h2⟩ := sim.set hset
    have e1 := ha.set h1
    have e2 := hk.set h2
    rw [sim.src] at e1
    rw [sim.snk] at e2
    exact ⟨e1.1, e1.2, e2⟩
  · have := ha.due (by rw [sim.src]; exact hd)
    rw [sim.src] at this
    exact this

/-- The beat that the sink is about to capture. -/
def Net.taking (c : NetCfg) (s : Net) : List Beat :=
  if s.snk.pc = .due ∧ (s.src.valid && (!c.bus.hasReady || s.snk.ready)) = true then [s.src.beat] else []

/-- The beat presented and not yet transferred. -/
def Net.shown (c : NetCfg) (s : Net) : List Beat :=
  if s.src.pc = .due ∧ (s.src.valid && (!c.bus.hasReady || s.snk.ready)) = true then []
  else if s.src.nvalid then [s.src.nbeat] else []

theorem taking_not_due {c : NetCfg} {s : Net} (h : s.snk.pc ≠ .due) : s.taking c = [] := by
  unfold Net.taking; rw [if_neg (fun hh => h hh.1)]

theorem shown_not_due {c : NetCfg} {s : Net} (h : s.src.pc ≠ .due) : s.shown c = if s.src.nvalid then [s.src.nbeat] else [] := by
  unfold Net.shown; rw [if_neg (fun hh => h hh.1)]

theorem rest_same {c : Cfg} {s t : Src} (hi : SrcInv c s) (h : SrcKeep s t) : t.rest c = s.rest c := by
  unfold Src.rest
  rw [h.frame, h.off]
  cases hf : s.frame with
  | none => rfl
  | some p =>
    obtain ⟨i, g⟩ := p
    obtain ⟨_, f, hs, _⟩ := hi.frm i g hf
    obtain ⟨x, _, hx⟩ := h.more
    have : t.sent[i]? = some f := by
      rw [hx, List.getElem?_append_left (List.getElem?_eq_some_iff.1 hs).1]; exact hs
    simp only [hs, this]

theorem commit_noop {c : NetCfg} {s : Net} (h : s.src.pc = .due ∨ s.snk.pc = .due) : s.step c .commit = s := by
  unfold Net.step
  split
  · rfl
  simp only
  rw [if_neg]
  simp only [Bool.and_eq_true, still_iff]
  rcases h with h | h
  · exact fun hh => hh.1.1 h
  · exact fun hh => hh.2.1 h

theorem step_shown (c : NetCfg) (s : Net) (e : NetEv) (hcl : e.clean = true) (h1 : e ≠ .tick) (h2 : e ≠ .srcRun) (h3 : e ≠ .snkRun) :
    (s.step c e).taking c = s.taking c ∧ (s.step c e).shown c = s.shown c := by
  have hs : SrcKeep s.src (s.step c e).src := by
    rcases step_src c s e hcl with h | h
    · exact absurd h.1 h2
    · exact h
  have hk : RxKeep s.snk (s.step c e).snk := by
    rcases step_snk c s e hcl with h | h
    · exact absurd h.1 h3
    · exact h
  have d1 : (s.step c e).src.pc = .due ↔ s.src.pc = .due :=
    ⟨fun h => Classical.byContradiction fun hn => h1 (step_due c s e (.inl ⟨hn, h⟩)).1, hs.due⟩
  have d2 : (s.step c e).snk.pc = .due ↔ s.snk.pc = .due :=
    ⟨fun h => Classical.byContradiction fun hn => h1 (step_due c s e (.inr ⟨hn, h⟩)).1, hk.due⟩
  by_cases hd : s.src.pc = .due ∨ s.snk.pc = .due ∨ e ≠ .commit
  · obtain ⟨g1, g2, g3⟩ := step_signals c s e hd
    unfold Net.taking Net.shown
    rw [g1, g2, g3, hs.nvalid, hs.nbeat]
    simp only [d1, d2, and_self]
  · have n1 : s.src.pc ≠ .due := fun h => hd (.inl h)
    have n2 : s.snk.pc ≠ .due := fun h => hd (.inr (.inl h))
    rw [taking_not_due n2, shown_not_due n1, taking_not_due (fun h => n2 (d2.1 h)), shown_not_due (fun h => n1 (d1.1 h)), hs.nvalid, hs.nbeat]
    exact ⟨rfl, rfl⟩

theorem drive_same {c : Cfg} (hv : c.hasValid = true) (s : Src) (i : Nat) (g : Frame) : (s.drive c i g).queue = s.queue ∧
    (s.drive c i g).sent = s.sent ∧ (s.drive c i g).valid = s.valid ∧ (s.drive c i g).beat = s.beat ∧ (s.drive c i g).pc ≠ .due ∧
    (s.drive c i g).nvalid = true ∧ (live (s.drive c i g).frame = true → (s.drive c i g).nbeat.tlast = false) := by
  unfold Src.drive
  simp only [hv, if_true]
  split
  · simp [live]
  · rename_i h; simp at h; simp [h]

theorem quiet_same {c : Cfg} (hv : c.hasValid = true) (s : Src) : (s.quiet c).queue = s.queue ∧ (s.quiet c).sent = s.sent ∧
    (s.quiet c).valid = s.valid ∧ (s.quiet c).beat = s.beat ∧ (s.quiet c).pc ≠ .due ∧ (s.quiet c).nvalid = false ∧
    (s.quiet c).rest c = s.rest c := by
  unfold Src.quiet
  simp only [hv, if_true]
  split <;> exact ⟨rfl, rfl, rfl, rfl, by simp, rfl, rfl⟩

/-! ## What has been captured, and what will be -/

/-- The beats captured, followed by all those that the source holds. -/
def Net.total (c : NetCfg) (s : Net) : List Beat := s.snk.captured ++ s.taking c ++ s.shown c ++ s.src.todo c.bus

theorem total_still {c : NetCfg} {s : Net} (h1 : s.src.pc ≠ .due) (h2 : s.snk.pc ≠ .due) :
    s.total c = s.snk.captured ++ (if s.src.nvalid then [s.src.nbeat] else []) ++ s.src.todo c.bus := by
  unfold Net.total
  rw [taking_not_due h2, shown_not_due h1, List.append_nil]

theorem todo_more {c : Cfg} {s t : Src} (hi : SrcInv c s) (h : SrcKeep s t) :
    ∃ x : List Frame, t.sent = s.sent ++ x ∧ t.todo c = s.todo c ++ x.flatMap (beats c) := by
  obtain ⟨x, h1, h2⟩ := h.more
  refine ⟨x.map (·.2), h2, ?_⟩
  unfold Src.todo
  rw [rest_same hi h, h1, List.flatMap_append, List.append_assoc, List.flatMap_map]

/-- The source's turn. -/
theorem run_total {c : NetCfg} (hl : 0 < c.bus.lanes) (hv : c.bus.hasValid = true) {s : Net} (hs : Sound c s) (hcr : s.src.crashed = false)
    (hd : s.src.pc = .due) (hpr : ∀ p ∈ s.src.queue, p.2.proper) :
    Net.total c { s with src := s.src.run c.bus s.snk.ready, settled := false } = s.total c := by
  refine SrcInv.run_cases hv s.src s.snk.ready (fun t => Net.total c { s with src := t, settled := false } = s.total c) ?_ ?_
  · intro hval hr hrd
    have e : Net.shown c { s with src := { s.src with pc := .edge }, settled := false } = s.shown c := by
      rw [shown_not_due (by simp)]
      unfold Net.shown
      rw [if_neg (c := s.src.pc = .due ∧ _) (by rw [hr, hrd]; simp)]
    unfold Net.total
    rw [e]
    rfl
  · intro hx t ht
    have hsh : s.shown c = [] := by
      unfold Net.shown
      split
      · rfl
      · rename_i hn
        have : s.src.valid = false := by
          cases hval : s.src.valid
          · rfl
          · exact absurd ⟨hd, by rw [hval, hx hval]; rfl⟩ hn
        rw [← (hs.due hd).1, this]; rfl
    have key : SrcInv c.bus t ∧ t.valid = s.src.valid ∧ t.beat = s.src.beat ∧ t.todo c.bus = s.src.todo c.bus ∧ t.crashed = false := by
      by_cases hlv : live s.src.frame = true
      · rw [if_pos hlv] at ht
        subst ht
        exact ⟨hs.src, rfl, rfl, rfl, hcr⟩
      · rw [if_neg hlv] at ht
        rw [Bool.not_eq_true] at hlv
        subst ht
        obtain ⟨_, g2, _, _, _, g6⟩ := take_facts s.src
        exact ⟨hs.src.take hlv hd, g2, g6, hs.src.take_todo hl hlv, by rw [take_proper s.src hpr, hcr]⟩
    obtain ⟨k0, k1, k2, k3, k4⟩ := key
    refine ⟨fun htc => (by rw [k4] at htc; cases htc), fun htc i g hf hg _ => ?_, fun htc _ => ?_⟩
    · obtain ⟨g1, g2, g3, g4, g5, g6, g7⟩ := drive_same hv t i g
      obtain ⟨d1, _⟩ := SrcInv.drive_todo hl hv k0 hf hg
      have e : Net.taking c { s with src := t.drive c.bus i g, settled := false } = s.taking c := by
        unfold Net.taking; simp only [g3, g4, k1, k2]
      unfold Net.total
      rw [e, shown_not_due g5, hsh, ← k3, d1]
      simp only [g6, if_true]
      simp
    · obtain ⟨g1, g2, g3, g4, g5, g6, g7⟩ := quiet_same hv t
      obtain ⟨d1, _⟩ := quiet_facts hv t
      have e : Net.taking c { s with src := t.quiet c.bus, settled := false } = s.taking c := by
        unfold Net.taking; simp only [g3, g4, k1, k2]
      unfold Net.total
      rw [e, shown_not_due g5, hsh, ← k3, ← d1]
      simp only [g6, Bool.false_eq_true, if_false]

/-- The sink's turn. -/
theorem runSnk_total {c : NetCfg} (hv : c.bus.hasValid = true) {s : Net} (hd : s.snk.pc = .due) :
    Net.total c { s with snk := s.snk.runSnk c.snk s.src.valid s.src.beat, settled := false } = s.total c := by
  obtain ⟨_, _, _, _, _, _, _, _, q9, _, q11, _⟩ := finish_same c.snk (s.snk.capture c.snk s.src.valid s.src.beat) s.src.valid
  obtain ⟨_, _, _, _, p5, _⟩ := capture_same c.snk s.snk s.src.valid s.src.beat
  have etake : Net.taking c { s with snk := s.snk.runSnk c.snk s.src.valid s.src.beat, settled := false } = [] := taking_not_due q9
  have eshow : Net.shown c { s with snk := s.snk.runSnk c.snk s.src.valid s.src.beat, settled := false } = s.shown c := by
    unfold Net.shown Rx.runSnk; simp only [q11, p5]
  unfold Net.total
  rw [etake, eshow]
  simp only [runSnk_captured, List.append_nil]
  have : (if ((!c.snk.hasReady || s.snk.ready) && (!c.snk.hasValid || s.src.valid)) = true then [s.src.beat] else []) = s.taking c := by
    unfold Net.taking
    simp only [NetCfg.snk, hv, Bool.not_true, Bool.false_or, hd, true_and]
    rw [Bool.and_comm]
  rw [this]

/-- A clock edge. -/
theorem tick_shown {c : NetCfg} {s : Net} (hs : Sound c s) (hoff : c.bus.hasReady = false → s.snk.pc = .off → s.src.pc = .off)
    (hset : s.settled = true) (hst1 : s.src.pc ≠ .due ∧ s.src.pc ≠ .woken) (hst2 : s.snk.pc ≠ .due ∧ s.snk.pc ≠ .woken) :
    Net.taking c { s with src := { s.src with pc := s.src.pc.tick }, snk := { s.snk with pc := s.snk.pc.tick } } ++
      Net.shown c { s with src := { s.src with pc := s.src.pc.tick }, snk := { s.snk with pc := s.snk.pc.tick } } =
    s.taking c ++ s.shown c := by
  obtain ⟨v1, v2, v3⟩ := hs.set hset
  rw [taking_not_due hst2.1, shown_not_due hst1.1]
  unfold Net.taking Net.shown
  simp only [tick_due]
  by_cases hx : (s.src.valid && (!c.bus.hasReady || s.snk.ready)) = true
  · have hx' := hx
    simp only [Bool.and_eq_true] at hx'
    have hnv : s.src.nvalid = true := by rw [← v1]; exact hx'.1
    have he : s.src.pc = .edge := by
      cases hp : s.src.pc
      case edge => rfl
      case due => exact absurd hp hst1.1
      all_goals
        have := hs.src.quiet (by simp [hp])
        rw [hnv] at this; cases this
    have he2 : s.snk.pc = .edge := by
      cases hp : s.snk.pc
      case edge => rfl
      case due => exact absurd hp hst2.1
      case woken => exact absurd hp hst2.2
      case asleep =>
        have := hs.snk.sleep hp
        rw [← v3] at this
        have h2 : ((!c.bus.hasValid || s.src.valid) && (!c.bus.hasReady || s.snk.ready)) = false := this
        rw [hx'.1, hx'.2] at h2
        simp at h2
      case off =>
        have h1 := hs.snk.off hp
        rw [← v3] at h1
        cases hr : c.bus.hasReady
        · have := hoff hr hp
          rw [he] at this; cases this
        · rw [h1, hr] at hx'; simp at hx'
    rw [if_pos ⟨.inl he2, hx⟩, if_pos ⟨.inl he, hx⟩, hnv, v2]
    rfl
  · rw [if_neg (fun hh => hx hh.2), if_neg (fun hh => hx hh.2)]

/-- Without reset and `clear()` nothing is lost and nothing appears but the frames sent. -/
theorem step_total {c : NetCfg} (hl : 0 < c.bus.lanes) (hv : c.bus.hasValid = true) {s : Net} (hs : Sound c s) (hcr : s.src.crashed = false)
    (hpr : ∀ p ∈ s.src.queue, p.2.proper) (hon : s.snk.pc ≠ .off) (e : NetEv) (hcl : e.clean = true) :
    ∃ x : List Frame, (s.step c e).src.sent = s.src.sent ++ x ∧ (s.step c e).total c = s.total c ++ x.flatMap (beats c.bus) := by
  have hsrc := step_src c s e hcl
  have hsnk := step_snk c s e hcl
  by_cases h2 : e = .srcRun
  · subst h2
    have hk : RxKeep s.snk (s.step c .srcRun).snk := by
      rcases hsnk with h | h
      · cases h.1
      · exact h
    by_cases hd : s.src.pc = .due
    · refine ⟨[], ?_, ?_⟩
      · have : s.step c .srcRun = { s with src := s.src.run c.bus s.snk.ready, settled := false } := by
          unfold Net.step; rw [if_neg (by rw [hcr]; simp)]; simp only; rw [if_pos hd]
        rw [this, List.append_nil]
        refine SrcInv.run_cases (P := fun t => t.sent = s.src.sent) hv s.src s.snk.ready (fun _ _ _ => rfl) ?_
        intro _ u hu
        have hus : u.sent = s.src.sent := by
          rw [hu]
          split
          · rfl
          · exact (take_facts s.src).1
        exact ⟨fun _ => hus, fun _ i g _ _ _ => (drive_same hv u i g).2.1.trans hus, fun _ _ => (quiet_same hv u).2.1.trans hus⟩
      · have : s.step c .srcRun = { s with src := s.src.run c.bus s.snk.ready, settled := false } := by
          unfold Net.step; rw [if_neg (by rw [hcr]; simp)]; simp only; rw [if_pos hd]
        rw [this, run_total hl hv hs hcr hd hpr]
        simp
    · have : s.step c .srcRun = s := by
        unfold Net.step; rw [if_neg (by rw [hcr]; simp)]; simp only; rw [if_neg hd]
      exact ⟨[], by rw [this]; simp, by rw [this]; simp⟩
  by_cases h3 : e = .snkRun
  · subst h3
    refine ⟨[], ?_, ?_⟩
    · unfold Net.step; rw [if_neg (by rw [hcr]; simp)]; simp only; split <;> simp
    · unfold Net.step; rw [if_neg (by rw [hcr]; simp)]; simp only
      split
      · rename_i hd
        rw [runSnk_total hv hd]; simp
      · simp
  have hk : SrcKeep s.src (s.step c e).src := by
    rcases hsrc with h | h
    · exact absurd h.1 h2
    · exact h
  have hx : RxKeep s.snk (s.step c e).snk := by
    rcases hsnk with h | h
    · exact absurd h.1 h3
    · exact h
  obtain ⟨x, t1, t2⟩ := todo_more hs.src hk
  refine ⟨x, t1, ?_⟩
  have hts : (s.step c e).taking c ++ (s.step c e).shown c = s.taking c ++ s.shown c := by
    by_cases h1 : e = .tick
    · subst h1
      unfold Net.step
      rw [if_neg (by rw [hcr]; simp)]
      simp only
      split
      · rename_i ht
        simp only [Bool.and_eq_true, still_iff] at ht
        exact tick_shown hs (fun _ h => absurd h hon) ht.1.1 ht.1.2 ht.2
      · rfl
    · obtain ⟨g3, g4⟩ := step_shown c s e hcl h1 h2 h3
      rw [g3, g4]
  unfold Net.total
  rw [t2, hx.captured, List.append_assoc s.snk.captured, List.append_assoc s.snk.captured, hts]
  simp only [List.append_assoc]

/-- Without resets and `clear()` since construction, these are the beats of all frames sent. -/
theorem Reach.total {c : NetCfg} (hl : 0 < c.bus.lanes) (hv : c.bus.hasValid = true) {s : Net} (h : Reach c s) :
    s.total c = s.src.sent.flatMap (beats c.bus) := by
  obtain ⟨evs, hcl, hs⟩ := h
  obtain ⟨l₁, l₂, sim, hc⟩ := Net.project c evs
  obtain ⟨c1, c2⟩ := hc hcl
  rw [← hs] at sim
  have ha := (SrcSys.exec_acc (c := c.bus) hl hv true l₁ (fun _ => c1)).acc
  have hk := (SnkSys.exec_acc (c := c.snk) hl true l₂ (fun _ => snk_clean_noReset' c2)).acc
  simp only [Stream.Acc, if_true] at ha hk
  have hv' : c.snk.hasValid = true := hv
  have hp : (SnkSys.exec c.snk (.reset false :: l₂)).pend c.snk = s.taking c := by
    unfold SnkSys.pend Net.taking
    rw [sim.snk, sim.valid, sim.beat, hv']
    rfl
  have hb : (SrcSys.exec c.bus l₁).onBus c.bus = s.shown c := by
    unfold SrcSys.onBus Net.shown
    rw [sim.src, sim.ready]
  rw [sim.tr, hk, hp, hb, sim.snk, sim.src] at ha
  exact ha.symm

/-! ## What else holds of every state, as long as `clear()` is not called on the sink -/

/-- What is known of a state reached with resets. -/
structure Base (c : NetCfg) (s : Net) : Prop extends Sound c s where
  live : SnkLive c.snk s.snk
  slept : SnkSlept c.snk s.snk
  occ : s.snk.occBytes = bytes s.snk.queue ∧ s.snk.occFrames = s.snk.queue.length
  rest : s.src.pc = .asleep → s.src.active = false

theorem Base.bus {c : NetCfg} {s : Net} (h : Base c s) : Bus c s := ⟨h.set, fun hd => (h.due hd).1, h.slept⟩

theorem step_rest {c : NetCfg} (hv : c.bus.hasValid = true) (s : Net) (e : NetEv) (hs : s.src.pc = .asleep → s.src.active = false) :
    (s.step c e).src.pc = .asleep → (s.step c e).src.active = false := by
  by_cases he : e.clean = true
  · rcases step_src c s e he with ⟨_, hd, e', _⟩ | k
    · rw [e']
      refine SrcInv.run_cases (P := fun t => t.pc = .asleep → t.active = false) hv s.src _ (fun _ _ _ hh => by simp at hh) ?_
      intro _ u hu
      have hpc : u.pc = .due := by
        rw [hu]
        split
        · exact hd
        · rw [(take_facts s.src).2.2.2.1, hd]
      refine ⟨fun _ hh => (by rw [hpc] at hh; cases hh), fun _ i g _ _ _ => ?_, fun _ _ => ?_⟩
      · unfold Src.drive
        simp only
        split <;> simp
      · unfold Src.quiet
        simp only
        split
        · rename_i hc
          simp only [Bool.and_eq_true, Bool.not_eq_true'] at hc
          exact fun _ => hc.1
        · simp
    · exact fun hh => k.active.trans (hs (k.slept hh))
  · unfold Net.step
    split
    · exact hs
    cases e <;> simp only <;> try (exact absurd rfl he)
    case srcClear => exact hs
    case snkClear => exact hs
    case srcReset v =>
      cases v
      · exact absurd rfl he
      · intro _
        unfold Src.reset
        simp only [if_true]
        split
        · split <;> rfl
        · rfl
    case snkReset v => exact hs

theorem step_live {c : NetCfg} (evs : List NetEv) (e : NetEv) (he : e ≠ .snkClear) (h : SnkLive c.snk (Net.exec c evs).snk) :
    SnkLive c.snk ((Net.exec c evs).step c e).snk := by
  by_cases hc : e.clean = true
  · obtain ⟨l₁, l₂, sim⟩ := Net.sides c evs
    obtain ⟨k₁, k₂, g, hcl⟩ := sim.step e
    rw [← g.snk]
    refine foldl_inv' _ (fun s : SnkSys => SnkLive c.snk s.snk) (fun e => e.noClear = true) (fun _ e he h => SnkLive.step e he h) k₂ _
      (snk_clean_noClear (hcl hc).2) ?_
    rw [sim.snk]; exact h
  · unfold Net.step
    split
    · exact h
    cases e <;> simp only <;> try (exact absurd rfl hc)
    case snkClear => exact absurd rfl he
    case srcClear => exact h
    case srcReset v => exact h
    case snkReset v =>
      cases v
      · exact absurd rfl hc
      · intro hp
        simp [Rx.reset] at hp

theorem Net.base {c : NetCfg} (hl : 0 < c.bus.lanes) (hv : c.bus.hasValid = true) (evs : List NetEv) (hc : ∀ e ∈ evs, e ≠ .snkClear) :
    Base c (Net.exec c evs) := by
  have h1 : SnkLive c.snk (Net.exec c evs).snk ∧ ((Net.exec c evs).src.pc = .asleep → (Net.exec c evs).src.active = false) := by
    induction evs using snoc_ind with
    | nil => exact ⟨fun hp => by simp [Net.exec] at hp, fun hp => by simp [Net.exec] at hp⟩
    | snoc evs e ih =>
      obtain ⟨i1, i2⟩ := ih (fun x hx => hc x (by simp [hx]))
      have hs : Net.exec c (evs ++ [e]) = (Net.exec c evs).step c e := by simp [Net.exec]
      rw [hs]
      exact ⟨step_live evs e (hc e (by simp)) i1, step_rest hv _ e i2⟩
  obtain ⟨l₁, l₂, sim⟩ := Net.sides c evs
  have hsl : SnkSlept c.snk (SnkSys.exec c.snk l₂).snk :=
    foldl_inv _ (fun s : SnkSys => SnkSlept c.snk s.snk) (fun _ e h => SnkSlept.step e h) _ _ (fun hp => by simp at hp)
  have hk := SnkSys.exec_rx (c := c.snk) hl l₂
  rw [sim.snk] at hk hsl
  exact ⟨Net.sound hl hv evs, h1.1, hsl, ⟨hk.occB, hk.occF⟩, h1.2⟩

end Verif.Axis
