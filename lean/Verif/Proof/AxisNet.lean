import Verif.Proof.AxisRxAcc

/-!
# An AXI stream source connected to a sink

A history of the pair is, seen from each side, a history of that side with an environment.
-/

namespace Verif.Axis

open Verif.Stream (Pc wakeUp_ne wakeUp_off wakeUp_woken wakeUp_due wakeUp_edge tick_due tick_off tick_asleep tick_woken tick_edge
  still_iff foldl_inv foldl_inv')

/-! ## Signals -/

theorem accept_signals (s : Src) (f : Frame) : (s.accept f).2.valid = s.valid ∧ (s.accept f).2.beat = s.beat := by
  rcases accept_cases s f with h | h <;> rw [h] <;> exact ⟨rfl, rfl⟩

theorem drive_signals (c : Cfg) (s : Src) (i : Nat) (f : Frame) : (s.drive c i f).valid = s.valid ∧ (s.drive c i f).beat = s.beat := by
  unfold Src.drive
  simp only
  split <;> exact ⟨rfl, rfl⟩

theorem quiet_signals (c : Cfg) (s : Src) : (s.quiet c).valid = s.valid ∧ (s.quiet c).beat = s.beat := by
  unfold Src.quiet
  simp only
  split <;> exact ⟨rfl, rfl⟩

theorem take_signals (s : Src) : s.take.valid = s.valid ∧ s.take.beat = s.beat := by
  unfold Src.take
  repeat' split
  all_goals exact ⟨rfl, rfl⟩

theorem run_signals (c : Cfg) (s : Src) (r : Bool) : (s.run c r).valid = s.valid ∧ (s.run c r).beat = s.beat := by
  have h1 : (if (!live s.frame) = true then s.take else s).valid = s.valid ∧
      (if (!live s.frame) = true then s.take else s).beat = s.beat := by
    split
    · exact take_signals s
    · exact ⟨rfl, rfl⟩
  unfold Src.run
  simp only
  split
  · generalize (if (!live s.frame) = true then s.take else s) = t at h1 ⊢
    split
    · exact h1
    · split
      · split
        · exact ⟨(drive_signals c t _ _).1.trans h1.1, (drive_signals c t _ _).2.trans h1.2⟩
        · exact ⟨(quiet_signals c t).1.trans h1.1, (quiet_signals c t).2.trans h1.2⟩
      · exact ⟨(quiet_signals c t).1.trans h1.1, (quiet_signals c t).2.trans h1.2⟩
  · exact ⟨rfl, rfl⟩

theorem send_signals (c : Cfg) (s : Src) (f : Frame) : (s.send c f).valid = s.valid ∧ (s.send c f).beat = s.beat := by
  unfold Src.send
  split
  · exact ⟨rfl, rfl⟩
  · exact accept_signals s f

theorem resume_signals (c : Cfg) (s : Src) (i : Nat) : (s.resume c i).valid = s.valid ∧ (s.resume c i).beat = s.beat := by
  unfold Src.resume
  split
  · split
    · exact ⟨rfl, rfl⟩
    · exact accept_signals _ _
  · exact ⟨rfl, rfl⟩

theorem sendNowait_signals (c : Cfg) (s : Src) (f : Frame) :
    (s.sendNowait c f).2.valid = s.valid ∧ (s.sendNowait c f).2.beat = s.beat := by
  unfold Src.sendNowait
  split
  · exact ⟨rfl, rfl⟩
  · exact accept_signals s f

theorem reset_signals (s : Src) (v : Bool) : (s.reset v).valid = s.valid ∧ (s.reset v).beat = s.beat := by
  unfold Src.reset
  simp only
  repeat' split
  all_goals exact ⟨rfl, rfl⟩

theorem runSnk_ready (c : Cfg) (s : Rx) (v : Bool) (b : Beat) : (s.runSnk c v b).ready = s.ready := by
  obtain ⟨_, _, _, _, _, _, _, _, _, _, e, _⟩ := finish_same c (s.capture c v b) v
  exact e.trans (capture_same c s v b).2.2.2.2.1

/-! ## Projection -/

/-- The pair seen from both sides. -/
structure Sim (c : NetCfg) (n : Net) (s : SrcSys) (k : SnkSys) : Prop where
  src : s.src = n.src
  snk : k.snk = n.snk
  ready : s.ready = n.snk.ready
  valid : k.valid = n.src.valid
  beat : k.beat = n.src.beat
  set : n.settled = true → s.settled = true ∧ k.settled = true
  tr : xfers c.bus s.trace = xfers c.snk k.trace

theorem xfers_none (c : Cfg) : xfers c [none] = [] := rfl

theorem Sim.step {c : NetCfg} {n : Net} {s : SrcSys} {k : SnkSys} (h : Sim c n s k) (e : NetEv) :
    ∃ (l₁ : List SrcEv) (l₂ : List SnkEv), Sim c (n.step c e) (l₁.foldl (SrcSys.step c.bus) s) (l₂.foldl (SnkSys.step c.snk) k) ∧
      (e.clean = true → (∀ x ∈ l₁, x.clean = true) ∧ (∀ x ∈ l₂, x.clean = true)) := by
  obtain ⟨h1, h2, h3, h4, h5, h6, h7⟩ := h
  have same : Sim c n s k := ⟨h1, h2, h3, h4, h5, h6, h7⟩
  unfold Net.step
  split
  · exact ⟨[], [], same, by simp⟩
  rename_i hcr
  have hcr' : ¬ s.src.crashed = true := by rw [h1]; exact hcr
  -- an event of the source alone
  have srcEv : ∀ (x : SrcEv) (t : Src), (s.step c.bus x).src = t → (s.step c.bus x).ready = s.ready →
      xfers c.bus (s.step c.bus x).trace = xfers c.bus s.trace → t.valid = n.src.valid → t.beat = n.src.beat →
      ((e.clean = true → x.clean = true)) →
      ∃ (l₁ : List SrcEv) (l₂ : List SnkEv), Sim c { n with src := t, settled := false } (l₁.foldl (SrcSys.step c.bus) s) (l₂.foldl (SnkSys.step c.snk) k) ∧
        (e.clean = true → (∀ x ∈ l₁, x.clean = true) ∧ (∀ x ∈ l₂, x.clean = true)) := by
    intro x t e1 e2 e3 e4 e5 e6
    exact ⟨[x], [], ⟨e1, h2, e2.trans h3, h4.trans e4.symm, h5.trans e5.symm, by simp, e3.trans h7⟩,
      fun hh => ⟨by simpa using e6 hh, by simp⟩⟩
  -- an event of the sink alone
  have snkEv : ∀ (x : SnkEv) (t : Rx), (k.step c.snk x).snk = t → (k.step c.snk x).valid = k.valid →
      (k.step c.snk x).beat = k.beat →
      xfers c.snk (k.step c.snk x).trace = xfers c.snk k.trace → t.ready = n.snk.ready →
      ((e.clean = true → x.clean = true)) →
      ∃ (l₁ : List SrcEv) (l₂ : List SnkEv), Sim c { n with snk := t, settled := false } (l₁.foldl (SrcSys.step c.bus) s) (l₂.foldl (SnkSys.step c.snk) k) ∧
        (e.clean = true → (∀ x ∈ l₁, x.clean = true) ∧ (∀ x ∈ l₂, x.clean = true)) := by
    intro x t e1 e2 e3 e4 e5 e6
    exact ⟨[], [x], ⟨h1, e1, h3.trans e5.symm, e2.trans h4, e3.trans h5, by simp, h7.trans e4.symm⟩,
      fun hh => ⟨by simp, by simpa using e6 hh⟩⟩
  cases e <;> simp only
  case tick =>
    split
    · rename_i hs
      simp only [Bool.and_eq_true] at hs
      obtain ⟨⟨hs1, hs2⟩, hs3⟩ := hs
      obtain ⟨g1, g2⟩ := h6 hs1
      refine ⟨[.tick], [.tick], ?_, by simp [SrcEv.clean, SnkEv.clean]⟩
      simp only [List.foldl_cons, List.foldl_nil, SrcSys.step, SnkSys.step, if_neg hcr, h1, h2, g1, g2, hs2, hs3, Bool.and_self, if_true]
      refine ⟨rfl, rfl, h3, h4, h5, by simp, ?_⟩
      simp only [xfers_append, h7]
      congr 1
      simp only [h3, h4, h5]
      rfl
    · exact ⟨[], [], same, by simp⟩
  case srcRun =>
    split
    · rename_i hd
      refine srcEv .run _ ?_ ?_ ?_ (run_signals _ _ _).1 (run_signals _ _ _).2 (fun _ => rfl)
      · simp only [SrcSys.step, if_neg hcr, h1, hd, if_true, h3]
      · simp only [SrcSys.step, if_neg hcr, h1, hd, if_true]
      · simp only [SrcSys.step, if_neg hcr, h1, hd, if_true]
    · exact ⟨[], [], same, by simp⟩
  case srcWake =>
    split
    · rename_i hd
      refine srcEv .wake _ ?_ ?_ ?_ rfl rfl (fun _ => rfl)
      · simp only [SrcSys.step, if_neg hcr, h1, hd, if_true]
      · simp only [SrcSys.step, if_neg hcr, h1, hd, if_true]
      · simp only [SrcSys.step, if_neg hcr, h1, hd, if_true]
    · exact ⟨[], [], same, by simp⟩
  case snkRun =>
    split
    · rename_i hd
      refine snkEv .run _ ?_ ?_ ?_ ?_ (runSnk_ready _ _ _ _) (fun _ => rfl)
      · simp only [SnkSys.step, h2, hd, if_true, h4, h5]
      all_goals simp only [SnkSys.step, h2, hd, if_true]
    · exact ⟨[], [], same, by simp⟩
  case snkWake =>
    split
    · rename_i hd
      refine snkEv .wake n.snk.top ?_ ?_ ?_ ?_ rfl (fun _ => rfl)
      all_goals simp only [SnkSys.step, h2, hd, if_true]
    · exact ⟨[], [], same, by simp⟩
  case snkSpurious =>
    split
    · rename_i hd
      refine snkEv .spurious n.snk.top ?_ ?_ ?_ ?_ rfl (fun _ => rfl)
      all_goals simp only [SnkSys.step, h2, hd, if_true]
    · exact ⟨[], [], same, by simp⟩
  case commit =>
    split
    · rename_i hs
      simp only [Bool.and_eq_true] at hs
      obtain ⟨hs2, hs3⟩ := hs
      have d1 : n.src.pc ≠ .due := (still_iff.1 hs2).1
      have d2 : n.snk.pc ≠ .due := (still_iff.1 hs3).1
      refine ⟨[.commit, .env n.snk.nready], [.commit, .env n.src.nvalid n.src.nbeat], ?_, by simp [SrcEv.clean, SnkEv.clean]⟩
      simp only [List.foldl_cons, List.foldl_nil, SrcSys.step, SnkSys.step, if_neg hcr, h1, h2, hs2, hs3, if_true, d1, h4]
      cases hr : n.snk.nready && !n.snk.ready
      · simp only [Bool.false_eq_true, if_false, d2, Bool.or_false]
        refine ⟨rfl, rfl, ?_, rfl, rfl, fun _ => ⟨rfl, rfl⟩, h7⟩
        simp only
        split <;> rfl
      · have d3 : ({ n.snk with ready := n.snk.nready } : Rx).setWake.pc ≠ .due := fun hh => d2 (wakeUp_due.1 hh)
        have d4 : ({ n.snk with ready := n.snk.nready } : Rx).setWake.setWake = ({ n.snk with ready := n.snk.nready } : Rx).setWake := by
          simp only [Rx.setWake]; cases n.snk.pc <;> rfl
        simp only [if_true, d3, if_false, Bool.or_true, d4, ite_self]
        exact ⟨rfl, rfl, rfl, rfl, rfl, fun _ => ⟨rfl, rfl⟩, h7⟩
    · exact ⟨[], [], same, by simp⟩
  case send f =>
    refine srcEv (.send f) _ ?_ ?_ ?_ (send_signals _ _ _).1 (send_signals _ _ _).2 (fun _ => rfl)
    all_goals simp only [SrcSys.step, if_neg hcr, h1]
  case resume i =>
    refine srcEv (.resume i) _ ?_ ?_ ?_ (resume_signals _ _ _).1 (resume_signals _ _ _).2 (fun _ => rfl)
    all_goals simp only [SrcSys.step, if_neg hcr, h1]
  case sendNowait f =>
    refine srcEv (.sendNowait f) _ ?_ ?_ ?_ (sendNowait_signals _ _ _).1 (sendNowait_signals _ _ _).2 (fun _ => rfl)
    all_goals simp only [SrcSys.step, if_neg hcr, h1]
  case srcPause v =>
    refine srcEv (.pause v) _ ?_ ?_ ?_ rfl rfl (fun _ => rfl)
    all_goals simp only [SrcSys.step, if_neg hcr, h1]
  case srcClear =>
    refine srcEv .clear n.src.clear ?_ ?_ ?_ rfl rfl (by simp [NetEv.clean])
    all_goals simp only [SrcSys.step, if_neg hcr, h1]
  case srcReset v =>
    refine srcEv (.reset v) _ ?_ ?_ ?_ (reset_signals _ _).1 (reset_signals _ _).2 ?_
    · simp only [SrcSys.step, if_neg hcr, h1]
    · simp only [SrcSys.step, if_neg hcr']
    · simp only [SrcSys.step, if_neg hcr']
      split
      · rw [xfers_append, xfers_none, List.append_nil]
      · rfl
    · cases v <;> simp [NetEv.clean, SrcEv.clean]
  case recv b =>
    refine snkEv (.recv b) _ ?_ ?_ ?_ ?_ (recv_kept true n.snk b).ready (fun _ => rfl)
    all_goals simp only [SnkSys.step, h2]
  case readNowait m =>
    refine snkEv (.readNowait m) _ ?_ ?_ ?_ ?_ (read_kept true n.snk m).ready (fun _ => rfl)
    all_goals simp only [SnkSys.step, h2]
  case snkPause v =>
    refine snkEv (.pause v) _ ?_ ?_ ?_ ?_ (setPause_facts n.snk v).2.2.2.1 (fun _ => rfl)
    all_goals simp only [SnkSys.step, h2]
  case snkClear =>
    refine snkEv .clear n.snk.clear ?_ ?_ ?_ ?_ rfl (by simp [NetEv.clean])
    all_goals simp only [SnkSys.step, h2]
  case snkReset v =>
    refine snkEv (.reset v) (n.snk.reset v) ?_ ?_ ?_ ?_ ?_ ?_
    · simp only [SnkSys.step, h2]
    · simp only [SnkSys.step]
    · simp only [SnkSys.step]
    · simp only [SnkSys.step]
      split
      · rw [xfers_append, xfers_none, List.append_nil]
      · rfl
    · unfold Rx.reset
      repeat' split
      all_goals rfl
    · cases v <;> simp [NetEv.clean, SnkEv.clean]

/-- A history of the pair, seen from both sides. -/
theorem Net.project (c : NetCfg) (evs : List NetEv) : ∃ (l₁ : List SrcEv) (l₂ : List SnkEv),
    Sim c (Net.exec c (.snkReset false :: evs)) (SrcSys.exec c.bus l₁) (SnkSys.exec c.snk (.reset false :: l₂)) ∧
      ((∀ e ∈ evs, e.clean = true) → (∀ x ∈ l₁, x.clean = true) ∧ (∀ x ∈ l₂, x.clean = true)) := by
  have init : Sim c (({} : Net).step c (.snkReset false)) (SrcSys.exec c.bus []) (SnkSys.exec c.snk [.reset false]) :=
    ⟨rfl, rfl, rfl, rfl, rfl, by simp [Net.step], rfl⟩
  suffices ∀ (evs : List NetEv) (n : Net) (l₁ : List SrcEv) (l₂ : List SnkEv),
      Sim c n (SrcSys.exec c.bus l₁) (SnkSys.exec c.snk (.reset false :: l₂)) →
      ∃ (m₁ : List SrcEv) (m₂ : List SnkEv), Sim c (evs.foldl (Net.step c) n) (SrcSys.exec c.bus m₁) (SnkSys.exec c.snk (.reset false :: m₂)) ∧
        ((∀ e ∈ evs, NetEv.clean e = true) → (∀ x ∈ l₁, x.clean = true) → (∀ x ∈ l₂, x.clean = true) →
          (∀ x ∈ m₁, x.clean = true) ∧ (∀ x ∈ m₂, x.clean = true)) by
    obtain ⟨m₁, m₂, g1, g2⟩ := this evs _ [] [] init
    exact ⟨m₁, m₂, g1, fun hh => g2 hh (by simp) (by simp)⟩
  intro evs
  induction evs with
  | nil => exact fun n l₁ l₂ h => ⟨l₁, l₂, h, fun _ a b => ⟨a, b⟩⟩
  | cons e evs ih =>
    intro n l₁ l₂ h
    obtain ⟨k₁, k₂, g1, g2⟩ := h.step e
    have e1 : SrcSys.exec c.bus (l₁ ++ k₁) = k₁.foldl (SrcSys.step c.bus) (SrcSys.exec c.bus l₁) := by
      rw [SrcSys.exec, List.foldl_append]; rfl
    have e2 : SnkSys.exec c.snk (.reset false :: (l₂ ++ k₂)) =
        k₂.foldl (SnkSys.step c.snk) (SnkSys.exec c.snk (.reset false :: l₂)) := by
      rw [SnkSys.exec, ← List.cons_append, List.foldl_append]; rfl
    rw [← e1, ← e2] at g1
    obtain ⟨m₁, m₂, p1, p2⟩ := ih _ _ _ g1
    refine ⟨m₁, m₂, p1, fun hc c1 c2 => p2 (fun x hx => hc x (List.mem_cons_of_mem _ hx)) ?_ ?_⟩
    · intro x hx
      rcases List.mem_append.1 hx with hx | hx
      · exact c1 x hx
      · exact (g2 (hc e (by simp))).1 x hx
    · intro x hx
      rcases List.mem_append.1 hx with hx | hx
      · exact c2 x hx
      · exact (g2 (hc e (by simp))).2 x hx

/-! ## Packets of frames -/

/-- Induction on a list from its end. -/
@[elab_as_elim]
theorem snoc_ind {β : Type} {P : List β → Prop} (l : List β) (nil : P []) (snoc : ∀ l x, P l → P (l ++ [x])) : P l := by
  have : ∀ (m : List β), P m.reverse := by
    intro m
    induction m with
    | nil => exact nil
    | cons x m ih => rw [List.reverse_cons]; exact snoc _ _ ih
  have := this l.reverse
  rwa [List.reverse_reverse] at this

theorem packets_mono (c : Cfg) (a b : List Beat) : (packets c a).1 <+: (packets c (a ++ b)).1 := by
  induction b using snoc_ind with
  | nil => simp
  | snoc b x ih =>
    rw [← List.append_assoc, packets_snoc]
    split
    · exact ih.trans (List.prefix_append _ _)
    · exact ih

theorem packets_open (c : Cfg) (hl : c.hasLast = true) (a b : List Beat) (hb : ∀ x ∈ b, x.tlast = false) :
    packets c (a ++ b) = ((packets c a).1, (packets c a).2 ++ b) := by
  induction b using snoc_ind with
  | nil => simp
  | snoc b x ih =>
    rw [← List.append_assoc, packets_snoc, ih (fun y hy => hb y (by simp [hy])), if_neg (by simp [hl, hb x (by simp)])]
    simp

theorem beats_split (c : Cfg) (hl : 0 < c.lanes) (f : Frame) (hf : f.tdata ≠ []) : ∃ bs b, beats c f = bs ++ [b] ∧ b.tlast = true ∧
    ∀ x ∈ bs, x.tlast = false := by
  have hpos : 0 < f.tdata.length := List.length_pos_iff.2 hf
  have h0 : 0 < beatCount c f := (beatCount_gt c hl f 0).2 (by omega)
  obtain ⟨m, hm⟩ : ∃ m, beatCount c f = m + 1 := ⟨beatCount c f - 1, by omega⟩
  refine ⟨(List.range m).map (beatAt c f), beatAt c f m, ?_, ?_, ?_⟩
  · rw [beats, hm, List.range_succ]; simp
  · have := (not_congr (beatCount_gt c hl f (m + 1))).1 (by omega)
    rw [SrcInv.beatAt_last]
    simp only [decide_eq_true_eq]; omega
  · intro x hx
    obtain ⟨j, hj, rfl⟩ := List.mem_map.1 hx
    have := (beatCount_gt c hl f (j + 1)).1 (by rw [hm]; have := List.mem_range.1 hj; omega)
    rw [SrcInv.beatAt_last]
    simp only [decide_eq_false_iff_not]; omega

theorem packets_beats (c : Cfg) (hl : 0 < c.lanes) (hla : c.hasLast = true) (fs : List Frame) :
    packets c (fs.flatMap (beats c)) = ((fs.filter Frame.truthy).map (beats c), []) := by
  induction fs using snoc_ind with
  | nil => rfl
  | snoc fs f ih =>
    rw [List.flatMap_append, List.flatMap_cons, List.flatMap_nil, List.append_nil, List.filter_append]
    by_cases hf : f.tdata = []
    · have : f.truthy = false := by
        cases h : f.truthy
        · rfl
        · exact absurd hf (truthy_iff.1 h)
      rw [beats_nil c hl f hf, List.append_nil, ih]
      simp [this]
    · obtain ⟨bs, b, e1, e2, e3⟩ := beats_split c hl f hf
      rw [e1, ← List.append_assoc, packets_snoc, packets_open c hla _ _ e3, ih, if_pos (by simp [e2])]
      simp [truthy_iff.2 hf, e1]

theorem frameOf_foldl (c : Cfg) (bs : List Beat) : bs.foldl (fun r b => r.pushBeat c b) (emptyFrame c) = frameOf c bs := by
  induction bs using snoc_ind with
  | nil => exact (frameOf_nil c).symm
  | snoc bs b ih => rw [List.foldl_append, ih]; exact frameOf_snoc c bs b

end Verif.Axis
