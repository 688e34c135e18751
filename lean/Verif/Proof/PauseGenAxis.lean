import Verif.Spec.PauseGenAxis
import Verif.Proof.AxisFrees
import Verif.Props.AxisLive

/-!
# The AXI stream system with pause generators
-/

namespace Verif.PauseGen

open Verif.Stream (Pc)
open Verif.Axis

/-- Something that has no effect. -/
def axisIdle (s : Net) : NetEv := if s.src.pc = .due then .srcWake else .srcRun

theorem axis_laws (c : NetCfg) : Laws [false, true] (axisBase c) axisIdle where
  all k := by cases k <;> simp
  idle s := by
    unfold axisIdle
    split
    · rename_i h
      show s.step c .srcWake = s
      unfold Net.step
      split
      · rfl
      · simp only [h]
        rw [if_neg (by simp)]
    · rename_i h
      show s.step c .srcRun = s
      unfold Net.step
      split
      · rfl
      · simp only
  set s k v j := by
    cases k <;> cases j
    · show (s.src.setPause v).pause = v
      unfold Src.setPause
      simp only
    · rfl
    · rfl
    · show (s.snk.setPause v).pause = v
      unfold Rx.setPause
      simp only
  notTick k v := by cases k <;> rfl
  early s e h1 h2 := by
    cases e <;> simp only [axisBase, Bool.false_eq_true] at h1
    simp only [axisBase] at h2
    show s.step c .tick = s
    unfold Net.step
    split
    · rfl
    · simp only [h2, Bool.false_eq_true, if_false]

/-- Without a crash the setters do what they do in `Net.step`. -/
theorem axis_step (c : NetCfg) {s : Net} (h : s.src.crashed = false) (e : NetEv) : (axisBase c).step s e = s.step c e := by
  cases e <;> first | rfl | (unfold Net.step; rw [if_neg (by simp [h])]; rfl)

theorem take_pause (s : Src) : s.take.pause = s.pause := by
  unfold Src.take
  repeat' split
  all_goals rfl

theorem src_run_pause (c : Cfg) (s : Src) (r : Bool) : (s.run c r).pause = s.pause := by
  have hu : ∀ u : Src, u.pause = s.pause → (if u.crashed = true then u else match u.frame with
      | some (i, f) => if (f.truthy && !u.pause) = true then u.drive c i f else u.quiet c
      | none => u.quiet c).pause = s.pause := by
    intro u hu
    have hq : (u.quiet c).pause = s.pause := by
      unfold Src.quiet
      simp only
      repeat' split
      all_goals exact hu
    split
    · exact hu
    · split
      · split
        · unfold Src.drive
          simp only
          split <;> exact hu
        · exact hq
      · exact hq
  unfold Src.run
  simp only
  split
  · split
    · exact hu _ (take_pause s)
    · exact hu _ rfl
  · rfl

theorem accept_pause (s : Src) (f : Frame) : (s.accept f).2.pause = s.pause := by
  unfold Src.accept
  repeat' split
  all_goals rfl

theorem axis_keeps_src (c : NetCfg) (s : Net) (e : NetEv) (he : ∀ v, e ≠ .srcPause v) : (s.step c e).src.pause = s.src.pause := by
  unfold Net.step
  split
  · rfl
  cases e <;> simp only
  case srcRun => split <;> first | rfl | exact src_run_pause _ _ _
  case srcPause v => exact absurd rfl (he v)
  case send f => unfold Src.send; repeat' split
                 all_goals first | rfl | exact accept_pause _ _
  case resume i => unfold Src.resume; repeat' split
                   all_goals first | rfl | exact accept_pause _ _
  case sendNowait f => unfold Src.sendNowait; repeat' split
                       all_goals first | rfl | exact accept_pause _ _
  case srcClear => rfl
  case srcReset v => unfold Src.reset; simp only; repeat' split
                     all_goals rfl
  all_goals first | rfl | (split <;> rfl)

theorem axis_keeps_snk (c : NetCfg) (s : Net) (e : NetEv) (he : ∀ v, e ≠ .snkPause v) : (s.step c e).snk.pause = s.snk.pause := by
  unfold Net.step
  split
  · rfl
  cases e <;> simp only
  case snkRun => split <;> first | rfl | exact run_pause _ _ _ _
  case snkPause v => exact absurd rfl (he v)
  case recv k => exact (recv_woke _ _).pause
  case readNowait n => exact (read_woke _ _).pause
  case snkClear => rfl
  case commit => repeat' split
                 all_goals rfl
  case snkReset v => unfold Rx.reset; repeat' split
                     all_goals rfl
  all_goals first | rfl | (split <;> rfl)

/-- Only the setters change `pause`. -/
theorem axis_keeps (c : NetCfg) (k : Bool) (e : NetEv) (he : ∀ v, e ≠ (axisBase c).setPause k v) (s : Net) :
    (axisBase c).pause ((axisBase c).step s e) k = (axisBase c).pause s k := by
  cases k
  · cases e <;> first | exact absurd rfl (he _) | rfl | exact axis_keeps_src c s _ (fun v hv => by cases hv)
  · cases e <;> first | exact absurd rfl (he _) | rfl | exact axis_keeps_snk c s _ (fun v hv => by cases hv)

/-- Without a crash the states are those of the system without generators. -/
theorem axis_exec {c : NetCfg} (hl : 0 < c.bus.lanes) (hv : c.bus.hasValid = true) (evs : List NetEv) (hcl : ∀ e ∈ evs, e.clean = true) :
    (∀ f ∈ (evs.foldl (axisBase c).step (({} : Net).step c (.snkReset false))).src.sent, f.proper) →
    evs.foldl (axisBase c).step (({} : Net).step c (.snkReset false)) = Net.exec c (.snkReset false :: evs) ∧
    (Net.exec c (.snkReset false :: evs)).src.crashed = false := by
  induction evs using snoc_ind with
  | nil => intro _; exact ⟨rfl, rfl⟩
  | snoc evs e ih =>
    have hcl' : ∀ e ∈ evs, e.clean = true := fun x hx => hcl x (by simp [hx])
    have he : e.clean = true := hcl e (by simp)
    rw [List.foldl_append, List.foldl_cons, List.foldl_nil]
    have hs : Net.exec c (.snkReset false :: (evs ++ [e])) = (Net.exec c (.snkReset false :: evs)).step c e := by
      simp only [Net.exec, List.foldl_cons, List.foldl_append, List.foldl_nil]
    intro hp
    have hsent : ∀ s : Net, s.src.sent <+: ((axisBase c).step s e).src.sent := by
      intro s
      by_cases hcr : s.src.crashed = true
      · have : ((axisBase c).step s e).src.sent = s.src.sent := by
          cases e <;> first
            | rfl
            | (show (s.step c _).src.sent = _; unfold Net.step; rw [if_pos hcr])
            | (show (s.src.setPause _).sent = _; unfold Src.setPause; rfl)
        rw [this]
        exact List.prefix_refl _
      · rw [axis_step c (by simpa using hcr)]
        exact step_sent hv he
    have hp' := fun f hf => hp f ((hsent _).subset hf)
    obtain ⟨h1, h2⟩ := ih hcl' hp'
    rw [h1, axis_step c h2] at hp ⊢
    refine ⟨hs.symm, ?_⟩
    exact reach_ok hl hv (evs ++ [e]) hcl (by rw [hs]; exact hp)

theorem quiet_not_due (c : Cfg) (u : Src) : (u.quiet c).pc ≠ .due ∧ (u.quiet c).sent = u.sent := by
  unfold Src.quiet
  simp only
  split <;> exact ⟨by simp, rfl⟩

theorem drive_not_due (c : Cfg) (u : Src) (i : Nat) (f : Frame) : (u.drive c i f).pc ≠ .due ∧ (u.drive c i f).sent = u.sent := by
  unfold Src.drive
  simp only
  split <;> exact ⟨by simp, rfl⟩

/-- After its turn the source is not about to run, unless it has crashed. -/
theorem run_not_due (c : Cfg) (s : Src) (r : Bool) :
    ((s.run c r).pc ≠ .due ∨ (s.run c r).crashed = true) ∧ (s.run c r).sent = s.sent := by
  have hu : ∀ u t : Src, u.sent = s.sent → t = (if u.crashed = true then u else match u.frame with
      | some (i, f) => if (f.truthy && !u.pause) = true then u.drive c i f else u.quiet c
      | none => u.quiet c) → (t.pc ≠ .due ∨ t.crashed = true) ∧ t.sent = s.sent := by
    intro u t hu ht
    rw [ht]
    split
    · rename_i h; exact ⟨.inr h, hu⟩
    · split
      · split
        · exact ⟨.inl (drive_not_due _ _ _ _).1, (drive_not_due _ _ _ _).2.trans hu⟩
        · exact ⟨.inl (quiet_not_due _ _).1, (quiet_not_due _ _).2.trans hu⟩
      · exact ⟨.inl (quiet_not_due _ _).1, (quiet_not_due _ _).2.trans hu⟩
  unfold Src.run
  simp only
  split
  · split
    · exact hu _ _ (take_facts s).1 rfl
    · exact hu _ _ rfl rfl
  · exact ⟨.inl (by simp), rfl⟩

/-- What is not a call of `send` or `send_nowait`, or their continuation, does not change what was sent. -/
theorem axis_sent (c : NetCfg) (s : Net) (e : NetEv) (h1 : e.sends = false) (h2 : ∀ i, e ≠ .resume i) :
    ((axisBase c).step s e).src.sent = s.src.sent := by
  cases e with
  | srcPause v => rfl
  | snkPause v => rfl
  | send f => cases h1
  | sendNowait f => cases h1
  | resume i => exact absurd rfl (h2 i)
  | srcRun =>
    show (s.step c .srcRun).src.sent = _
    unfold Net.step
    simp only
    repeat' split
    all_goals first | rfl | exact (run_not_due _ _ _).2
  | srcReset v =>
    show (s.step c (.srcReset v)).src.sent = _
    unfold Net.step Src.reset
    simp only
    repeat' split
    all_goals rfl
  | _ =>
    show (s.step c _).src.sent = _
    unfold Net.step
    simp only
    repeat' split
    all_goals rfl

end Verif.PauseGen
