import Verif.Proof.AxisDrain

/-!
# Blocked calls of `send` of an AXI stream source go on
-/

namespace Verif.Axis

open Verif.Stream (Pc)

theorem take_waiters (s : Src) : s.take.waiters.map (·.1) = s.waiters.map (·.1) := by
  rcases SrcInv.take_cases s with ⟨_, e⟩ | ⟨_, e⟩ | ⟨i, f, rest, hq, hp, e⟩ <;> rw [e] <;> simp [Src.setDeq, Function.comp_def]

theorem run_waiters {c : Cfg} (hv : c.hasValid = true) (s : Src) (r : Bool) :
    (s.run c r).waiters.map (·.1) = s.waiters.map (·.1) ∧ (s.run c r).sent = s.sent := by
  refine SrcInv.run_cases (P := fun t => t.waiters.map (·.1) = s.waiters.map (·.1) ∧ t.sent = s.sent) hv s r (fun _ _ _ => ⟨rfl, rfl⟩) ?_
  intro _ u hu
  have hus : u.waiters.map (·.1) = s.waiters.map (·.1) ∧ u.sent = s.sent := by
    rw [hu]
    split
    · exact ⟨rfl, rfl⟩
    · exact ⟨take_waiters s, (take_facts s).1⟩
  refine ⟨fun _ => hus, fun _ i g _ _ _ => ?_, fun _ _ => ?_⟩
  · unfold Src.drive
    simp only
    split <;> exact hus
  · unfold Src.quiet
    simp only
    repeat' split
    all_goals exact hus

/-- What an event does to the blocked calls, if `send` and `send_nowait` are not called. -/
inductive SendStep (c : Cfg) (e : NetEv) (s t : Src) : Prop
  | same (h1 : t.waiters.map (·.1) = s.waiters.map (·.1)) (h2 : t.sent = s.sent)
      (h3 : ∀ i f, e = .resume i → s.waiters[i]? = some (f, true) → s.crashed = false → isFull c s.occBytes s.occFrames = true)
  | go (i : Nat) (f : Frame) (h1 : s.waiters[i]? = some (f, true)) (h2 : t.waiters = s.waiters.eraseIdx i)
      (h3 : t.sent = s.sent ++ f.copy.toOption.toList)

theorem step_send {c : NetCfg} (hv : c.bus.hasValid = true) (s : Net) (e : NetEv) (hcl : e.clean = true) (hs : e.sends = false) :
    SendStep c.bus e s.src (s.step c e).src := by
  by_cases hcr : s.src.crashed = true
  · unfold Net.step
    rw [if_pos hcr]
    exact .same rfl rfl fun _ _ _ _ hh => by rw [hcr] at hh; cases hh
  rw [Bool.not_eq_true] at hcr
  have no : ∀ {t : Src}, t.waiters = s.src.waiters → t.sent = s.src.sent → (∀ i, e ≠ .resume i) → SendStep c.bus e s.src t :=
    fun a b d => .same (by rw [a]) b fun i _ hi _ _ => absurd hi (d i)
  unfold Net.step
  rw [if_neg (by simp [hcr])]
  cases e with
  | send f => cases hs
  | sendNowait f => cases hs
  | srcClear => cases hcl
  | snkClear => cases hcl
  | tick => simp only; split <;> exact no rfl rfl (by simp)
  | srcRun =>
    simp only
    split
    · exact .same (run_waiters hv _ _).1 (run_waiters hv _ _).2 fun _ _ hh => by simp at hh
    · exact no rfl rfl (by simp)
  | srcWake => simp only; split <;> exact no rfl rfl (by simp)
  | snkRun => simp only; split <;> exact no rfl rfl (by simp)
  | snkWake => simp only; split <;> exact no rfl rfl (by simp)
  | snkSpurious => simp only; split <;> exact no rfl rfl (by simp)
  | commit => simp only; split <;> exact no rfl rfl (by simp)
  | srcPause v => exact no rfl rfl (by simp)
  | recv k => exact no rfl rfl (by simp)
  | readNowait k => exact no rfl rfl (by simp)
  | snkPause v => exact no rfl rfl (by simp)
  | snkReset v => exact no rfl rfl (by simp)
  | srcReset v =>
    cases v
    · simp only [Src.reset, Bool.false_eq_true, if_false]
      try split
      all_goals exact no rfl rfl (by simp)
    · cases hcl
  | resume i =>
    simp only [Src.resume]
    split
    · rename_i f hw
      split
      · rename_i hfull
        refine .same ?_ rfl fun _ _ _ _ _ => hfull
        simp only [List.map_set]
        apply List.ext_getElem?
        intro j
        rw [List.getElem?_set, List.getElem?_map]
        split
        · rename_i hj
          subst hj
          rw [hw, List.length_map, if_pos (List.getElem?_eq_some_iff.1 hw).1]
          rfl
        · rfl
      · refine .go i f hw ?_ ?_
        · simp only [Src.accept]
          split <;> rfl
        · simp only [Src.accept]
          split
          · rename_i h1; simp [h1, Except.toOption]
          · rename_i h1; simp [h1, Except.toOption, Src.put]
    · rename_i h1
      exact .same rfl rfl fun j f hj hw _ => by
        cases hj
        exact absurd hw (h1 f)

theorem SendStep.length {c : Cfg} {e : NetEv} {s t : Src} (h : SendStep c e s t) :
    t.waiters.length < s.waiters.length ∨ (t.waiters.length = s.waiters.length ∧ t.sent = s.sent) := by
  cases h with
  | same h1 h2 _ => exact .inr ⟨by simpa using congrArg List.length h1, h2⟩
  | go i f h1 h2 h3 =>
    left
    have := (List.getElem?_eq_some_iff.1 h1).1
    rw [h2, List.length_eraseIdx, if_pos this]
    omega

theorem blocked_eq (s : Src) : s.blocked = (s.waiters.map (·.1)).filterMap fun f => f.copy.toOption := by
  rw [Src.blocked, List.filterMap_map]
  rfl

theorem erase_perm {α : Type} : ∀ {l : List α} {i : Nat} (hi : i < l.length), List.Perm (l[i] :: l.eraseIdx i) l
  | _ :: _, 0, _ => .refl _
  | a :: l, i + 1, hi => by
    have hi' : i < l.length := by simpa using hi
    simp only [List.getElem_cons_succ, List.eraseIdx_cons_succ]
    exact (List.Perm.swap _ _ _).trans (.cons _ (erase_perm hi'))

theorem SendStep.perm {c : Cfg} {e : NetEv} {s t : Src} (h : SendStep c e s t) : List.Perm (t.sent ++ t.blocked) (s.sent ++ s.blocked) := by
  cases h with
  | same h1 h2 _ => rw [h2, blocked_eq, blocked_eq, h1]
  | go i f h1 h2 h3 =>
    rw [h3, List.append_assoc]
    refine List.Perm.append_left _ ?_
    obtain ⟨hi, hw⟩ := List.getElem?_eq_some_iff.1 h1
    have hp : List.Perm ((f, true) :: s.waiters.eraseIdx i) s.waiters := by
      rw [← hw]
      exact erase_perm hi
    have := hp.filterMap fun w : Frame × Bool => w.1.copy.toOption
    rw [Src.blocked, h2]
    refine .trans ?_ this
    rw [List.filterMap_cons]
    split
    · rename_i hn; simp only at hn; rw [hn]; simp
    · rename_i g hn; simp only at hn; rw [hn]; simp

section

variable {c : NetCfg} {S : Nat → Net} {sched : Nat → NetEv} (h : NetLive c S sched) (hq : ∀ k, (sched k).sends = false)
include h hq

theorem NetLive.send (k : Nat) : SendStep c.bus (sched k) (S k).src (S (k + 1)).src := by
  rw [h.step k]
  exact step_send h.valid (S k) (sched k) (h.clean k) (hq k)

theorem NetLive.send_perm (k : Nat) : List.Perm ((S k).src.sent ++ (S k).src.blocked) ((S 0).src.sent ++ (S 0).src.blocked) := by
  induction k with
  | zero => exact .refl _
  | succ k ih => exact (h.send hq k).perm.trans ih

theorem NetLive.waiters_mono (n d : Nat) : (S (n + d)).src.waiters.length ≤ (S n).src.waiters.length := by
  induction d with
  | zero => exact Nat.le_refl _
  | succ d ih =>
    have := (h.send hq (n + d)).length
    rw [← Nat.add_assoc]
    omega

/-- No call blocks for ever. -/
theorem NetLive.unblocked (hf : NetFlows c S sched) (hr : ∀ n, ∃ k, n ≤ k ∧ NetResume S sched k) : ∃ N, ∀ k, N ≤ k → (S k).src.waiters = [] := by
  have key : ∀ m n, (S n).src.waiters.length ≤ m → ∃ N, (S N).src.waiters = [] := by
    intro m
    induction m with
    | zero => exact fun n hn => ⟨n, List.length_eq_zero_iff.1 (by omega)⟩
    | succ m ih =>
      intro n hn
      refine Classical.byContradiction fun hno => ?_
      have hge : ∀ k, m < (S k).src.waiters.length := fun k => by
        refine Classical.byContradiction fun hk => ?_
        exact hno (ih k (by omega))
      have hconst : ∀ k, n ≤ k → (S k).src.waiters.length = m + 1 := fun k hk => by
        obtain ⟨d, rfl⟩ := Nat.exists_eq_add_of_le hk
        have := h.waiters_mono hq n d
        have := hge (n + d)
        omega
      have hsent : ∀ k, n ≤ k → (S k).src.sent = (S n).src.sent := by
        intro k hk
        obtain ⟨d, rfl⟩ := Nat.exists_eq_add_of_le hk
        clear hk
        induction d with
        | zero => rfl
        | succ d ihd =>
          rw [← ihd, ← Nat.add_assoc]
          have h1 := hconst (n + d) (by omega)
          have h2 := hconst (n + d + 1) (by omega)
          rcases (h.send hq (n + d)).length with h3 | h3
          · omega
          · exact h3.2
      obtain ⟨N, hN, hd⟩ := h.drains hf n hsent
      obtain ⟨k, hk, hrk⟩ := hr N
      obtain ⟨_, _, hqu⟩ := hd k hk
      have hi := (h.known k).src
      have hnf : isFull c.bus (S k).src.occBytes (S k).src.occFrames = false := by
        rw [hi.occB, hi.occF, hqu]
        simp only [isFull, bytes, List.map_nil, List.length_nil, List.sum_nil]
        simp
        omega
      have hwok : ∀ w ∈ (S k).src.waiters, w.2 = true := by
        rintro ⟨f, b⟩ hw
        cases b
        · have := hi.wait f hw
          rw [hnf] at this
          cases this
        · rfl
      have hlen := hconst k (by omega)
      rcases hrk with hno' | ⟨i, f, h1, h2⟩
      · obtain ⟨w, hw⟩ : ∃ w, w ∈ (S k).src.waiters := List.exists_mem_of_length_pos (by omega)
        have a := hwok w hw
        have b := hno' w hw
        rw [a] at b
        cases b
      · cases h.send hq k with
        | same _ _ h3 =>
          have := h3 i f h1 h2 (h.running k).1
          rw [hnf] at this
          cases this
        | go j g h4 h5 h6 =>
          have := (List.getElem?_eq_some_iff.1 h4).1
          have h7 := hconst (k + 1) (by omega)
          rw [h5, List.length_eraseIdx, if_pos this] at h7
          omega
  obtain ⟨N, hN⟩ := key _ 0 (Nat.le_refl _)
  refine ⟨N, fun k hk => ?_⟩
  obtain ⟨d, rfl⟩ := Nat.exists_eq_add_of_le hk
  have := h.waiters_mono hq N d
  rw [hN] at this
  exact List.length_eq_zero_iff.1 (by simpa using this)

theorem NetLive.sent_const {N : Nat} (hN : ∀ k, N ≤ k → (S k).src.waiters = []) : ∀ k, N ≤ k → (S k).src.sent = (S N).src.sent := by
  intro k hk
  obtain ⟨d, rfl⟩ := Nat.exists_eq_add_of_le hk
  clear hk
  induction d with
  | zero => rfl
  | succ d ih =>
    rw [← ih, ← Nat.add_assoc]
    rcases (h.send hq (N + d)).length with h3 | h3
    · rw [hN (N + d) (by omega)] at h3; simp at h3
    · exact h3.2

end

end Verif.Axis
