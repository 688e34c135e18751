import Verif.Spec.StreamReset
import Verif.Proof.StreamProgress

/-!
# Resets of a stream connection

The histories `sent` and `captured` are replaced by what survives (`Net.ghost`); the invariant of a connection that is never reset then
holds again.
-/

namespace Verif.Stream

variable {α : Type}

theorem presented_eq (c : NetCfg) (s : Net α) : s.presented c = s.onBus c := rfl
theorem arriving_eq (c : NetCfg) (s : Net α) : s.arriving c = s.pend c := rfl

/-- The same state with other histories. -/
def Net.ghost (s : Net α) (sent captured : List α) : Net α :=
  { s with src := { s.src with sent := sent }, snk := { s.snk with captured := captured } }

theorem ghost_put (s : Src α) (l : List α) (x : α) :
    ({ s with sent := l } : Src α).put x = { s.put x with sent := l ++ [x] } := rfl

/-- `x` is `t` with the histories `l` and `k` grown as from `s` to `t`. -/
def Net.Grows (s : Net α) (l k : List α) (t x : Net α) : Prop :=
  ∃ a b, t.src.sent = s.src.sent ++ a ∧ t.snk.captured = s.snk.captured ++ b ∧ x = t.ghost (l ++ a) (k ++ b)

/-- Events do not read the histories and only append to them. -/
theorem Net.ghost_step (c : NetCfg) (s : Net α) (e : NetEv α) (l k : List α) :
    s.Grows l k (s.step c e) ((s.ghost l k).step c e) := by
  have key : ∀ (t : Net α) (x : Net α), t.src.sent = s.src.sent → t.snk.captured = s.snk.captured → x = t.ghost l k →
      s.Grows l k t x :=
    fun t x h1 h2 h3 => ⟨[], [], by simp [h1], by simp [h2], by simp [h3]⟩
  cases e <;> simp only [Net.step]
  case tick =>
    by_cases h : (s.settled && s.src.pc.still && s.snk.pc.still) = true
    · rw [if_pos h, if_pos (c := ((s.ghost l k).settled && (s.ghost l k).src.pc.still && (s.ghost l k).snk.pc.still) = true) h]
      exact key _ _ rfl rfl rfl
    · rw [if_neg h, if_neg (c := ((s.ghost l k).settled && (s.ghost l k).src.pc.still && (s.ghost l k).snk.pc.still) = true) h]
      exact key _ _ rfl rfl rfl
  case srcRun =>
    by_cases h : s.src.pc = .due
    · rw [if_pos h, if_pos (c := (s.ghost l k).src.pc = .due) h]
      have hs : (s.src.run c.src s.snk.ready).sent = s.src.sent := by
        unfold Src.run; simp only; repeat' split
        all_goals rfl
      refine key _ _ hs rfl ?_
      unfold Net.ghost Src.run
      simp only
      congr 1
      repeat' split
      all_goals first | rfl | simp_all
    · rw [if_neg h, if_neg (c := (s.ghost l k).src.pc = .due) h]; exact key _ _ rfl rfl rfl
  case srcWake =>
    by_cases h : s.src.pc = .woken
    · rw [if_pos h, if_pos (c := (s.ghost l k).src.pc = .woken) h]; exact key _ _ rfl rfl rfl
    · rw [if_neg h, if_neg (c := (s.ghost l k).src.pc = .woken) h]; exact key _ _ rfl rfl rfl
  case snkRun =>
    by_cases h : s.snk.pc = .due
    · rw [if_pos h, if_pos (c := (s.ghost l k).snk.pc = .due) h]
      have hf : ∀ (t : Snk α) (m : List α) (v : Bool), ({ t with captured := m } : Snk α).finish c.snk v = { t.finish c.snk v with captured := m } := by
        intro t m v
        unfold Snk.finish
        simp only
        repeat' split
        all_goals first | rfl | simp_all
      unfold Snk.run
      by_cases hc : ((!c.snk.hasReady || s.snk.ready) && (!c.snk.hasValid || s.src.valid)) = true
      · refine ⟨[], s.src.data.toList, by simp, ?_, ?_⟩
        · rw [finish_captured]; unfold Snk.capture; simp only; rw [if_pos hc]
        · unfold Net.ghost Snk.capture
          simp only
          rw [if_pos hc, if_pos hc, List.append_nil]
          congr 1
          exact hf { s.snk with queue := s.snk.queue ++ s.src.data.toList, actEv := true,
                                captured := s.snk.captured ++ s.src.data.toList } _ _
      · refine ⟨[], [], by simp, ?_, ?_⟩
        · rw [finish_captured]; unfold Snk.capture; simp only; rw [if_neg hc]; simp
        · unfold Net.ghost Snk.capture
          simp only
          rw [if_neg hc, if_neg hc, List.append_nil, List.append_nil]
          congr 1
          exact hf s.snk _ _
    · rw [if_neg h, if_neg (c := (s.ghost l k).snk.pc = .due) h]; exact key _ _ rfl rfl rfl
  case snkWake =>
    by_cases h : s.snk.pc = .woken
    · rw [if_pos h, if_pos (c := (s.ghost l k).snk.pc = .woken) h]; exact key _ _ rfl rfl rfl
    · rw [if_neg h, if_neg (c := (s.ghost l k).snk.pc = .woken) h]; exact key _ _ rfl rfl rfl
  case snkSpurious =>
    by_cases h : s.snk.pc = .asleep
    · rw [if_pos h, if_pos (c := (s.ghost l k).snk.pc = .asleep) h]; exact key _ _ rfl rfl rfl
    · rw [if_neg h, if_neg (c := (s.ghost l k).snk.pc = .asleep) h]; exact key _ _ rfl rfl rfl
  case commit =>
    by_cases h : (s.src.pc.still && s.snk.pc.still) = true
    · rw [if_pos h, if_pos (c := ((s.ghost l k).src.pc.still && (s.ghost l k).snk.pc.still) = true) h]
      by_cases h2 : ((s.src.nvalid && !s.src.valid) || (s.snk.nready && !s.snk.ready)) = true
      · simp only [if_pos h2]
        rw [if_pos (c := (((s.ghost l k).src.nvalid && !(s.ghost l k).src.valid) ||
          ((s.ghost l k).snk.nready && !(s.ghost l k).snk.ready)) = true) h2]
        exact key _ _ rfl rfl rfl
      · simp only [if_neg h2]
        rw [if_neg (c := (((s.ghost l k).src.nvalid && !(s.ghost l k).src.valid) ||
          ((s.ghost l k).snk.nready && !(s.ghost l k).snk.ready)) = true) h2]
        exact key _ _ rfl rfl rfl
    · rw [if_neg h, if_neg (c := ((s.ghost l k).src.pc.still && (s.ghost l k).snk.pc.still) = true) h]; exact key _ _ rfl rfl rfl
  case send x =>
    unfold Src.send
    by_cases h : isFull c.src.limit s.src.queue.length = true
    · rw [if_pos h, if_pos (c := isFull c.src.limit (s.ghost l k).src.queue.length = true) h]; exact key _ _ rfl rfl rfl
    · rw [if_neg h, if_neg (c := isFull c.src.limit (s.ghost l k).src.queue.length = true) h]
      exact ⟨[x], [], rfl, by simp, by simp [Net.ghost, Src.put]⟩
  case resume i =>
    unfold Src.resume
    have hw : (s.ghost l k).src.waiters = s.src.waiters := rfl
    rw [hw]
    rcases hg : s.src.waiters[i]? with _ | ⟨x, b⟩
    · exact key _ _ rfl rfl rfl
    · cases b
      · exact key _ _ rfl rfl rfl
      · simp only
        by_cases h : isFull c.src.limit s.src.queue.length = true
        · rw [if_pos h, if_pos (c := isFull c.src.limit (s.ghost l k).src.queue.length = true) h]; exact key _ _ rfl rfl rfl
        · rw [if_neg h, if_neg (c := isFull c.src.limit (s.ghost l k).src.queue.length = true) h]
          exact ⟨[x], [], rfl, by simp, by simp [Net.ghost, Src.put]⟩
  case sendNowait x =>
    unfold Src.sendNowait
    by_cases h : isFull c.src.limit s.src.queue.length = true
    · rw [if_pos h, if_pos (c := isFull c.src.limit (s.ghost l k).src.queue.length = true) h]; exact key _ _ rfl rfl rfl
    · rw [if_neg h, if_neg (c := isFull c.src.limit (s.ghost l k).src.queue.length = true) h]
      exact ⟨[x], [], rfl, by simp, by simp [Net.ghost, Src.put]⟩
  case srcPause v => exact key _ _ rfl rfl rfl
  case srcClear => exact key _ _ rfl rfl rfl
  case srcReset v =>
    unfold Src.reset
    cases v
    · by_cases h : s.src.pc = .off
      · simp only [Bool.false_eq_true, if_false, if_pos h]
        rw [if_pos (c := (s.ghost l k).src.pc = .off) h]
        exact key _ _ rfl rfl rfl
      · simp only [Bool.false_eq_true, if_false, if_neg h]
        rw [if_neg (c := (s.ghost l k).src.pc = .off) h]
        exact key _ _ rfl rfl rfl
    · exact key _ _ rfl rfl rfl
  case recv =>
    unfold Snk.recv
    have hq : (s.ghost l k).snk.queue = s.snk.queue := rfl
    rw [hq]
    cases s.snk.queue with
    | nil => exact key _ _ rfl rfl rfl
    | cons x r => exact key _ _ rfl rfl rfl
  case snkPause v =>
    unfold Snk.setPause
    by_cases h : s.snk.pause ≠ v
    · simp only [if_pos h]
      rw [if_pos (c := (s.ghost l k).snk.pause ≠ v) h]
      exact key _ _ rfl rfl rfl
    · simp only [if_neg h]
      rw [if_neg (c := (s.ghost l k).snk.pause ≠ v) h]
      exact key _ _ rfl rfl rfl
  case snkClear => exact key _ _ rfl rfl rfl
  case snkReset v =>
    unfold Snk.reset
    cases v
    · by_cases h : s.snk.pc = .off
      · simp only [Bool.false_eq_true, if_false, if_pos h]
        rw [if_pos (c := (s.ghost l k).snk.pc = .off) h]
        exact key _ _ rfl rfl rfl
      · simp only [Bool.false_eq_true, if_false, if_neg h]
        rw [if_neg (c := (s.ghost l k).snk.pc = .off) h]
        exact key _ _ rfl rfl rfl
    · exact key _ _ rfl rfl rfl

theorem ghost_kept (c : NetCfg) (s : Net α) (l k : List α) : (s.ghost l k).kept c = s.kept c := rfl

/-- A sink on a bus without `ready` is out of reset. -/
def Net.On (c : NetCfg) (s : Net α) : Prop := c.hasReady = false → s.snk.pc ≠ .off

/-- With the histories replaced by what survives, the connection looks as if it had never been reset. -/
theorem NetInv.reborn {c : NetCfg} {s : Net α} (h : NetInv c false s) (hon : s.On c) :
    NetInv c true (s.ghost (s.kept c) (s.snk.got ++ s.snk.queue)) where
  src := { h.src with }
  snk := { h.snk with }
  set := h.set
  due := h.due
  on := fun _ => hon
  acc := rfl
  got := rfl

/-- What one event does to the items in the connection. -/
theorem Net.kept_step {c : NetCfg} {s : Net α} (h : NetInv c false s) (hon : s.On c) (e : NetEv α) :
    ∃ new x y, (s.step c e).src.sent = s.src.sent ++ new ∧ s.kept c ++ new = x ++ s.drops c e ++ y ∧
      (s.step c e).kept c = x ++ y := by
  have easy : e.clean = true → s.drops c e = [] → ∃ new x y, (s.step c e).src.sent = s.src.sent ++ new ∧
      s.kept c ++ new = x ++ s.drops c e ++ y ∧ (s.step c e).kept c = x ++ y := by
    intro hcl hd
    obtain ⟨a, b, h1, h2, h3⟩ := Net.ghost_step c s e (s.kept c) (s.snk.got ++ s.snk.queue)
    have hi := (h.reborn hon).step e (fun _ => hcl)
    rw [h3] at hi
    have ha := hi.acc
    have hg := hi.got
    simp only [Acc, if_true] at ha hg
    rw [hg] at ha
    refine ⟨a, s.kept c ++ a, [], h1, by rw [hd]; simp, ?_⟩
    rw [List.append_nil]
    exact ha.symm
  by_cases hcl : e.clean = true
  · exact easy hcl (by cases e <;> first | rfl | (simp [NetEv.clean] at hcl; done) | (rename_i v; cases v <;> simp_all [NetEv.clean, Net.drops]))
  · cases e <;> simp only [NetEv.clean, not_true_eq_false] at hcl
    case srcClear =>
      refine ⟨[], s.snk.got ++ s.snk.queue ++ s.arriving c ++ s.presented c, [], by simp [Net.step, Src.clear, Src.setDeq], ?_, ?_⟩
      · simp [Net.kept, Net.drops]
      · rfl
    case snkClear =>
      refine ⟨[], s.snk.got, s.arriving c ++ s.presented c ++ s.src.queue, by simp [Net.step], ?_, ?_⟩
      · simp [Net.kept, Net.drops]
      · have : (s.step c .snkClear).kept c = s.snk.got ++ [] ++ s.arriving c ++ s.presented c ++ s.src.queue := rfl
        rw [this]; simp
    case srcReset v =>
      cases v
      · simp at hcl
      · refine ⟨[], s.snk.got ++ s.snk.queue ++ s.arriving c, s.src.queue, by simp [Net.step, Src.reset], ?_, ?_⟩
        · simp [Net.kept, Net.drops]
        · have : (s.step c (.srcReset true)).kept c = s.snk.got ++ s.snk.queue ++ s.arriving c ++ [] ++ s.src.queue := rfl
          rw [this]; simp
    case snkReset v =>
      cases v
      · simp at hcl
      · refine ⟨[], s.snk.got ++ s.snk.queue, s.presented c ++ s.src.queue, by simp [Net.step], ?_, ?_⟩
        · simp [Net.kept, Net.drops]
        · have : (s.step c (.snkReset true)).kept c = s.snk.got ++ s.snk.queue ++ [] ++ s.presented c ++ s.src.queue := rfl
          rw [this]; simp

theorem Net.step_on {c : NetCfg} {s : Net α} (h : s.On c) (e : NetEv α) (he : c.hasReady = false → e.sinkOn = true) : (s.step c e).On c := by
  intro hr
  have h0 := h hr
  have h1 := he hr
  cases e <;> simp only [Net.step]
  case tick => split; (simpa only [ne_eq, tick_off] using h0); exact h0
  case snkRun => split; exact finish_off; exact h0
  case snkWake => split; (simp [Snk.top]); exact h0
  case snkSpurious => split; (simp [Snk.top]); exact h0
  case commit =>
    split
    · simp only; split
      · simpa only [ne_eq, setWake_off] using h0
      · exact h0
    · exact h0
  case recv =>
    unfold Snk.recv
    split
    · exact h0
    · simpa only [ne_eq, setWake_off] using h0
  case snkPause v =>
    unfold Snk.setPause
    simp only
    split
    · simpa only [ne_eq, setWake_off] using h0
    · exact h0
  case snkReset v =>
    cases v
    · unfold Snk.reset
      simp only [Bool.false_eq_true, if_false]
      split
      · simp
      · exact h0
    · simp [NetEv.sinkOn] at h1
  all_goals first | exact h0 | (split <;> exact h0)

/-- Accounting over a history. -/
theorem Net.kept_run {c : NetCfg} (evs : List (NetEv α)) : ∀ {s : Net α}, NetInv c false s → s.On c →
    (c.hasReady = false → ∀ e ∈ evs, e.sinkOn = true) → ∃ new,
      (evs.foldl (Net.step c) s).src.sent = s.src.sent ++ new ∧
      (s.kept c ++ new).Perm ((evs.foldl (Net.step c) s).kept c ++ Net.lost c s evs) ∧
      ((evs.foldl (Net.step c) s).kept c).Sublist (s.kept c ++ new) := by
  induction evs with
  | nil => exact fun _ _ _ => ⟨[], by simp, by simp [Net.lost], by simp⟩
  | cons e evs ih =>
    intro s h hon hcl
    obtain ⟨n1, x, y, h1, h2, h3⟩ := Net.kept_step h hon e
    obtain ⟨n2, i1, i2, i3⟩ := ih (h.step e (by simp)) (Net.step_on hon e (fun hr => hcl hr e (by simp)))
      (fun hr e he => hcl hr e (by simp [he]))
    refine ⟨n1 ++ n2, ?_, ?_, ?_⟩
    · rw [List.foldl_cons, i1, h1, List.append_assoc]
    · rw [List.foldl_cons, ← List.append_assoc, h2, Net.lost]
      rw [h3] at i2
      have e1 : (x ++ s.drops c e ++ y ++ n2).Perm (s.drops c e ++ (x ++ y ++ n2)) := by
        have a1 : x ++ s.drops c e ++ y ++ n2 = x ++ s.drops c e ++ (y ++ n2) := by simp
        have a2 : s.drops c e ++ (x ++ y ++ n2) = s.drops c e ++ x ++ (y ++ n2) := by simp
        rw [a1, a2]
        exact (List.perm_append_comm).append_right _
      refine e1.trans ((i2.append_left _).trans ?_)
      rw [← List.append_assoc, ← List.append_assoc]
      exact (List.perm_append_comm).append_right _
    · rw [List.foldl_cons]
      refine i3.trans ?_
      rw [h3, ← List.append_assoc, h2]
      refine List.Sublist.append ?_ (List.Sublist.refl _)
      rw [List.append_assoc]
      exact List.Sublist.append (List.Sublist.refl _) (List.sublist_append_right _ _)

/-! ## Delivery of what is left -/

theorem Net.step_live' {c : NetCfg} {s : Net α} (e : NetEv α) (hcl : e.noClear = true) (h : SnkLive c.snk s.snk) :
    SnkLive c.snk (s.step c e).snk := by
  by_cases he : e.clean = true
  · exact Net.step_live e he h
  · cases e <;> simp only [NetEv.clean, not_true_eq_false] at he
    case srcClear => exact h
    case snkClear => simp [NetEv.noClear] at hcl
    case srcReset v => exact h
    case snkReset v =>
      cases v
      · simp at he
      · intro hp; simp [Net.step, Snk.reset] at hp

theorem Net.ghost_run (c : NetCfg) (evs : List (NetEv α)) : ∀ (s : Net α) (l k : List α),
    s.Grows l k (evs.foldl (Net.step c) s) (evs.foldl (Net.step c) (s.ghost l k)) := by
  induction evs with
  | nil => exact fun s l k => ⟨[], [], by simp, by simp, by simp⟩
  | cons e evs ih =>
    intro s l k
    obtain ⟨a, b, h1, h2, h3⟩ := Net.ghost_step c s e l k
    obtain ⟨a', b', i1, i2, i3⟩ := ih (s.step c e) (l ++ a) (k ++ b)
    exact ⟨a ++ a', b ++ b', by rw [List.foldl_cons, i1, h1, List.append_assoc], by rw [List.foldl_cons, i2, h2, List.append_assoc],
      by rw [List.foldl_cons, h3, i3, List.append_assoc, List.append_assoc]; rfl⟩

theorem Net.cycles_eq (c : NetCfg) (bs : List Bool) : ∀ s : Net α,
    s.cycles c bs = (bs.flatMap fun b => cycleHead ++ cycleTail b).foldl (Net.step c) s := by
  induction bs with
  | nil => exact fun _ => rfl
  | cons b bs ih =>
    intro s
    rw [List.flatMap_cons, List.foldl_append, ← Net.cycle, ← ih]
    rfl

theorem NetInv.cycles {c : NetCfg} {clean : Bool} (bs : List Bool) : ∀ {s : Net α}, NetInv c clean s → NetInv c clean (s.cycles c bs) := by
  induction bs with
  | nil => exact fun h => h
  | cons b bs ih => exact fun h => ih (h.cycle b)

/-- What is left after a history with resets arrives. -/
theorem Net.arrives {c : NetCfg} (hlim : c.snkLimit ≤ 0) {s : Net α} (hrun : NetRun s) (h : NetInv c false s) (hl : SnkLive c.snk s.snk)
    (bs : List Bool) (hb : 3 * ((s.presented c).length + s.src.queue.length) ≤ bs.length) :
    (s.cycles c bs).snk.got ++ (s.cycles c bs).snk.queue = s.kept c := by
  have hi := h.reborn (fun _ => hrun.k1)
  have hrun' : NetRun (s.ghost (s.kept c) (s.snk.got ++ s.snk.queue)) := ⟨hrun.s1, hrun.s2, hrun.k1, hrun.k2, hrun.sp, hrun.kp⟩
  have hn : s.arriving c = [] := by rw [arriving_eq]; exact net_pend_not_due c s hrun.k2
  have hd := Net.delivers hlim ((s.presented c).length + s.src.queue.length) hrun' hi hl (by
    show (s.kept c).length - (s.snk.got ++ s.snk.queue).length ≤ _
    unfold Net.kept
    rw [hn]
    simp only [List.length_append, List.length_nil]
    omega) bs hb
  have hi' := hi.cycles bs
  obtain ⟨a, b, _, _, hg⟩ := Net.ghost_run c (bs.flatMap fun b => cycleHead ++ cycleTail b) s (s.kept c) (s.snk.got ++ s.snk.queue)
  rw [← Net.cycles_eq, ← Net.cycles_eq] at hg
  have hgot := hi'.got
  simp only [Acc, if_true] at hgot
  rw [hgot, hg] at hd
  exact hd

end Verif.Stream
