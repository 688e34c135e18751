import Verif.Proof.AxisAcc

/-!
# AXI stream source: idle event, pausing, order of completion
-/

namespace Verif.Axis

open Verif.Stream (Pc wakeUp_ne wakeUp_off wakeUp_woken wakeUp_due wakeUp_edge tick_due tick_off tick_asleep tick_woken tick_edge
  still_iff Acc foldl_inv foldl_inv')

/-! ## `wait()` -/

/-- `idle_event` is only set while the source is idle. -/
def IdleInv (s : Src) : Prop := s.idleEv = true → s.queue = [] ∧ s.active = false

theorem IdleInv.accept {s : Src} (h : IdleInv s) (f : Frame) : IdleInv (s.accept f).2 := by
  rcases accept_cases s f with e | e <;> rw [e]
  · exact h
  · exact fun hh => by simp [Src.put] at hh

theorem IdleInv.run {c : Cfg} (hv : c.hasValid = true) {s : Src} (hi : SrcInv c s) (h : IdleInv s) (r : Bool) :
    IdleInv (s.run c r) := by
  apply SrcInv.run_cases hv
  · intro _ _ _; exact h
  · intro _ t ht
    have hti : IdleInv t ∧ (t.idleEv = true → live t.frame = false) := by
      rw [ht]
      split
      · exact ⟨h, fun hh => (hi.act (h hh).2).2⟩
      · rename_i hlv
        have hlv' : live s.frame = false := by simpa using hlv
        rcases SrcInv.take_cases s with ⟨_, e⟩ | ⟨_, e⟩ | ⟨i, f, rest, hq, hp, e⟩
        · rw [e]; exact ⟨h, fun _ => hlv'⟩
        · rw [e]; exact ⟨h, fun _ => hlv'⟩
        · have : s.idleEv ≠ true := fun hh => by have := (h hh).1; rw [hq] at this; cases this
          rw [e]
          exact ⟨fun hh => absurd hh this, fun hh => absurd hh this⟩
    refine ⟨fun _ => hti.1, fun _ i g hf hg _ => ?_, fun _ _ => ?_⟩
    · have hne : t.idleEv ≠ true := by
        intro hh
        have := hti.2 hh
        rw [hf] at this
        simp only [live, hg] at this; cases this
      unfold Src.drive
      simp only
      split <;> exact fun hh => absurd hh hne
    · unfold Src.quiet
      simp only
      split
      · rename_i hh
        simp only [Bool.and_eq_true, Bool.not_eq_true', List.isEmpty_iff] at hh
        exact fun _ => ⟨hh.2, hh.1⟩
      · exact fun hh => ⟨(hti.1 hh).1, hti.2 hh⟩

theorem SrcSys.exec_idle {c : Cfg} (hl : 0 < c.lanes) (hv : c.hasValid = true) (evs : List SrcEv)
    (hcl : ∀ e ∈ evs, e.noClear = true) : IdleInv (SrcSys.exec c evs).src := by
  refine (foldl_inv' _ (fun s : SrcSys => SrcInv c s.src ∧ IdleInv s.src) (fun e => e.noClear = true) ?_ evs _ hcl
    ⟨SrcInv.init c, fun _ => ⟨rfl, rfl⟩⟩).2
  rintro s e hq ⟨hi, h⟩
  refine ⟨SrcSys.step_inv hl hv hi e, ?_⟩
  unfold SrcSys.step
  split
  · exact h
  cases e <;> simp only
  case tick => split <;> exact h
  case run => split; exact h.run hv hi _; exact h
  case wake => split <;> exact h
  case commit => split <;> exact h
  case env => split <;> exact h
  case send f => unfold Src.send; split; exact h; exact h.accept f
  case resume i =>
    unfold Src.resume
    split
    · split
      · exact h
      · exact IdleInv.accept (s := { s.src with waiters := s.src.waiters.eraseIdx i }) h _
    · exact h
  case sendNowait f => unfold Src.sendNowait; split; exact h; exact h.accept f
  case pause => exact h
  case clear => cases hq
  case reset v =>
    cases v
    · simp only [Src.reset, Bool.false_eq_true, if_false]
      split <;> exact h
    · obtain ⟨e1, e2, e3, e4, e5, e6, e7⟩ := SrcInv.reset_true s.src
      obtain ⟨f1, f2, f3, f4, f5⟩ := SrcInv.reset_sent s.src true
      intro hh
      rw [e5, Bool.or_eq_true, List.isEmpty_iff] at hh
      rw [f2]
      exact ⟨hh.elim (fun hh => (h hh).1) id, e3⟩

/-! ## Pausing -/

theorem accept_same (t : Src) (f : Frame) : (t.accept f).2.pause = t.pause ∧ (t.accept f).2.valid = t.valid ∧
    (t.accept f).2.nvalid = t.nvalid ∧ (t.accept f).2.nbeat = t.nbeat ∧ ((t.accept f).2.pc = .due ↔ t.pc = .due) := by
  rcases accept_cases t f with e | e <;> rw [e]
  · exact ⟨rfl, rfl, rfl, rfl, Iff.rfl⟩
  · exact ⟨rfl, rfl, rfl, rfl, put_due⟩

theorem onBus_same {c : Cfg} {s t : SrcSys} (h3 : t.src.valid = s.src.valid) (h5 : t.src.nvalid = s.src.nvalid)
    (h6 : t.src.nbeat = s.src.nbeat) (h7 : t.src.pc = .due ↔ s.src.pc = .due) (h8 : t.src.pc = .due → t.ready = s.ready) :
    t.onBus c = s.onBus c := by
  unfold SrcSys.onBus
  by_cases hd : s.src.pc = .due
  · rw [h8 (h7.2 hd), h3, h5, h6]; simp only [h7]
  · rw [if_neg (c := t.src.pc = .due ∧ _) (fun hh => hd (h7.1 hh.1)),
      if_neg (c := s.src.pc = .due ∧ _) (fun hh => hd hh.1), h5, h6]

/-- A paused source starts no transfer. -/
theorem SrcSys.step_paused {c : Cfg} (hv : c.hasValid = true) {s : SrcSys} (h : SrcAcc c false s)
    (hp : s.src.pause = true) (e : SrcEv) (he : e.noResume = true) :
    (s.step c e).src.pause = true ∧
    xfers c (s.step c e).trace ++ (s.step c e).onBus c <+: xfers c s.trace ++ s.onBus c := by
  have hsame : ∀ t : SrcSys, t.src.pause = true → t.trace = s.trace → t.src.valid = s.src.valid → t.src.nvalid = s.src.nvalid →
      t.src.nbeat = s.src.nbeat → (t.src.pc = .due ↔ s.src.pc = .due) → (t.src.pc = .due → t.ready = s.ready) →
      t.src.pause = true ∧ xfers c t.trace ++ t.onBus c <+: xfers c s.trace ++ s.onBus c := by
    intro t h1 h2 h3 h4 h5 h6 h7
    rw [h2, onBus_same h3 h4 h5 h6 h7]
    exact ⟨h1, List.prefix_refl _⟩
  have hdrop : ∀ t : SrcSys, t.src.pause = true → t.trace = s.trace → t.src.nvalid = false → 
      t.src.pause = true ∧ xfers c t.trace ++ t.onBus c <+: xfers c s.trace ++ s.onBus c := by
    intro t h1 h2 h3
    have : t.onBus c = [] := by
      unfold SrcSys.onBus
      rw [h3]; simp
    rw [h2, this, List.append_nil]
    exact ⟨h1, List.prefix_append _ _⟩
  unfold SrcSys.step
  split
  · exact ⟨hp, List.prefix_refl _⟩
  cases e <;> simp only
  case tick =>
    split
    · rename_i hs
      refine ⟨hp, ?_⟩
      simp only [Bool.and_eq_true, still_iff] at hs
      obtain ⟨e1, e2⟩ := h.set hs.1
      rw [onBus_not_due c s hs.2.1, xfers_append]
      by_cases hx : (s.src.valid && (!c.hasReady || s.ready)) = true
      · have hval : s.src.nvalid = true := by rw [← e1]; simp at hx; exact hx.1
        have hpc : s.src.pc = .edge := by
          have := h.inv.quiet
          rw [hval] at this
          cases hpc : s.src.pc <;> simp_all
        have hb : SrcSys.onBus c { s with src := { s.src with pc := s.src.pc.tick }, settled := false
                                          trace := s.trace ++ [some ⟨s.src.valid, s.ready, s.src.beat⟩] } = [] := by
          unfold SrcSys.onBus
          simp only [hpc, Pc.tick, hx, and_self, if_true]
        rw [hb, hval]
        simp only [xfers, hv, Bool.not_true, Bool.false_or, List.flatMap_cons, List.flatMap_nil, hx, if_true, List.append_nil, e2]
        exact List.prefix_refl _
      · have hb : SrcSys.onBus c { s with src := { s.src with pc := s.src.pc.tick }, settled := false
                                          trace := s.trace ++ [some ⟨s.src.valid, s.ready, s.src.beat⟩] } =
            if s.src.nvalid then [s.src.nbeat] else [] := by
          unfold SrcSys.onBus
          rw [if_neg (fun hh => hx hh.2)]
        rw [hb]
        rw [Bool.not_eq_true] at hx
        simp only [xfers, hv, Bool.not_true, Bool.false_or, List.flatMap_cons, List.flatMap_nil, hx, List.append_nil, Bool.false_eq_true, if_false]
        exact List.prefix_refl _
    · exact ⟨hp, List.prefix_refl _⟩
  case run =>
    split
    · rename_i hd
      obtain ⟨e1, e2⟩ := h.due hd
      apply SrcInv.run_cases hv (P := fun t => t.pause = true ∧
        xfers c s.trace ++ SrcSys.onBus c { s with src := t, settled := false } <+: xfers c s.trace ++ s.onBus c)
      · intro hval hr hnr
        refine ⟨hp, ?_⟩
        have : s.onBus c = if s.src.nvalid then [s.src.nbeat] else [] := by
          unfold SrcSys.onBus
          rw [if_neg (by simp [hr, hnr])]
        rw [onBus_not_due _ _ (by simp), this]
        exact List.prefix_refl _
      · intro hgo t ht
        have htp : t.pause = true ∧ t.valid = s.src.valid ∧ t.nvalid = s.src.nvalid ∧ t.nbeat = s.src.nbeat ∧ t.pc = s.src.pc := by
          rw [ht]
          split
          · exact ⟨hp, rfl, rfl, rfl, rfl⟩
          · rcases SrcInv.take_cases s.src with ⟨_, e⟩ | ⟨_, e⟩ | ⟨i, f, rest, hq, hp', e⟩ <;> rw [e] <;>
              exact ⟨hp, rfl, rfl, rfl, rfl⟩
        refine ⟨fun _ => ?_, fun _ i g _ _ hnp => ?_, fun _ _ => ?_⟩
        · exact hsame { s with src := t, settled := false } htp.1 rfl htp.2.1 htp.2.2.1 htp.2.2.2.1 (by rw [htp.2.2.2.2])
            (fun _ => rfl)
        · rw [htp.1] at hnp; cases hnp
        · obtain ⟨d1, d2, d3, d4⟩ := quiet_facts (c := c) hv t
          refine hdrop { s with src := t.quiet c, settled := false } ?_ rfl d2
          unfold Src.quiet
          simp only
          split <;> exact htp.1
    · exact ⟨hp, List.prefix_refl _⟩
  case wake =>
    split
    · rename_i hw
      exact hsame _ hp rfl rfl rfl rfl (by simp [hw]) (fun _ => rfl)
    · exact ⟨hp, List.prefix_refl _⟩
  case commit =>
    split
    · rename_i hs
      simp only [still_iff] at hs
      refine ⟨hp, ?_⟩
      rw [onBus_not_due c s hs.1, onBus_not_due]
      · exact List.prefix_refl _
      · exact hs.1
    · exact ⟨hp, List.prefix_refl _⟩
  case env r =>
    split
    · exact ⟨hp, List.prefix_refl _⟩
    · rename_i hd
      exact hsame _ hp rfl rfl rfl rfl Iff.rfl (fun hh => absurd hh hd)
  case send f =>
    unfold Src.send
    split
    · exact hsame _ hp rfl rfl rfl rfl Iff.rfl (fun _ => rfl)
    · obtain ⟨a1, a2, a3, a4, a5⟩ := accept_same s.src f
      exact hsame { s with src := (s.src.accept f).2, settled := false } (a1.trans hp) rfl a2 a3 a4 a5 (fun _ => rfl)
  case resume i =>
    unfold Src.resume
    split
    · split
      · exact hsame _ hp rfl rfl rfl rfl Iff.rfl (fun _ => rfl)
      · rename_i f _ _
        obtain ⟨a1, a2, a3, a4, a5⟩ := accept_same { s.src with waiters := s.src.waiters.eraseIdx i } f
        exact hsame { s with src := (({ s.src with waiters := s.src.waiters.eraseIdx i } : Src).accept f).2, settled := false }
          (a1.trans hp) rfl a2 a3 a4 a5 (fun _ => rfl)
    · exact hsame _ hp rfl rfl rfl rfl Iff.rfl (fun _ => rfl)
  case sendNowait f =>
    unfold Src.sendNowait
    split
    · exact hsame _ hp rfl rfl rfl rfl Iff.rfl (fun _ => rfl)
    · obtain ⟨a1, a2, a3, a4, a5⟩ := accept_same s.src f
      exact hsame { s with src := (s.src.accept f).2, settled := false } (a1.trans hp) rfl a2 a3 a4 a5 (fun _ => rfl)
  case pause v =>
    cases v
    · cases he
    · exact hsame { s with src := s.src.setPause true, settled := false } rfl rfl rfl rfl rfl Iff.rfl (fun _ => rfl)
  case clear => exact hsame _ hp rfl rfl rfl rfl Iff.rfl (fun _ => rfl)
  case reset v =>
    cases v
    · simp only [Src.reset, Bool.false_eq_true, if_false]
      split
      · rename_i ho
        exact hsame { s with src := { s.src with pc := .woken }, settled := false } hp rfl rfl rfl rfl (by simp [ho]) (fun _ => rfl)
      · exact hsame _ hp rfl rfl rfl rfl Iff.rfl (fun _ => rfl)
    · obtain ⟨e1, e2, e3, e4, e5, e6, e7⟩ := SrcInv.reset_true s.src
      have hpp : (s.src.reset true).pause = true := by
        simp only [Src.reset, if_true]
        split
        · split <;> exact hp
        · exact hp
      have hb : SrcSys.onBus c { s with src := s.src.reset true, settled := false, trace := s.trace ++ [none] } = [] := by
        unfold SrcSys.onBus
        simp only [e4]; simp
      simp only [if_true]
      rw [hb, xfers_append]
      refine ⟨hpp, ?_⟩
      simp only [xfers, List.flatMap_cons, List.flatMap_nil, List.append_nil]
      exact List.prefix_append _ _

theorem SrcSys.run_paused {c : Cfg} (hl : 0 < c.lanes) (hv : c.hasValid = true) (more : List SrcEv)
    (hm : ∀ e ∈ more, e.noResume = true) : ∀ {s : SrcSys}, SrcAcc c false s → s.src.pause = true →
    xfers c (more.foldl (SrcSys.step c) s).trace ++ (more.foldl (SrcSys.step c) s).onBus c <+: xfers c s.trace ++ s.onBus c := by
  induction more with
  | nil => intro s _ _; exact List.prefix_refl _
  | cons e more ih =>
    intro s h hp
    obtain ⟨h1, h2⟩ := SrcSys.step_paused hv h hp e (hm e (by simp))
    exact (ih (fun e he => hm e (by simp [he])) (h.step hl hv e (by simp)) h1).trans h2

/-! ## Order of completion -/

/-- Without `clear()` and reset, frames leave the queue in the order of their numbers. -/
structure OrdInv (s : Src) : Prop where
  queue : ∃ k, s.queue.map (·.1) = List.range' k s.queue.length ∧ k + s.queue.length = s.sent.length ∧
    (∀ i g, s.current = some (i, g) → i + 1 = k) ∧ (∀ i ∈ s.done, i < k)

theorem OrdInv.same {s t : Src} (h : OrdInv s) (h1 : t.queue = s.queue) (h2 : t.sent = s.sent) (h3 : t.current = s.current)
    (h4 : t.done = s.done) : OrdInv t := ⟨by rw [h1, h2, h3, h4]; exact h.queue⟩

theorem OrdInv.accept {s : Src} (h : OrdInv s) (f : Frame) : OrdInv (s.accept f).2 := by
  rcases accept_cases s f with e | e <;> rw [e]
  · exact h
  · obtain ⟨k, h1, h2, h3, h4⟩ := h.queue
    refine ⟨k, ?_, ?_, h3, h4⟩
    · simp only [Src.put, List.map_append, List.map_cons, List.map_nil, List.length_append, List.length_singleton, h1,
        ← h2, List.range'_concat, Nat.one_mul]
    · simp [Src.put]; omega

theorem OrdInv.run {c : Cfg} (hv : c.hasValid = true) {s : Src} (hi : SrcInv c s) (hd : s.pc = .due)
    (h : OrdInv s) (r : Bool) : OrdInv (s.run c r) := by
  apply SrcInv.run_cases hv
  · intro _ _ _; exact h.same rfl rfl rfl rfl
  · intro _ t ht
    have hti : SrcInv c t ∧ OrdInv t := by
      rw [ht]
      split
      · exact ⟨hi, h⟩
      · rename_i hlv
        have hlv' : live s.frame = false := by simpa using hlv
        refine ⟨hi.take hlv' hd, ?_⟩
        rcases SrcInv.take_cases s with ⟨_, e⟩ | ⟨_, e⟩ | ⟨i, f, rest, hq, hp, e⟩
        · rw [e]; exact h
        · rw [e]; exact h.same rfl rfl rfl rfl
        · obtain ⟨k, h1, h2, h3, h4⟩ := h.queue
          rw [e]
          rw [hq] at h1 h2
          simp only [List.map_cons, List.length_cons, List.range'_succ, List.cons.injEq] at h1 h2
          refine ⟨k + 1, h1.2, ?_, ?_, ?_⟩
          · simp only [Src.setDeq]; omega
          · intro j g hj
            simp only [Option.some.injEq, Prod.mk.injEq] at hj
            omega
          · intro j hj
            have := h4 j hj
            omega
    refine ⟨fun _ => hti.2, fun _ i g hf hg _ => ?_, fun _ _ => ?_⟩
    · obtain ⟨k, h1, h2, h3, h4⟩ := hti.2.queue
      have hc := (hti.1.frm i g hf).1
      unfold Src.drive
      simp only
      split
      · refine ⟨k, h1, h2, by simp, ?_⟩
        intro j hj
        rcases List.mem_append.1 hj with hj | hj
        · exact h4 j hj
        · have := h3 i g hc
          simp only [List.mem_singleton] at hj
          omega
      · exact ⟨k, h1, h2, h3, h4⟩
    · unfold Src.quiet
      simp only
      split <;> exact hti.2.same rfl rfl rfl rfl

theorem SrcSys.exec_ord {c : Cfg} (hl : 0 < c.lanes) (hv : c.hasValid = true) (evs : List SrcEv)
    (hcl : ∀ e ∈ evs, e.clean = true) : OrdInv (SrcSys.exec c evs).src := by
  refine (foldl_inv' _ (fun s : SrcSys => SrcInv c s.src ∧ OrdInv s.src) (fun e => e.clean = true) ?_ evs _ hcl
    ⟨SrcInv.init c, ⟨0, rfl, rfl, by simp, by simp⟩⟩).2
  rintro s e hq ⟨hi, h⟩
  refine ⟨SrcSys.step_inv hl hv hi e, ?_⟩
  unfold SrcSys.step
  split
  · exact h
  cases e <;> simp only
  case tick => split <;> exact h.same rfl rfl rfl rfl
  case run =>
    split
    · rename_i hd; exact h.run hv hi hd _
    · exact h
  case wake => split <;> exact h.same rfl rfl rfl rfl
  case commit => split <;> exact h.same rfl rfl rfl rfl
  case env => split <;> exact h
  case send f => unfold Src.send; split; exact h.same rfl rfl rfl rfl; exact h.accept f
  case resume i =>
    unfold Src.resume
    split
    · split
      · exact h.same rfl rfl rfl rfl
      · exact OrdInv.accept (s := { s.src with waiters := s.src.waiters.eraseIdx i }) (h.same rfl rfl rfl rfl) _
    · exact h
  case sendNowait f => unfold Src.sendNowait; split; exact h; exact h.accept f
  case pause => exact h.same rfl rfl rfl rfl
  case clear => cases hq
  case reset v =>
    cases v
    · simp only [Src.reset, Bool.false_eq_true, if_false]
      split <;> exact h.same rfl rfl rfl rfl
    · cases hq

theorem queue_beats {c : Cfg} (sent : List Frame) : ∀ (q : List (Nat × Frame)) (k : Nat), q.map (·.1) = List.range' k q.length →
    (∀ p ∈ q, sent[p.1]? = some p.2) → k + q.length = sent.length →
    q.flatMap (fun p => beats c p.2) = (sent.drop k).flatMap (beats c) := by
  intro q
  induction q with
  | nil => intro k _ _ h; simp at h; rw [List.drop_of_length_le (by omega)]; rfl
  | cons p q ih =>
    intro k h1 h2 h3
    simp only [List.map_cons, List.length_cons, List.range'_succ, List.cons.injEq] at h1 h3
    have hp := h2 p (by simp)
    rw [h1.1] at hp
    obtain ⟨hlt, he⟩ := List.getElem?_eq_some_iff.1 hp
    rw [List.drop_eq_getElem_cons hlt, he, List.flatMap_cons, List.flatMap_cons,
      ih (k + 1) h1.2 (fun p hp => h2 p (by simp [hp])) (by omega)]

/-- A frame is signalled complete only when all beats up to its last one have been driven. -/
theorem SrcSys.exec_done {c : Cfg} (hl : 0 < c.lanes) (hv : c.hasValid = true) (evs : List SrcEv)
    (hcl : ∀ e ∈ evs, e.clean = true) (s : SrcSys) (hs : s = SrcSys.exec c evs) (i : Nat) (hi : i ∈ s.src.done) :
    (s.src.sent.take (i + 1)).flatMap (beats c) <+: xfers c s.trace ++ s.onBus c := by
  have hinv := SrcSys.exec_inv hl hv evs
  have hacc := (SrcSys.exec_acc hl hv true evs (fun _ => hcl)).acc
  have hord := SrcSys.exec_ord hl hv evs hcl
  rw [← hs] at hinv hacc hord
  obtain ⟨k, h1, h2, h3, h4⟩ := hord.queue
  simp only [Stream.Acc, if_true] at hacc
  have hik := h4 i hi
  have hsplit : s.src.sent.flatMap (beats c) = (s.src.sent.take k).flatMap (beats c) ++ (s.src.sent.drop k).flatMap (beats c) := by
    rw [← List.flatMap_append, List.take_append_drop]
  unfold Src.todo at hacc
  rw [queue_beats (c := c) s.src.sent s.src.queue k h1 hinv.nums h2, hsplit, ← List.append_assoc] at hacc
  have hacc' := List.append_cancel_right hacc
  have hpre : ∀ m, i + 1 ≤ m → (s.src.sent.take (i + 1)).flatMap (beats c) <+: (s.src.sent.take m).flatMap (beats c) := by
    intro m hm
    have : s.src.sent.take m = s.src.sent.take (i + 1) ++ (s.src.sent.take m).drop (i + 1) := by
      conv => lhs; rw [← List.take_append_drop (i + 1) (s.src.sent.take m)]
      rw [List.take_take, Nat.min_eq_left hm]
    rw [this, List.flatMap_append]
    exact List.prefix_append _ _
  cases hlv : live s.src.frame with
  | false =>
    rw [hinv.rest_dead hl hlv, List.append_nil] at hacc'
    rw [← hacc']
    exact hpre k hik
  | true =>
    cases hf : s.src.frame with
    | none => rw [hf] at hlv; cases hlv
    | some p =>
      obtain ⟨j, g⟩ := p
      obtain ⟨hc, f, hsj, _, rfl, _⟩ := hinv.frm j g hf
      have hjk := h3 j _ hc
      have hne : i ≠ j := by
        rintro rfl
        have := hinv.most i
        unfold Src.cnt at this
        rw [hc] at this
        have h5 := List.count_pos_iff.2 hi
        simp only [Option.toList_some, List.map_cons, List.map_nil, List.count_singleton, beq_self_eq_true, if_true] at this
        omega
      obtain ⟨hlt, he⟩ := List.getElem?_eq_some_iff.1 hsj
      have hk : s.src.sent.take k = s.src.sent.take j ++ [f] := by
        rw [← hjk, List.take_add_one, hsj]; rfl
      have hr : s.src.rest c = (beats c f).drop (s.src.off / c.lanes) := by
        unfold Src.rest
        rw [hf]
        simp only [hsj]
      rw [hk, List.flatMap_append, hr] at hacc'
      simp only [List.flatMap_cons, List.flatMap_nil, List.append_nil] at hacc'
      conv at hacc' => lhs; rw [← List.take_append_drop (s.src.off / c.lanes) (beats c f), ← List.append_assoc]
      rw [← List.append_cancel_right hacc']
      exact (hpre j (by omega)).trans (List.prefix_append _ _)

end Verif.Axis
