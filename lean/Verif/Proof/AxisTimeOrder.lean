import Verif.Proof.AxisTime

/-!
# The order of the times of received frames
-/

namespace Verif.Axis

open Verif.Stream (Pc wakeUp_ne wakeUp_off wakeUp_woken wakeUp_due wakeUp_edge tick_due tick_off tick_asleep tick_woken tick_edge
  still_iff foldl_inv foldl_inv')

/-- A frame is being received. -/
def Rx.midFrame (s : Rx) : Bool := s.part.elim false Frame.truthy

/-- The times of a receiver's frames increase, and belong to them. -/
structure RxTimes (s : Rx) (t : Stamps) : Prop where
  lenQ : t.queue.length = s.queue.length
  lenT : t.taken.length = s.taken.length
  due : s.pc = .due → t.last = some t.now
  last : ∀ l, t.last = some l → l ≤ t.now
  each : ∀ p ∈ t.taken ++ t.queue, p.1 ≤ p.2 ∧ ∃ l, t.last = some l ∧ p.2 ≤ l ∧ (s.pc = .due → p.2 < l)
  pw : (t.taken ++ t.queue).Pairwise fun p q => p.2 < q.1
  mid : s.midFrame = true → (∀ p ∈ t.taken ++ t.queue, p.2 < t.start) ∧
    ∃ l, t.last = some l ∧ t.start ≤ l ∧ (s.pc = .due → t.start < l)

namespace RxTimes

variable {c : Cfg} {s u : Rx} {t : Stamps}

theorem init : RxTimes {} {} :=
  ⟨rfl, rfl, by simp, by simp, by simp, by simp, by simp [Rx.midFrame]⟩

/-- The receiver changes, but neither its frames nor whether it is at an edge. -/
theorem keep (h : RxTimes s t) (h1 : u.queue.length = s.queue.length) (h2 : u.taken.length = s.taken.length)
    (h3 : u.pc = .due → s.pc = .due) (h4 : u.midFrame = true → s.midFrame = true) : RxTimes u t := by
  refine ⟨by rw [h1]; exact h.lenQ, by rw [h2]; exact h.lenT, fun a => h.due (h3 a), h.last, fun p hp => ?_, h.pw, fun hm => ?_⟩
  · obtain ⟨a, l, b, d, e⟩ := h.each p hp
    exact ⟨a, l, b, d, fun x => e (h3 x)⟩
  · obtain ⟨a, l, b, d, e⟩ := h.mid (h4 hm)
    exact ⟨a, l, b, d, fun x => e (h3 x)⟩

theorem sleep (h : RxTimes s t) (hd : s.pc ≠ .due) (d : Nat) : RxTimes s (t.sleep d) :=
  ⟨h.lenQ, h.lenT, fun a => absurd a hd, fun l hl => Nat.le_trans (h.last l hl) (Nat.le_add_right _ _), h.each, h.pw, h.mid⟩

theorem reset (h : RxTimes s t) (v : Bool) : RxTimes s (t.reset v) := ⟨h.lenQ, h.lenT, h.due, h.last, h.each, h.pw, h.mid⟩

theorem edge (h : RxTimes s t) (hf : t.fresh = true) (a : Sample) (h1 : u.queue.length = s.queue.length)
    (h2 : u.taken.length = s.taken.length) (h4 : u.midFrame = true → s.midFrame = true) : RxTimes u (t.edge a) := by
  have hlt : ∀ l, t.last = some l → l < t.now := by
    intro l e
    simp only [Stamps.fresh, e, Option.elim_some, decide_eq_true_eq] at hf
    exact hf
  refine ⟨by rw [h1]; exact h.lenQ, by rw [h2]; exact h.lenT, fun _ => rfl, ?_, fun p hp => ?_, h.pw, fun hm => ?_⟩
  · intro l e
    simp only [Stamps.edge, Option.some.injEq] at e ⊢
    omega
  · obtain ⟨x, l, e, y, _⟩ := h.each p hp
    have := hlt l e
    exact ⟨x, t.now, rfl, by omega, fun _ => by omega⟩
  · obtain ⟨x, l, e, y, _⟩ := h.mid (h4 hm)
    have hlt : t.start < t.now := by have := hlt l e; omega
    exact ⟨x, t.now, rfl, Nat.le_of_lt hlt, fun _ => hlt⟩

theorem took (h : RxTimes s t) (h0 : u.queue.length ≤ s.queue.length)
    (h2 : u.taken.length + u.queue.length = s.taken.length + s.queue.length) (h3 : u.pc = .due → s.pc = .due)
    (h4 : u.midFrame = true → s.midFrame = true) : RxTimes u (t.took (s.queue.length - u.queue.length)) := by
  have e : (t.took (s.queue.length - u.queue.length)).taken ++ (t.took (s.queue.length - u.queue.length)).queue = t.taken ++ t.queue := by
    simp only [Stamps.took, List.append_assoc, List.take_append_drop]
  have hq := h.lenQ
  have ht := h.lenT
  refine ⟨?_, ?_, fun a => h.due (h3 a), h.last, ?_, ?_, ?_⟩
  · simp only [Stamps.took, List.length_drop]; omega
  · simp only [Stamps.took, List.length_append, List.length_take]; omega
  · rw [e]
    intro p hp
    obtain ⟨a, l, b, d, x⟩ := h.each p hp
    exact ⟨a, l, b, d, fun y => x (h3 y)⟩
  · rw [e]; exact h.pw
  · rw [e]
    intro hm
    obtain ⟨a, l, b, d, x⟩ := h.mid (h4 hm)
    exact ⟨a, l, b, d, fun y => x (h3 y)⟩

theorem clear (h : RxTimes s t) (h1 : u.queue = []) (h2 : u.taken = s.taken) (h3 : u.pc = s.pc) (h4 : u.midFrame = s.midFrame) :
    RxTimes u { t with queue := [] } := by
  have sub : ∀ p ∈ t.taken, p ∈ t.taken ++ t.queue := fun p hp => List.mem_append_left _ hp
  refine ⟨by rw [h1]; rfl, by rw [h2]; exact h.lenT, by rw [h3]; exact h.due, h.last, ?_, ?_, ?_⟩
  · rw [h3]; intro p hp; exact h.each p (sub p (by simpa using hp))
  · simp only [List.append_nil]; exact (List.pairwise_append.1 h.pw).1
  · rw [h3, h4]
    intro hm
    exact ⟨fun p hp => (h.mid hm).1 p (sub p (by simpa using hp)), (h.mid hm).2⟩

/-- The body of the loop after the clock edge. -/
theorem run {v r : Bool} {b : Beat} (h : RxTimes s t) (hd : s.pc = .due)
    (h1 : u.queue.length = s.queue.length + (if ((!c.hasReady || r) && (!c.hasValid || v)) = true ∧ (!c.hasLast || b.tlast) = true
      then 1 else 0)) (h2 : u.taken = s.taken) (h3 : u.pc ≠ .due)
    (h4 : u.midFrame = true → if ((!c.hasReady || r) && (!c.hasValid || v)) = true then (!c.hasLast || b.tlast) = false
      else s.midFrame = true) : RxTimes u (t.run c s v r b) := by
  unfold Stamps.run
  have hl := h.due hd
  have old : ∀ p ∈ t.taken ++ t.queue, p.1 ≤ p.2 ∧ p.2 < t.now := by
    intro p hp
    obtain ⟨a, l, e, _, x⟩ := h.each p hp
    rw [hl] at e
    cases e
    exact ⟨a, x hd⟩
  by_cases hx : ((!c.hasReady || r) && (!c.hasValid || v)) = true
  · simp only [hx, true_and] at h1
    rw [if_pos hx] at h4
    rw [if_pos hx]
    have hs : (if (!(s.part.elim false Frame.truthy)) = true then t.now else t.start) ≤ t.now ∧
        ∀ p ∈ t.taken ++ t.queue, p.2 < (if (!(s.part.elim false Frame.truthy)) = true then t.now else t.start) := by
      by_cases hm : s.midFrame = true
      · have : (!(s.part.elim false Frame.truthy)) = false := by rw [show s.part.elim false Frame.truthy = true from hm]; rfl
        rw [this]
        obtain ⟨a, l, e, _, x⟩ := h.mid hm
        rw [hl] at e
        cases e
        exact ⟨Nat.le_of_lt (x hd), a⟩
      · have : (!(s.part.elim false Frame.truthy)) = true := by
          rw [show s.part.elim false Frame.truthy = false from by simpa [Rx.midFrame] using hm]; rfl
        rw [if_pos this]
        exact ⟨Nat.le_refl _, fun p hp => (old p hp).2⟩
    generalize (if (!(s.part.elim false Frame.truthy)) = true then t.now else t.start) = st at hs ⊢
    simp only
    by_cases hb : (!c.hasLast || b.tlast) = true
    · rw [if_pos hb] at h1 ⊢
      refine ⟨by simp [h.lenQ, h1], by rw [h2]; exact h.lenT, fun a => absurd a h3, h.last, ?_, ?_, fun hm => ?_⟩
      · intro p hp
        simp only [← List.append_assoc, List.mem_append, List.mem_singleton] at hp
        rcases hp with hp | hp
        · have := old p (List.mem_append.2 hp)
          exact ⟨this.1, t.now, hl, by omega, fun a => absurd a h3⟩
        · subst hp
          exact ⟨hs.1, t.now, hl, Nat.le_refl _, fun a => absurd a h3⟩
      · simp only [← List.append_assoc]
        rw [List.pairwise_append]
        refine ⟨h.pw, by simp, fun p hp q hq => ?_⟩
        rw [List.mem_singleton] at hq
        subst hq
        exact hs.2 p hp
      · have := h4 hm
        rw [hb] at this
        cases this
    · rw [if_neg hb] at h1 ⊢
      refine ⟨by simp [h.lenQ, h1], by rw [h2]; exact h.lenT, fun a => absurd a h3, h.last, ?_, h.pw, fun _ => ?_⟩
      · intro p hp
        have := old p hp
        exact ⟨this.1, t.now, hl, by omega, fun a => absurd a h3⟩
      · exact ⟨hs.2, t.now, hl, hs.1, fun a => absurd a h3⟩
  · rw [if_neg (fun hh => hx hh.1)] at h1
    rw [if_neg hx] at h4
    rw [if_neg hx]
    exact h.keep h1 (by rw [h2]) (fun a => absurd a h3) h4

end RxTimes

theorem collect_mid (c : Cfg) (s : Rx) (b : Beat) (h : (s.collect c b).midFrame = true) : (!c.hasLast || b.tlast) = false := by
  revert h
  unfold Rx.collect
  simp only
  split
  · simp [Rx.midFrame]
  · rename_i hb; intro _; simpa using hb

theorem mid_congr {s u : Rx} (h : u.part = s.part) : u.midFrame = s.midFrame := by unfold Rx.midFrame; rw [h]

theorem mid_le {s u : Rx} (h : u.part = s.part) : u.midFrame = true → s.midFrame = true := by rw [mid_congr h]; exact fun x => x

theorem runSnk_facts (c : Cfg) (s : Rx) (v : Bool) (b : Beat) : (s.runSnk c v b).taken = s.taken ∧ (s.runSnk c v b).pc ≠ .due ∧
    ((s.runSnk c v b).midFrame = true → if ((!c.hasReady || s.ready) && (!c.hasValid || v)) = true then (!c.hasLast || b.tlast) = false
      else s.midFrame = true) := by
  obtain ⟨_, e2, _, _, _, e6, _, _, e9, _⟩ := finish_same c (s.capture c v b) v
  refine ⟨e6.trans (capture_same c s v b).2.2.1, e9, ?_⟩
  unfold Rx.runSnk
  rw [mid_congr e2]
  unfold Rx.capture
  split
  · exact collect_mid c s b
  · exact fun h => h

theorem runMon_facts (c : Cfg) (s : Rx) (v r : Bool) (b : Beat) : (s.runMon c v r b).taken = s.taken ∧ (s.runMon c v r b).pc ≠ .due ∧
    ((s.runMon c v r b).midFrame = true → if ((!c.hasReady || r) && (!c.hasValid || v)) = true then (!c.hasLast || b.tlast) = false
      else s.midFrame = true) := by
  unfold Rx.runMon
  split
  · exact ⟨(collect_same c s b).2.2.1, by simp, fun h => collect_mid c s b h⟩
  · exact ⟨rfl, by simp, fun h => h⟩

theorem reset_facts (s : Rx) (v : Bool) : (s.reset v).queue = s.queue ∧ (s.reset v).taken = s.taken ∧
    ((s.reset v).pc = .due → s.pc = .due) ∧ ((s.reset v).midFrame = true → s.midFrame = true) := by
  unfold Rx.reset
  split
  · simp [Rx.midFrame]
  · split
    · simp [Rx.midFrame]
    · simp

theorem kept_len {s u : Rx} (h : Kept s u) : u.taken.length + u.queue.length = s.taken.length + s.queue.length := by
  have := congrArg List.length h.got
  simpa using this

theorem TSnk.step_ord {c : Cfg} {s : TSnk} (h : RxTimes s.sys.snk s.t) (e : TEv SnkEv) :
    RxTimes (s.step c e).sys.snk (s.step c e).t := by
  cases e with
  | sleep d =>
    simp only [TSnk.step]
    split
    · rename_i hs
      simp only [Bool.and_eq_true, still_iff] at hs
      exact h.sleep hs.2.1 d
    · exact h
  | ev e =>
    cases e with
    | tick =>
      simp only [TSnk.step]
      split
      · rename_i hs
        simp only [Bool.and_eq_true] at hs
        have hp : s.sys.settled && s.sys.snk.pc.still := by rw [hs.1.1, hs.1.2]; rfl
        simp only [SnkSys.step, if_pos hp]
        exact h.edge hs.2 _ rfl rfl (fun x => x)
      · exact h
    | run =>
      simp only [TSnk.step, SnkSys.step]
      by_cases hd : s.sys.snk.pc = .due
      · rw [if_pos hd, if_pos hd]
        obtain ⟨f1, f2, f3⟩ := runSnk_facts c s.sys.snk s.sys.valid s.sys.beat
        refine h.run hd ?_ f1 f2 f3
        rw [Rx.runSnk, (finish_same c _ _).1]; exact capture_queue c s.sys.snk s.sys.valid s.sys.beat
      · rw [if_neg hd, if_neg hd]; exact h
    | recv k =>
      have f := recv_kept true s.sys.snk k
      exact h.took (recv_shorter true _ k) (kept_len f) f.due.1 (mid_le f.part)
    | readNowait n =>
      have f := read_kept true s.sys.snk n
      exact h.took (read_shorter true _ n) (kept_len f) f.due.1 (mid_le f.part)
    | clear => exact h.clear rfl rfl rfl rfl
    | reset v =>
      obtain ⟨f1, f2, f3, f4⟩ := reset_facts s.sys.snk v
      exact (h.keep (by rw [f1]) (by rw [f2]) f3 f4).reset v
    | wake =>
      simp only [TSnk.step, SnkSys.step]
      split
      · exact h.keep rfl rfl (by simp [Rx.top]) (fun x => x)
      · exact h
    | spurious =>
      simp only [TSnk.step, SnkSys.step]
      split
      · exact h.keep rfl rfl (by simp [Rx.top]) (fun x => x)
      · exact h
    | commit =>
      simp only [TSnk.step, SnkSys.step]
      split
      · simp only
        split
        · exact h.keep rfl rfl (by simp [Rx.setWake, wakeUp_due]) (fun x => x)
        · exact h.keep rfl rfl (fun x => x) (fun x => x)
      · exact h
    | env v b =>
      simp only [TSnk.step, SnkSys.step]
      split
      · exact h
      · simp only
        split
        · exact h.keep rfl rfl wakeUp_due.1 (fun x => x)
        · exact h
    | pause v =>
      obtain ⟨f1, _, _, _, _, f6, f7, f8⟩ := setPause_facts s.sys.snk v
      exact h.keep (by simp only [TSnk.step, SnkSys.step, f7]) (by simp only [TSnk.step, SnkSys.step, f6]) f1.1
        (by simp only [TSnk.step, SnkSys.step]; rw [mid_congr f8]; exact fun x => x)

theorem TSnk.exec_ord (c : Cfg) (evs : List (TEv SnkEv)) : RxTimes (TSnk.exec c evs).sys.snk (TSnk.exec c evs).t :=
  foldl_inv _ (fun s : TSnk => RxTimes s.sys.snk s.t) (fun _ e h => TSnk.step_ord h e) evs _ RxTimes.init

theorem TMon.step_ord {c : Cfg} {s : TMon} (h : RxTimes s.sys.mon s.t) (e : TEv MonEv) :
    RxTimes (s.step c e).sys.mon (s.step c e).t := by
  cases e with
  | sleep d =>
    simp only [TMon.step]
    split
    · rename_i hs
      exact h.sleep (still_iff.1 hs).1 d
    · exact h
  | ev e =>
    cases e with
    | tick =>
      simp only [TMon.step]
      split
      · rename_i hs
        simp only [Bool.and_eq_true] at hs
        simp only [MonSys.step, if_pos hs.1]
        exact h.edge hs.2 _ rfl rfl (fun x => x)
      · exact h
    | run =>
      simp only [TMon.step, MonSys.step]
      by_cases hd : s.sys.mon.pc = .due
      · rw [if_pos hd, if_pos hd]
        obtain ⟨f1, f2, f3⟩ := runMon_facts c s.sys.mon s.sys.valid s.sys.ready s.sys.beat
        exact h.run hd (runMon_queue c _ _ _ _) f1 f2 f3
      · rw [if_neg hd, if_neg hd]; exact h
    | recv k =>
      have f := recv_kept false s.sys.mon k
      exact h.took (recv_shorter false _ k) (kept_len f) f.due.1 (mid_le f.part)
    | readNowait n =>
      have f := read_kept false s.sys.mon n
      exact h.took (read_shorter false _ n) (kept_len f) f.due.1 (mid_le f.part)
    | clear => exact h.clear rfl rfl rfl rfl
    | reset v =>
      obtain ⟨f1, f2, f3, f4⟩ := reset_facts s.sys.mon v
      exact (h.keep (by rw [f1]) (by rw [f2]) f3 f4).reset v
    | wake =>
      simp only [TMon.step, MonSys.step]
      split
      · exact h.keep rfl rfl (by simp) (fun x => x)
      · exact h
    | spurious =>
      simp only [TMon.step, MonSys.step]
      split
      · exact h.keep rfl rfl (by simp) (fun x => x)
      · exact h
    | env v r b =>
      simp only [TMon.step, MonSys.step]
      split
      · exact h
      · simp only
        split
        · exact h.keep rfl rfl wakeUp_due.1 (fun x => x)
        · exact h

theorem TMon.exec_ord (c : Cfg) (evs : List (TEv MonEv)) : RxTimes (TMon.exec c evs).sys.mon (TMon.exec c evs).t :=
  foldl_inv _ (fun s : TMon => RxTimes s.sys.mon s.t) (fun _ e h => TMon.step_ord h e) evs _ RxTimes.init

end Verif.Axis
