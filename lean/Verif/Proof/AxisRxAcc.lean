import Verif.Proof.AxisRx

/-!
# Accounting for AXI stream sinks and monitors
-/

namespace Verif.Axis

open Verif.Stream (Pc wakeUp_ne wakeUp_off wakeUp_woken wakeUp_due wakeUp_edge tick_due tick_off tick_asleep tick_woken tick_edge
  still_iff foldl_inv foldl_inv')

/-! ## The sink by itself -/

/-- Facts that hold between any two events of a sink; `valid` is the current value of the signal. -/
structure SnkInv (c : Cfg) (s : Rx) (valid : Bool) : Prop where
  rx : RxInv c s
  off : s.pc = .off → s.nready = false
  room : c.hasReady = true → s.nready = true → isFull c s.occBytes s.occFrames = false
  limF : c.hasReady = true → c.limitFrames > 0 → (s.queue.length : Int) ≤ c.limitFrames + 1
  limB : c.hasReady = true → c.limitBytes > 0 → (bytes s.queue.dropLast : Int) ≤ c.limitBytes
  due : s.pc = .due → s.ready = s.nready
  sleep : s.pc = .asleep → ((!c.hasValid || valid) && (!c.hasReady || s.nready)) = false

theorem bytes_dropLast_cons (f : Frame) (l : List Frame) : bytes l.dropLast ≤ bytes (f :: l).dropLast := by
  cases l with
  | nil => simp [bytes]
  | cons g l => simp only [List.dropLast_cons_cons, bytes_cons]; omega

namespace SnkInv

theorem init (c : Cfg) (v : Bool) : SnkInv c {} v where
  rx := RxInv.init c
  off := by simp
  room := by simp
  limF := by intro _; simp; omega
  limB := by intro _; simp [bytes]; omega
  due := by simp
  sleep := by simp

theorem setWake {c : Cfg} {s : Rx} {v : Bool} (h : SnkInv c s v) (v' : Bool) : SnkInv c s.setWake v' where
  rx := h.rx.same rfl rfl rfl rfl
  off := by simp only [Rx.setWake, wakeUp_off]; exact h.off
  room := h.room
  limF := h.limF
  limB := h.limB
  due := by simp only [Rx.setWake, wakeUp_due]; exact h.due
  sleep := fun hs => absurd hs wakeUp_ne

theorem setPause {c : Cfg} {s : Rx} {v : Bool} (h : SnkInv c s v) (p : Bool) : SnkInv c (s.setPause p) v := by
  unfold Rx.setPause
  simp only
  split
  · exact { (h.setWake v) with rx := (h.setWake v).rx.same rfl rfl rfl rfl }
  · exact { h with rx := h.rx.same rfl rfl rfl rfl }

theorem full_mono {c : Cfg} {a a' b b' : Int} (ha : a' ≤ a) (hb : b' ≤ b) (h : isFull c a b = false) : isFull c a' b' = false := by
  rw [not_full_iff] at *
  exact ⟨fun hl => by have := h.1 hl; omega, fun hl => by have := h.2 hl; omega⟩

theorem popped {c : Cfg} {s : Rx} {v : Bool} (h : SnkInv c s v) (r : Bool) (f : Frame) (rest : List Frame) (hq : s.queue = f :: rest) :
    SnkInv c (s.popped true r f rest) v := by
  obtain ⟨f1, f2, f3, f4, f5, f6, f7, f8, _⟩ := popped_facts true s r f rest hq
  obtain ⟨e1, e2, e3, _⟩ := popped_queue true s r f rest
  exact {
    rx := h.rx.popped true r f rest hq
    off := by rw [f2, f5]; exact h.off
    room := by rw [e2, e3, f5]; exact fun a b => full_mono (by omega) (by omega) (h.room a b)
    limF := by intro a b; rw [e1]; have := h.limF a b; rw [hq] at this; simp only [List.length_cons] at this; omega
    limB := by
      intro a b; rw [e1]; have := h.limB a b; rw [hq] at this
      have := bytes_dropLast_cons f rest; omega
    due := by rw [f1, f4, f5]; exact h.due
    sleep := fun hs => absurd (f8 hs).2 (by simp) }

theorem recv {c : Cfg} {s : Rx} {v : Bool} (h : SnkInv c s v) (k : Bool) : SnkInv c (s.recv true k).2 v :=
  recv_ind true (fun s => SnkInv c s v) (fun _ f rest hq h => h.popped false f rest hq) s k h

theorem readNowait {c : Cfg} {s : Rx} {v : Bool} (h : SnkInv c s v) (n : Int) : SnkInv c (s.readNowait true n).2 v :=
  read_ind true (fun s => SnkInv c s v) (fun _ f rest hq h => h.popped true f rest hq)
    (fun _ _ h => { h with rx := h.rx.same rfl rfl rfl rfl }) (fun _ _ h => { h with rx := h.rx.same rfl rfl rfl rfl }) s n h

theorem clear {c : Cfg} {s : Rx} {v : Bool} (h : SnkInv c s v) : SnkInv c s.clear v :=
  { h with rx := h.rx.clear
           room := fun _ _ => by rw [not_full_iff]; simp only [Rx.clear]; omega
           limF := by intro _; simp [Rx.clear]; omega
           limB := by intro _; simp [Rx.clear, bytes]; omega }

theorem reset {c : Cfg} {s : Rx} {v : Bool} (h : SnkInv c s v) (b : Bool) : SnkInv c (s.reset b) v := by
  have hx := h.rx.reset b
  unfold Rx.reset at hx ⊢
  split
  · rename_i hb
    rw [if_pos hb] at hx
    exact { h with rx := hx, off := fun _ => rfl, room := by simp, due := by simp, sleep := by simp }
  · rename_i hb
    rw [if_neg hb] at hx
    split
    · rename_i ho
      rw [if_pos ho] at hx
      exact { h with rx := hx, off := by simp, due := by simp, sleep := by simp }
    · exact h

theorem top {c : Cfg} {s : Rx} {v : Bool} (h : SnkInv c s v) : SnkInv c s.top v :=
  { h with rx := h.rx.same rfl rfl rfl rfl, off := by simp [Rx.top], due := by simp [Rx.top], sleep := by simp [Rx.top] }

theorem tick {c : Cfg} {s : Rx} {v : Bool} (h : SnkInv c s v) (he : s.ready = s.nready) :
    SnkInv c { s with pc := s.pc.tick } v :=
  { h with rx := h.rx.same rfl rfl rfl rfl
           off := fun hp => h.off (by simpa only [tick_off] using hp), due := fun _ => he
           sleep := fun hp => h.sleep (by simpa only [tick_asleep] using hp) }

theorem commit {c : Cfg} {s : Rx} {v : Bool} (h : SnkInv c s v) : SnkInv c { s with ready := s.nready } v :=
  { h with rx := h.rx.same rfl rfl rfl rfl, due := fun _ => rfl }

theorem full_bool (c : Cfg) (x y : Int) (b : Bool) (h : (!(isFull c x y || b)) = true) : isFull c x y = false := by
  simp at h; exact h.1

/-- Capturing keeps the bounds. -/
theorem capture {c : Cfg} (hl : 0 < c.lanes) {s : Rx} {v : Bool} (h : SnkInv c s v) (hd : s.pc = .due) (b : Beat)
    (hr : c.hasReady = true) :
    (c.limitFrames > 0 → ((s.capture c v b).queue.length : Int) ≤ c.limitFrames + 1) ∧
    (c.limitBytes > 0 → (bytes (s.capture c v b).queue.dropLast : Int) ≤ c.limitBytes) := by
  unfold Rx.capture
  split
  · rename_i hc
    rw [hr, h.due hd] at hc
    simp only [Bool.not_true, Bool.false_or, Bool.and_eq_true] at hc
    have hf := h.room hr hc.1
    rw [not_full_iff, h.rx.occF, h.rx.occB] at hf
    have key : ∀ bs, s.part = (if bs = [] then none else some (frameOf c bs)) →
        (c.limitFrames > 0 → ((s.collect c b).queue.length : Int) ≤ c.limitFrames + 1) ∧
        (c.limitBytes > 0 → (bytes (s.collect c b).queue.dropLast : Int) ≤ c.limitBytes) := by
      intro bs hp
      obtain ⟨act, e⟩ := RxInv.collect_eq hl b bs hp
      rw [e]
      split
      · simp only [List.length_append, List.length_singleton, List.dropLast_concat]
        exact ⟨fun hh => by have := hf.2 hh; omega, hf.1⟩
      · exact ⟨h.limF hr, h.limB hr⟩
    rcases h.rx.part with hp | ⟨bs, hne, hp⟩
    · exact key [] (by simpa using hp)
    · exact key bs (by rw [if_neg hne]; exact hp)
  · exact ⟨h.limF hr, h.limB hr⟩

theorem finish {c : Cfg} {s : Rx} {v : Bool} (hx : RxInv c s)
    (hl : c.hasReady = true → (c.limitFrames > 0 → (s.queue.length : Int) ≤ c.limitFrames + 1) ∧
      (c.limitBytes > 0 → (bytes s.queue.dropLast : Int) ≤ c.limitBytes)) : SnkInv c (s.finish c v) v := by
  have hx' : RxInv c (s.finish c v) := by
    obtain ⟨e1, e2, e3, e4, _⟩ := finish_same c s v
    exact hx.same e3 e4 e1 e2
  unfold Rx.finish at hx' ⊢
  simp only at hx' ⊢
  split
  · rename_i hr
    rw [if_pos hr] at hx'
    split
    · rename_i hs
      rw [if_pos hs] at hx'
      simp only [Bool.and_eq_true, Bool.or_eq_true, Bool.not_eq_true'] at hs
      exact { rx := hx', off := by simp, room := fun _ => full_bool _ _ _ _, limF := fun a => (hl a).1, limB := fun a => (hl a).2
              due := by simp, sleep := fun _ => by
                rcases hs.1 with h1 | h1
                · rw [h1]; rfl
                · rw [← Bool.or_eq_true] at h1
                  simp only [h1, hr, Bool.not_true, Bool.or_self, Bool.and_false] }
    · rename_i hs
      rw [if_neg hs] at hx'
      exact { rx := hx', off := by simp [Rx.top], room := fun _ => full_bool _ _ _ _, limF := fun a => (hl a).1
              limB := fun a => (hl a).2, due := by simp [Rx.top], sleep := by simp [Rx.top] }
  · rename_i hr
    rw [if_neg hr] at hx'
    split
    · rename_i hs
      rw [if_pos hs] at hx'
      exact { rx := hx', off := by simp, room := fun hh => absurd hh hr, limF := fun a => (hl a).1, limB := fun a => (hl a).2
              due := by simp, sleep := by simp_all }
    · rename_i hs
      rw [if_neg hs] at hx'
      exact { rx := hx', off := by simp [Rx.top], room := fun hh => absurd hh hr, limF := fun a => (hl a).1
              limB := fun a => (hl a).2, due := by simp [Rx.top], sleep := by simp [Rx.top] }

theorem run {c : Cfg} (hl : 0 < c.lanes) {s : Rx} {v : Bool} (h : SnkInv c s v) (hd : s.pc = .due) (b : Beat) :
    SnkInv c (s.runSnk c v b) v := finish (h.rx.capture hl v b) (fun hr => h.capture hl hd b hr)

end SnkInv

theorem setPause_facts (s : Rx) (v : Bool) : ((s.setPause v).pc = .due ↔ s.pc = .due) ∧
    ((s.setPause v).pc = .off ↔ s.pc = .off) ∧ (s.setPause v).captured = s.captured ∧
    (s.setPause v).ready = s.ready ∧ (s.setPause v).nready = s.nready ∧ (s.setPause v).taken = s.taken ∧
    (s.setPause v).queue = s.queue ∧ (s.setPause v).part = s.part := by
  unfold Rx.setPause
  simp only
  split <;> simp [Rx.setWake, wakeUp_due, wakeUp_off]

/-- What taking frames out leaves alone. -/
structure Kept (s t : Rx) : Prop where
  due : t.pc = .due ↔ s.pc = .due
  off : t.pc = .off ↔ s.pc = .off
  captured : t.captured = s.captured
  ready : t.ready = s.ready
  nready : t.nready = s.nready
  part : t.part = s.part
  got : t.taken.map (·.2) ++ t.queue = s.taken.map (·.2) ++ s.queue
  sleep : t.pc = .asleep → s.pc = .asleep
  pause : t.pause = s.pause

theorem Kept.refl (s : Rx) : Kept s s := ⟨Iff.rfl, Iff.rfl, rfl, rfl, rfl, rfl, rfl, fun h => h, rfl⟩

theorem Kept.popped {s t : Rx} (h : Kept s t) (sink r : Bool) (f : Frame) (rest : List Frame) (hq : t.queue = f :: rest) :
    Kept s (t.popped sink r f rest) := by
  obtain ⟨f1, f2, f3, f4, f5, f6, f7, f8, f9, _⟩ := popped_facts sink t r f rest hq
  exact ⟨f1.trans h.due, f2.trans h.off, f3.trans h.captured, f4.trans h.ready, f5.trans h.nready, f6.trans h.part,
    f7.trans h.got, fun hh => h.sleep (f8 hh).1, f9.trans h.pause⟩

theorem recv_kept (sink : Bool) (s : Rx) (k : Bool) : Kept s (s.recv sink k).2 :=
  recv_ind sink (Kept s) (fun _ f rest hq h => h.popped sink false f rest hq) s k (Kept.refl s)

theorem read_kept (sink : Bool) (s : Rx) (n : Int) : Kept s (s.readNowait sink n).2 :=
  read_ind sink (Kept s) (fun _ f rest hq h => h.popped sink true f rest hq)
    (fun _ _ h => ⟨h.due, h.off, h.captured, h.ready, h.nready, h.part, h.got, h.sleep, h.pause⟩)
    (fun _ _ h => ⟨h.due, h.off, h.captured, h.ready, h.nready, h.part, h.got, h.sleep, h.pause⟩) s n (Kept.refl s)

/-! ## Accounting for a sink with an arbitrary driver -/

/-- The beat the sink is about to capture. -/
def SnkSys.pend (c : Cfg) (s : SnkSys) : List Beat :=
  if s.snk.pc = .due ∧ ((!c.hasValid || s.valid) && (!c.hasReady || s.snk.ready)) = true then [s.beat] else []

/-- The accounting invariant of a sink. -/
structure SnkAcc (c : Cfg) (clean : Bool) (s : SnkSys) : Prop where
  inv : SnkInv c s.snk s.valid
  set : s.settled = true → s.snk.ready = s.snk.nready
  on : clean = true → c.hasReady = false → s.snk.pc ≠ .off
  acc : Stream.Acc clean (s.snk.captured ++ s.pend c) (xfers c s.trace)

theorem pend_not_due (c : Cfg) (s : SnkSys) (h : s.snk.pc ≠ .due) : s.pend c = [] := by
  unfold SnkSys.pend
  rw [if_neg (fun hh => h hh.1)]

theorem SnkSys.step_inv {c : Cfg} (hl : 0 < c.lanes) {s : SnkSys} (h : SnkInv c s.snk s.valid)
    (hset : s.settled = true → s.snk.ready = s.snk.nready) (e : SnkEv) :
    SnkInv c (s.step c e).snk (s.step c e).valid := by
  cases e <;> simp only [SnkSys.step]
  case tick =>
    split
    · rename_i hs
      simp only [Bool.and_eq_true] at hs
      exact h.tick (hset hs.1)
    · exact h
  case run => split; (rename_i hd; exact h.run hl hd _); exact h
  case wake => split; exact h.top; exact h
  case spurious => split; exact h.top; exact h
  case commit => split; (simp only; split; exact h.commit.setWake _; exact h.commit); exact h
  case env v d =>
    split
    · exact h
    · split
      · exact h.setWake v
      · rename_i hv
        simp only
        refine { h with sleep := fun hp => ?_ }
        have := h.sleep hp
        cases v <;> simp_all
  case recv k => exact h.recv k
  case readNowait n => exact h.readNowait n
  case pause => exact h.setPause _
  case clear => exact h.clear
  case reset => exact h.reset _

theorem SnkAcc.same {c : Cfg} {clean : Bool} {s t : SnkSys} (h : SnkAcc c clean s) (hi : SnkInv c t.snk t.valid)
    (h1 : t.settled = true → s.settled = true) (h2 : t.trace = s.trace) (h3 : t.snk.ready = s.snk.ready)
    (h4 : t.snk.nready = s.snk.nready) (h5 : t.snk.captured = s.snk.captured)
    (h6 : t.snk.pc = .due ↔ s.snk.pc = .due) (h7 : t.snk.pc = .off → s.snk.pc = .off)
    (h8 : t.snk.pc = .due → t.valid = s.valid ∧ t.beat = s.beat) : SnkAcc c clean t where
  inv := hi
  set := by rw [h3, h4]; exact fun hh => h.set (h1 hh)
  on := fun a b hh => h.on a b (h7 hh)
  acc := by
    have : t.pend c = s.pend c := by
      by_cases hd : s.snk.pc = .due
      · obtain ⟨e1, e2⟩ := h8 (h6.2 hd)
        unfold SnkSys.pend
        rw [h3, e1, e2]
        simp only [h6]
      · rw [pend_not_due c s hd, pend_not_due c t (fun hh => hd (h6.1 hh))]
    rw [h5, h2, this]; exact h.acc

theorem SnkAcc.step {c : Cfg} (hl : 0 < c.lanes) {clean : Bool} {s : SnkSys} (e : SnkEv)
    (hcl : clean = true → e.noReset = true) (h : SnkAcc c clean s) : SnkAcc c clean (s.step c e) := by
  have hi := SnkSys.step_inv hl h.inv h.set e
  cases e <;> simp only [SnkSys.step] at hi ⊢
  case tick =>
    split
    · rename_i hs
      rw [if_pos hs] at hi
      simp only [Bool.and_eq_true, still_iff] at hs
      refine ⟨hi, by simp, fun a b hh => h.on a b (by simpa only [tick_off] using hh), ?_⟩
      have ha := h.acc
      rw [pend_not_due c s hs.2.1, List.append_nil] at ha
      simp only
      rw [xfers_append]
      by_cases hx : ((!c.hasValid || s.valid) && (!c.hasReady || s.snk.ready)) = true
      · have e1 : xfers c [some (⟨s.valid, s.snk.ready, s.beat⟩ : Sample)] = [s.beat] := by
          simp only [xfers, hx, if_true, List.flatMap_cons, List.flatMap_nil, List.append_nil]
        rw [e1]
        have hpc : s.snk.pc = .edge ∨ (s.snk.pc = .off ∧ clean = false) := by
          have h1 := h.inv.sleep
          have h2 := h.inv.off
          have h3 := h.set hs.1
          rw [← h3, hx] at h1
          cases hpc : s.snk.pc
          · right
            refine ⟨rfl, ?_⟩
            cases hr : c.hasReady
            · cases hcc : clean
              · rfl
              · exact absurd hpc (h.on hcc hr)
            · rw [hr, h3, h2 hpc] at hx; simp at hx
          · left; rfl
          · exact absurd hpc hs.2.1
          · simp_all
          · exact absurd hpc hs.2.2
        rcases hpc with hpc | ⟨hpc, hcc⟩
        · have e2 : SnkSys.pend c { s with snk := { s.snk with pc := s.snk.pc.tick }, settled := false
                                           trace := s.trace ++ [some ⟨s.valid, s.snk.ready, s.beat⟩] } = [s.beat] := by
            unfold SnkSys.pend
            simp only [hpc, Pc.tick, hx, and_self, if_true]
          rw [e2]
          exact acc_append ha _
        · subst hcc
          rw [pend_not_due _ _ (by simp [hpc, Pc.tick]), List.append_nil]
          exact ha.trans (List.sublist_append_left _ _)
      · have e2 : SnkSys.pend c { s with snk := { s.snk with pc := s.snk.pc.tick }, settled := false
                                         trace := s.trace ++ [some ⟨s.valid, s.snk.ready, s.beat⟩] } = [] := by
          unfold SnkSys.pend
          rw [if_neg (fun hh => hx hh.2)]
        have e1 : xfers c [some (⟨s.valid, s.snk.ready, s.beat⟩ : Sample)] = [] := by
          simp only [xfers, if_neg hx, List.flatMap_cons, List.flatMap_nil, List.append_nil]
        rw [e1, e2, List.append_nil, List.append_nil]
        exact ha
    · exact h
  case run =>
    split
    · rename_i hd
      rw [if_pos hd] at hi
      obtain ⟨_, _, _, _, f5, _, _, _, f9, f10, _⟩ := finish_same c (s.snk.capture c s.valid s.beat) s.valid
      refine ⟨hi, by simp, fun _ _ => f10, ?_⟩
      rw [pend_not_due _ _ (by exact f9)]
      have ha := h.acc
      simp only [Rx.runSnk, f5, List.append_nil]
      unfold SnkSys.pend at ha
      obtain ⟨_, _, _, _, _, _, g7⟩ := capture_same c s.snk s.valid s.beat
      rw [g7, Bool.and_comm]
      simpa only [hd, true_and] using ha
    · exact h
  case wake =>
    split
    · rename_i hw
      rw [if_pos hw] at hi
      exact h.same hi (by simp) rfl rfl rfl rfl (by simp [Rx.top, hw]) (by simp [Rx.top]) (by simp [Rx.top])
    · exact h
  case spurious =>
    split
    · rename_i hw
      rw [if_pos hw] at hi
      exact h.same hi (by simp) rfl rfl rfl rfl (by simp [Rx.top, hw]) (by simp [Rx.top]) (by simp [Rx.top])
    · exact h
  case commit =>
    split
    · rename_i hs
      rw [if_pos hs] at hi
      simp only [still_iff] at hs
      have ha := h.acc
      rw [pend_not_due _ _ hs.1] at ha
      by_cases hr : (s.snk.nready && !s.snk.ready) = true
      · simp only [if_pos hr] at hi ⊢
        refine ⟨hi, fun _ => rfl, fun a b hh => h.on a b (wakeUp_off.1 hh), ?_⟩
        rw [pend_not_due]
        · exact ha
        · exact fun hh => hs.1 (wakeUp_due.1 hh)
      · simp only [if_neg hr] at hi ⊢
        refine ⟨hi, fun _ => rfl, h.on, ?_⟩
        rw [pend_not_due]
        · exact ha
        · exact hs.1
    · exact h
  case env v d =>
    split
    · exact h
    · rename_i hd
      rw [if_neg hd] at hi
      split at hi
      · rename_i hv
        rw [if_pos hv]
        exact h.same hi (fun hh => hh) rfl rfl rfl rfl wakeUp_due wakeUp_off.1 (fun hh => absurd (wakeUp_due.1 hh) hd)
      · rename_i hv
        rw [if_neg hv]
        exact h.same hi (fun hh => hh) rfl rfl rfl rfl Iff.rfl (fun hh => hh) (fun hh => absurd hh hd)
  case recv k =>
    have f := recv_kept true s.snk k
    exact h.same hi (by simp) rfl f.ready f.nready f.captured f.due f.off.1 (fun _ => ⟨rfl, rfl⟩)
  case readNowait n =>
    have f := read_kept true s.snk n
    exact h.same hi (by simp) rfl f.ready f.nready f.captured f.due f.off.1 (fun _ => ⟨rfl, rfl⟩)
  case pause v =>
    obtain ⟨f1, f2, f3, f4, f5, f6⟩ := setPause_facts s.snk v
    exact h.same hi (by simp) rfl f4 f5 f3 f1 f2.1 (fun _ => ⟨rfl, rfl⟩)
  case clear => exact h.same hi (by simp) rfl rfl rfl rfl Iff.rfl (fun hh => hh) (fun _ => ⟨rfl, rfl⟩)
  case reset v =>
    cases v
    · simp only [Rx.reset, Bool.false_eq_true, if_false] at hi ⊢
      split
      · rename_i ho
        rw [if_pos ho] at hi
        exact h.same hi (by simp) rfl rfl rfl rfl (by simp [ho]) (by simp) (by simp)
      · rename_i ho
        rw [if_neg ho] at hi
        exact h.same hi (by simp) rfl rfl rfl rfl Iff.rfl (fun hh => hh) (fun _ => ⟨rfl, rfl⟩)
    · have : clean = false := by
        cases clean
        · rfl
        · exact absurd (hcl rfl) (by simp [SnkEv.noReset])
      subst this
      refine ⟨hi, by simp, by simp, ?_⟩
      rw [pend_not_due _ _ (by simp [Rx.reset])]
      simp only [if_true, xfers_append]
      have := h.acc.drop_last
      simpa [xfers, Rx.reset] using this

theorem SnkSys.exec_acc {c : Cfg} (hl : 0 < c.lanes) (clean : Bool) (evs : List SnkEv)
    (hcl : clean = true → ∀ e ∈ evs, e.noReset = true) :
    SnkAcc c clean (SnkSys.exec c (.reset false :: evs)) :=
  foldl_inv' _ (fun s : SnkSys => SnkAcc c clean s) (fun e => clean = true → e.noReset = true)
    (fun _ e hq h => h.step hl e hq) evs _ (fun e he hc => hcl hc e he)
    ⟨(SnkInv.init c false).reset false, by simp [SnkSys.step], by simp [SnkSys.step, Rx.reset],
      by cases clean <;> simp [Stream.Acc, xfers, SnkSys.pend, SnkSys.step, Rx.reset]⟩

theorem SnkSys.exec_inv {c : Cfg} (hl : 0 < c.lanes) (evs : List SnkEv) :
    SnkInv c (SnkSys.exec c evs).snk (SnkSys.exec c evs).valid :=
  (foldl_inv' _ (fun s : SnkSys => SnkInv c s.snk s.valid ∧ (s.settled = true → s.snk.ready = s.snk.nready))
    (fun _ => True) (fun s e _ h => ⟨SnkSys.step_inv hl h.1 h.2 e, by
      cases e <;> simp only [SnkSys.step]
      case tick => split; simp; exact h.2
      case run => split; simp; exact h.2
      case wake => split; simp; exact h.2
      case spurious => split; simp; exact h.2
      case commit => split; (intro _; simp only; split <;> rfl); exact h.2
      case env v d =>
        split
        · exact h.2
        · split <;> exact h.2
      all_goals simp⟩) evs _ (fun _ _ => trivial) ⟨SnkInv.init c false, by simp⟩).1

/-! ## Frames -/

/-- Without reset, the queue and the partial frame are made of the captured beats. -/
structure PackInv (c : Cfg) (s : Rx) : Prop where
  got : s.taken.map (·.2) ++ s.queue = (packets c s.captured).1.map (frameOf c)
  part : s.part = if (packets c s.captured).2 = [] then none else some (frameOf c (packets c s.captured).2)

theorem PackInv.same {c : Cfg} {s t : Rx} (h : PackInv c s) (h1 : t.taken.map (·.2) ++ t.queue = s.taken.map (·.2) ++ s.queue)
    (h2 : t.captured = s.captured) (h3 : t.part = s.part) : PackInv c t :=
  ⟨by rw [h1, h2]; exact h.got, by rw [h2, h3]; exact h.part⟩

theorem PackInv.collect {c : Cfg} (hl : 0 < c.lanes) {s : Rx} (h : PackInv c s) (b : Beat) : PackInv c (s.collect c b) := by
  obtain ⟨act, e⟩ := RxInv.collect_eq hl b _ h.part
  have hg := h.got
  rw [e]
  split
  · rename_i hb
    refine ⟨?_, ?_⟩
    · simp only
      rw [packets_snoc, if_pos hb, ← List.append_assoc, hg]
      simp
    · simp only
      rw [packets_snoc, if_pos hb]
      rfl
  · rename_i hb
    refine ⟨?_, ?_⟩
    · simp only
      rw [packets_snoc, if_neg hb]
      exact hg
    · simp only
      rw [packets_snoc, if_neg hb]
      simp

theorem PackInv.runSnk {c : Cfg} (hl : 0 < c.lanes) {s : Rx} (h : PackInv c s) (v : Bool) (b : Beat) : PackInv c (s.runSnk c v b) := by
  obtain ⟨e1, e2, _, _, e5, e6, _⟩ := finish_same c (s.capture c v b) v
  have : PackInv c (s.capture c v b) := by
    unfold Rx.capture
    split
    · exact h.collect hl b
    · exact h.same rfl rfl rfl
  exact this.same (by rw [Rx.runSnk, e1, e6]) e5 e2

theorem PackInv.runMon {c : Cfg} (hl : 0 < c.lanes) {s : Rx} (h : PackInv c s) (v r : Bool) (b : Beat) :
    PackInv c (s.runMon c v r b) := by
  unfold Rx.runMon
  split
  · exact (h.collect hl b).same rfl rfl rfl
  · exact h.same rfl rfl rfl

theorem PackInv.init (c : Cfg) : PackInv c {} := ⟨rfl, rfl⟩

theorem PackInv.resetF {c : Cfg} {s : Rx} (h : PackInv c s) : PackInv c (s.reset false) := by
  unfold Rx.reset
  rw [if_neg (by simp)]
  split <;> exact h.same rfl rfl rfl

theorem SnkSys.step_pack {c : Cfg} (hl : 0 < c.lanes) {s : SnkSys} (e : SnkEv) (hcl : e.clean = true) (h : PackInv c s.snk) :
    PackInv c (s.step c e).snk := by
  cases e <;> simp only [SnkSys.step]
  case tick => split <;> exact h.same rfl rfl rfl
  case run => split; exact h.runSnk hl _ _; exact h
  case wake => split <;> exact h.same rfl rfl rfl
  case spurious => split <;> exact h.same rfl rfl rfl
  case commit => split; (simp only; split <;> exact h.same rfl rfl rfl); exact h
  case env v b =>
    split
    · exact h
    · simp only
      split <;> exact h.same rfl rfl rfl
  case recv k => exact h.same (recv_kept true s.snk k).got (recv_kept true s.snk k).captured (recv_kept true s.snk k).part
  case readNowait n => exact h.same (read_kept true s.snk n).got (read_kept true s.snk n).captured (read_kept true s.snk n).part
  case pause v =>
    obtain ⟨f1, f2, f3, f4, f5, f6, f7, f8⟩ := setPause_facts s.snk v
    exact h.same (by rw [f6, f7]) f3 f8
  case clear => exact absurd hcl (by simp [SnkEv.clean])
  case reset v =>
    cases v
    · exact h.resetF
    · exact absurd hcl (by simp [SnkEv.clean])

theorem SnkSys.exec_pack {c : Cfg} (hl : 0 < c.lanes) (evs : List SnkEv) (hcl : ∀ e ∈ evs, e.clean = true) :
    PackInv c (SnkSys.exec c evs).snk :=
  foldl_inv' _ (fun s : SnkSys => PackInv c s.snk) (fun e => e.clean = true) (fun _ e hq h => SnkSys.step_pack hl e hq h) evs _ hcl
    (PackInv.init c)

theorem MonSys.step_pack {c : Cfg} (hl : 0 < c.lanes) {s : MonSys} (e : MonEv) (hcl : e.clean = true) (h : PackInv c s.mon) :
    PackInv c (s.step c e).mon := by
  cases e <;> simp only [MonSys.step]
  case tick => split <;> exact h.same rfl rfl rfl
  case run => split; exact h.runMon hl _ _ _; exact h
  case wake => split <;> exact h.same rfl rfl rfl
  case spurious => split <;> exact h.same rfl rfl rfl
  case env v r b =>
    split
    · exact h
    · simp only
      split <;> exact h.same rfl rfl rfl
  case recv k => exact h.same (recv_kept false s.mon k).got (recv_kept false s.mon k).captured (recv_kept false s.mon k).part
  case readNowait n => exact h.same (read_kept false s.mon n).got (read_kept false s.mon n).captured (read_kept false s.mon n).part
  case clear => exact absurd hcl (by simp [MonEv.clean])
  case reset v =>
    cases v
    · exact h.resetF
    · exact absurd hcl (by simp [MonEv.clean])

theorem MonSys.exec_pack {c : Cfg} (hl : 0 < c.lanes) (evs : List MonEv) (hcl : ∀ e ∈ evs, e.clean = true) :
    PackInv c (MonSys.exec c evs).mon :=
  foldl_inv' _ (fun s : MonSys => PackInv c s.mon) (fun e => e.clean = true) (fun _ e hq h => MonSys.step_pack hl e hq h) evs _ hcl
    (PackInv.init c)

/-! ## Monitors -/

/-- The beat the monitor is about to capture. -/
def MonSys.pend (c : Cfg) (s : MonSys) : List Beat :=
  if s.mon.pc = .due ∧ ((!c.hasValid || s.valid) && (!c.hasReady || s.ready)) = true then [s.beat] else []

/-- The accounting invariant of a monitor. -/
structure MonAcc (c : Cfg) (clean : Bool) (s : MonSys) : Prop where
  sleep : s.mon.pc = .asleep → ((!c.hasValid || s.valid) && (!c.hasReady || s.ready)) = false
  on : clean = true → s.mon.pc ≠ .off
  acc : Stream.Acc clean (s.mon.captured ++ s.pend c) (xfers c s.trace)

theorem mon_pend_not_due (c : Cfg) (s : MonSys) (h : s.mon.pc ≠ .due) : s.pend c = [] := by
  unfold MonSys.pend
  rw [if_neg (fun hh => h hh.1)]

theorem MonAcc.same {c : Cfg} {clean : Bool} {s t : MonSys} (h : MonAcc c clean s)
    (h1 : t.mon.pc = .asleep → ((!c.hasValid || t.valid) && (!c.hasReady || t.ready)) = false) (h2 : t.trace = s.trace)
    (h5 : t.mon.captured = s.mon.captured)
    (h6 : t.mon.pc = .due ↔ s.mon.pc = .due) (h7 : t.mon.pc = .off → s.mon.pc = .off)
    (h8 : t.mon.pc = .due → t.valid = s.valid ∧ t.ready = s.ready ∧ t.beat = s.beat) : MonAcc c clean t where
  sleep := h1
  on := fun a hh => h.on a (h7 hh)
  acc := by
    have : t.pend c = s.pend c := by
      by_cases hd : s.mon.pc = .due
      · obtain ⟨e1, e2, e3⟩ := h8 (h6.2 hd)
        unfold MonSys.pend
        rw [e1, e2, e3]
        simp only [h6]
      · rw [mon_pend_not_due c s hd, mon_pend_not_due c t (fun hh => hd (h6.1 hh))]
    rw [h5, h2, this]; exact h.acc

theorem MonAcc.step {c : Cfg} {clean : Bool} {s : MonSys} (e : MonEv)
    (hcl : clean = true → e.noReset = true) (h : MonAcc c clean s) : MonAcc c clean (s.step c e) := by
  cases e <;> simp only [MonSys.step]
  case tick =>
    split
    · rename_i hs
      rw [still_iff] at hs
      refine ⟨fun hh => h.sleep (by simpa only [tick_asleep] using hh),
        fun a hh => h.on a (by simpa only [tick_off] using hh), ?_⟩
      have ha := h.acc
      rw [mon_pend_not_due c s hs.1, List.append_nil] at ha
      simp only
      rw [xfers_append]
      by_cases hx : ((!c.hasValid || s.valid) && (!c.hasReady || s.ready)) = true
      · have e1 : xfers c [some (⟨s.valid, s.ready, s.beat⟩ : Sample)] = [s.beat] := by
          simp only [xfers, hx, if_true, List.flatMap_cons, List.flatMap_nil, List.append_nil]
        rw [e1]
        have hpc : s.mon.pc = .edge ∨ (s.mon.pc = .off ∧ clean = false) := by
          have h1 := h.sleep
          rw [hx] at h1
          cases hpc : s.mon.pc
          · right
            refine ⟨rfl, ?_⟩
            cases hcc : clean
            · rfl
            · exact absurd hpc (h.on hcc)
          · left; rfl
          · exact absurd hpc hs.1
          · simp_all
          · exact absurd hpc hs.2
        rcases hpc with hpc | ⟨hpc, hcc⟩
        · have e2 : MonSys.pend c { s with mon := { s.mon with pc := s.mon.pc.tick }
                                           trace := s.trace ++ [some ⟨s.valid, s.ready, s.beat⟩] } = [s.beat] := by
            unfold MonSys.pend
            simp only [hpc, Pc.tick, hx, and_self, if_true]
          rw [e2]
          exact acc_append ha _
        · subst hcc
          rw [mon_pend_not_due _ _ (by simp [hpc, Pc.tick]), List.append_nil]
          exact ha.trans (List.sublist_append_left _ _)
      · have e2 : MonSys.pend c { s with mon := { s.mon with pc := s.mon.pc.tick }
                                         trace := s.trace ++ [some ⟨s.valid, s.ready, s.beat⟩] } = [] := by
          unfold MonSys.pend
          rw [if_neg (fun hh => hx hh.2)]
        have e1 : xfers c [some (⟨s.valid, s.ready, s.beat⟩ : Sample)] = [] := by
          simp only [xfers, if_neg hx, List.flatMap_cons, List.flatMap_nil, List.append_nil]
        rw [e1, e2, List.append_nil, List.append_nil]
        exact ha
    · exact h
  case run =>
    split
    · rename_i hd
      have ha := h.acc
      unfold MonSys.pend at ha
      unfold Rx.runMon
      simp only [hd, true_and] at ha ⊢
      rw [Bool.and_comm (!c.hasReady || s.ready)]
      split
      · rename_i hx
        rw [if_pos hx] at ha
        refine ⟨by simp, by simp, ?_⟩
        rw [mon_pend_not_due _ _ (by simp), List.append_nil]
        simp only
        rw [(collect_same c s.mon s.beat).2.2.2.2.2.2.1]
        exact ha
      · rename_i hx
        rw [if_neg hx, List.append_nil] at ha
        refine ⟨fun _ => by simpa only [Bool.not_eq_true] using hx, by simp, ?_⟩
        rw [mon_pend_not_due _ _ (by simp), List.append_nil]
        exact ha
    · exact h
  case wake =>
    split
    · rename_i hw
      exact h.same (by simp) rfl rfl (by simp [hw]) (by simp) (by simp)
    · exact h
  case spurious =>
    split
    · rename_i hw
      exact h.same (by simp) rfl rfl (by simp [hw]) (by simp) (by simp)
    · exact h
  case env v r d =>
    split
    · exact h
    · rename_i hd
      by_cases hv : ((v && !s.valid) || (r && !s.ready)) = true
      · rw [if_pos hv]
        exact h.same (fun hp => absurd hp wakeUp_ne) rfl rfl wakeUp_due wakeUp_off.1 (fun hh => absurd (wakeUp_due.1 hh) hd)
      · rw [if_neg hv]
        refine h.same (fun hp => ?_) rfl rfl Iff.rfl (fun hh => hh) (fun hh => absurd hh hd)
        have := h.sleep hp
        revert this hv
        cases c.hasValid <;> cases c.hasReady <;> cases v <;> cases r <;> cases s.valid <;> cases s.ready <;> simp
  case recv k =>
    have f := recv_kept false s.mon k
    exact h.same (fun hp => h.sleep (f.sleep hp)) rfl f.captured f.due f.off.1 (fun _ => ⟨rfl, rfl, rfl⟩)
  case readNowait n =>
    have f := read_kept false s.mon n
    exact h.same (fun hp => h.sleep (f.sleep hp)) rfl f.captured f.due f.off.1 (fun _ => ⟨rfl, rfl, rfl⟩)
  case clear => exact h.same h.sleep rfl rfl Iff.rfl (fun hh => hh) (fun _ => ⟨rfl, rfl, rfl⟩)
  case reset v =>
    cases v
    · simp only [Rx.reset, Bool.false_eq_true, if_false]
      split
      · rename_i ho
        exact h.same (by simp) rfl rfl (by simp [ho]) (by simp) (by simp)
      · exact h
    · have : clean = false := by
        cases clean
        · rfl
        · exact absurd (hcl rfl) (by simp [MonEv.noReset])
      subst this
      refine ⟨by simp [Rx.reset], by simp, ?_⟩
      rw [mon_pend_not_due _ _ (by simp [Rx.reset])]
      simp only [if_true, xfers_append]
      have := h.acc.drop_last
      simpa [xfers, Rx.reset] using this

theorem MonSys.exec_acc (c : Cfg) (clean : Bool) (evs : List MonEv)
    (hcl : clean = true → ∀ e ∈ evs, e.noReset = true) :
    MonAcc c clean (MonSys.exec c (.reset false :: evs)) :=
  foldl_inv' _ (fun s : MonSys => MonAcc c clean s) (fun e => clean = true → e.noReset = true)
    (fun _ e hq h => h.step e hq) evs _ (fun e he hc => hcl hc e he)
    ⟨by simp [MonSys.step, Rx.reset], by simp [MonSys.step, Rx.reset],
      by cases clean <;> simp [Stream.Acc, xfers, MonSys.pend, MonSys.step, Rx.reset]⟩

end Verif.Axis
