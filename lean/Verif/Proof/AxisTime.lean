import Verif.Spec.AxisTime
import Verif.Proof.AxisRxAcc

/-!
# The times of received frames
-/

namespace Verif.Axis

open Verif.Stream (Pc wakeUp_ne wakeUp_off wakeUp_woken wakeUp_due wakeUp_edge tick_due tick_off tick_asleep tick_woken tick_edge
  still_iff foldl_inv foldl_inv')

theorem tpackets_snoc (c : Cfg) (bs : List (Nat × Beat)) (b : Nat × Beat) : tpackets c (bs ++ [b]) =
    if !c.hasLast || b.2.tlast then ((tpackets c bs).1 ++ [(tpackets c bs).2 ++ [b]], [])
    else ((tpackets c bs).1, (tpackets c bs).2 ++ [b]) := by
  simp only [tpackets, List.foldl_append, List.foldl_cons, List.foldl_nil]

theorem tpackets_map (c : Cfg) (bs : List (Nat × Beat)) :
    packets c (bs.map (·.2)) = ((tpackets c bs).1.map fun p => p.map (·.2), (tpackets c bs).2.map (·.2)) := by
  have key : ∀ n (bs : List (Nat × Beat)), bs.length = n →
      packets c (bs.map (·.2)) = ((tpackets c bs).1.map fun p => p.map (·.2), (tpackets c bs).2.map (·.2)) := by
    intro n
    induction n with
    | zero => intro bs h; rw [List.eq_nil_of_length_eq_zero h]; rfl
    | succ n ih =>
      intro bs h
      have hne : bs ≠ [] := by rintro rfl; cases h
      rw [← List.dropLast_concat_getLast hne, List.map_append, List.map_singleton, packets_snoc, tpackets_snoc,
        ih _ (by rw [List.length_dropLast]; omega)]
      split <;> simp
  exact key _ bs rfl

theorem txfers_append (c : Cfg) (a b : List (Option (Nat × Sample))) : txfers c (a ++ b) = txfers c a ++ txfers c b := by
  simp [txfers, List.flatMap_append]

theorem txfers_map (c : Cfg) (tr : List (Option (Nat × Sample))) :
    (txfers c tr).map (·.2) = xfers c (tr.map fun o => o.map (·.2)) := by
  induction tr with
  | nil => rfl
  | cons o tr ih =>
    rw [show o :: tr = [o] ++ tr from rfl, txfers_append, List.map_append, ih, List.map_append, xfers_append]
    congr 1
    rcases o with _ | ⟨t, a⟩
    · rfl
    · simp only [txfers, xfers, List.flatMap_cons, List.flatMap_nil, List.append_nil, List.map_cons, List.map_nil, Option.map_some]
      split <;> rfl

/-- The times of a receiver fit its frames and the bus; `pend` is the beat it is about to capture. -/
structure StInv (c : Cfg) (s : Rx) (pend : List Beat) (tr : List (Option Sample)) (t : Stamps) : Prop where
  tr : tr = t.seen.map fun o => o.map (·.2)
  len : t.queue.length = s.queue.length
  cap : t.captured.map (·.2) = s.captured
  acc : txfers c t.seen = t.captured ++ pend.map (fun b => (t.now, b))
  got : t.taken ++ t.queue = (tpackets c t.captured).1.map span
  start : (tpackets c t.captured).2 ≠ [] → ((tpackets c t.captured).2.map (·.1)).headD 0 = t.start

namespace StInv

variable {c : Cfg} {s u : Rx} {pend pend' : List Beat} {tr : List (Option Sample)} {t : Stamps}

theorem keep (h : StInv c s pend tr t) (h1 : u.queue.length = s.queue.length) (h2 : u.captured = s.captured)
    (h3 : pend' = pend) : StInv c u pend' tr t :=
  ⟨h.tr, by rw [h1]; exact h.len, by rw [h2]; exact h.cap, by rw [h3]; exact h.acc, h.got, h.start⟩

theorem sleep (h : StInv c s [] tr t) (d : Nat) : StInv c s [] tr (t.sleep d) :=
  ⟨h.tr, h.len, h.cap, h.acc, h.got, h.start⟩

theorem edge (h : StInv c s [] tr t) (a : Sample) (h1 : u.queue.length = s.queue.length) (h2 : u.captured = s.captured)
    (h3 : pend' = xfers c [some a]) : StInv c u pend' (tr ++ [some a]) (t.edge a) := by
  refine ⟨?_, by rw [h1]; exact h.len, by rw [h2]; exact h.cap, ?_, h.got, h.start⟩
  · simp [Stamps.edge, h.tr]
  · have ha := h.acc
    simp only [Stamps.edge, txfers_append]
    rw [ha, h3]
    simp only [List.map_nil, List.append_nil, txfers, xfers, List.flatMap_cons, List.flatMap_nil]
    split <;> rfl

theorem took (h : StInv c s pend tr t) (h0 : u.queue.length ≤ s.queue.length) (h2 : u.captured = s.captured)
    (h3 : pend' = pend) : StInv c u pend' tr (t.took (s.queue.length - u.queue.length)) := by
  refine ⟨h.tr, ?_, by rw [h2]; exact h.cap, by rw [h3]; exact h.acc, ?_, h.start⟩
  · have := h.len
    simp only [Stamps.took, List.length_drop]
    omega
  · simp only [Stamps.took, List.append_assoc, List.take_append_drop]
    exact h.got

/-- The body of the loop after the clock edge. -/
theorem run (hl : 0 < c.lanes) {v r : Bool} {b : Beat} (hp : PackInv c s)
    (h : StInv c s (if ((!c.hasReady || r) && (!c.hasValid || v)) = true then [b] else []) tr t)
    (h1 : u.captured = s.captured ++ (if ((!c.hasReady || r) && (!c.hasValid || v)) = true then [b] else []))
    (h2 : u.queue.length = s.queue.length + (if ((!c.hasReady || r) && (!c.hasValid || v)) = true ∧ (!c.hasLast || b.tlast) = true
      then 1 else 0)) : StInv c u [] tr (t.run c s v r b) := by
  unfold Stamps.run
  by_cases hx : ((!c.hasReady || r) && (!c.hasValid || v)) = true
  · rw [if_pos hx] at h1
    simp only [hx, true_and] at h2
    rw [if_pos hx] at h
    have hpk := hp.part
    rw [← h.cap, tpackets_map] at hpk
    -- the start of the frame
    have hs : ((((tpackets c t.captured).2 ++ [(t.now, b)]).map (·.1)).headD 0 : Nat) =
        if (!(s.part.elim false Frame.truthy)) = true then t.now else t.start := by
      by_cases hn : (tpackets c t.captured).2 = []
      · rw [hn] at hpk
        rw [hpk, hn]
        simp
      · have hne : (tpackets c t.captured).2.map (·.2) ≠ [] := by simpa using hn
        simp only [if_neg hne] at hpk
        rw [hpk]
        simp only [Option.elim_some, frameOf_truthy c hl _ hne, Bool.not_true, Bool.false_eq_true, if_false]
        rw [← h.start hn, List.map_append]
        obtain ⟨x, l, e⟩ := List.exists_cons_of_ne_nil hn
        rw [e]
        rfl
    have hacc := h.acc
    simp only [List.map_cons, List.map_nil] at hacc
    rw [if_pos hx]
    simp only
    by_cases hb : (!c.hasLast || b.tlast) = true
    · rw [if_pos hb] at h2 ⊢
      refine ⟨h.tr, by simp [h.len, h2], by simp [h.cap, h1], by simpa using hacc, ?_, ?_⟩
      · simp only
        rw [tpackets_snoc, if_pos hb, ← List.append_assoc, h.got, List.map_append, List.map_singleton]
        congr 1
        simp only [span]
        rw [hs]
        simp
      · simp only
        rw [tpackets_snoc, if_pos hb]
        simp
    · rw [if_neg hb] at h2 ⊢
      refine ⟨h.tr, by simp [h.len, h2], by simp [h.cap, h1], by simpa using hacc, ?_, ?_⟩
      · simp only
        rw [tpackets_snoc, if_neg hb]
        exact h.got
      · simp only
        rw [tpackets_snoc, if_neg hb]
        exact fun _ => hs
  · rw [if_neg hx] at h1 h
    rw [if_neg (fun hh => hx hh.1)] at h2
    rw [if_neg hx]
    exact h.keep (by simpa using h2) (by simpa using h1) rfl

end StInv

theorem collect_queue (c : Cfg) (s : Rx) (b : Beat) :
    (s.collect c b).queue.length = s.queue.length + (if (!c.hasLast || b.tlast) = true then 1 else 0) := by
  unfold Rx.collect
  simp only
  split <;> simp

theorem capture_queue (c : Cfg) (s : Rx) (v : Bool) (b : Beat) :
    (s.capture c v b).queue.length = s.queue.length + (if ((!c.hasReady || s.ready) && (!c.hasValid || v)) = true ∧
      (!c.hasLast || b.tlast) = true then 1 else 0) := by
  unfold Rx.capture
  by_cases hx : ((!c.hasReady || s.ready) && (!c.hasValid || v)) = true
  · simp only [hx, true_and, if_true]; exact collect_queue c s b
  · rw [if_neg hx, if_neg (fun hh => hx hh.1)]; rfl

theorem runMon_queue (c : Cfg) (s : Rx) (v r : Bool) (b : Beat) :
    (s.runMon c v r b).queue.length = s.queue.length + (if ((!c.hasReady || r) && (!c.hasValid || v)) = true ∧
      (!c.hasLast || b.tlast) = true then 1 else 0) := by
  unfold Rx.runMon
  by_cases hx : ((!c.hasReady || r) && (!c.hasValid || v)) = true
  · simp only [hx, true_and, if_true]; exact collect_queue c s b
  · rw [if_neg hx, if_neg (fun hh => hx hh.1)]; rfl

theorem runMon_captured (c : Cfg) (s : Rx) (v r : Bool) (b : Beat) : (s.runMon c v r b).captured =
    s.captured ++ (if ((!c.hasReady || r) && (!c.hasValid || v)) = true then [b] else []) := by
  unfold Rx.runMon
  split
  · exact (collect_same c s b).2.2.2.2.2.2.1
  · simp

theorem recv_shorter (sink : Bool) (s : Rx) (k : Bool) : (s.recv sink k).2.queue.length ≤ s.queue.length :=
  recv_ind sink (fun u => u.queue.length ≤ s.queue.length)
    (fun u f rest hq h => by rw [(popped_queue sink u false f rest).1]; rw [hq] at h; simp at h; omega) s k (Nat.le_refl _)

theorem read_shorter (sink : Bool) (s : Rx) (n : Int) : (s.readNowait sink n).2.queue.length ≤ s.queue.length :=
  read_ind sink (fun u => u.queue.length ≤ s.queue.length)
    (fun u f rest hq h => by rw [(popped_queue sink u true f rest).1]; rw [hq] at h; simp at h; omega)
    (fun _ _ h => h) (fun _ _ h => h) s n (Nat.le_refl _)

/-! ## Sinks -/

/-- A sink and the times of its frames, without reset and `clear()`. -/
structure TSnkInv (c : Cfg) (s : TSnk) : Prop where
  acc : SnkAcc c true s.sys
  pack : PackInv c s.sys.snk
  st : StInv c s.sys.snk (s.sys.pend c) s.sys.trace s.t

theorem snk_clean_reset {e : SnkEv} (h : e.clean = true) : e.noReset = true := by
  revert h; unfold SnkEv.clean SnkEv.noReset; repeat' split
  all_goals simp_all

/-- An event of the sink that leaves bus and frames alone. -/
theorem TSnkInv.keep {c : Cfg} (hl : 0 < c.lanes) {s : TSnk} (h : TSnkInv c s) (e : SnkEv) (hcl : e.clean = true)
    (h1 : (s.sys.step c e).snk.queue.length = s.sys.snk.queue.length) (h2 : (s.sys.step c e).snk.captured = s.sys.snk.captured)
    (h3 : (s.sys.step c e).trace = s.sys.trace) : TSnkInv c { s with sys := s.sys.step c e } := by
  have ha := h.acc.step hl e (fun _ => snk_clean_reset hcl)
  refine ⟨ha, SnkSys.step_pack hl e hcl h.pack, ?_⟩
  have e1 := ha.acc
  have e2 := h.acc.acc
  simp only [Stream.Acc, if_true] at e1 e2
  rw [h3, e2, h2] at e1
  rw [h3]
  exact h.st.keep h1 h2 (List.append_cancel_left e1).symm

theorem TSnkInv.took {c : Cfg} (hl : 0 < c.lanes) {s : TSnk} (h : TSnkInv c s) (e : SnkEv) (hcl : e.clean = true)
    (h1 : (s.sys.step c e).snk.queue.length ≤ s.sys.snk.queue.length) (h2 : (s.sys.step c e).snk.captured = s.sys.snk.captured)
    (h3 : (s.sys.step c e).trace = s.sys.trace) :
    TSnkInv c { sys := s.sys.step c e, t := s.t.took (s.sys.snk.queue.length - (s.sys.step c e).snk.queue.length) } := by
  have ha := h.acc.step hl e (fun _ => snk_clean_reset hcl)
  refine ⟨ha, SnkSys.step_pack hl e hcl h.pack, ?_⟩
  have e1 := ha.acc
  have e2 := h.acc.acc
  simp only [Stream.Acc, if_true] at e1 e2
  rw [h3, e2, h2] at e1
  rw [h3]
  exact h.st.took h1 h2 (List.append_cancel_left e1).symm

theorem TSnkInv.step {c : Cfg} (hl : 0 < c.lanes) {s : TSnk} (h : TSnkInv c s) (e : TEv SnkEv)
    (hcl : e.clean SnkEv.clean = true) : TSnkInv c (s.step c e) := by
  cases e with
  | sleep d =>
    simp only [TSnk.step]
    split
    · rename_i hs
      simp only [Bool.and_eq_true, still_iff] at hs
      refine ⟨h.acc, h.pack, ?_⟩
      have := h.st
      rw [pend_not_due c s.sys hs.2.1] at this ⊢
      exact this.sleep d
    · exact h
  | ev e =>
    have hcl : e.clean = true := hcl
    cases e with
    | tick =>
      simp only [TSnk.step]
      split
      · rename_i hs
        simp only [Bool.and_eq_true] at hs
        have ha := h.acc.step hl .tick (fun _ => rfl)
        have hk := SnkSys.step_pack hl .tick hcl h.pack
        have hst := h.st
        have e2 := h.acc.acc
        have hd := hs.1.2
        rw [still_iff] at hd
        rw [pend_not_due c s.sys hd.1] at hst e2
        have hp : s.sys.settled && s.sys.snk.pc.still := by rw [hs.1.1, hs.1.2]; rfl
        have e1 := ha.acc
        simp only [Stream.Acc, if_true, List.append_nil] at e1 e2
        refine ⟨ha, hk, ?_⟩
        simp only [SnkSys.step, if_pos hp] at e1 ⊢
        rw [xfers_append, e2] at e1
        exact hst.edge _ rfl rfl (List.append_cancel_left e1).symm
      · exact h
    | run =>
      simp only [TSnk.step]
      have ha := h.acc.step hl .run (fun _ => rfl)
      have hk := SnkSys.step_pack hl .run hcl h.pack
      by_cases hd : s.sys.snk.pc = .due
      · rw [if_pos hd]
        refine ⟨ha, hk, ?_⟩
        simp only [SnkSys.step, if_pos hd]
        obtain ⟨f1, _, _, _, f5, _, _, _, f9, f10, _⟩ := finish_same c (s.sys.snk.capture c s.sys.valid s.sys.beat) s.sys.valid
        rw [pend_not_due _ _ (by exact f9)]
        have hst := h.st
        have hpd : s.sys.pend c = if ((!c.hasReady || s.sys.snk.ready) && (!c.hasValid || s.sys.valid)) = true then [s.sys.beat] else [] := by
          unfold SnkSys.pend
          rw [Bool.and_comm]
          simp only [hd, true_and]
        rw [hpd] at hst
        refine hst.run hl h.pack ?_ ?_
        · rw [Rx.runSnk, f5]; exact (capture_same c s.sys.snk s.sys.valid s.sys.beat).2.2.2.2.2.2
        · rw [Rx.runSnk, f1]; exact capture_queue c s.sys.snk s.sys.valid s.sys.beat
      · rw [if_neg hd]
        have : s.sys.step c .run = s.sys := by simp only [SnkSys.step, if_neg hd]
        rw [this]; exact h
    | recv k => exact h.took hl (.recv k) hcl (recv_shorter true _ k) (recv_kept true _ k).captured rfl
    | readNowait n => exact h.took hl (.readNowait n) hcl (read_shorter true _ n) (read_kept true _ n).captured rfl
    | clear => exact absurd hcl (by simp [SnkEv.clean])
    | reset v =>
      cases v
      · exact h.keep hl (.reset false) hcl (by simp [SnkSys.step, Rx.reset]; split <;> rfl)
          (by simp [SnkSys.step, Rx.reset]; split <;> rfl) rfl
      · exact absurd hcl (by simp [SnkEv.clean])
    | wake => refine h.keep hl .wake hcl ?_ ?_ ?_ <;> (simp only [SnkSys.step]; split <;> rfl)
    | spurious => refine h.keep hl .spurious hcl ?_ ?_ ?_ <;> (simp only [SnkSys.step]; split <;> rfl)
    | commit =>
      refine h.keep hl .commit hcl ?_ ?_ ?_ <;>
      · simp only [SnkSys.step]
        split
        · first | rfl | (simp only; split <;> rfl)
        · rfl
    | env v b =>
      refine h.keep hl (.env v b) hcl ?_ ?_ ?_ <;>
      · simp only [SnkSys.step]
        split
        · rfl
        · simp only; first | done | (split <;> rfl)
    | pause v =>
      obtain ⟨_, _, f3, _, _, _, f7, _⟩ := setPause_facts s.sys.snk v
      exact h.keep hl (.pause v) hcl (by simp only [SnkSys.step, f7]) f3 rfl

theorem TSnk.exec_inv {c : Cfg} (hl : 0 < c.lanes) (evs : List (TEv SnkEv)) (hcl : ∀ e ∈ evs, e.clean SnkEv.clean = true) :
    TSnkInv c (TSnk.exec c (.ev (.reset false) :: evs)) :=
  foldl_inv' _ (fun s : TSnk => TSnkInv c s) (fun e => e.clean SnkEv.clean = true) (fun _ e hq h => h.step hl e hq) evs _ hcl
    ⟨SnkSys.exec_acc hl true [] (by simp), (PackInv.init c).resetF, ⟨rfl, rfl, rfl, rfl, rfl, fun h => absurd rfl h⟩⟩

/-! ## Monitors -/

/-- A monitor and the times of its frames, without reset and `clear()`. -/
structure TMonInv (c : Cfg) (s : TMon) : Prop where
  acc : MonAcc c true s.sys
  pack : PackInv c s.sys.mon
  st : StInv c s.sys.mon (s.sys.pend c) s.sys.trace s.t

theorem mon_clean_reset {e : MonEv} (h : e.clean = true) : e.noReset = true := by
  revert h; unfold MonEv.clean MonEv.noReset; repeat' split
  all_goals simp_all

theorem TMonInv.keep {c : Cfg} (hl : 0 < c.lanes) {s : TMon} (h : TMonInv c s) (e : MonEv) (hcl : e.clean = true)
    (h1 : (s.sys.step c e).mon.queue.length = s.sys.mon.queue.length) (h2 : (s.sys.step c e).mon.captured = s.sys.mon.captured)
    (h3 : (s.sys.step c e).trace = s.sys.trace) : TMonInv c { s with sys := s.sys.step c e } := by
  have ha := h.acc.step e (fun _ => mon_clean_reset hcl)
  refine ⟨ha, MonSys.step_pack hl e hcl h.pack, ?_⟩
  have e1 := ha.acc
  have e2 := h.acc.acc
  simp only [Stream.Acc, if_true] at e1 e2
  rw [h3, e2, h2] at e1
  rw [h3]
  exact h.st.keep h1 h2 (List.append_cancel_left e1).symm

theorem TMonInv.took {c : Cfg} (hl : 0 < c.lanes) {s : TMon} (h : TMonInv c s) (e : MonEv) (hcl : e.clean = true)
    (h1 : (s.sys.step c e).mon.queue.length ≤ s.sys.mon.queue.length) (h2 : (s.sys.step c e).mon.captured = s.sys.mon.captured)
    (h3 : (s.sys.step c e).trace = s.sys.trace) :
    TMonInv c { sys := s.sys.step c e, t := s.t.took (s.sys.mon.queue.length - (s.sys.step c e).mon.queue.length) } := by
  have ha := h.acc.step e (fun _ => mon_clean_reset hcl)
  refine ⟨ha, MonSys.step_pack hl e hcl h.pack, ?_⟩
  have e1 := ha.acc
  have e2 := h.acc.acc
  simp only [Stream.Acc, if_true] at e1 e2
  rw [h3, e2, h2] at e1
  rw [h3]
  exact h.st.took h1 h2 (List.append_cancel_left e1).symm

theorem TMonInv.step {c : Cfg} (hl : 0 < c.lanes) {s : TMon} (h : TMonInv c s) (e : TEv MonEv)
    (hcl : e.clean MonEv.clean = true) : TMonInv c (s.step c e) := by
  cases e with
  | sleep d =>
    simp only [TMon.step]
    split
    · rename_i hs
      simp only [still_iff] at hs
      refine ⟨h.acc, h.pack, ?_⟩
      have := h.st
      rw [mon_pend_not_due c s.sys hs.1] at this ⊢
      exact this.sleep d
    · exact h
  | ev e =>
    have hcl : e.clean = true := hcl
    cases e with
    | tick =>
      simp only [TMon.step]
      split
      · rename_i hs
        simp only [Bool.and_eq_true] at hs
        have ha := h.acc.step .tick (fun _ => rfl)
        have hk := MonSys.step_pack hl .tick hcl h.pack
        have hst := h.st
        have e2 := h.acc.acc
        have hd := hs.1
        rw [still_iff] at hd
        rw [mon_pend_not_due c s.sys hd.1] at hst e2
        have e1 := ha.acc
        simp only [Stream.Acc, if_true, List.append_nil] at e1 e2
        refine ⟨ha, hk, ?_⟩
        simp only [MonSys.step, if_pos hs.1] at e1 ⊢
        rw [xfers_append, e2] at e1
        exact hst.edge _ rfl rfl (List.append_cancel_left e1).symm
      · exact h
    | run =>
      simp only [TMon.step]
      have ha := h.acc.step .run (fun _ => rfl)
      have hk := MonSys.step_pack hl .run hcl h.pack
      by_cases hd : s.sys.mon.pc = .due
      · rw [if_pos hd]
        refine ⟨ha, hk, ?_⟩
        simp only [MonSys.step, if_pos hd]
        have hnd : (s.sys.mon.runMon c s.sys.valid s.sys.ready s.sys.beat).pc ≠ .due := by
          unfold Rx.runMon; split <;> simp
        rw [mon_pend_not_due _ _ (by exact hnd)]
        have hst := h.st
        have hpd : s.sys.pend c = if ((!c.hasReady || s.sys.ready) && (!c.hasValid || s.sys.valid)) = true then [s.sys.beat] else [] := by
          unfold MonSys.pend
          rw [Bool.and_comm]
          simp only [hd, true_and]
        rw [hpd] at hst
        exact hst.run hl h.pack (runMon_captured c _ _ _ _) (runMon_queue c _ _ _ _)
      · rw [if_neg hd]
        have : s.sys.step c .run = s.sys := by simp only [MonSys.step, if_neg hd]
        rw [this]; exact h
    | recv k => exact h.took hl (.recv k) hcl (recv_shorter false _ k) (recv_kept false _ k).captured rfl
    | readNowait n => exact h.took hl (.readNowait n) hcl (read_shorter false _ n) (read_kept false _ n).captured rfl
    | clear => exact absurd hcl (by simp [MonEv.clean])
    | reset v =>
      cases v
      · exact h.keep hl (.reset false) hcl (by simp [MonSys.step, Rx.reset]; split <;> rfl)
          (by simp [MonSys.step, Rx.reset]; split <;> rfl) rfl
      · exact absurd hcl (by simp [MonEv.clean])
    | wake => refine h.keep hl .wake hcl ?_ ?_ ?_ <;> (simp only [MonSys.step]; split <;> rfl)
    | spurious => refine h.keep hl .spurious hcl ?_ ?_ ?_ <;> (simp only [MonSys.step]; split <;> rfl)
    | env v r b =>
      refine h.keep hl (.env v r b) hcl ?_ ?_ ?_ <;>
      · simp only [MonSys.step]
        split
        · rfl
        · simp only; first | done | (split <;> rfl)

theorem TMon.exec_inv {c : Cfg} (hl : 0 < c.lanes) (evs : List (TEv MonEv)) (hcl : ∀ e ∈ evs, e.clean MonEv.clean = true) :
    TMonInv c (TMon.exec c (.ev (.reset false) :: evs)) :=
  foldl_inv' _ (fun s : TMon => TMonInv c s) (fun e => e.clean MonEv.clean = true) (fun _ e hq h => h.step hl e hq) evs _ hcl
    ⟨MonSys.exec_acc c true [] (by simp), (PackInv.init c).resetF, ⟨rfl, rfl, rfl, rfl, rfl, fun h => absurd rfl h⟩⟩

end Verif.Axis
