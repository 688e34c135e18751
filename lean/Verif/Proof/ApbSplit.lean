import Verif.Spec.ApbSplit
import Verif.Props.Apb

/-!
# The invariant behind C133
-/

namespace Verif.Apb

variable {σ : Type}

namespace Sys

structure HInv (slverr : Bool) (f : Access σ) (y : Sys σ) : Prop where
  m : y.m.Inv
  acc : y.m.pc.isAccess = true →
    y.s.pc = .paused y.m.bus.paddr ∨ y.s.pc = .busy ∨ y.s.pc = .ready ∨ y.s.pc = .idle ∨ y.s.pc = .stopped
  nacc : y.m.pc.isAccess = false → y.s.pc = .idle ∨ y.s.pc = .stopped
  rdy : y.s.pready = decide (y.s.pc = .ready)
  pre : ∃ rest, y.m.epoch.flatMap (·.xs) = y.s.log ++ rest
  srv : serveAll slverr f y.s.log y.base = (y.m.consumed ++ answer slverr y.s, (y.s.mem, y.s.prdata))

theorem HInv.start (slverr : Bool) (f : Access σ) (st : σ) : (start st).HInv slverr f :=
  ⟨Master.inv_init, by simp [Sys.start, MPc.isAccess], by simp [Sys.start], by simp [Sys.start], ⟨[], rfl⟩, rfl⟩

theorem HInv.core {slverr : Bool} {f : Access σ} {y : Sys σ} (h : y.HInv slverr f) : y.Core slverr f :=
  ⟨h.m, h.nacc, h.pre, h.srv⟩

theorem HInv.frame {slverr : Bool} {f : Access σ} {y : Sys σ} (h : y.HInv slverr f) {m : Master} (hm : m.Inv)
    (h1 : m.pc.isAccess = y.m.pc.isAccess) (h3 : m.bus = y.m.bus)
    (h4 : ∃ l, m.epoch = y.m.epoch ++ l) (h5 : m.consumed = y.m.consumed) :
    ({ y with m := m } : Sys σ).HInv slverr f := by
  obtain ⟨i1, i3, i4, i5, ⟨rest, i6⟩, i7⟩ := h
  obtain ⟨l, h4⟩ := h4
  refine ⟨hm, ?_, by rw [h1]; exact i4, i5, ⟨rest ++ l.flatMap (·.xs), ?_⟩, ?_⟩
  · intro h; rw [h1] at h; rw [h3]; exact i3 h
  · simp only [h4, List.flatMap_append, i6, List.append_assoc]
  · simp only [h5]; exact i7

theorem HInv.perform {slverr : Bool} {f : Access σ} {y : Sys σ} (h : y.HInv slverr f) {m : Master} (hm : m.Inv)
    {x : Xfer} {b : Bus} {slow : Bool} {t : List Xfer} (ht : y.m.todo = x :: t) (hb : b.request = x)
    (hn : answer slverr y.s = []) (hacc : m.pc.isAccess = true) (hep : m.epoch = y.m.epoch)
    (hc : m.consumed = y.m.consumed) :
    ({ y with m := m, s := y.s.perform f slow b } : Sys σ).HInv slverr f := by
  obtain ⟨i1, i3, i4, i5, ⟨rest, i6⟩, i7⟩ := h
  obtain ⟨P, hP, hPl⟩ := i1.split
  have hlen : y.s.log.length = y.m.consumed.length := by
    have := congrArg (fun z => z.1.length) i7
    simp only [serveAll_length, hn, List.append_nil] at this
    exact this
  have hlog : y.s.log = P ∧ rest = x :: t := by
    rw [hP, ht] at i6
    exact (List.append_inj i6 (by rw [hPl, hlen])).imp Eq.symm Eq.symm
  have hp : (y.s.perform f slow b).pc = .busy ∧ slow = true ∨ (y.s.perform f slow b).pc = .ready ∧ slow = false := by
    cases slow <;> simp [Slave.perform]
  have hpl : (y.s.perform f slow b).log = y.s.log ++ [x] := by simp [Slave.perform, hb]
  refine ⟨hm, ?_, ?_, ?_, ⟨t, ?_⟩, ?_⟩
  · intro _
    rcases hp with hp | hp <;> simp [hp.1]
  · intro h; simp [hacc] at h
  · cases slow <;> simp [Slave.perform]
  · simp only [hep, hpl]
    rw [i6, hlog.2]; simp
  · simp only [hpl, hc, serveAll_snoc, i7, hn, List.append_nil]
    cases slow <;> simp [Slave.perform, serveOne, answer, hb]

theorem HInv.edge {slverr : Bool} {f : Access σ} {y : Sys σ} (h : y.HInv slverr f) (mp sp slow : Bool) :
    (y.step slverr f (.edge mp sp slow)).HInv slverr f := by
  have hm := Master.edge_inv h.m slverr mp y.s.pready y.s.prdata y.s.pslverr
  obtain ⟨e1, e2, e3⟩ := Master.edge_facts y.m slverr mp y.s.pready y.s.prdata y.s.pslverr
  have e4 := Master.edge_access y.m slverr mp y.s.pready y.s.prdata y.s.pslverr
  have e5 := Master.edge_bus y.m slverr mp y.s.pready y.s.prdata y.s.pslverr
  simp only [step, Master.step]
  generalize hms : y.m.edge slverr mp y.s.pready y.s.prdata y.s.pslverr = m at *
  by_cases hacc : y.m.pc.isAccess = true
  · have ⟨op, x, xs, rs, hpc⟩ : ∃ op x xs rs, y.m.pc = .access op x xs rs := by
      cases hp : y.m.pc <;> simp [MPc.isAccess, hp] at hacc ⊢
    have hdr := (h.m.ctl.access _ _ _ _ hpc).2
    have hreq := request_of_drive hdr
    have htodo : y.m.todo = x :: (xs ++ y.m.queue.flatMap (·.xs)) := by simp [Master.todo, hpc, MPc.rem]
    by_cases hs : y.s.pc = .ready
    · -- the slave answers
      have hr : y.s.pready = true := by rw [h.rdy]; simp [hs]
      have hma : m.pc.isAccess = false := by
        cases hx : m.pc.isAccess with
        | false => rfl
        | true =>
          rcases e4.1 hx with ⟨_, _, _, _, h'⟩ | ⟨_, h'⟩
          · simp [hpc] at h'
          · simp [hr] at h'
      obtain ⟨i1, i3, i4, i5, ⟨rest, i6⟩, i7⟩ := h
      simp only [Slave.edge, hs]
      refine ⟨hm, by simp [hma], by simp, by simp, ⟨rest, by simp only [e1, i6]⟩, ?_⟩
      simp only [answer, hs, List.append_nil] at i7 ⊢
      rw [i7, e2]
      simp [Master.sample, hacc, hr]
    · have hr : y.s.pready = false := by rw [h.rdy]; simp [hs]
      have hma : m.pc.isAccess = true := e4.2 (.inr ⟨hacc, hr⟩)
      have hsam : y.m.sample slverr y.s.pready y.s.prdata y.s.pslverr = [] := by simp [Master.sample, hr]
      rw [hsam, List.append_nil] at e2
      have hbus : m.bus = y.m.bus := by rw [← hms]; simp [Master.edge, hpc, hr]
      have hf := h.frame hm (by rw [hma, hacc]) hbus ⟨[], by simp [e1]⟩ e2
      rcases h.acc hacc with hs | hs | hs' | hs | hs
      · -- the slave is paused
        have hn : answer slverr y.s = [] := by simp [answer, hs]
        simp only [Slave.edge, hs]
        split
        · exact hf
        · refine h.perform hm htodo ?_ hn hma e1 e2
          show ({ y.m.bus with paddr := y.m.bus.paddr } : Bus).request = x
          exact hreq
      · -- the target is busy
        simp only [Slave.edge, hs]
        split
        · exact hf
        · obtain ⟨i1, i3, i4, i5, i6, i7⟩ := hf
          refine ⟨i1, by simp, by simp [hma], by simp, i6, ?_⟩
          simp only [answer, hs] at i7 ⊢
          exact i7
      · exact absurd hs' hs
      · -- the slave has come out of reset and finds an access
        have hn : answer slverr y.s = [] := by simp [answer, hs]
        have hsel : y.m.bus.psel = true := by rw [← hdr]; exact Master.drive_sel _ _
        simp only [Slave.edge, hs, hsel, if_true]
        split
        · obtain ⟨i1, i3, i4, i5, i6, i7⟩ := hf
          refine ⟨i1, by simp [hbus], by simp [hma], by simp [hr], i6, ?_⟩
          simp only [answer, hs] at i7 ⊢
          exact i7
        · exact h.perform hm htodo hreq hn hma e1 e2
      · -- the slave is in reset
        simp only [Slave.edge, hs]
        exact hf
  · simp only [Bool.not_eq_true] at hacc
    have hsam : y.m.sample slverr y.s.pready y.s.prdata y.s.pslverr = [] := by simp [Master.sample, hacc]
    rw [hsam, List.append_nil] at e2
    rcases h.nacc hacc with hs | hs
    · -- the slave is idle
      have hn : answer slverr y.s = [] := by simp [answer, hs]
      simp only [Slave.edge, hs]
      by_cases hset : ∃ op x xs rs, y.m.pc = .setup op x xs rs
      · obtain ⟨op, x, xs, rs, hpc⟩ := hset
        obtain ⟨_, hd⟩ := h.m.ctl.setup _ _ _ _ hpc
        have hsel : y.m.bus.psel = true := by rw [← hd]; exact Master.drive_sel _ _
        have hreq := request_of_drive hd
        have htodo : y.m.todo = x :: (xs ++ y.m.queue.flatMap (·.xs)) := by simp [Master.todo, hpc, MPc.rem]
        have hma : m.pc.isAccess = true := e4.2 (.inl ⟨op, x, xs, rs, hpc⟩)
        simp only [hsel, if_true]
        split
        · have hbus : m.bus.paddr = y.m.bus.paddr := by
            rcases e5 hma with h | h <;> rw [h]
          obtain ⟨i1, i3, i4, i5, ⟨rest, i6⟩, i7⟩ := h
          refine ⟨hm, by simp [hbus], by simp [hma], by simp [i5, hs], ⟨rest, by simp only [e1, i6]⟩, ?_⟩
          simp only [answer, e2]
          rw [hn] at i7
          exact i7
        · exact h.perform hm htodo hreq hn hma e1 e2
      · have hsel : y.m.bus.psel = false := by
          refine (h.m.ctl.low ?_).1
          intro op x xs rs
          refine ⟨fun hh => hset ⟨_, _, _, _, hh⟩, fun hh => ?_⟩
          simp [hh, MPc.isAccess] at hacc
        have hma : m.pc.isAccess = false := by
          cases hx : m.pc.isAccess with
          | false => rfl
          | true =>
            rcases e4.1 hx with h' | ⟨h', _⟩
            · exact absurd h' hset
            · simp [hacc] at h'
        simp only [hsel, Bool.false_eq_true, if_false]
        obtain ⟨i1, i3, i4, i5, ⟨rest, i6⟩, i7⟩ := h
        refine ⟨hm, by simp [hma], by simp [hs], i5, ⟨rest, by simp only [e1, i6]⟩, ?_⟩
        simp only [e2]; exact i7
    · -- the slave is in reset
      simp only [Slave.edge, hs]
      obtain ⟨i1, i3, i4, i5, ⟨rest, i6⟩, i7⟩ := h
      refine ⟨hm, fun _ => .inr (.inr (.inr (.inr hs))), fun _ => .inr hs, i5, ⟨rest, by simp only [e1, i6]⟩, ?_⟩
      simp only [e2]; exact i7

/-- The slave holds no transfer. -/
theorem HInv.low {slverr : Bool} {f : Access σ} {y : Sys σ} (h : y.HInv slverr f)
    (hl : y.m.bus.penable = false ∨ y.s.pc = .stopped) : y.s.pc = .idle ∨ y.s.pc = .stopped := by
  rcases hl with hl | hl
  · refine h.nacc ?_
    cases hp : y.m.pc with
    | access op x xs rs =>
      have := (h.m.ctl.access _ _ _ _ hp).1
      rw [hl] at this; cases this
    | _ => rfl
  · exact .inr hl

/-- The master is out of reset (or not) without any other effect. -/
theorem HInv.startM {slverr : Bool} {f : Access σ} {y : Sys σ} (h : y.HInv slverr f) :
    ({ y with m := y.m.reset false } : Sys σ).HInv slverr f := by
  have hm := Master.reset_inv h.m false
  by_cases hst : y.m.pc = .stopped
  · have e1 : y.m.reset false = { y.m with pc := .init } := by simp [Master.reset, hst]
    rw [e1] at hm ⊢
    refine h.frame hm (by simp [MPc.isAccess, hst]) rfl ⟨[], by simp⟩ ?_
    simp [Master.consumed, hst, MPc.got']
  · have e1 : y.m.reset false = y.m := by simp [Master.reset, hst]
    rw [e1]; exact h

theorem HInv.startS {slverr : Bool} {f : Access σ} {y : Sys σ} (h : y.HInv slverr f) :
    ({ y with s := y.s.reset false } : Sys σ).HInv slverr f := by
  by_cases hs : y.s.pc = .stopped
  · have e2 : y.s.reset false = { y.s with pc := .idle, pready := false } := by simp [Slave.reset, hs]
    rw [e2]
    obtain ⟨i1, i3, i4, i5, i6, i7⟩ := h
    refine ⟨i1, by simp, by simp, by simp, i6, ?_⟩
    simp only [answer, hs] at i7 ⊢
    exact i7
  · have e2 : y.s.reset false = y.s := by simp [Slave.reset, hs]
    rw [e2]; exact h

theorem HInv.step {slverr : Bool} {f : Access σ} {y : Sys σ} (h : y.HInv slverr f) (e : Ev) :
    (y.step slverr f e).HInv slverr f := by
  cases e with
  | call op => exact h.frame (Master.step_inv h.m slverr _) rfl rfl ⟨[op], rfl⟩ rfl
  | init op => exact h.frame (Master.step_inv h.m slverr _) rfl rfl ⟨[], by simp [Master.step]⟩ rfl
  | runInit i =>
    refine h.frame (Master.step_inv h.m slverr _) ?_ ?_ ?_ ?_ <;> simp only [Master.step] <;> split
    · rfl
    · rfl
    · rfl
    · rfl
    · exact ⟨[_], rfl⟩
    · exact ⟨[], by simp⟩
    · rfl
    · rfl
  | resume =>
    refine h.frame (Master.step_inv h.m slverr _) ?_ ?_ ?_ ?_ <;> simp only [Master.step, Master.resume] <;> split <;>
      rename_i hpc _ <;> simp_all [MPc.isAccess, Master.consumed, MPc.got']
  | edge mp sp slow => exact h.edge mp sp slow
  | reset v =>
    cases v with
    | true =>
      have hm := Master.reset_inv h.m true
      simp only [Sys.step, Master.step, if_true]
      refine ⟨hm, by simp [Slave.reset], by simp [Slave.reset], by simp [Slave.reset], ⟨[], by simp [Master.reset, Slave.reset]⟩, ?_⟩
      simp [Slave.reset, serveAll, Master.reset, Master.consumed, MPc.got', answer]
    | false =>
      simp only [Sys.step, Master.step, Bool.false_eq_true, if_false]
      exact h.startM.startS

end Sys

namespace Sys

theorem HInv.splitStep {slverr : Bool} {f : Access σ} {y : Sys σ} (h : y.HInv slverr f) (e : SplitEv) (hc : Calm y e) :
    (y.splitStep slverr f e).HInv slverr f := by
  cases e with
  | both e => exact h.step e
  | resetM v =>
    cases v with
    | true =>
      have hs := h.low hc
      have hm := Master.reset_inv h.m true
      simp only [Sys.splitStep, Master.step, if_true]
      refine ⟨hm, by simp [Master.reset, MPc.isAccess], fun _ => hs, h.rdy, ⟨[], by simp [Master.reset]⟩, ?_⟩
      rcases hs with hs | hs <;> simp [serveAll, Master.reset, Master.consumed, MPc.got', answer, hs]
    | false =>
      simp only [Sys.splitStep, Master.step, Bool.false_eq_true, if_false]
      exact h.startM
  | resetS v =>
    cases v with
    | true =>
      have hs := h.low hc
      obtain ⟨i1, i3, i4, i5, i6, i7⟩ := h
      simp only [Sys.splitStep, Slave.reset, if_true]
      refine ⟨i1, by simp, by simp, by simp, i6, ?_⟩
      rcases hs with hs | hs <;> simp only [answer, hs] at i7 ⊢ <;> exact i7
    | false =>
      have := h.startS
      have hl : (y.s.reset false).log = y.s.log := by simp only [Slave.reset]; split <;> (try split) <;> simp_all
      simp only [Sys.splitStep]
      rw [← hl]
      exact this

end Sys

theorem Sys.splitExec_inv (slverr : Bool) (f : Access σ) (st : σ) (evs : List SplitEv) (hc : CalmAll slverr f st evs) :
    (Sys.splitExec slverr f st evs).HInv slverr f := by
  have key : ∀ n, (Sys.splitExec slverr f st (evs.take n)).HInv slverr f := by
    intro n
    induction n with
    | zero => exact .start ..
    | succ n ih =>
      by_cases hn : n < evs.length
      · have := ih.splitStep evs[n] (hc n _ (List.getElem?_eq_getElem hn))
        simp only [Sys.splitExec] at this ⊢
        rw [List.take_succ_eq_append_getElem hn, List.foldl_append]
        exact this
      · rw [List.take_of_length_le (by omega)]
        rwa [List.take_of_length_le (by omega)] at ih
  have := key evs.length
  rwa [List.take_of_length_le (Nat.le_refl _)] at this

end Verif.Apb
