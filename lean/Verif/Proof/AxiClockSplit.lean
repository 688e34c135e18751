import Verif.Proof.ChanSplit
import Verif.Proof.AxiClockFair
import Verif.Proof.AxiSplit
import Verif.Spec.AxiClockSplit

/-!
# Separate resets of the clock-level AXI system refine common resets of the one with FIFO channels, in calm histories
-/

namespace Verif.AxiSys

open Verif.Axi Verif.AxiOps
open Verif.Stream (Net NetEv)

variable {σ : Type} {c : Cfg}

/-! ## The write side -/

/-- Nothing is on its way when the master is idle, or in reset. -/
theorem CWPort.nothing {args : Nat → WArgs} {p : CWPort} {w : WWit} (hc : c.Std) (h : WInv c args p.view w)
    (hr : p.m.idle = true ∨ p.m.running = false) :
    p.todo = [] ∧ content p.aw = [] ∧ p.acc.beat = [] ∧ content p.w = [] ∧ content p.b = [] ∧ p.sl = none ∧ p.died = false := by
  obtain ⟨h1, h2, h3, h4, h5⟩ := h.rest_of hc hr
  simp only [CWPort.view, List.append_eq_nil_iff] at h3
  exact ⟨h1, h2, h3.1, h3.2, h4, h5, h.died⟩

theorem CWInv.resetM {args : Nat → WArgs} {t : Target σ} {p : CWPort} (hi : CWInv p) (st : σ) (v : Bool)
    (he : v = true → p.todo = [] ∧ content p.aw = [] ∧ p.acc.beat = [] ∧ content p.w = [] ∧ content p.b = [] ∧ p.sl = none ∧ p.died = false) :
    CWInv (p.resetM c v) ∧ ((p.resetM c v).view, st) = p.view.step c args t st (.reset v) := by
  cases v with
  | true =>
    obtain ⟨h1, h2, h3, h4, h5, h6, h7⟩ := he rfl
    obtain ⟨a1, a2⟩ := hi.aw.downSrc h2
    obtain ⟨w1, w2⟩ := hi.w.downSrc h4
    obtain ⟨b1, b2⟩ := hi.b.downSnk h5
    exact ⟨⟨a1, w1, b1⟩, by simp [CWPort.resetM, CWPort.view, WPort.step, WPort.reset, h3, h6, h7, a2, w2, b2]⟩
  | false =>
    obtain ⟨a1, a2⟩ := hi.aw.upSrc
    obtain ⟨w1, w2⟩ := hi.w.upSrc
    obtain ⟨b1, b2⟩ := hi.b.upSnk
    exact ⟨⟨a1, w1, b1⟩, by simp [CWPort.resetM, CWPort.view, WPort.step, WPort.reset, a2, w2, b2]⟩

theorem CWInv.resetS {p : CWPort} (hi : CWInv p) (v : Bool)
    (he : v = true → p.todo = [] ∧ content p.aw = [] ∧ p.acc.beat = [] ∧ content p.w = [] ∧ content p.b = [] ∧ p.sl = none ∧ p.died = false) :
    CWInv (p.resetS v) ∧ (p.resetS v).view = p.view := by
  cases v with
  | true =>
    obtain ⟨h1, h2, h3, h4, h5, h6, h7⟩ := he rfl
    obtain ⟨a1, a2⟩ := hi.aw.downSnk h2
    obtain ⟨w1, w2⟩ := hi.w.downSnk h4
    obtain ⟨b1, b2⟩ := hi.b.downSrc h5
    exact ⟨⟨a1, w1, b1⟩, by simp [CWPort.resetS, CWPort.view, show Acc.none.beat = [] from rfl, h2, h3, h4, h5, h6, a2, w2, b2]⟩
  | false =>
    obtain ⟨a1, a2⟩ := hi.aw.upSnk
    obtain ⟨w1, w2⟩ := hi.w.upSnk
    obtain ⟨b1, b2⟩ := hi.b.upSrc
    exact ⟨⟨a1, w1, b1⟩, by simp [CWPort.resetS, CWPort.view, a2, w2, b2]⟩

/-! ## The read side -/

theorem CRPort.nothing {args : Nat → Req} {p : CRPort} {w : RWit} (hc : c.Std) (h : RInv c args p.view w)
    (hr : p.m.idle = true ∨ p.m.running = false) :
    p.todo = [] ∧ content p.ar = [] ∧ content p.r = [] ∧ p.got = none ∧ p.sl = none ∧ p.died = false := by
  obtain ⟨h1, h2, h3, h4⟩ := h.rest_of hc hr
  simp only [CRPort.view, List.append_eq_nil_iff, Option.toList_eq_nil_iff] at h3
  exact ⟨h1, h2, h3.1, h3.2, h4, h.died⟩

theorem CRInv.resetM {args : Nat → Req} {t : Target σ} {p : CRPort} (hi : CRInv p) (st : σ) (v : Bool)
    (he : v = true → p.todo = [] ∧ content p.ar = [] ∧ content p.r = [] ∧ p.got = none ∧ p.sl = none ∧ p.died = false) :
    CRInv (p.resetM c v) ∧ ((p.resetM c v).view, st) = p.view.step c args t st (.reset v) := by
  cases v with
  | true =>
    obtain ⟨h1, h2, h3, h4, h5, h6⟩ := he rfl
    obtain ⟨a1, a2⟩ := hi.ar.downSrc h2
    obtain ⟨b1, b2⟩ := hi.r.downSnk h3
    exact ⟨⟨a1, b1⟩, by simp [CRPort.resetM, CRPort.view, RPort.step, RPort.reset, h4, h5, h6, a2, b2]⟩
  | false =>
    obtain ⟨a1, a2⟩ := hi.ar.upSrc
    obtain ⟨b1, b2⟩ := hi.r.upSnk
    exact ⟨⟨a1, b1⟩, by simp [CRPort.resetM, CRPort.view, RPort.step, RPort.reset, a2, b2]⟩

theorem CRInv.resetS {p : CRPort} (hi : CRInv p) (v : Bool)
    (he : v = true → p.todo = [] ∧ content p.ar = [] ∧ content p.r = [] ∧ p.got = none ∧ p.sl = none ∧ p.died = false) :
    CRInv (p.resetS v) ∧ (p.resetS v).view = p.view := by
  cases v with
  | true =>
    obtain ⟨h1, h2, h3, h4, h5, h6⟩ := he rfl
    obtain ⟨a1, a2⟩ := hi.ar.downSnk h2
    obtain ⟨b1, b2⟩ := hi.r.downSrc h3
    exact ⟨⟨a1, b1⟩, by simp [CRPort.resetS, CRPort.view, h2, h3, h4, h5, a2, b2]⟩
  | false =>
    obtain ⟨a1, a2⟩ := hi.ar.upSnk
    obtain ⟨b1, b2⟩ := hi.r.upSrc
    exact ⟨⟨a1, b1⟩, by simp [CRPort.resetS, CRPort.view, a2, b2]⟩

/-! ## The system -/

/-- One event is one event of the system with FIFO channels, or nothing. -/
theorem CInv.split {wa : Nat → WArgs} {ra : Nat → Req} {t : Target σ} {s : CSplit σ} (hi : CInv s.c) (e : CSplitEv) (hc : c.Std)
    {ww : WWit} {rw' : RWit} (hww : WInv c wa s.c.w.view ww) (hrw : RInv c ra s.c.r.view rw')
    (hw : e = .masterW true ∨ e = .slaveW true → s.c.w.m.idle = true ∨ s.c.w.m.running = false)
    (hr : e = .masterR true ∨ e = .slaveR true → s.c.r.m.idle = true ∨ s.c.r.m.running = false) :
    CInv (s.step c wa ra t e).c ∧ ∃ e', (s.step c wa ra t e).c.view = s.c.view.step c wa ra t e' := by
  cases e with
  | both e => exact hi.step e
  | masterW v =>
    obtain ⟨h1, h2⟩ := hi.w.resetM (c := c) (args := wa) (t := t) s.c.mem v (fun hv => CWPort.nothing hc hww (hw (.inl (by rw [hv]))))
    refine ⟨⟨h1, hi.r⟩, .w (.reset v), ?_⟩
    simp only [CSys.view, Sys.step, CSplit.step]
    rw [← h2]
  | slaveW v =>
    obtain ⟨h1, h2⟩ := hi.w.resetS v (fun hv => CWPort.nothing hc hww (hw (.inr (by rw [hv]))))
    refine ⟨⟨h1, hi.r⟩, s.c.view.idle, ?_⟩
    rw [Sys.step_idle]
    simp only [CSys.view, CSplit.step]
    rw [h2]
  | masterR v =>
    obtain ⟨h1, h2⟩ := hi.r.resetM (c := c) (args := ra) (t := t) s.c.mem v (fun hv => CRPort.nothing hc hrw (hr (.inl (by rw [hv]))))
    refine ⟨⟨hi.w, h1⟩, .r (.reset v), ?_⟩
    simp only [CSys.view, Sys.step, CSplit.step]
    rw [← h2]
  | slaveR v =>
    obtain ⟨h1, h2⟩ := hi.r.resetS v (fun hv => CRPort.nothing hc hrw (hr (.inr (by rw [hv]))))
    refine ⟨⟨hi.w, h1⟩, s.c.view.idle, ?_⟩
    rw [Sys.step_idle]
    simp only [CSys.view, CSplit.step]
    rw [h2]

/-! ## Which ends run -/

structure CWHalf (up : Bool) (p : CWPort) : Prop where
  aw : ChanHalf p.m.running up p.aw
  w : ChanHalf p.m.running up p.w
  b : ChanHalf up p.m.running p.b

structure CRHalf (up : Bool) (p : CRPort) : Prop where
  ar : ChanHalf p.m.running up p.ar
  r : ChanHalf up p.m.running p.r

theorem CWHalf.of {up : Bool} {p q : CWPort} (h : q.m.running = p.m.running) (h1 : ChanHalf p.m.running up q.aw)
    (h2 : ChanHalf p.m.running up q.w) (h3 : ChanHalf up p.m.running q.b) : CWHalf up q := ⟨h ▸ h1, h ▸ h2, h ▸ h3⟩

theorem CRHalf.of {up : Bool} {p q : CRPort} (h : q.m.running = p.m.running) (h1 : ChanHalf p.m.running up q.ar)
    (h2 : ChanHalf up p.m.running q.r) : CRHalf up q := ⟨h ▸ h1, h ▸ h2⟩

section

variable {t : Target σ}

theorem CWHalf.step {args : Nat → WArgs} {up : Bool} {p : CWPort} (h : CWHalf up p) (st : σ) (e : WEv) :
    CWHalf (match e with | .reset v => !v | _ => up) (p.step c args t st e).1 := by
  have hm : ∀ (e : AxiOps.Ev BBeat), e ≠ .reset true → e ≠ .reset false → (p.m.step c.idCount e).running = p.m.running :=
    fun e h1 h2 => Master.step_running _ _ _ h1 h2
  cases e
  case write =>
    refine .of ?_ h.aw h.w h.b
    simp only [CWPort.step, CWPort.update, WPort.write]
    split
    · exact hm _ (by simp) (by simp)
    · rfl
  case init =>
    refine .of ?_ h.aw h.w h.b
    simp only [CWPort.step, CWPort.update, WPort.init]
    split
    · exact hm _ (by simp) (by simp)
    · rfl
  case take =>
    refine .of ?_ h.aw h.w h.b
    simp only [CWPort.step, CWPort.update, WPort.take]
    repeat' split
    all_goals first | rfl | exact hm _ (by simp) (by simp)
  case start =>
    simp only [CWPort.step, CWPort.start]
    split
    · exact h
    · refine .of ?_ h.aw h.w h.b
      simp only [CWPort.update, WPort.start]
      split
      · exact hm _ (by simp) (by simp)
      · rfl
  case reset v =>
    cases v
    · exact ⟨h.aw.started, h.w.started, h.b.started⟩
    · exact ⟨.reset _, .reset _, .reset _⟩
  case sendAW =>
    simp only [CWPort.step]
    unfold CWPort.sendAW
    split
    · split
      · exact .of (hm _ (by simp) (by simp)) (h.aw.send _) h.w h.b
      · exact ⟨h.aw, h.w, h.b⟩
    · exact h
  case sendW =>
    simp only [CWPort.step]
    unfold CWPort.sendW
    split
    · exact ⟨h.aw, h.w.send _, h.b⟩
    · exact h
  case slaveAW =>
    simp only [CWPort.step]
    unfold CWPort.slaveAW
    simp only
    repeat' split
    all_goals first | exact h | exact ⟨h.aw, h.w, h.b⟩ | exact ⟨h.aw.recv, h.w, h.b⟩
  case slaveW =>
    simp only [CWPort.step]
    unfold CWPort.slaveW
    simp only
    repeat' split
    all_goals first | exact h | exact ⟨h.aw, h.w, h.b⟩ | exact ⟨h.aw, h.w.recv, h.b⟩
  case slaveB =>
    simp only [CWPort.step]
    unfold CWPort.slaveB
    repeat' split
    all_goals first | exact h | exact ⟨h.aw, h.w, h.b.send _⟩
  case deliver =>
    simp only [CWPort.step]
    unfold CWPort.deliver
    split
    · exact .of (hm _ (by simp) (by simp)) h.aw h.w h.b.recv
    · exact h
  all_goals exact .of (hm _ (by simp) (by simp)) h.aw h.w h.b

theorem CRHalf.step {args : Nat → Req} {up : Bool} {p : CRPort} (h : CRHalf up p) (st : σ) (e : REv) :
    CRHalf (match e with | .reset v => !v | _ => up) (p.step c args t st e).1 := by
  have hm : ∀ (e : AxiOps.Ev RBeat), e ≠ .reset true → e ≠ .reset false → (p.m.step c.idCount e).running = p.m.running :=
    fun e h1 h2 => Master.step_running _ _ _ h1 h2
  cases e
  case read =>
    refine .of ?_ h.ar h.r
    simp only [CRPort.step, CRPort.update, RPort.read]
    split
    · exact hm _ (by simp) (by simp)
    · rfl
  case init =>
    refine .of ?_ h.ar h.r
    simp only [CRPort.step, CRPort.update, RPort.init]
    split
    · exact hm _ (by simp) (by simp)
    · rfl
  case take =>
    refine .of ?_ h.ar h.r
    simp only [CRPort.step, CRPort.update, RPort.take]
    repeat' split
    all_goals first | rfl | exact hm _ (by simp) (by simp)
  case start =>
    simp only [CRPort.step, CRPort.start]
    split
    · exact h
    · refine .of ?_ h.ar h.r
      simp only [CRPort.update, RPort.start]
      split
      · exact hm _ (by simp) (by simp)
      · rfl
  case reset v =>
    cases v
    · exact ⟨h.ar.started, h.r.started⟩
    · exact ⟨.reset _, .reset _⟩
  case sendAR =>
    simp only [CRPort.step]
    unfold CRPort.sendAR
    split
    · split
      · exact .of (hm _ (by simp) (by simp)) (h.ar.send _) h.r
      · exact ⟨h.ar, h.r⟩
    · exact h
  case slaveAR =>
    simp only [CRPort.step]
    unfold CRPort.slaveAR
    simp only
    repeat' split
    all_goals first | exact h | exact ⟨h.ar, h.r⟩ | exact ⟨h.ar.recv, h.r⟩
  case slaveR =>
    simp only [CRPort.step]
    unfold CRPort.slaveR
    split
    · exact ⟨h.ar, h.r.send _⟩
    · exact ⟨h.ar, h.r⟩
    · exact h
  case deliver =>
    simp only [CRPort.step]
    unfold CRPort.deliver
    split
    · exact .of (hm _ (by simp) (by simp)) h.ar h.r.recv
    · exact h
  all_goals exact .of (hm _ (by simp) (by simp)) h.ar h.r


structure CHalf (s : CSplit σ) : Prop where
  w : CWHalf s.upW s.c.w
  r : CRHalf s.upR s.c.r

theorem CHalf.init (st : σ) : CHalf ({ c := { mem := st } } : CSplit σ) := ⟨⟨.init, .init, .init⟩, .init, .init⟩

theorem CHalf.step {wa : Nat → WArgs} {ra : Nat → Req} {s : CSplit σ} (hi : CHalf s) (e : CSplitEv) : CHalf (s.step c wa ra t e) := by
  cases e with
  | both e =>
    cases e with
    | w e =>
      refine ⟨?_, hi.r⟩
      have := hi.w.step (c := c) (args := wa) (t := t) s.c.mem e
      cases e <;> exact this
    | r e =>
      refine ⟨hi.w, ?_⟩
      have := hi.r.step (c := c) (args := ra) (t := t) s.c.mem e
      cases e <;> exact this
    | chan k e =>
      cases k
      · exact ⟨⟨hi.w.aw.inner e, hi.w.w, hi.w.b⟩, hi.r⟩
      · exact ⟨⟨hi.w.aw, hi.w.w.inner e, hi.w.b⟩, hi.r⟩
      · exact ⟨⟨hi.w.aw, hi.w.w, hi.w.b.inner e⟩, hi.r⟩
      · exact ⟨hi.w, ⟨hi.r.ar.inner e, hi.r.r⟩⟩
      · exact ⟨hi.w, ⟨hi.r.ar, hi.r.r.inner e⟩⟩
    | tick =>
      simp only [CSplit.step, CSys.step]
      split
      · exact ⟨⟨hi.w.aw.tick, hi.w.w.tick, hi.w.b.tick⟩, ⟨hi.r.ar.tick, hi.r.r.tick⟩⟩
      · exact hi
    | commit =>
      simp only [CSplit.step, CSys.step]
      split
      · exact ⟨⟨hi.w.aw.commit, hi.w.w.commit, hi.w.b.commit⟩, ⟨hi.r.ar.commit, hi.r.r.commit⟩⟩
      · exact hi
  | masterW v => cases v <;> first
      | exact ⟨⟨hi.w.aw.upSrc, hi.w.w.upSrc, hi.w.b.upSnk⟩, hi.r⟩ | exact ⟨⟨hi.w.aw.downSrc, hi.w.w.downSrc, hi.w.b.downSnk⟩, hi.r⟩
  | slaveW v => cases v <;> first
      | exact ⟨⟨hi.w.aw.upSnk, hi.w.w.upSnk, hi.w.b.upSrc⟩, hi.r⟩ | exact ⟨⟨hi.w.aw.downSnk, hi.w.w.downSnk, hi.w.b.downSrc⟩, hi.r⟩
  | masterR v => cases v <;> first
      | exact ⟨hi.w, ⟨hi.r.ar.upSrc, hi.r.r.upSnk⟩⟩ | exact ⟨hi.w, ⟨hi.r.ar.downSrc, hi.r.r.downSnk⟩⟩
  | slaveR v => cases v <;> first
      | exact ⟨hi.w, ⟨hi.r.ar.upSnk, hi.r.r.upSrc⟩⟩ | exact ⟨hi.w, ⟨hi.r.ar.downSnk, hi.r.r.downSrc⟩⟩

/-- When both components are out of reset, everything runs as in the system whose ends are reset together. -/
theorem CHalf.fine {s : CSplit σ} (hi : CHalf s) (hu : s.Up) : CFine s.c :=
  ⟨⟨hi.w.aw.fine fun _ => hu.slaveW, hi.w.w.fine fun _ => hu.slaveW, hi.w.b.fine' fun _ => hu.slaveW⟩,
    hi.r.ar.fine fun _ => hu.slaveR, hi.r.r.fine' fun _ => hu.slaveR⟩

end

end Verif.AxiSys
