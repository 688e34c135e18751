import Verif.Proof.ChanSplit
import Verif.Proof.LiteClockRest
import Verif.Proof.LiteSplit
import Verif.Spec.LiteClockSplit

/-!
# Separate resets of the clock-level AXI-lite system refine common resets of the one with FIFO channels, in calm histories
-/

namespace Verif.LiteOps

open Verif.AxiSys (content ChanInv ChanHalf ChanFine downSrc downSnk upSrc upSnk)
open Verif.Stream (Net NetEv)

variable {χ α β ρ χ' ρ' σ : Type}

/-! ## When nothing is on its way -/

/-- Nothing is on its way when the master is idle, or in reset. -/
structure Settled (p : Port χ ρ) : Prop where
  bal : Balanced p
  off : p.m.running = false → p.m.cur = none ∧ p.req = [] ∧ p.rsp = []

theorem Settled.init : Settled ({} : Port χ ρ) := ⟨⟨Lite.inv_init, rfl⟩, fun _ => ⟨rfl, rfl, rfl⟩⟩

theorem Settled.empty {p : Port χ ρ} (h : Settled p) (hi : p.m.idle = true ∨ p.m.running = false) :
    p.m.cur = none ∧ p.req = [] ∧ p.rsp = [] := hi.elim h.bal.idle h.off

theorem own_cur {m : Lite χ ρ} {e : Ev χ ρ} (ho : own e = true) (hr : m.running = false) (hc : m.cur = none) : (m.step e).cur = none := by
  cases e with
  | take => simp only [Lite.step, Lite.take, hr]; exact hc
  | runInit i => simp only [Lite.step]; split <;> exact hc
  | respTake => simp only [Lite.step, Lite.respTake]; split <;> exact hc
  | respGet => simp only [Lite.step, Lite.respGet]; split <;> exact hc
  | respDone => simp only [Lite.step, Lite.respDone]; split <;> exact hc
  | write op => exact hc
  | init op => exact hc
  | _ => simp [own] at ho

theorem Settled.step {f : χ → σ → ρ × σ} {p : Port χ ρ} (h : Settled p) (mem : σ) (e : PortEv χ ρ) : Settled (p.step f mem e).1 := by
  have hb := h.bal.2
  cases e with
  | master e =>
    simp only [Port.step]
    split
    · rename_i ho
      refine ⟨h.bal.own e ho, fun hr => ?_⟩
      rw [show ({ p with m := p.m.step e } : Port χ ρ).m.running = (p.m.step e).running from rfl,
        Lite.step_running _ _ (own_reset ho)] at hr
      obtain ⟨h1, h2, h3⟩ := h.off hr
      exact ⟨own_cur ho hr h1, h2, h3⟩
    · exact h
  | send =>
    simp only [Port.step]
    split
    · rename_i op x rem hr hc
      refine ⟨⟨Lite.step_inv h.bal.1 .send, ?_⟩, fun h0 => ?_⟩
      · simp only [Lite.step, Lite.send, hr, hc, List.length_append, List.length_singleton] at hb ⊢
        omega
      · simp only [Lite.step, Lite.send, hr, hc] at h0
        cases h0
    · exact h
  | serve =>
    simp only [Port.step]
    split
    · rename_i x rest hx
      refine ⟨⟨h.bal.1, ?_⟩, fun h0 => ?_⟩
      · simp only [hx, List.length_append, List.length_cons, List.length_nil] at hb ⊢
        omega
      · rw [(h.off h0).2.1] at hx; cases hx
    · exact h
  | deliver =>
    simp only [Port.step]
    split
    · rename_i r rest hx
      have hr : p.m.running = true := by
        cases hr : p.m.running with
        | true => rfl
        | false => rw [(h.off hr).2.2] at hx; cases hx
      refine ⟨⟨Lite.step_inv h.bal.1 (.resp r), ?_⟩, fun h0 => ?_⟩
      · simp only [Lite.step, Lite.resp, hr, hx, if_true, List.length_append, List.length_cons, List.length_nil] at hb ⊢
        omega
      · simp only [Lite.step, Lite.resp, hr, if_true] at h0
        cases h0
    · exact h
  | reset v =>
    cases v
    · refine ⟨⟨Lite.step_inv h.bal.1 (.reset false), hb⟩, fun h0 => ?_⟩
      cases h0
    · exact ⟨⟨Lite.step_inv h.bal.1 (.reset true), rfl⟩, fun _ => ⟨rfl, rfl, rfl⟩⟩

/-! ## The write side -/

variable {h : Halves χ α β} (hl : ∀ x, h.join (h.aw x) (h.w x) = x)

theorem ClkW.view_ext {p q : ClkW χ α β ρ} (h1 : q.m = p.m) (h2 : (q.view h).req = (p.view h).req) (h3 : (q.view h).rsp = (p.view h).rsp) :
    q.view h = p.view h := Port.ext' h1 h2 h3

include hl in
theorem ClkWInv.nothing {p : ClkW χ α β ρ} (hi : ClkWInv h p) (he : p.m.cur = none ∧ (p.view h).req = [] ∧ (p.view h).rsp = []) :
    p.awSent = false ∧ p.sl = none ∧ p.held = none ∧ p.got = none ∧ content p.aw = [] ∧ content p.w = [] ∧ content p.b = [] := by
  obtain ⟨hc, hq, hr⟩ := he
  obtain ⟨req, hp⟩ := hi.pairs
  have h0 : req = [] := by rw [← hp.req hl, hq]
  subst h0
  obtain ⟨h1, h2⟩ := hp
  have h3 : p.awSent = false ∧ p.sl.toList ++ content p.aw = [] := by
    rcases h2 with ⟨a, b⟩ | ⟨_, op, x, rem, hc', _⟩
    · exact ⟨a, b⟩
    · rw [hc] at hc'; cases hc'
  simp only [List.map_nil, List.append_eq_nil_iff, Option.toList_eq_nil_iff] at h1 h3
  simp only [ClkW.view, List.append_eq_nil_iff, Option.toList_eq_nil_iff] at hr
  exact ⟨h3.1, h3.2.1, h1.1, hr.2, h3.2.2, h1.2, hr.1⟩

include hl in
/-- Resets of one end of the write side. -/
theorem ClkWInv.resetM {f : χ → σ → ρ × σ} {p : ClkW χ α β ρ} (hi : ClkWInv h p) (mem : σ) (v : Bool)
    (he : v = true → p.m.cur = none ∧ (p.view h).req = [] ∧ (p.view h).rsp = []) :
    ClkWInv h (p.resetM v) ∧ ((p.resetM v).view h, mem) = (p.view h).step f mem (.reset v) := by
  cases v with
  | true =>
    obtain ⟨h1, h2, h3, h4, h5, h6, h7⟩ := hi.nothing hl (he rfl)
    obtain ⟨a1, a2⟩ := hi.aw.downSrc h5
    obtain ⟨w1, w2⟩ := hi.w.downSrc h6
    obtain ⟨b1, b2⟩ := hi.b.downSnk h7
    refine ⟨⟨a1, w1, b1, [], ?_⟩, ?_⟩
    · refine ⟨?_, .inl ⟨rfl, ?_⟩⟩ <;> simp [ClkW.resetM, h2, h3, a2, w2]
    · simp [ClkW.resetM, ClkW.view, Port.step, h2, h3, h4, a2, w2, b2]
  | false =>
    obtain ⟨a1, a2⟩ := hi.aw.upSrc
    obtain ⟨w1, w2⟩ := hi.w.upSrc
    obtain ⟨b1, b2⟩ := hi.b.upSnk
    obtain ⟨req, hp⟩ := hi.pairs
    refine ⟨⟨a1, w1, b1, req, ?_⟩, ?_⟩
    · unfold ClkW.Pairs at hp ⊢
      simp only [ClkW.resetM, Bool.false_eq_true, if_false, a2, w2]
      exact hp
    · simp [ClkW.resetM, ClkW.view, Port.step, a2, w2, b2]

include hl in
theorem ClkWInv.resetS {p : ClkW χ α β ρ} (hi : ClkWInv h p) (v : Bool)
    (he : v = true → p.m.cur = none ∧ (p.view h).req = [] ∧ (p.view h).rsp = []) :
    ClkWInv h (p.resetS v) ∧ (p.resetS v).view h = p.view h := by
  cases v with
  | true =>
    obtain ⟨h1, h2, h3, h4, h5, h6, h7⟩ := hi.nothing hl (he rfl)
    obtain ⟨a1, a2⟩ := hi.aw.downSnk h5
    obtain ⟨w1, w2⟩ := hi.w.downSnk h6
    obtain ⟨b1, b2⟩ := hi.b.downSrc h7
    refine ⟨⟨a1, w1, b1, [], ?_⟩, ?_⟩
    · refine ⟨?_, .inl ⟨h1, ?_⟩⟩ <;> simp [ClkW.resetS, a2, w2]
    · simp [ClkW.resetS, ClkW.view, h2, h3, h4, h5, h6, h7, a2, w2, b2]
  | false =>
    obtain ⟨a1, a2⟩ := hi.aw.upSnk
    obtain ⟨w1, w2⟩ := hi.w.upSnk
    obtain ⟨b1, b2⟩ := hi.b.upSrc
    obtain ⟨req, hp⟩ := hi.pairs
    refine ⟨⟨a1, w1, b1, req, ?_⟩, ?_⟩
    · unfold ClkW.Pairs at hp ⊢
      simp only [ClkW.resetS, Bool.false_eq_true, if_false, a2, w2]
      exact hp
    · simp [ClkW.resetS, ClkW.view, a2, w2, b2]

/-! ## The read side -/

theorem ClkRInv.nothing {p : ClkR χ ρ} (he : p.view.req = [] ∧ p.view.rsp = []) :
    p.held = none ∧ p.got = none ∧ content p.ar = [] ∧ content p.r = [] := by
  obtain ⟨hq, hr⟩ := he
  simp only [ClkR.view, List.append_eq_nil_iff, Option.toList_eq_nil_iff] at hq hr
  exact ⟨hq.1, hr.2, hq.2, hr.1⟩

theorem ClkRInv.resetM {g : χ → σ → ρ × σ} {p : ClkR χ ρ} (hi : ClkRInv p) (mem : σ) (v : Bool)
    (he : v = true → p.view.req = [] ∧ p.view.rsp = []) :
    ClkRInv (p.resetM v) ∧ ((p.resetM v).view, mem) = p.view.step g mem (.reset v) := by
  cases v with
  | true =>
    obtain ⟨h2, h3, h5, h6⟩ := ClkRInv.nothing (he rfl)
    obtain ⟨a1, a2⟩ := hi.ar.downSrc h5
    obtain ⟨b1, b2⟩ := hi.r.downSnk h6
    exact ⟨⟨a1, b1⟩, by simp [ClkR.resetM, ClkR.view, Port.step, h2, h3, a2, b2]⟩
  | false =>
    obtain ⟨a1, a2⟩ := hi.ar.upSrc
    obtain ⟨b1, b2⟩ := hi.r.upSnk
    exact ⟨⟨a1, b1⟩, by simp [ClkR.resetM, ClkR.view, Port.step, a2, b2]⟩

theorem ClkRInv.resetS {p : ClkR χ ρ} (hi : ClkRInv p) (v : Bool) (he : v = true → p.view.req = [] ∧ p.view.rsp = []) :
    ClkRInv (p.resetS v) ∧ (p.resetS v).view = p.view := by
  cases v with
  | true =>
    obtain ⟨h2, h3, h5, h6⟩ := ClkRInv.nothing (he rfl)
    obtain ⟨a1, a2⟩ := hi.ar.downSnk h5
    obtain ⟨b1, b2⟩ := hi.r.downSrc h6
    exact ⟨⟨a1, b1⟩, by simp [ClkR.resetS, ClkR.view, h2, h3, h5, h6, a2, b2]⟩
  | false =>
    obtain ⟨a1, a2⟩ := hi.ar.upSnk
    obtain ⟨b1, b2⟩ := hi.r.upSrc
    exact ⟨⟨a1, b1⟩, by simp [ClkR.resetS, ClkR.view, a2, b2]⟩

/-! ## The system -/

structure ClkSplitInv (h : Halves χ α β) (s : ClkSplit χ α β ρ χ' ρ' σ) : Prop where
  inv : ClkInv h s.c
  w : Settled (s.c.w.view h)
  r : Settled s.c.r.view

theorem ClkSplitInv.init (m0 : σ) : ClkSplitInv h ({ c := { mem := m0 } } : ClkSplit χ α β ρ χ' ρ' σ) :=
  ⟨.init h m0, Settled.init, Settled.init⟩

theorem Settled.duo {f : χ → σ → ρ × σ} {g : χ' → σ → ρ' × σ} {d : Duo χ ρ χ' ρ' σ} (h1 : Settled d.w) (h2 : Settled d.r)
    (e : DuoEv χ ρ χ' ρ') : Settled (d.step f g e).w ∧ Settled (d.step f g e).r := by
  cases e with
  | w e => exact ⟨h1.step _ e, h2⟩
  | r e => exact ⟨h1, h2.step _ e⟩

include hl in
/-- One event is one event of the system with FIFO channels, or nothing. -/
theorem ClkSplitInv.step {f : χ → σ → ρ × σ} {g : χ' → σ → ρ' × σ} {s : ClkSplit χ α β ρ χ' ρ' σ} (hi : ClkSplitInv h s)
    (e : ClkSplitEv χ ρ χ' ρ') (hw : e = .masterW true ∨ e = .slaveW true → s.c.w.m.idle = true ∨ s.c.w.m.running = false)
    (hr : e = .masterR true ∨ e = .slaveR true → s.c.r.m.idle = true ∨ s.c.r.m.running = false) :
    ClkSplitInv h (s.step h f g e) ∧ ∃ e' : DuoEv χ ρ χ' ρ', (s.step h f g e).c.view h = (s.c.view h).step f g e' := by
  have done : ∀ (t : ClkSplit χ α β ρ χ' ρ' σ) (e' : DuoEv χ ρ χ' ρ'), ClkInv h t.c → t.c.view h = (s.c.view h).step f g e' →
      ClkSplitInv h t ∧ ∃ e' : DuoEv χ ρ χ' ρ', t.c.view h = (s.c.view h).step f g e' := by
    intro t e' h1 h2
    obtain ⟨h3, h4⟩ := Settled.duo (f := f) (g := g) (d := s.c.view h) hi.w hi.r e'
    rw [← h2] at h3 h4
    exact ⟨⟨h1, h3, h4⟩, e', h2⟩
  cases e with
  | both e =>
    obtain ⟨h1, e', _, h2⟩ := hi.inv.step hl (f := f) (g := g) e
    exact done _ e' h1 h2
  | masterW v =>
    obtain ⟨h1, h2⟩ := hi.inv.w.resetM hl (f := f) s.c.mem v (fun hv => hi.w.empty (hw (.inl (by rw [hv]))))
    refine done _ (.w (.reset v)) ⟨h1, hi.inv.r⟩ ?_
    simp only [Clk.view, Duo.step, ClkSplit.step]
    rw [← h2]
  | slaveW v =>
    obtain ⟨h1, h2⟩ := hi.inv.w.resetS hl v (fun hv => hi.w.empty (hw (.inr (by rw [hv]))))
    refine done _ (.w (s.c.view h).w.idleEv) ⟨h1, hi.inv.r⟩ ?_
    rw [Duo.step_idle]
    simp only [Clk.view, ClkSplit.step]
    rw [h2]
  | masterR v =>
    obtain ⟨h1, h2⟩ := hi.inv.r.resetM (g := g) s.c.mem v (fun hv => (hi.r.empty (hr (.inl (by rw [hv])))).2)
    refine done _ (.r (.reset v)) ⟨hi.inv.w, h1⟩ ?_
    simp only [Clk.view, Duo.step, ClkSplit.step]
    rw [← h2]
  | slaveR v =>
    obtain ⟨h1, h2⟩ := hi.inv.r.resetS v (fun hv => (hi.r.empty (hr (.inr (by rw [hv])))).2)
    refine done _ (.w (s.c.view h).w.idleEv) ⟨hi.inv.w, h1⟩ ?_
    rw [Duo.step_idle]
    simp only [Clk.view, ClkSplit.step]
    rw [h2]

/-! ## Which ends run -/

structure ClkWHalf (up : Bool) (p : ClkW χ α β ρ) : Prop where
  aw : ChanHalf p.m.running up p.aw
  w : ChanHalf p.m.running up p.w
  b : ChanHalf up p.m.running p.b

structure ClkRHalf (up : Bool) (p : ClkR χ ρ) : Prop where
  ar : ChanHalf p.m.running up p.ar
  r : ChanHalf up p.m.running p.r

theorem ClkWHalf.of {up : Bool} {p q : ClkW χ α β ρ} (h : q.m.running = p.m.running) (h1 : ChanHalf p.m.running up q.aw)
    (h2 : ChanHalf p.m.running up q.w) (h3 : ChanHalf up p.m.running q.b) : ClkWHalf up q := ⟨h ▸ h1, h ▸ h2, h ▸ h3⟩

theorem ClkRHalf.of {up : Bool} {p q : ClkR χ ρ} (h : q.m.running = p.m.running) (h1 : ChanHalf p.m.running up q.ar)
    (h2 : ChanHalf up p.m.running q.r) : ClkRHalf up q := ⟨h ▸ h1, h ▸ h2⟩

theorem ClkWHalf.step {f : χ → σ → ρ × σ} {up : Bool} {p : ClkW χ α β ρ} (hi : ClkWHalf up p) (mem : σ) (e : ClkWEv χ ρ) :
    ClkWHalf (match e with | .reset v => !v | _ => up) (p.step h f mem e).1 := by
  cases e with
  | master e =>
    simp only [ClkW.step]
    rcases ClkW.master_eq p e with h0 | ⟨ho, h0⟩
    · rw [h0]; exact hi
    · rw [h0]; exact .of (Lite.step_running _ _ (own_reset ho)) hi.aw hi.w hi.b
  | sendAW =>
    simp only [ClkW.step]
    unfold ClkW.sendAW
    split
    · exact ⟨hi.aw.send _, hi.w, hi.b⟩
    · exact hi
  | sendW =>
    simp only [ClkW.step]
    unfold ClkW.sendW
    split
    · exact .of (Lite.step_running _ _ (by simp)) hi.aw (hi.w.send _) hi.b
    · exact hi
  | slaveAW =>
    simp only [ClkW.step]
    unfold ClkW.slaveAW
    split
    · exact ⟨hi.aw.recv, hi.w, hi.b⟩
    · exact hi
  | slaveW =>
    simp only [ClkW.step]
    unfold ClkW.slaveW
    simp only
    repeat' split
    all_goals first | exact hi | exact ⟨hi.aw, hi.w, hi.b.send _⟩ | exact ⟨hi.aw, hi.w.recv, hi.b⟩ | exact ⟨hi.aw, hi.w, hi.b⟩
  | deliver =>
    simp only [ClkW.step]
    unfold ClkW.deliver
    split
    · exact .of (Lite.step_running _ _ (by simp)) hi.aw hi.w hi.b.recv
    · exact hi
  | reset v =>
    cases v
    · exact ⟨hi.aw.started, hi.w.started, hi.b.started⟩
    · exact ⟨.reset _, .reset _, .reset _⟩

theorem ClkRHalf.step {g : χ → σ → ρ × σ} {up : Bool} {p : ClkR χ ρ} (hi : ClkRHalf up p) (mem : σ) (e : ClkREv χ ρ) :
    ClkRHalf (match e with | .reset v => !v | _ => up) (p.step g mem e).1 := by
  cases e with
  | master e =>
    simp only [ClkR.step]
    rcases ClkR.master_eq p e with h0 | ⟨ho, h0⟩
    · rw [h0]; exact hi
    · rw [h0]; exact .of (Lite.step_running _ _ (own_reset ho)) hi.ar hi.r
  | sendAR =>
    simp only [ClkR.step]
    unfold ClkR.sendAR
    split
    · exact .of (Lite.step_running _ _ (by simp)) (hi.ar.send _) hi.r
    · exact hi
  | slaveR =>
    simp only [ClkR.step]
    unfold ClkR.slaveR
    simp only
    repeat' split
    all_goals first | exact hi | exact ⟨hi.ar, hi.r.send _⟩ | exact ⟨hi.ar.recv, hi.r⟩ | exact ⟨hi.ar, hi.r⟩
  | deliver =>
    simp only [ClkR.step]
    unfold ClkR.deliver
    split
    · exact .of (Lite.step_running _ _ (by simp)) hi.ar hi.r.recv
    · exact hi
  | reset v =>
    cases v
    · exact ⟨hi.ar.started, hi.r.started⟩
    · exact ⟨.reset _, .reset _⟩

structure ClkHalf (s : ClkSplit χ α β ρ χ' ρ' σ) : Prop where
  w : ClkWHalf s.upW s.c.w
  r : ClkRHalf s.upR s.c.r

theorem ClkHalf.init (m0 : σ) : ClkHalf ({ c := { mem := m0 } } : ClkSplit χ α β ρ χ' ρ' σ) :=
  ⟨⟨.init, .init, .init⟩, .init, .init⟩

theorem ClkHalf.step {f : χ → σ → ρ × σ} {g : χ' → σ → ρ' × σ} {s : ClkSplit χ α β ρ χ' ρ' σ} (hi : ClkHalf s)
    (e : ClkSplitEv χ ρ χ' ρ') : ClkHalf (s.step h f g e) := by
  cases e with
  | both e =>
    cases e with
    | w e =>
      refine ⟨?_, hi.r⟩
      have := hi.w.step (h := h) (f := f) s.c.mem e
      cases e <;> exact this
    | r e =>
      refine ⟨hi.w, ?_⟩
      have := hi.r.step (g := g) s.c.mem e
      cases e <;> exact this
    | chan k e =>
      cases k
      · exact ⟨⟨hi.w.aw.inner e, hi.w.w, hi.w.b⟩, hi.r⟩
      · exact ⟨⟨hi.w.aw, hi.w.w.inner e, hi.w.b⟩, hi.r⟩
      · exact ⟨⟨hi.w.aw, hi.w.w, hi.w.b.inner e⟩, hi.r⟩
      · exact ⟨hi.w, ⟨hi.r.ar.inner e, hi.r.r⟩⟩
      · exact ⟨hi.w, ⟨hi.r.ar, hi.r.r.inner e⟩⟩
    | tick =>
      simp only [ClkSplit.step, Clk.step]
      split
      · exact ⟨⟨hi.w.aw.tick, hi.w.w.tick, hi.w.b.tick⟩, ⟨hi.r.ar.tick, hi.r.r.tick⟩⟩
      · exact hi
    | commit =>
      simp only [ClkSplit.step, Clk.step]
      split
      · exact ⟨⟨hi.w.aw.commit, hi.w.w.commit, hi.w.b.commit⟩, ⟨hi.r.ar.commit, hi.r.r.commit⟩⟩
      · exact hi
  | masterW v => cases v <;> first
      | exact ⟨⟨hi.w.aw.upSrc, hi.w.w.upSrc, hi.w.b.upSnk⟩, hi.r⟩ | exact ⟨⟨hi.w.aw.downSrc, hi.w.w.downSrc, hi.w.b.downSnk⟩, hi.r⟩
  | slaveW v => cases v <;> first
      | exact ⟨⟨hi.w.aw.upSnk, hi.w.w.upSnk, hi.w.b.upSrc⟩, hi.r⟩ | exact ⟨⟨hi.w.aw.downSnk, hi.w.w.downSnk, hi.w.b.downSrc⟩, hi.r⟩
  | masterR v => cases v <;> first
      | exact ⟨hi.w, ⟨hi.r.ar.upSrc, hi.r.r.upSnk⟩⟩ | exact ⟨hi.w, ⟨hi.r.ar.downSrc, hi.r.r.downSnk⟩⟩
  | slaveR v => cases v <;> first
      | exact ⟨hi.w, ⟨hi.r.ar.upSnk, hi.r.r.upSrc⟩⟩ | exact ⟨hi.w, ⟨hi.r.ar.downSnk, hi.r.r.downSrc⟩⟩

/-- When both components are out of reset, everything runs as in the system whose ends are reset together. -/
theorem ClkHalf.fine {s : ClkSplit χ α β ρ χ' ρ' σ} (hi : ClkHalf s) (hu : s.Up) : ClkFine s.c :=
  ⟨⟨hi.w.aw.fine fun _ => hu.slaveW, hi.w.w.fine fun _ => hu.slaveW, hi.w.b.fine' fun _ => hu.slaveW⟩,
    hi.r.ar.fine fun _ => hu.slaveR, hi.r.r.fine' fun _ => hu.slaveR⟩

end Verif.LiteOps
