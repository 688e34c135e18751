import Verif.Proof.AxiClock
import Verif.Proof.LiteSystem
import Verif.Spec.LiteClock

/-!
# The clock-level AXI-lite system refines the one with FIFO channels
-/

namespace Verif.LiteOps

open Verif.AxiSys (chanCfg Inner Chan blocked avail content resetNet startNet canTick canCommit ChanInv)
open Verif.Stream (Net NetEv)

variable {χ α β ρ χ' ρ' σ : Type}

/-- Nothing happens. -/
def Port.idleEv (p : Port χ ρ) : PortEv χ ρ := .master (.runInit p.m.wrappers.length)

theorem Port.step_idle (f : χ → σ → ρ × σ) (p : Port χ ρ) (mem : σ) : p.step f mem p.idleEv = (p, mem) := by
  simp [Port.idleEv, Port.step, own, Lite.step]

/-- The AW transactions on their way or at the slave and the W transactions on their way are those of the transfers `req`, except that
the AW transaction of the current transfer may have been sent already. -/
def ClkW.Pairs (h : Halves χ α β) (p : ClkW χ α β ρ) (req : List χ) : Prop :=
  p.held.toList ++ content p.w = req.map h.w ∧
    ((p.awSent = false ∧ p.sl.toList ++ content p.aw = req.map h.aw) ∨
      (p.awSent = true ∧ ∃ op x rem, p.m.cur = some (op, x :: rem) ∧ p.sl.toList ++ content p.aw = req.map h.aw ++ [h.aw x]))

structure ClkWInv (h : Halves χ α β) (p : ClkW χ α β ρ) : Prop where
  aw : ChanInv p.aw
  w : ChanInv p.w
  b : ChanInv p.b
  pairs : ∃ req, p.Pairs h req

theorem zip_join {h : Halves χ α β} (hl : ∀ x, h.join (h.aw x) (h.w x) = x) (req : List χ) (l : List α) :
    List.zipWith h.join (req.map h.aw ++ l) (req.map h.w) = req := by
  induction req with
  | nil => simp
  | cons x req ih => simp [hl, ih]

theorem ClkW.Pairs.req {h : Halves χ α β} (hl : ∀ x, h.join (h.aw x) (h.w x) = x) {p : ClkW χ α β ρ} {req : List χ}
    (hp : p.Pairs h req) : (p.view h).req = req := by
  obtain ⟨h1, h2⟩ := hp
  simp only [ClkW.view, h1]
  rcases h2 with ⟨_, h2⟩ | ⟨_, _, x, _, _, h2⟩
  · have := zip_join hl req []
    rwa [List.append_nil, ← h2] at this
  · rw [h2]; exact zip_join hl req _

theorem ClkWInv.init (h : Halves χ α β) : ClkWInv h ({} : ClkW χ α β ρ) :=
  ⟨.init, .init, .init, [], by simp [ClkW.Pairs, content]⟩

theorem Lite.own_cur (s : Lite χ ρ) (e : Ev χ ρ) (he : own e = true) (hc : s.cur ≠ none) : (s.step e).cur = s.cur := by
  cases e with
  | write op => rfl
  | init op => rfl
  | runInit i => simp only [Lite.step]; split <;> rfl
  | take =>
    simp only [Lite.step, Lite.take]
    split
    · rename_i h1 _; exact absurd h1 hc
    · rfl
  | send => simp [own] at he
  | resp r => simp [own] at he
  | respTake => simp only [Lite.step, Lite.respTake]; split <;> rfl
  | respGet => simp only [Lite.step, Lite.respGet]; split <;> rfl
  | respDone => simp only [Lite.step, Lite.respDone]; split <;> rfl
  | reset v => simp [own] at he

section

variable {h : Halves χ α β} (hl : ∀ x, h.join (h.aw x) (h.w x) = x) {f : χ → σ → ρ × σ}

/-- A step of the master that does not touch a channel. -/
theorem ClkW.master_eq (p : ClkW χ α β ρ) (e : Ev χ ρ) :
    p.master e = p ∨ (own e = true ∧ p.master e = { p with m := p.m.step e }) := by
  by_cases he : own e = true
  · by_cases hs : p.stuck = true
    · cases e <;> simp_all [ClkW.master, own]
    · right
      refine ⟨he, ?_⟩
      cases e <;> simp_all [ClkW.master, own]
  · left
    cases e <;> simp_all [ClkW.master, own]

theorem ClkR.master_eq (p : ClkR χ ρ) (e : Ev χ ρ) :
    p.master e = p ∨ (own e = true ∧ p.master e = { p with m := p.m.step e }) := by
  by_cases he : own e = true
  · by_cases hs : blocked p.ar = true
    · cases e <;> simp_all [ClkR.master, own]
    · right
      refine ⟨he, ?_⟩
      cases e <;> simp_all [ClkR.master, own]
  · left
    cases e <;> simp_all [ClkR.master, own]

include hl

/-- One event of the write side is one event of the write side with FIFO channels, or nothing. -/
theorem ClkWInv.step {p : ClkW χ α β ρ} (hi : ClkWInv h p) (mem : σ) (e : ClkWEv χ ρ) :
    ClkWInv h (p.step h f mem e).1 ∧ ∃ e' : PortEv χ ρ, (e.progress = true → e'.progress = true) ∧
      ((p.step h f mem e).1.view h, (p.step h f mem e).2) = (p.view h).step f mem e' := by
  have stay : ClkWInv h p ∧ ∃ e' : PortEv χ ρ, (e.progress = true → e'.progress = true) ∧
      (p.view h, mem) = (p.view h).step f mem e' :=
    ⟨hi, _, fun _ => rfl, (Port.step_idle f (p.view h) mem).symm⟩
  obtain ⟨req, hq⟩ := hi.pairs
  have hreq := hq.req hl
  cases e with
  | master e =>
    simp only [ClkW.step]
    rcases ClkW.master_eq p e with h0 | ⟨ho, h0⟩
    · rw [h0]; exact stay
    · rw [h0]
      refine ⟨⟨hi.aw, hi.w, hi.b, req, hq.1, ?_⟩, .master e, ?_, ?_⟩
      · rcases hq.2 with h2 | ⟨h2, op, x, rem, h3, h4⟩
        · exact .inl h2
        · refine .inr ⟨h2, op, x, rem, ?_, h4⟩
          show (p.m.step e).cur = _
          rw [Lite.own_cur _ _ ho (by simp [h3]), h3]
      · intro he
        cases e <;> simp_all [ClkWEv.progress, PortEv.progress, own]
      · simp [Port.step, ho, ClkW.view]
  | sendAW =>
    simp only [ClkW.step]
    unfold ClkW.sendAW
    split
    · rename_i op x rem hr hc ha hs
      simp only [ClkW.stuck, Bool.or_eq_false_iff] at hs
      obtain ⟨a1, a2⟩ := hi.aw.send hs.1 (h.aw x)
      have hA : p.sl.toList ++ content p.aw = req.map h.aw := by
        rcases hq.2 with ⟨_, h2⟩ | ⟨h2, _⟩
        · exact h2
        · rw [ha] at h2; cases h2
      have hp : ClkW.Pairs h { p with awSent := true, aw := p.aw.step chanCfg (.send (h.aw x)) } req := by
        refine ⟨hq.1, .inr ⟨rfl, op, x, rem, hc, ?_⟩⟩
        show p.sl.toList ++ content (p.aw.step chanCfg (.send (h.aw x))) = _
        rw [a2, ← List.append_assoc, hA]
      refine ⟨⟨a1, hi.w, hi.b, req, hp⟩, _, fun _ => rfl, Eq.trans ?_ (Port.step_idle f (p.view h) mem).symm⟩
      have h1 := hp.req hl
      rw [← hreq] at h1
      have e1 : ∀ {a b : Port χ ρ}, a.m = b.m → a.req = b.req → a.rsp = b.rsp → a = b := by
        intro a b; cases a; cases b; simp_all
      exact Prod.ext (e1 rfl h1 rfl) rfl
    · exact stay
  | sendW =>
    simp only [ClkW.step]
    unfold ClkW.sendW
    split
    · rename_i op x rem hr hc ha hs
      simp only [ClkW.stuck, Bool.or_eq_false_iff] at hs
      obtain ⟨w1, w2⟩ := hi.w.send hs.2 (h.w x)
      have hA : p.sl.toList ++ content p.aw = (req ++ [x]).map h.aw := by
        rcases hq.2 with ⟨h2, _⟩ | ⟨_, op', x', rem', h2, h3⟩
        · rw [ha] at h2; cases h2
        · rw [hc] at h2
          simp only [Option.some.injEq, Prod.mk.injEq, List.cons.injEq] at h2
          obtain ⟨_, rfl, _⟩ := h2
          rw [h3]; simp
      have hp : ClkW.Pairs h { p with m := p.m.step .send, awSent := false, w := p.w.step chanCfg (.send (h.w x)) } (req ++ [x]) := by
        refine ⟨?_, .inl ⟨rfl, hA⟩⟩
        show p.held.toList ++ content (p.w.step chanCfg (.send (h.w x))) = _
        rw [w2, ← List.append_assoc, hq.1]; simp
      refine ⟨⟨hi.aw, w1, hi.b, _, hp⟩, .send, fun _ => rfl, ?_⟩
      have h1 := hp.req hl
      rw [← hreq] at h1
      have e1 : ∀ {a b : Port χ ρ}, a.m = b.m → a.req = b.req → a.rsp = b.rsp → a = b := by
        intro a b; cases a; cases b; simp_all
      have e2 : (p.view h).step f mem .send = ({ p.view h with m := p.m.step .send, req := (p.view h).req ++ [x] }, mem) := by
        simp only [Port.step]
        rw [show (p.view h).m = p.m from rfl]
        simp only [hr, hc]
      rw [e2]
      exact Prod.ext (e1 rfl h1 rfl) rfl
    · exact stay
  | slaveAW =>
    simp only [ClkW.step]
    unfold ClkW.slaveAW
    split
    · rename_i a hs hg hb ha
      obtain ⟨a1, a2⟩ := hi.aw.recv ha
      have hA : (some a).toList ++ content (p.aw.step chanCfg .recv) = p.sl.toList ++ content p.aw := by
        rw [hs, a2]; rfl
      have hp : ClkW.Pairs h { p with aw := p.aw.step chanCfg .recv, sl := some a } req := by
        refine ⟨hq.1, ?_⟩
        show (_ ∧ (some a).toList ++ content (p.aw.step chanCfg .recv) = _) ∨
          (_ ∧ ∃ op x rem, _ ∧ (some a).toList ++ content (p.aw.step chanCfg .recv) = _)
        rw [hA]
        exact hq.2
      refine ⟨⟨a1, hi.w, hi.b, req, hp⟩, _, fun _ => rfl, Eq.trans ?_ (Port.step_idle f (p.view h) mem).symm⟩
      have h1 := hp.req hl
      rw [← hreq] at h1
      have e1 : ∀ {a b : Port χ ρ}, a.m = b.m → a.req = b.req → a.rsp = b.rsp → a = b := by
        intro a b; cases a; cases b; simp_all
      exact Prod.ext (e1 rfl h1 rfl) rfl
    · exact stay
  | slaveW =>
    simp only [ClkW.step]
    unfold ClkW.slaveW
    split
    · rename_i r hg
      split
      · rename_i hb
        obtain ⟨b1, b2⟩ := hi.b.send hb r
        refine ⟨⟨hi.aw, hi.w, b1, req, hq⟩, _, fun _ => rfl, Eq.trans ?_ (Port.step_idle f (p.view h) mem).symm⟩
        simp only [ClkW.view, b2, hg, Option.toList_some, Option.toList_none, List.append_nil]
      · exact stay
    · rename_i a hg hs hh
      split
      · rename_i x ha
        obtain ⟨w1, w2⟩ := hi.w.recv ha
        have hw : (some x).toList ++ content (p.w.step chanCfg .recv) = p.held.toList ++ content p.w := by rw [hh, w2]; rfl
        refine ⟨⟨hi.aw, w1, hi.b, req, hw.trans hq.1, hq.2⟩, _, fun _ => rfl, Eq.trans ?_ (Port.step_idle f (p.view h) mem).symm⟩
        simp only [ClkW.view, hw]
      · exact stay
    · rename_i a x hg hs hh
      cases req with
      | nil => have := hq.1; rw [hh] at this; cases this
      | cons y req =>
        have hx : x = h.w y ∧ content p.w = req.map h.w := by
          have := hq.1
          rw [hh] at this
          simpa using this
        have hy : a = h.aw y := by
          rcases hq.2 with ⟨_, h2⟩ | ⟨_, _, _, _, _, h2⟩ <;>
          · rw [hs] at h2
            simp only [Option.toList_some, List.cons_append, List.nil_append, List.map_cons, List.cons.injEq] at h2
            exact h2.1
        have hxy : h.join a x = y := by rw [hx.1, hy, hl]
        have hp : ClkW.Pairs h { p with sl := none, held := none
                                        got := some (f (h.join a x) mem).1 } req := by
          refine ⟨hx.2, ?_⟩
          rcases hq.2 with ⟨h1, h2⟩ | ⟨h1, op, z, rem, h3, h2⟩
          · rw [hs] at h2
            simp only [Option.toList_some, List.cons_append, List.nil_append, List.map_cons, List.cons.injEq] at h2
            exact .inl ⟨h1, h2.2⟩
          · rw [hs] at h2
            simp only [Option.toList_some, List.cons_append, List.nil_append, List.map_cons, List.cons.injEq] at h2
            exact .inr ⟨h1, op, z, rem, h3, h2.2⟩
        refine ⟨⟨hi.aw, hi.w, hi.b, req, hp⟩, .serve, fun _ => rfl, ?_⟩
        have h1 := hp.req hl
        have e1 : ∀ {a b : Port χ ρ}, a.m = b.m → a.req = b.req → a.rsp = b.rsp → a = b := by
          intro a b; cases a; cases b; simp_all
        have e2 : (p.view h).step f mem .serve = ({ p.view h with req := req, rsp := content p.b ++ [(f y mem).1] }, (f y mem).2) := by
          simp only [Port.step, hreq]
          simp only [ClkW.view, hg, Option.toList_none, List.append_nil]
        rw [e2]
        refine Prod.ext (e1 rfl h1 ?_) ?_
        · show content p.b ++ [(f (h.join a x) mem).1] = _
          rw [hxy]
        · show (f (h.join a x) mem).2 = _
          rw [hxy]
    · exact stay
  | deliver =>
    simp only [ClkW.step]
    unfold ClkW.deliver
    split
    · rename_i r hs ha
      obtain ⟨b1, b2⟩ := hi.b.recv ha
      refine ⟨⟨hi.aw, hi.w, b1, req, hq.1, ?_⟩, .deliver, fun _ => rfl, ?_⟩
      · rcases hq.2 with h2 | ⟨h2, op, x, rem, h3, h4⟩
        · exact .inl h2
        · refine .inr ⟨h2, op, x, rem, ?_, h4⟩
          show (p.m.step (.resp r)).cur = _
          simp only [Lite.step, Lite.resp]
          split <;> exact h3
      · simp [Port.step, ClkW.view, b2]
    · exact stay
  | reset v =>
    cases v
    · obtain ⟨a1, a2⟩ := hi.aw.started
      obtain ⟨w1, w2⟩ := hi.w.started
      obtain ⟨b1, b2⟩ := hi.b.started
      refine ⟨⟨a1, w1, b1, req, ?_, ?_⟩, .reset false, fun h0 => by simp [ClkWEv.progress] at h0, ?_⟩
      · show p.held.toList ++ content (startNet p.w) = _
        rw [w2]; exact hq.1
      · show (p.awSent = false ∧ p.sl.toList ++ content (startNet p.aw) = _) ∨
          (p.awSent = true ∧ ∃ op x rem, p.m.cur = _ ∧ p.sl.toList ++ content (startNet p.aw) = _)
        rw [a2]; exact hq.2
      · simp [ClkW.step, ClkW.reset, ClkW.view, Port.step, a2, w2, b2]
    · obtain ⟨a1, a2⟩ := ChanInv.reset p.aw
      obtain ⟨w1, w2⟩ := ChanInv.reset p.w
      obtain ⟨b1, b2⟩ := ChanInv.reset p.b
      refine ⟨⟨a1, w1, b1, [], w2, .inl ⟨rfl, ?_⟩⟩, .reset true, fun h0 => by simp [ClkWEv.progress] at h0, ?_⟩
      · show [] ++ content (resetNet p.aw) = _
        rw [a2]; rfl
      · simp [ClkW.step, ClkW.reset, ClkW.view, Port.step, a2, w2, b2]

omit hl

structure ClkRInv (p : ClkR χ ρ) : Prop where
  ar : ChanInv p.ar
  r : ChanInv p.r

theorem ClkRInv.step {p : ClkR χ ρ} (hi : ClkRInv p) (mem : σ) (e : ClkREv χ ρ) :
    ClkRInv (p.step f mem e).1 ∧ ∃ e' : PortEv χ ρ, (e.progress = true → e'.progress = true) ∧
      ((p.step f mem e).1.view, (p.step f mem e).2) = p.view.step f mem e' := by
  have stay : ClkRInv p ∧ ∃ e' : PortEv χ ρ, (e.progress = true → e'.progress = true) ∧
      (p.view, mem) = p.view.step f mem e' :=
    ⟨hi, _, fun _ => rfl, (Port.step_idle f p.view mem).symm⟩
  cases e with
  | master e =>
    simp only [ClkR.step]
    rcases ClkR.master_eq p e with h0 | ⟨ho, h0⟩
    · rw [h0]; exact stay
    · rw [h0]
      refine ⟨⟨hi.ar, hi.r⟩, .master e, ?_, ?_⟩
      · intro he
        cases e <;> simp_all [ClkREv.progress, PortEv.progress, own]
      · simp [Port.step, ho, ClkR.view]
  | sendAR =>
    simp only [ClkR.step]
    unfold ClkR.sendAR
    split
    · rename_i op x rem hr hc hs
      obtain ⟨a1, a2⟩ := hi.ar.send hs x
      refine ⟨⟨a1, hi.r⟩, .send, fun _ => rfl, ?_⟩
      simp [Port.step, ClkR.view, hr, hc, a2]
    · exact stay
  | slaveR =>
    simp only [ClkR.step]
    unfold ClkR.slaveR
    split
    · rename_i r hg hb
      obtain ⟨b1, b2⟩ := hi.r.send hb r
      refine ⟨⟨hi.ar, b1⟩, _, fun _ => rfl, Eq.trans ?_ (Port.step_idle f p.view mem).symm⟩
      simp only [ClkR.view, b2, hg, Option.toList_some, Option.toList_none, List.append_nil]
    · rename_i hg hh hb
      split
      · rename_i x ha
        obtain ⟨a1, a2⟩ := hi.ar.recv ha
        refine ⟨⟨a1, hi.r⟩, _, fun _ => rfl, Eq.trans ?_ (Port.step_idle f p.view mem).symm⟩
        simp only [ClkR.view, a2, hh, Option.toList_some, Option.toList_none, List.cons_append, List.nil_append]
      · exact stay
    · rename_i x hg hh
      refine ⟨⟨hi.ar, hi.r⟩, .serve, fun _ => rfl, ?_⟩
      simp [Port.step, ClkR.view, hg, hh]
    · exact stay
  | deliver =>
    simp only [ClkR.step]
    unfold ClkR.deliver
    split
    · rename_i r hs ha
      obtain ⟨b1, b2⟩ := hi.r.recv ha
      refine ⟨⟨hi.ar, b1⟩, .deliver, fun _ => rfl, ?_⟩
      simp [Port.step, ClkR.view, b2]
    · exact stay
  | reset v =>
    cases v
    · obtain ⟨a1, a2⟩ := hi.ar.started
      obtain ⟨b1, b2⟩ := hi.r.started
      refine ⟨⟨a1, b1⟩, .reset false, fun h0 => by simp [ClkREv.progress] at h0, ?_⟩
      simp [ClkR.step, ClkR.reset, ClkR.view, Port.step, a2, b2]
    · obtain ⟨a1, a2⟩ := ChanInv.reset p.ar
      obtain ⟨b1, b2⟩ := ChanInv.reset p.r
      refine ⟨⟨a1, b1⟩, .reset true, fun h0 => by simp [ClkREv.progress] at h0, ?_⟩
      simp [ClkR.step, ClkR.reset, ClkR.view, Port.step, a2, b2]

end

/-! ## Both sides and the clock -/

structure ClkInv (h : Halves χ α β) (s : Clk χ α β ρ χ' ρ' σ) : Prop where
  w : ClkWInv h s.w
  r : ClkRInv s.r

theorem ClkInv.init (h : Halves χ α β) (m0 : σ) : ClkInv h ({ mem := m0 } : Clk χ α β ρ χ' ρ' σ) :=
  ⟨.init h, .init, .init⟩

theorem ClkWInv.same {h : Halves χ α β} {p q : ClkW χ α β ρ} (hi : ClkWInv h p) (h1 : ChanInv q.aw ∧ content q.aw = content p.aw)
    (h2 : ChanInv q.w ∧ content q.w = content p.w) (h3 : ChanInv q.b ∧ content q.b = content p.b) (h4 : q.m = p.m)
    (h5 : q.awSent = p.awSent) (h6 : q.sl = p.sl) (h7 : q.held = p.held) (h8 : q.got = p.got) : ClkWInv h q ∧ q.view h = p.view h := by
  obtain ⟨req, hq⟩ := hi.pairs
  refine ⟨⟨h1.1, h2.1, h3.1, req, ?_⟩, ?_⟩
  · unfold ClkW.Pairs
    rw [h1.2, h2.2, h4, h5, h6, h7]
    exact hq
  · simp only [ClkW.view, h1.2, h2.2, h3.2, h4, h6, h7, h8]

theorem ClkInv.inner {h : Halves χ α β} {s : Clk χ α β ρ χ' ρ' σ} (hi : ClkInv h s) (k : Chan) (e : Inner) :
    ClkInv h (s.inner k e) ∧ (s.inner k e).view h = s.view h := by
  have a0 : ChanInv s.w.aw ∧ content s.w.aw = content s.w.aw := ⟨hi.w.aw, rfl⟩
  have w0 : ChanInv s.w.w ∧ content s.w.w = content s.w.w := ⟨hi.w.w, rfl⟩
  have b0 : ChanInv s.w.b ∧ content s.w.b = content s.w.b := ⟨hi.w.b, rfl⟩
  cases k
  · obtain ⟨h1, h2⟩ := hi.w.same (q := { s.w with aw := e.step s.w.aw }) (hi.w.aw.inner e) w0 b0 rfl rfl rfl rfl rfl
    exact ⟨⟨h1, hi.r⟩, by simp only [Clk.view, Clk.inner, h2]⟩
  · obtain ⟨h1, h2⟩ := hi.w.same (q := { s.w with w := e.step s.w.w }) a0 (hi.w.w.inner e) b0 rfl rfl rfl rfl rfl
    exact ⟨⟨h1, hi.r⟩, by simp only [Clk.view, Clk.inner, h2]⟩
  · obtain ⟨h1, h2⟩ := hi.w.same (q := { s.w with b := e.step s.w.b }) a0 w0 (hi.w.b.inner e) rfl rfl rfl rfl rfl
    exact ⟨⟨h1, hi.r⟩, by simp only [Clk.view, Clk.inner, h2]⟩
  · obtain ⟨h1, h2⟩ := hi.r.ar.inner e
    exact ⟨⟨hi.w, h1, hi.r.r⟩, by simp only [Clk.view, Clk.inner, ClkR.view, h2]⟩
  · obtain ⟨h1, h2⟩ := hi.r.r.inner e
    exact ⟨⟨hi.w, hi.r.ar, h1⟩, by simp only [Clk.view, Clk.inner, ClkR.view, h2]⟩

theorem ClkInv.tick {h : Halves χ α β} {s : Clk χ α β ρ χ' ρ' σ} (hi : ClkInv h s) :
    ClkInv h (s.all .tick) ∧ (s.all .tick).view h = s.view h := by
  obtain ⟨h1, h2⟩ := hi.w.same (q := (s.all .tick).w) hi.w.aw.tick hi.w.w.tick hi.w.b.tick rfl rfl rfl rfl rfl
  refine ⟨⟨h1, hi.r.ar.tick.1, hi.r.r.tick.1⟩, ?_⟩
  show ({ w := _, r := _, mem := _ } : Duo χ ρ χ' ρ' σ) = _
  rw [h2]
  simp only [Clk.all, Clk.view, ClkR.view, hi.r.ar.tick.2, hi.r.r.tick.2]

theorem ClkInv.commit {h : Halves χ α β} {s : Clk χ α β ρ χ' ρ' σ} (hi : ClkInv h s) :
    ClkInv h (s.all .commit) ∧ (s.all .commit).view h = s.view h := by
  obtain ⟨h1, h2⟩ := hi.w.same (q := (s.all .commit).w) hi.w.aw.commit hi.w.w.commit hi.w.b.commit rfl rfl rfl rfl rfl
  refine ⟨⟨h1, hi.r.ar.commit.1, hi.r.r.commit.1⟩, ?_⟩
  show ({ w := _, r := _, mem := _ } : Duo χ ρ χ' ρ' σ) = _
  rw [h2]
  simp only [Clk.all, Clk.view, ClkR.view, hi.r.ar.commit.2, hi.r.r.commit.2]

theorem Duo.step_idle (f : χ → σ → ρ × σ) (g : χ' → σ → ρ' × σ) (s : Duo χ ρ χ' ρ' σ) : s.step f g (.w s.w.idleEv) = s := by
  simp only [Duo.step, Port.step_idle]

/-- One event is one event of the system with FIFO channels, or nothing. -/
theorem ClkInv.step {h : Halves χ α β} (hl : ∀ x, h.join (h.aw x) (h.w x) = x) {f : χ → σ → ρ × σ} {g : χ' → σ → ρ' × σ}
    {s : Clk χ α β ρ χ' ρ' σ} (hi : ClkInv h s) (e : ClkEv χ ρ χ' ρ') :
    ClkInv h (s.step h f g e) ∧ ∃ e' : DuoEv χ ρ χ' ρ', (e.quiet = true → e'.progress = true) ∧
      (s.step h f g e).view h = (s.view h).step f g e' := by
  have same : ∀ q : Clk χ α β ρ χ' ρ' σ, ClkInv h q ∧ q.view h = s.view h →
      ClkInv h q ∧ ∃ e' : DuoEv χ ρ χ' ρ', (e.quiet = true → e'.progress = true) ∧ q.view h = (s.view h).step f g e' :=
    fun q hq => ⟨hq.1, _, fun _ => rfl, hq.2.trans (Duo.step_idle f g (s.view h)).symm⟩
  cases e with
  | w e =>
    obtain ⟨h1, e', h2, h3⟩ := hi.w.step hl (f := f) s.mem e
    refine ⟨⟨h1, hi.r⟩, .w e', h2, ?_⟩
    simp only [Clk.step, Clk.view, Duo.step]
    rw [← h3]
  | r e =>
    obtain ⟨h1, e', h2, h3⟩ := hi.r.step (f := g) s.mem e
    refine ⟨⟨hi.w, h1⟩, .r e', h2, ?_⟩
    simp only [Clk.step, Clk.view, Duo.step]
    rw [← h3]
  | chan k e => exact same _ (hi.inner k e)
  | tick =>
    simp only [Clk.step]
    split
    · exact same _ hi.tick
    · exact same _ ⟨hi, rfl⟩
  | commit =>
    simp only [Clk.step]
    split
    · exact same _ hi.commit
    · exact same _ ⟨hi, rfl⟩

end Verif.LiteOps
