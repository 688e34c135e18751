import Verif.Model.AxiClock
import Verif.Proof.StreamNet

/-!
# The channels of the clock-level AXI system behave as FIFOs
-/

namespace Verif.AxiSys

open Verif.Axi Verif.AxiOps
open Verif.Stream (Net NetCfg NetEv NetInv Src Snk SrcInv SnkInv)

section

variable {α : Type}

/-- The invariant of a channel: that of the streams, and at most one `send()` is blocked. -/
structure ChanInv (s : Net α) : Prop where
  net : NetInv chanCfg true s
  one : s.src.waiters.length ≤ 1

theorem ChanInv.init : ChanInv ({} : Net α) where
  net := ⟨SrcInv.init _, SnkInv.init _ _, by simp, by simp, by simp [chanCfg], by simp [Stream.Acc, Net.pend, Net.onBus],
    by simp [Stream.Acc]⟩
  one := by simp

/-- Everything sent is received or in the channel. -/
theorem ChanInv.account {s : Net α} (h : ChanInv s) : s.snk.got ++ content s = s.src.sent ++ s.src.waiters.map (·.1) := by
  have h1 := h.net.acc
  have h2 := h.net.got
  simp only [Stream.Acc, if_true] at h1 h2
  rw [h1, h2]
  simp only [content, Net.pend, Net.onBus, Net.xfer, chanCfg, Bool.not_true, Bool.false_or, List.append_assoc]

theorem content_same {s t : Net α} (hs : ChanInv s) (ht : ChanInv t) (h1 : t.snk.got = s.snk.got)
    (h2 : t.src.sent ++ t.src.waiters.map (·.1) = s.src.sent ++ s.src.waiters.map (·.1)) : content t = content s := by
  have := ht.account
  rw [h1, h2, ← hs.account] at this
  exact List.append_cancel_left this

theorem run_waiters {c : Stream.Cfg} (s : Src α) (r : Bool) :
    (s.run c r).waiters.map (·.1) = s.waiters.map (·.1) ∧ (s.run c r).sent = s.sent := by
  unfold Src.run
  simp only
  repeat' split
  all_goals simp [Src.setDeq, Function.comp_def]

theorem ChanInv.inner {s : Net α} (h : ChanInv s) (e : Inner) :
    ChanInv (e.step s) ∧ content (e.step s) = content s := by
  have hn : NetInv chanCfg true (e.step s) := by
    cases e
    case resume =>
      simp only [Inner.step]
      split
      · exact h.net.step _ (fun _ => rfl)
      · exact h.net
    all_goals
      simp only [Inner.step]
      exact h.net.step _ (fun _ => rfl)
  have key : (e.step s).snk.got = s.snk.got ∧
      (e.step s).src.sent ++ (e.step s).src.waiters.map (·.1) = s.src.sent ++ s.src.waiters.map (·.1) ∧
      (e.step s).src.waiters.length ≤ 1 := by
    cases e
    case srcRun =>
      simp only [Inner.step, Net.step]
      split
      · obtain ⟨e1, e2⟩ := run_waiters (c := chanCfg.src) s.src s.snk.ready
        refine ⟨rfl, by simp only [e1, e2], ?_⟩
        have := congrArg List.length e1
        simp only [List.length_map] at this
        have := h.one
        simp only; omega
      · exact ⟨rfl, rfl, h.one⟩
    case srcWake => simp only [Inner.step, Net.step]; split <;> exact ⟨rfl, rfl, h.one⟩
    case snkRun =>
      simp only [Inner.step, Net.step]
      split
      · exact ⟨(Stream.run_got _ _ _ _).1, rfl, h.one⟩
      · exact ⟨rfl, rfl, h.one⟩
    case snkWake => simp only [Inner.step, Net.step]; split <;> exact ⟨rfl, rfl, h.one⟩
    case snkSpurious => simp only [Inner.step, Net.step]; split <;> exact ⟨rfl, rfl, h.one⟩
    case resume =>
      simp only [Inner.step]
      split
      · simp only [Net.step]
        have h1 := h.one
        unfold Src.resume
        cases hw : s.src.waiters with
        | nil => simp [hw]
        | cons x l =>
          have : l = [] := by
            rw [hw] at h1; simp at h1; exact h1
          subst this
          obtain ⟨x, f⟩ := x
          cases f
          · simp [hw]
          · simp only [List.getElem?_cons_zero]
            split <;> simp [Src.put]
      · exact ⟨rfl, rfl, h.one⟩
    case srcPause v => exact ⟨rfl, rfl, h.one⟩
    case snkPause v =>
      refine ⟨?_, rfl, h.one⟩
      simp only [Inner.step, Net.step, Snk.setPause]
      split <;> rfl
  have hc : ChanInv (e.step s) := ⟨hn, key.2.2⟩
  exact ⟨hc, content_same h hc key.1 key.2.1⟩

theorem ChanInv.tick {s : Net α} (h : ChanInv s) :
    ChanInv (s.step chanCfg .tick) ∧ content (s.step chanCfg .tick) = content s := by
  have hn : NetInv chanCfg true (s.step chanCfg .tick) := h.net.step _ (fun _ => rfl)
  have key : (s.step chanCfg .tick).snk.got = s.snk.got ∧ (s.step chanCfg .tick).src.sent = s.src.sent ∧
      (s.step chanCfg .tick).src.waiters = s.src.waiters := by
    simp only [Net.step]
    split <;> exact ⟨rfl, rfl, rfl⟩
  have hc : ChanInv (s.step chanCfg .tick) := ⟨hn, by rw [key.2.2]; exact h.one⟩
  exact ⟨hc, content_same h hc key.1 (by rw [key.2.1, key.2.2])⟩

theorem ChanInv.commit {s : Net α} (h : ChanInv s) :
    ChanInv (s.step chanCfg .commit) ∧ content (s.step chanCfg .commit) = content s := by
  have hn : NetInv chanCfg true (s.step chanCfg .commit) := h.net.step _ (fun _ => rfl)
  have key : (s.step chanCfg .commit).snk.got = s.snk.got ∧ (s.step chanCfg .commit).src.sent = s.src.sent ∧
      (s.step chanCfg .commit).src.waiters = s.src.waiters := by
    simp only [Net.step]
    split
    · refine ⟨?_, rfl, rfl⟩
      simp only
      split <;> rfl
    · exact ⟨rfl, rfl, rfl⟩
  have hc : ChanInv (s.step chanCfg .commit) := ⟨hn, by rw [key.2.2]; exact h.one⟩
  exact ⟨hc, content_same h hc key.1 (by rw [key.2.1, key.2.2])⟩

theorem ChanInv.send {s : Net α} (h : ChanInv s) (hb : blocked s = false) (x : α) :
    ChanInv (s.step chanCfg (.send x)) ∧ content (s.step chanCfg (.send x)) = content s ++ [x] := by
  have hn : NetInv chanCfg true (s.step chanCfg (.send x)) := h.net.step _ (fun _ => rfl)
  have hw : s.src.waiters = [] := by simpa [blocked] using hb
  have key : (s.step chanCfg (.send x)).snk.got = s.snk.got ∧
      (s.step chanCfg (.send x)).src.sent ++ (s.step chanCfg (.send x)).src.waiters.map (·.1) = s.src.sent ++ [x] ∧
      (s.step chanCfg (.send x)).src.waiters.length ≤ 1 := by
    simp only [Net.step, Src.send]
    split <;> simp [Src.put, hw]
  have hc : ChanInv (s.step chanCfg (.send x)) := ⟨hn, key.2.2⟩
  refine ⟨hc, ?_⟩
  have h1 := h.account
  have h2 := hc.account
  rw [key.1, key.2.1] at h2
  rw [hw, List.map_nil, List.append_nil] at h1
  rw [← h1, List.append_assoc] at h2
  exact List.append_cancel_left h2

theorem ChanInv.recv {s : Net α} (h : ChanInv s) {x : α} (ha : avail s = some x) :
    ChanInv (s.step chanCfg .recv) ∧ content s = x :: content (s.step chanCfg .recv) := by
  have hn : NetInv chanCfg true (s.step chanCfg .recv) := h.net.step _ (fun _ => rfl)
  have hc : ChanInv (s.step chanCfg .recv) := ⟨hn, h.one⟩
  refine ⟨hc, ?_⟩
  have h1 := h.account
  have h2 := hc.account
  have key : (s.step chanCfg .recv).snk.got = s.snk.got ++ [x] := by
    simp only [avail] at ha
    cases hq : s.snk.queue with
    | nil => rw [hq] at ha; simp at ha
    | cons y l =>
      rw [hq] at ha
      simp only [List.head?_cons, Option.some.injEq] at ha
      subst ha
      simp only [Net.step, Snk.recv]
      split
      · rename_i h0; rw [hq] at h0; cases h0
      · rename_i h0; rw [hq] at h0; cases h0; rfl
  rw [key] at h2
  have e : (s.step chanCfg .recv).src = s.src := rfl
  rw [e, ← h1, List.append_assoc] at h2
  exact (List.append_cancel_left h2).symm

theorem ChanInv.reset (s : Net α) : ChanInv (resetNet s) ∧ content (resetNet s) = [] := by
  refine ⟨⟨⟨?_, ?_, ?_, ?_, ?_, ?_, ?_⟩, ?_⟩, ?_⟩
  · constructor <;> simp [resetNet, Src.clear, Src.reset, Src.setDeq]
    simp [chanCfg, NetCfg.src]
  · constructor <;> simp [resetNet, Snk.clear, Snk.reset]
    simp [chanCfg, NetCfg.snk]
  · simp [resetNet]
  · simp [resetNet, Src.reset]
  · simp [chanCfg]
  · simp [Stream.Acc, Net.pend, Net.onBus, resetNet, Src.clear, Src.reset, Src.setDeq, Snk.clear, Snk.reset]
  · simp [Stream.Acc, resetNet, Snk.clear, Snk.reset]
  · simp [resetNet]
  · simp [content, resetNet, Src.clear, Src.reset, Src.setDeq, Snk.clear, Snk.reset]

theorem ChanInv.started {s : Net α} (h : ChanInv s) : ChanInv (startNet s) ∧ content (startNet s) = content s := by
  have e : startNet s = (s.step chanCfg (.srcReset false)).step chanCfg (.snkReset false) := rfl
  have hn : NetInv chanCfg true (startNet s) := by
    rw [e]
    exact (h.net.step (.srcReset false) (fun _ => rfl)).step (.snkReset false) (fun _ => rfl)
  have key : (startNet s).snk.got = s.snk.got ∧ (startNet s).src.sent = s.src.sent ∧
      (startNet s).src.waiters = s.src.waiters := by
    simp only [startNet, Src.reset, Snk.reset, Bool.false_eq_true, if_false]
    refine ⟨?_, ?_, ?_⟩ <;> split <;> rfl
  have hc : ChanInv (startNet s) := ⟨hn, by rw [key.2.2]; exact h.one⟩
  exact ⟨hc, content_same h hc key.1 (by rw [key.2.1, key.2.2])⟩

end

/-! ## The ports -/

theorem Master.step_runInit {ρ : Type} (m : Master ρ) (k : Nat) : m.step k (.runInit m.wrappers.length) = m := by
  simp [Master.step]

/-- Nothing happens. -/
def WPort.idle (p : WPort) : WEv := .runInit p.m.wrappers.length

theorem WPort.step_idle {σ : Type} (c : Cfg) (args : Nat → WArgs) (t : Target σ) (p : WPort) (st : σ) :
    p.step c args t st p.idle = (p, st) := by
  simp only [WPort.idle, WPort.step, Master.step_runInit]

structure CWInv (p : CWPort) : Prop where
  aw : ChanInv p.aw
  w : ChanInv p.w
  b : ChanInv p.b

section

variable {σ : Type} {c : Cfg} {args : Nat → WArgs} {t : Target σ}

theorem CWPort.update_view {p : CWPort} {q : WPort} (h1 : q.aw = p.view.aw) (h2 : q.w = p.view.w) (h3 : q.b = p.view.b) :
    (p.update q).view = q := by
  cases q
  simp only at h1 h2 h3
  subst h1 h2 h3
  rfl

theorem WPort.write_chan (p : WPort) : (p.write c args).aw = p.aw ∧ (p.write c args).w = p.w ∧ (p.write c args).b = p.b := by
  unfold WPort.write
  split <;> exact ⟨rfl, rfl, rfl⟩

theorem WPort.init_chan (p : WPort) : (p.init c args).aw = p.aw ∧ (p.init c args).w = p.w ∧ (p.init c args).b = p.b := by
  unfold WPort.init
  split <;> exact ⟨rfl, rfl, rfl⟩

theorem WPort.take_chan (p : WPort) : (p.take c args).aw = p.aw ∧ (p.take c args).w = p.w ∧ (p.take c args).b = p.b := by
  unfold WPort.take
  simp only
  repeat' split
  all_goals exact ⟨rfl, rfl, rfl⟩

theorem WPort.start_chan (p : WPort) : (p.start c).aw = p.aw ∧ (p.start c).w = p.w ∧ (p.start c).b = p.b := by
  unfold WPort.start
  split <;> exact ⟨rfl, rfl, rfl⟩

/-- One event of the write side is one event of the write side with FIFO channels, or nothing. -/
theorem CWInv.step {p : CWPort} (h : CWInv p) (st : σ) (e : WEv) :
    CWInv (p.step c args t st e).1 ∧ ∃ e', (e' = e ∨ e' = p.view.idle) ∧
      ((p.step c args t st e).1.view, (p.step c args t st e).2) = p.view.step c args t st e' := by
  have stay : CWInv p ∧ ∃ e', (e' = e ∨ e' = p.view.idle) ∧ (p.view, st) = p.view.step c args t st e' :=
    ⟨h, _, .inr rfl, (WPort.step_idle c args t p.view st).symm⟩
  cases e
  case write =>
    obtain ⟨h1, h2, h3⟩ := WPort.write_chan (c := c) (args := args) p.view
    exact ⟨⟨h.aw, h.w, h.b⟩, _, .inl rfl, by simp only [CWPort.step, WPort.step, CWPort.update_view h1 h2 h3]⟩
  case init =>
    obtain ⟨h1, h2, h3⟩ := WPort.init_chan (c := c) (args := args) p.view
    exact ⟨⟨h.aw, h.w, h.b⟩, _, .inl rfl, by simp only [CWPort.step, WPort.step, CWPort.update_view h1 h2 h3]⟩
  case take =>
    obtain ⟨h1, h2, h3⟩ := WPort.take_chan (c := c) (args := args) p.view
    exact ⟨⟨h.aw, h.w, h.b⟩, _, .inl rfl, by simp only [CWPort.step, WPort.step, CWPort.update_view h1 h2 h3]⟩
  case runInit i => exact ⟨⟨h.aw, h.w, h.b⟩, _, .inl rfl, rfl⟩
  case workTake i => exact ⟨⟨h.aw, h.w, h.b⟩, _, .inl rfl, rfl⟩
  case workGet i => exact ⟨⟨h.aw, h.w, h.b⟩, _, .inl rfl, rfl⟩
  case workDone i => exact ⟨⟨h.aw, h.w, h.b⟩, _, .inl rfl, rfl⟩
  case start =>
    simp only [CWPort.step, CWPort.start]
    split
    · exact stay
    · obtain ⟨h1, h2, h3⟩ := WPort.start_chan (c := c) p.view
      exact ⟨⟨h.aw, h.w, h.b⟩, _, .inl rfl, by simp only [WPort.step, CWPort.update_view h1 h2 h3]⟩
  case reset v =>
    cases v
    · obtain ⟨a1, a2⟩ := h.aw.started
      obtain ⟨w1, w2⟩ := h.w.started
      obtain ⟨b1, b2⟩ := h.b.started
      refine ⟨⟨a1, w1, b1⟩, _, .inl rfl, ?_⟩
      simp [CWPort.step, CWPort.reset, CWPort.view, WPort.step, WPort.reset, a2, w2, b2]
    · obtain ⟨a1, a2⟩ := ChanInv.reset p.aw
      obtain ⟨w1, w2⟩ := ChanInv.reset p.w
      obtain ⟨b1, b2⟩ := ChanInv.reset p.b
      refine ⟨⟨a1, w1, b1⟩, _, .inl rfl, ?_⟩
      simp [CWPort.step, CWPort.reset, CWPort.view, WPort.step, WPort.reset, Acc.beat, a2, w2, b2]
  case sendAW =>
    simp only [CWPort.step]
    unfold CWPort.sendAW
    split
    · rename_i a rest hd ht hs
      simp only [CWPort.stuck, Bool.or_eq_false_iff] at hs
      obtain ⟨a1, a2⟩ := h.aw.send hs.1 a
      split
      · rename_i hid
        refine ⟨⟨a1, h.w, h.b⟩, .sendAW, .inl rfl, ?_⟩
        simp [CWPort.view, WPort.step, WPort.sendAW, a2, hd, ht, hid]
      · rename_i hid
        refine ⟨⟨h.aw, h.w, h.b⟩, .sendAW, .inl rfl, ?_⟩
        simp [CWPort.view, WPort.step, WPort.sendAW, hd, ht, hid]
    · exact stay
  case sendW =>
    simp only [CWPort.step]
    unfold CWPort.sendW
    split
    · rename_i a rest hd ht hs
      simp only [CWPort.stuck, Bool.or_eq_false_iff] at hs
      obtain ⟨a1, a2⟩ := h.w.send hs.2 a
      refine ⟨⟨h.aw, a1, h.b⟩, .sendW, .inl rfl, ?_⟩
      simp [CWPort.view, WPort.step, WPort.sendW, a2, hd, ht]
    · exact stay
  case slaveAW =>
    simp only [CWPort.step]
    unfold CWPort.slaveAW
    split
    · rename_i a hd hs hb ha
      obtain ⟨a1, a2⟩ := h.aw.recv ha
      simp only
      split
      · rename_i h1
        refine ⟨⟨h.aw, h.w, h.b⟩, .slaveAW, .inl rfl, ?_⟩
        simp [CWPort.view, WPort.step, WPort.slaveAW, a2, hd, hs, h1]
      · rename_i h1
        split
        · rename_i h2
          refine ⟨⟨h.aw, h.w, h.b⟩, .slaveAW, .inl rfl, ?_⟩
          simp only [CWPort.view, WPort.step, WPort.slaveAW, a2, hd, hs, if_neg h1, if_pos h2]
        · rename_i h2
          refine ⟨⟨a1, h.w, h.b⟩, .slaveAW, .inl rfl, ?_⟩
          simp only [CWPort.view, WPort.step, WPort.slaveAW, a2, hd, hs, if_neg h1, if_neg h2]
    · exact stay
  case slaveW =>
    simp only [CWPort.step]
    unfold CWPort.slaveW
    split
    · rename_i s hd hs hacc
      split
      · rename_i w ha
        obtain ⟨a1, a2⟩ := h.w.recv ha
        split
        · refine ⟨⟨h.aw, a1, h.b⟩, _, .inr rfl, ?_⟩
          rw [WPort.step_idle]
          simp only [CWPort.view, hacc, a2]
          rfl
        · exact stay
      · exact stay
    · rename_i s w hd hs hacc
      split
      · rename_i hn
        simp only
        split
        · rename_i hb
          refine ⟨⟨h.aw, h.w, h.b⟩, .slaveW, .inl rfl, ?_⟩
          simp only [CWPort.view, WPort.step, WPort.slaveW, hacc, Acc.beat, List.cons_append, List.nil_append, hd, hs, if_pos hn, hb]
        · rename_i data hb
          split
          · rename_i hl
            refine ⟨⟨h.aw, h.w, h.b⟩, .slaveW, .inl rfl, ?_⟩
            simp only [CWPort.view, WPort.step, WPort.slaveW, hacc, Acc.beat, List.cons_append, List.nil_append, hd, hs, if_pos hn, hb,
              if_pos hl]
          · rename_i hl
            refine ⟨⟨h.aw, h.w, h.b⟩, .slaveW, .inl rfl, ?_⟩
            simp only [CWPort.view, WPort.step, WPort.slaveW, hacc, Acc.beat, List.cons_append, List.nil_append, hd, hs, if_pos hn, hb,
              if_neg hl]
            rfl
      · exact stay
    · rename_i s hd hs hacc
      refine ⟨⟨h.aw, h.w, h.b⟩, _, .inr rfl, ?_⟩
      rw [WPort.step_idle]
      simp only [CWPort.view, hacc]
      rfl
    · exact stay
  case slaveB =>
    simp only [CWPort.step]
    unfold CWPort.slaveB
    split
    · rename_i s hd hs
      split
      · rename_i hn
        obtain ⟨a1, a2⟩ := h.b.send hn.2.1 { id := s.aw.id, resp := s.resp }
        refine ⟨⟨h.aw, h.w, a1⟩, .slaveB, .inl rfl, ?_⟩
        simp [CWPort.view, WPort.step, WPort.slaveB, a2, hd, hs, hn.1]
      · exact stay
    · exact stay
  case deliver =>
    simp only [CWPort.step]
    unfold CWPort.deliver
    split
    · rename_i x ha
      obtain ⟨a1, a2⟩ := h.b.recv ha
      refine ⟨⟨h.aw, h.w, a1⟩, .deliver, .inl rfl, ?_⟩
      simp [CWPort.view, WPort.step, WPort.deliver, a2]
    · exact stay

end

/-- Nothing happens. -/
def RPort.idle (p : RPort) : REv := .runInit p.m.wrappers.length

theorem RPort.step_idle {σ : Type} (c : Cfg) (args : Nat → Req) (t : Target σ) (p : RPort) (st : σ) :
    p.step c args t st p.idle = (p, st) := by
  simp only [RPort.idle, RPort.step, Master.step_runInit]

structure CRInv (p : CRPort) : Prop where
  ar : ChanInv p.ar
  r : ChanInv p.r

section

variable {σ : Type} {c : Cfg} {args : Nat → Req} {t : Target σ}

theorem CRPort.update_view {p : CRPort} {q : RPort} (h1 : q.ar = p.view.ar) (h2 : q.r = p.view.r) :
    (p.update q).view = q := by
  cases q
  subst h1 h2
  rfl

theorem RPort.read_chan (p : RPort) : (p.read c args).ar = p.ar ∧ (p.read c args).r = p.r := by
  unfold RPort.read
  split <;> exact ⟨rfl, rfl⟩

theorem RPort.init_chan (p : RPort) : (p.init c args).ar = p.ar ∧ (p.init c args).r = p.r := by
  unfold RPort.init
  split <;> exact ⟨rfl, rfl⟩

theorem RPort.take_chan (p : RPort) : (p.take c args).ar = p.ar ∧ (p.take c args).r = p.r := by
  unfold RPort.take
  repeat' split
  all_goals exact ⟨rfl, rfl⟩

theorem RPort.start_chan (p : RPort) : (p.start c).ar = p.ar ∧ (p.start c).r = p.r := by
  unfold RPort.start
  split <;> exact ⟨rfl, rfl⟩

/-- One event of the read side is one event of the read side with FIFO channels, or nothing. -/
theorem CRInv.step {p : CRPort} (h : CRInv p) (st : σ) (e : REv) :
    CRInv (p.step c args t st e).1 ∧ ∃ e', (e' = e ∨ e' = p.view.idle) ∧
      ((p.step c args t st e).1.view, (p.step c args t st e).2) = p.view.step c args t st e' := by
  have stay : CRInv p ∧ ∃ e', (e' = e ∨ e' = p.view.idle) ∧ (p.view, st) = p.view.step c args t st e' :=
    ⟨h, _, .inr rfl, (RPort.step_idle c args t p.view st).symm⟩
  cases e
  case read =>
    obtain ⟨h1, h2⟩ := RPort.read_chan (c := c) (args := args) p.view
    exact ⟨⟨h.ar, h.r⟩, _, .inl rfl, by simp only [CRPort.step, RPort.step, CRPort.update_view h1 h2]⟩
  case init =>
    obtain ⟨h1, h2⟩ := RPort.init_chan (c := c) (args := args) p.view
    exact ⟨⟨h.ar, h.r⟩, _, .inl rfl, by simp only [CRPort.step, RPort.step, CRPort.update_view h1 h2]⟩
  case take =>
    obtain ⟨h1, h2⟩ := RPort.take_chan (c := c) (args := args) p.view
    exact ⟨⟨h.ar, h.r⟩, _, .inl rfl, by simp only [CRPort.step, RPort.step, CRPort.update_view h1 h2]⟩
  case runInit i => exact ⟨⟨h.ar, h.r⟩, _, .inl rfl, rfl⟩
  case workTake i => exact ⟨⟨h.ar, h.r⟩, _, .inl rfl, rfl⟩
  case workGet i => exact ⟨⟨h.ar, h.r⟩, _, .inl rfl, rfl⟩
  case workDone i => exact ⟨⟨h.ar, h.r⟩, _, .inl rfl, rfl⟩
  case start =>
    simp only [CRPort.step, CRPort.start]
    split
    · exact stay
    · obtain ⟨h1, h2⟩ := RPort.start_chan (c := c) p.view
      exact ⟨⟨h.ar, h.r⟩, _, .inl rfl, by simp only [RPort.step, CRPort.update_view h1 h2]⟩
  case reset v =>
    cases v
    · obtain ⟨a1, a2⟩ := h.ar.started
      obtain ⟨w1, w2⟩ := h.r.started
      refine ⟨⟨a1, w1⟩, _, .inl rfl, ?_⟩
      simp [CRPort.step, CRPort.reset, CRPort.view, RPort.step, RPort.reset, a2, w2]
    · obtain ⟨a1, a2⟩ := ChanInv.reset p.ar
      obtain ⟨w1, w2⟩ := ChanInv.reset p.r
      refine ⟨⟨a1, w1⟩, _, .inl rfl, ?_⟩
      simp [CRPort.step, CRPort.reset, CRPort.view, RPort.step, RPort.reset, a2, w2]
  case sendAR =>
    simp only [CRPort.step]
    unfold CRPort.sendAR
    split
    · rename_i a rest hd ht hs
      obtain ⟨a1, a2⟩ := h.ar.send hs a
      split
      · rename_i hid
        refine ⟨⟨a1, h.r⟩, .sendAR, .inl rfl, ?_⟩
        simp [CRPort.view, RPort.step, RPort.sendAR, a2, hd, ht, hid]
      · rename_i hid
        refine ⟨⟨h.ar, h.r⟩, .sendAR, .inl rfl, ?_⟩
        simp [CRPort.view, RPort.step, RPort.sendAR, hd, ht, hid]
    · exact stay
  case slaveAR =>
    simp only [CRPort.step]
    unfold CRPort.slaveAR
    split
    · rename_i a hd hs hg hb ha
      obtain ⟨a1, a2⟩ := h.ar.recv ha
      simp only
      split
      · rename_i h1
        refine ⟨⟨h.ar, h.r⟩, .slaveAR, .inl rfl, ?_⟩
        simp [CRPort.view, RPort.step, RPort.slaveAR, a2, hd, hs, h1]
      · rename_i h1
        split
        · rename_i h2
          refine ⟨⟨h.ar, h.r⟩, .slaveAR, .inl rfl, ?_⟩
          simp only [CRPort.view, RPort.step, RPort.slaveAR, a2, hd, hs, if_neg h1, if_pos h2]
        · rename_i h2
          refine ⟨⟨a1, h.r⟩, .slaveAR, .inl rfl, ?_⟩
          simp only [CRPort.view, RPort.step, RPort.slaveAR, a2, hd, hs, if_neg h1, if_neg h2]
    · exact stay
  case slaveR =>
    simp only [CRPort.step]
    unfold CRPort.slaveR
    split
    · rename_i b hd hg hb
      refine ⟨⟨h.ar, (h.r.send hb _).1⟩, _, .inr rfl, ?_⟩
      rw [RPort.step_idle]
      simp only [CRPort.view, hg, (h.r.send hb _).2, Option.toList_some, Option.toList_none, List.append_nil]
    · rename_i s hd hg hs hb
      refine ⟨⟨h.ar, h.r⟩, .slaveR, .inl rfl, ?_⟩
      simp only [CRPort.view, RPort.step, RPort.slaveR, hd, hs, hg, Option.toList_some, Option.toList_none, List.append_nil]
      rfl
    · exact stay
  case deliver =>
    simp only [CRPort.step]
    unfold CRPort.deliver
    split
    · rename_i x ha
      obtain ⟨a1, a2⟩ := h.r.recv ha
      refine ⟨⟨h.ar, a1⟩, .deliver, .inl rfl, ?_⟩
      simp [CRPort.view, RPort.step, RPort.deliver, a2]
    · exact stay

end

/-! ## The system -/

structure CInv {σ : Type} (s : CSys σ) : Prop where
  w : CWInv s.w
  r : CRInv s.r

section

variable {σ : Type} {c : Cfg} {wa : Nat → WArgs} {ra : Nat → Req} {t : Target σ}

theorem CInv.inner {s : CSys σ} (h : CInv s) (k : Chan) (e : Inner) :
    CInv (s.inner k e) ∧ (s.inner k e).view = s.view := by
  cases k
  · obtain ⟨h1, h2⟩ := h.w.aw.inner e
    exact ⟨⟨⟨h1, h.w.w, h.w.b⟩, h.r⟩, by simp only [CSys.inner, CSys.view, CWPort.view, h2]⟩
  · obtain ⟨h1, h2⟩ := h.w.w.inner e
    exact ⟨⟨⟨h.w.aw, h1, h.w.b⟩, h.r⟩, by simp only [CSys.inner, CSys.view, CWPort.view, h2]⟩
  · obtain ⟨h1, h2⟩ := h.w.b.inner e
    exact ⟨⟨⟨h.w.aw, h.w.w, h1⟩, h.r⟩, by simp only [CSys.inner, CSys.view, CWPort.view, h2]⟩
  · obtain ⟨h1, h2⟩ := h.r.ar.inner e
    exact ⟨⟨h.w, ⟨h1, h.r.r⟩⟩, by simp only [CSys.inner, CSys.view, CRPort.view, h2]⟩
  · obtain ⟨h1, h2⟩ := h.r.r.inner e
    exact ⟨⟨h.w, ⟨h.r.ar, h1⟩⟩, by simp only [CSys.inner, CSys.view, CRPort.view, h2]⟩

/-- Nothing happens. -/
def Sys.idle (s : Sys σ) : Ev := .w s.w.idle

theorem Sys.step_idle (s : Sys σ) : s.step c wa ra t s.idle = s := by
  simp only [Sys.idle, Sys.step, WPort.step_idle]

/-- The event with FIFO channels for an event at clock level. -/
theorem CInv.step {s : CSys σ} (h : CInv s) (e : CEv) :
    CInv (s.step c wa ra t e) ∧ ∃ e', (s.step c wa ra t e).view = s.view.step c wa ra t e' := by
  have stay : ∃ e', s.view = s.view.step c wa ra t e' := ⟨_, (Sys.step_idle s.view).symm⟩
  cases e with
  | w e =>
    obtain ⟨h1, e', _, h2⟩ := h.w.step (c := c) (args := wa) (t := t) s.mem e
    refine ⟨⟨h1, h.r⟩, .w e', ?_⟩
    simp only [CSys.step, CSys.view, Sys.step]
    rw [← h2]
  | r e =>
    obtain ⟨h1, e', _, h2⟩ := h.r.step (c := c) (args := ra) (t := t) s.mem e
    refine ⟨⟨h.w, h1⟩, .r e', ?_⟩
    simp only [CSys.step, CSys.view, Sys.step]
    rw [← h2]
  | chan k e =>
    obtain ⟨h1, h2⟩ := h.inner k e
    refine ⟨h1, ?_⟩
    simp only [CSys.step]
    rw [h2]; exact stay
  | tick =>
    simp only [CSys.step]
    split
    · obtain ⟨a1, a2⟩ := h.w.aw.tick
      obtain ⟨b1, b2⟩ := h.w.w.tick
      obtain ⟨c1, c2⟩ := h.w.b.tick
      obtain ⟨d1, d2⟩ := h.r.ar.tick
      obtain ⟨e1, e2⟩ := h.r.r.tick
      refine ⟨⟨⟨a1, b1, c1⟩, ⟨d1, e1⟩⟩, ?_⟩
      simp only [CSys.all, CSys.view, CWPort.view, CRPort.view, a2, b2, c2, d2, e2]
      exact stay
    · exact ⟨h, stay⟩
  | commit =>
    simp only [CSys.step]
    split
    · obtain ⟨a1, a2⟩ := h.w.aw.commit
      obtain ⟨b1, b2⟩ := h.w.w.commit
      obtain ⟨c1, c2⟩ := h.w.b.commit
      obtain ⟨d1, d2⟩ := h.r.ar.commit
      obtain ⟨e1, e2⟩ := h.r.r.commit
      refine ⟨⟨⟨a1, b1, c1⟩, ⟨d1, e1⟩⟩, ?_⟩
      simp only [CSys.all, CSys.view, CWPort.view, CRPort.view, a2, b2, c2, d2, e2]
      exact stay
    · exact ⟨h, stay⟩

end

end Verif.AxiSys
