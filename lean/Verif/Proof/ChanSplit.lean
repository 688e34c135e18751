import Verif.Model.ChanSplit
import Verif.Proof.AxiClock
import Verif.Proof.AxiClockFair

/-!
# Resetting one end of an empty channel
-/

namespace Verif.AxiSys

open Verif.Stream (Net NetCfg NetEv NetInv Src Snk SrcInv SnkInv)

variable {α : Type}

theorem ChanInv.downSrc {s : Net α} (h : ChanInv s) (hc : content s = []) :
    ChanInv (downSrc s) ∧ content (AxiSys.downSrc s) = [] := by
  simp only [content, List.append_eq_nil_iff] at hc
  obtain ⟨⟨⟨⟨h1, h2⟩, h3⟩, h4⟩, h5⟩ := hc
  have hp : ∀ t : Net α, t.snk.pc = s.snk.pc → t.snk.ready = s.snk.ready → t.src.valid = s.src.valid → t.src.data = s.src.data →
      t.pend chanCfg = [] := by
    intro t e1 e2 e3 e4
    simp only [Net.pend, Net.xfer, chanCfg, Bool.not_true, Bool.false_or, e1, e2, e3, e4]
    exact h2
  refine ⟨⟨⟨?_, ?_, ?_, ?_, ?_, ?_, ?_⟩, ?_⟩, ?_⟩
  · constructor <;> simp [AxiSys.downSrc, Src.clear, Src.reset, Src.setDeq]
    simp [chanCfg, NetCfg.src]
  · have := h.net.snk
    exact ⟨this.off, this.room, this.lim, this.due, this.sleep⟩
  · simp [AxiSys.downSrc]
  · simp [AxiSys.downSrc, Src.reset]
  · simp [chanCfg]
  · have := hp (AxiSys.downSrc s) rfl rfl rfl rfl
    simp only [Stream.Acc, if_true, this]
    simp [Net.onBus, AxiSys.downSrc, Src.clear, Src.reset, Src.setDeq]
  · simp [Stream.Acc, AxiSys.downSrc, h1]
  · simp [AxiSys.downSrc]
  · simp only [content, List.append_eq_nil_iff]
    refine ⟨⟨⟨⟨h1, h2⟩, ?_⟩, ?_⟩, ?_⟩ <;> simp [AxiSys.downSrc, Src.clear, Src.reset, Src.setDeq]

theorem ChanInv.downSnk {s : Net α} (h : ChanInv s) (hc : content s = []) :
    ChanInv (downSnk s) ∧ content (AxiSys.downSnk s) = [] := by
  simp only [content, List.append_eq_nil_iff] at hc
  obtain ⟨⟨⟨⟨h1, h2⟩, h3⟩, h4⟩, h5⟩ := hc
  refine ⟨⟨⟨?_, ?_, ?_, ?_, ?_, ?_, ?_⟩, h.one⟩, ?_⟩
  · have := h.net.src
    exact ⟨this.quiet, this.sleep, this.act, this.data, this.wait, this.bound, this.idle⟩
  · constructor <;> simp [AxiSys.downSnk, Snk.clear, Snk.reset]
    simp [chanCfg, NetCfg.snk]
  · simp [AxiSys.downSnk]
  · exact h.net.due
  · simp [chanCfg]
  · simp only [Stream.Acc, if_true]
    rw [Stream.net_pend_not_due _ _ (by simp [AxiSys.downSnk, Snk.reset])]
    have : (AxiSys.downSnk s).onBus chanCfg = [] := by
      simp only [Net.onBus, Net.xfer, chanCfg, Bool.not_true, Bool.false_or]
      exact h3
    simp only [this]
    simp [AxiSys.downSnk, h4]
  · simp [Stream.Acc, AxiSys.downSnk, Snk.clear, Snk.reset]
  · simp only [content, List.append_eq_nil_iff]
    refine ⟨⟨⟨⟨?_, ?_⟩, h3⟩, h4⟩, h5⟩ <;> simp [AxiSys.downSnk, Snk.clear, Snk.reset]

theorem ChanInv.upSrc {s : Net α} (h : ChanInv s) : ChanInv (upSrc s) ∧ content (AxiSys.upSrc s) = content s := by
  have hn : NetInv chanCfg true (AxiSys.upSrc s) := h.net.step (.srcReset false) (fun _ => rfl)
  have key : (AxiSys.upSrc s).snk.got = s.snk.got ∧ (AxiSys.upSrc s).src.sent = s.src.sent ∧
      (AxiSys.upSrc s).src.waiters = s.src.waiters := by
    simp only [AxiSys.upSrc, Src.reset, Bool.false_eq_true, if_false]
    refine ⟨trivial, ?_, ?_⟩ <;> split <;> rfl
  have hc : ChanInv (AxiSys.upSrc s) := ⟨hn, by rw [key.2.2]; exact h.one⟩
  exact ⟨hc, content_same h hc key.1 (by rw [key.2.1, key.2.2])⟩

theorem ChanInv.upSnk {s : Net α} (h : ChanInv s) : ChanInv (upSnk s) ∧ content (AxiSys.upSnk s) = content s := by
  have hn : NetInv chanCfg true (AxiSys.upSnk s) := h.net.step (.snkReset false) (fun _ => rfl)
  have key : (AxiSys.upSnk s).snk.got = s.snk.got := by
    simp only [AxiSys.upSnk, Snk.reset, Bool.false_eq_true, if_false]
    split <;> rfl
  have hc : ChanInv (AxiSys.upSnk s) := ⟨hn, h.one⟩
  exact ⟨hc, content_same h hc key rfl⟩

/-! ## Which ends run -/

/-- `ChanLive`, and the ends that are out of reset run. -/
structure ChanHalf (a b : Bool) (s : Net α) : Prop where
  live : ChanLive s
  src : a = true → s.src.pc ≠ .off
  snk : b = true → s.snk.pc ≠ .off

theorem ChanHalf.fine {a b : Bool} {s : Net α} (h : ChanHalf a b s) (hab : a = true → b = true) : ChanFine a s :=
  ⟨h.live, fun ha => ⟨h.src ha, h.snk (hab ha)⟩⟩

theorem ChanHalf.fine' {a b : Bool} {s : Net α} (h : ChanHalf a b s) (hab : b = true → a = true) : ChanFine b s :=
  ⟨h.live, fun ha => ⟨h.src (hab ha), h.snk ha⟩⟩

theorem ChanHalf.init : ChanHalf false false ({} : Net α) := ⟨.init, by simp, by simp⟩

theorem src_on {s : Net α} (ha : s.src.pc ≠ .off) (e : NetEv α) (he : e ≠ .srcReset true) : (s.step chanCfg e).src.pc ≠ .off := by
  cases e
  case tick => simp only [Net.step]; split; (rwa [Ne, Stream.tick_off]); exact ha
  case srcRun =>
    simp only [Net.step]
    split
    · simp only
      unfold Src.run
      simp only
      repeat' split
      all_goals simp
    · exact ha
  case srcWake => simp only [Net.step]; split; (simp); exact ha
  case srcReset v =>
    cases v
    · simp only [Net.step, Src.reset, Bool.false_eq_true, if_false]
      split
      · simp
      · exact ha
    · exact absurd rfl he
  case send x =>
    simp only [Net.step, Src.send]
    split
    · exact ha
    · simpa [Src.put, Stream.wakeUp_off] using ha
  case sendNowait x =>
    simp only [Net.step, Src.sendNowait]
    split
    · exact ha
    · simpa [Src.put, Stream.wakeUp_off] using ha
  case resume i =>
    simp only [Net.step, Src.resume]
    repeat' split
    · exact ha
    · simpa [Src.put, Stream.wakeUp_off] using ha
    · exact ha
  case snkRun => simp only [Net.step]; split <;> exact ha
  case snkWake => simp only [Net.step]; split <;> exact ha
  case snkSpurious => simp only [Net.step]; split <;> exact ha
  case commit => simp only [Net.step]; split <;> exact ha
  all_goals exact ha

theorem snk_on {s : Net α} (hb : s.snk.pc ≠ .off) (e : NetEv α) (he : e ≠ .snkReset true) : (s.step chanCfg e).snk.pc ≠ .off := by
  cases e
  case tick => simp only [Net.step]; split; (rwa [Ne, Stream.tick_off]); exact hb
  case snkRun => simp only [Net.step]; split; (exact finish_on); exact hb
  case snkWake => simp only [Net.step]; split; (simp [Snk.top]); exact hb
  case snkSpurious => simp only [Net.step]; split; (simp [Snk.top]); exact hb
  case commit =>
    simp only [Net.step]
    split
    · simp only
      split
      · exact fun hh => hb (Stream.setWake_off.1 hh)
      · exact hb
    · exact hb
  case recv => exact fun hh => hb ((Stream.recv_facts s.snk).2.1.1 hh)
  case snkPause v => exact fun hh => hb ((Stream.setPause_facts s.snk v).2.1.1 hh)
  case snkReset v =>
    cases v
    · simp only [Net.step, Snk.reset, Bool.false_eq_true, if_false]
      split
      · simp
      · exact hb
    · exact absurd rfl he
  case srcRun => simp only [Net.step]; split <;> exact hb
  case srcWake => simp only [Net.step]; split <;> exact hb
  all_goals exact hb

section

variable {a b : Bool} {s : Net α}

theorem ChanHalf.step (h : ChanHalf a b s) (e : NetEv α) (h1 : e ≠ .srcReset true) (h2 : e ≠ .snkReset true) (h3 : e ≠ .snkClear) :
    ChanHalf a b (s.step chanCfg e) :=
  ⟨h.live.step e h3, fun ha => src_on (h.src ha) e h1, fun hb => snk_on (h.snk hb) e h2⟩

theorem ChanHalf.send (h : ChanHalf a b s) (x : α) : ChanHalf a b (s.step chanCfg (.send x)) := h.step _ (by simp) (by simp) (by simp)
theorem ChanHalf.recv (h : ChanHalf a b s) : ChanHalf a b (s.step chanCfg .recv) := h.step _ (by simp) (by simp) (by simp)
theorem ChanHalf.tick (h : ChanHalf a b s) : ChanHalf a b (s.step chanCfg .tick) := h.step _ (by simp) (by simp) (by simp)
theorem ChanHalf.commit (h : ChanHalf a b s) : ChanHalf a b (s.step chanCfg .commit) := h.step _ (by simp) (by simp) (by simp)

theorem ChanHalf.inner (h : ChanHalf a b s) (e : Inner) : ChanHalf a b (e.step s) := by
  cases e <;> simp only [Inner.step]
  case resume => split; (exact h.step _ (by simp) (by simp) (by simp)); exact h
  all_goals exact h.step _ (by simp) (by simp) (by simp)

theorem ChanHalf.reset (s : Net α) : ChanHalf false false (resetNet s) := ⟨.reset s, by simp, by simp⟩

theorem ChanHalf.started (h : ChanHalf a b s) : ChanHalf true true (startNet s) :=
  ⟨h.live.started, fun _ => (ChanOn.started s).1, fun _ => (ChanOn.started s).2⟩

theorem ChanHalf.downSrc (h : ChanHalf a b s) : ChanHalf false b (downSrc s) := ⟨⟨h.live.live, h.live.sample⟩, by simp, h.snk⟩

theorem ChanHalf.downSnk (h : ChanHalf a b s) : ChanHalf a false (downSnk s) :=
  ⟨⟨fun hp => by simp [AxiSys.downSnk, Snk.reset] at hp, fun hp => by simp [AxiSys.downSnk, Snk.reset] at hp⟩, h.src, by simp⟩

theorem ChanHalf.upSrc (h : ChanHalf a b s) : ChanHalf true b (upSrc s) :=
  ⟨h.live.step (.srcReset false) (by simp), fun _ => (ChanOn.started s).1, h.snk⟩

theorem ChanHalf.upSnk (h : ChanHalf a b s) : ChanHalf a true (upSnk s) :=
  ⟨h.live.step (.snkReset false) (by simp), h.src, fun _ => (ChanOn.started s).2⟩

end

end Verif.AxiSys
