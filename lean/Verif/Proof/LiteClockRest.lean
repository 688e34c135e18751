import Verif.Proof.AxiClockRest
import Verif.Proof.LiteClock
import Verif.Proof.LiteProgress

/-!
# The clock-level AXI-lite system comes to rest (C99)
-/

namespace Verif.LiteOps

open Verif.AxiSys (chanCfg Inner Chan blocked avail content resetNet startNet canTick canCommit ChanInv ChanFine ChanOn ChanLive
  calm flags Unp)
open Verif.Stream (Net NetEv)

variable {χ α β ρ χ' ρ' σ : Type}

/-! ## The channels of a running system -/

theorem Lite.step_running (s : Lite χ ρ) (e : Ev χ ρ) (h : ∀ v, e ≠ .reset v) : (s.step e).running = s.running := by
  cases e with
  | write op => rfl
  | init op => rfl
  | runInit i => simp only [Lite.step]; split <;> rfl
  | take => simp only [Lite.step, Lite.take]; split <;> rfl
  | send => simp only [Lite.step, Lite.send]; split <;> rfl
  | resp r => simp only [Lite.step, Lite.resp]; split <;> rfl
  | respTake => simp only [Lite.step, Lite.respTake]; split <;> rfl
  | respGet => simp only [Lite.step, Lite.respGet]; split <;> rfl
  | respDone => simp only [Lite.step, Lite.respDone]; split <;> rfl
  | reset v => exact absurd rfl (h v)

theorem own_reset {e : Ev χ ρ} (h : own e = true) : ∀ v, e ≠ .reset v := by
  rintro v rfl
  simp [own] at h

structure ClkWFine (p : ClkW χ α β ρ) : Prop where
  aw : ChanFine p.m.running p.aw
  w : ChanFine p.m.running p.w
  b : ChanFine p.m.running p.b

structure ClkRFine (p : ClkR χ ρ) : Prop where
  ar : ChanFine p.m.running p.ar
  r : ChanFine p.m.running p.r

theorem ClkWFine.of {p q : ClkW χ α β ρ} (h : q.m.running = p.m.running) (h1 : ChanFine p.m.running q.aw)
    (h2 : ChanFine p.m.running q.w) (h3 : ChanFine p.m.running q.b) : ClkWFine q := ⟨h ▸ h1, h ▸ h2, h ▸ h3⟩

theorem ClkRFine.of {p q : ClkR χ ρ} (h : q.m.running = p.m.running) (h1 : ChanFine p.m.running q.ar)
    (h2 : ChanFine p.m.running q.r) : ClkRFine q := ⟨h ▸ h1, h ▸ h2⟩

theorem ClkWFine.step {h : Halves χ α β} {f : χ → σ → ρ × σ} {p : ClkW χ α β ρ} (hi : ClkWFine p) (mem : σ) (e : ClkWEv χ ρ) :
    ClkWFine (p.step h f mem e).1 := by
  cases e with
  | master e =>
    simp only [ClkW.step]
    rcases ClkW.master_eq p e with h0 | ⟨ho, h0⟩
    · rw [h0]; exact hi
    · rw [h0]; exact .of (Lite.step_running _ _ (own_reset ho)) hi.aw hi.w hi.b
  | sendAW =>
    simp only [ClkW.step]
    unfold ClkW.sendAW
    split
    · exact ⟨hi.aw.send _, hi.w, hi.b⟩
    · exact hi
  | sendW =>
    simp only [ClkW.step]
    unfold ClkW.sendW
    split
    · exact .of (Lite.step_running _ _ (by simp)) hi.aw (hi.w.send _) hi.b
    · exact hi
  | slaveAW =>
    simp only [ClkW.step]
    unfold ClkW.slaveAW
    split
    · exact ⟨hi.aw.recv, hi.w, hi.b⟩
    · exact hi
  | slaveW =>
    simp only [ClkW.step]
    unfold ClkW.slaveW
    simp only
    repeat' split
    all_goals first | exact hi | exact ⟨hi.aw, hi.w, hi.b.send _⟩ | exact ⟨hi.aw, hi.w.recv, hi.b⟩ | exact ⟨hi.aw, hi.w, hi.b⟩
  | deliver =>
    simp only [ClkW.step]
    unfold ClkW.deliver
    split
    · exact .of (Lite.step_running _ _ (by simp)) hi.aw hi.w hi.b.recv
    · exact hi
  | reset v =>
    cases v
    · exact ⟨⟨hi.aw.live.started, fun _ => .started _⟩, ⟨hi.w.live.started, fun _ => .started _⟩,
        ⟨hi.b.live.started, fun _ => .started _⟩⟩
    · refine ⟨⟨.reset _, ?_⟩, ⟨.reset _, ?_⟩, ⟨.reset _, ?_⟩⟩ <;>
        (intro hh; simp [ClkW.step, ClkW.reset, Lite.step, Lite.reset] at hh)

theorem ClkRFine.step {f : χ → σ → ρ × σ} {p : ClkR χ ρ} (hi : ClkRFine p) (mem : σ) (e : ClkREv χ ρ) :
    ClkRFine (p.step f mem e).1 := by
  cases e with
  | master e =>
    simp only [ClkR.step]
    rcases ClkR.master_eq p e with h0 | ⟨ho, h0⟩
    · rw [h0]; exact hi
    · rw [h0]; exact .of (Lite.step_running _ _ (own_reset ho)) hi.ar hi.r
  | sendAR =>
    simp only [ClkR.step]
    unfold ClkR.sendAR
    split
    · exact .of (Lite.step_running _ _ (by simp)) (hi.ar.send _) hi.r
    · exact hi
  | slaveR =>
    simp only [ClkR.step]
    unfold ClkR.slaveR
    simp only
    repeat' split
    all_goals first | exact hi | exact ⟨hi.ar, hi.r.send _⟩ | exact ⟨hi.ar.recv, hi.r⟩ | exact ⟨hi.ar, hi.r⟩
  | deliver =>
    simp only [ClkR.step]
    unfold ClkR.deliver
    split
    · exact .of (Lite.step_running _ _ (by simp)) hi.ar hi.r.recv
    · exact hi
  | reset v =>
    cases v
    · exact ⟨⟨hi.ar.live.started, fun _ => .started _⟩, ⟨hi.r.live.started, fun _ => .started _⟩⟩
    · refine ⟨⟨.reset _, ?_⟩, ⟨.reset _, ?_⟩⟩ <;>
        (intro hh; simp [ClkR.step, ClkR.reset, Lite.step, Lite.reset] at hh)

structure ClkFine (s : Clk χ α β ρ χ' ρ' σ) : Prop where
  w : ClkWFine s.w
  r : ClkRFine s.r

theorem ClkFine.init (m0 : σ) : ClkFine ({ mem := m0 } : Clk χ α β ρ χ' ρ' σ) :=
  have h : ∀ {α : Type}, ChanFine false ({} : Net α) := ⟨.init, fun h => nomatch h⟩
  ⟨⟨h, h, h⟩, h, h⟩

variable {h : Halves χ α β} {f : χ → σ → ρ × σ} {g : χ' → σ → ρ' × σ}

theorem ClkFine.step {s : Clk χ α β ρ χ' ρ' σ} (hi : ClkFine s) (e : ClkEv χ ρ χ' ρ') : ClkFine (s.step h f g e) := by
  cases e with
  | w e => exact ⟨hi.w.step _ e, hi.r⟩
  | r e => exact ⟨hi.w, hi.r.step _ e⟩
  | chan k e =>
    cases k
    · exact ⟨⟨hi.w.aw.inner e, hi.w.w, hi.w.b⟩, hi.r⟩
    · exact ⟨⟨hi.w.aw, hi.w.w.inner e, hi.w.b⟩, hi.r⟩
    · exact ⟨⟨hi.w.aw, hi.w.w, hi.w.b.inner e⟩, hi.r⟩
    · exact ⟨hi.w, ⟨hi.r.ar.inner e, hi.r.r⟩⟩
    · exact ⟨hi.w, ⟨hi.r.ar, hi.r.r.inner e⟩⟩
  | tick =>
    simp only [Clk.step]
    split
    · exact ⟨⟨hi.w.aw.tick, hi.w.w.tick, hi.w.b.tick⟩, hi.r.ar.tick, hi.r.r.tick⟩
    · exact hi
  | commit =>
    simp only [Clk.step]
    split
    · exact ⟨⟨hi.w.aw.commit, hi.w.w.commit, hi.w.b.commit⟩, hi.r.ar.commit, hi.r.r.commit⟩
    · exact hi

/-! ## What `view` does not show -/

/-- How far the AW transaction of a transfer is ahead of the W transaction, and how far the slave is with its accesses. -/
def ClkW.ahead (p : ClkW χ α β ρ) : Bool × Option α × Option β × Option ρ := (p.awSent, p.sl, p.held, p.got)

/-- How far the slave is with its accesses. -/
def ClkR.ahead (p : ClkR χ ρ) : Option χ × Option ρ := (p.held, p.got)

/-- The system with FIFO channels, and what that does not show. -/
def Clk.xview (h : Halves χ α β) (s : Clk χ α β ρ χ' ρ' σ) :
    Duo χ ρ χ' ρ' σ × (Bool × Option α × Option β × Option ρ) × Option χ' × Option ρ' := (s.view h, s.w.ahead, s.r.ahead)

/-- What is left to do of it. -/
def ClkW.lag (x : Bool × Option α × Option β × Option ρ) : Nat :=
  (!x.1).toNat + (!x.2.1.isSome).toNat + (!x.2.2.1.isSome).toNat + x.2.2.2.isSome.toNat

def ClkR.lag (x : Option χ × Option ρ) : Nat := (!x.1.isSome).toNat + x.2.isSome.toNat

theorem ClkW.lag_le (x : Bool × Option α × Option β × Option ρ) : ClkW.lag x ≤ 4 := by
  unfold ClkW.lag
  have h1 := Bool.toNat_le (!x.1)
  have h2 := Bool.toNat_le (!x.2.1.isSome)
  have h3 := Bool.toNat_le (!x.2.2.1.isSome)
  have h4 := Bool.toNat_le x.2.2.2.isSome
  omega

theorem ClkR.lag_le (x : Option χ × Option ρ) : ClkR.lag x ≤ 2 := by
  unfold ClkR.lag
  have h1 := Bool.toNat_le (!x.1.isSome)
  have h2 := Bool.toNat_le x.2.isSome
  omega

/-- A piece of a coroutine that changes nothing in the view brings something forward that the view does not show, or changes nothing. -/
theorem ClkWInv.small {p : ClkW χ α β ρ} (hi : ClkWInv h p) (mem : σ) (e : ClkWEv χ ρ) (he : e.progress = true)
    (hv : (p.step h f mem e).1.view h = p.view h) :
    (p.step h f mem e).1 = p ∨ ClkW.lag (p.step h f mem e).1.ahead < ClkW.lag p.ahead := by
  cases e with
  | master e =>
    left
    simp only [ClkW.step] at hv ⊢
    rcases ClkW.master_eq p e with h0 | ⟨ho, h0⟩
    · exact h0
    · rw [h0] at hv ⊢
      have : p.m.step e = p.m := congrArg Port.m hv
      rw [this]
  | sendAW =>
    simp only [ClkW.step]
    unfold ClkW.sendAW
    split
    · rename_i ha _; right; simp [ClkW.lag, ClkW.ahead, ha] <;> omega
    · exact .inl rfl
  | sendW =>
    simp only [ClkW.step] at hv ⊢
    unfold ClkW.sendW at hv ⊢
    split
    · rename_i op x rem hr hc ha hs
      simp only [hr, hc, ha, hs] at hv
      have h1 := congrArg (fun q : Port χ ρ => q.m.sent.length) hv
      simp [ClkW.view, Lite.step, Lite.send, hr, hc] at h1
    · exact .inl rfl
  | slaveAW =>
    simp only [ClkW.step]
    unfold ClkW.slaveAW
    split
    · rename_i a hs _ _ _; right; simp [ClkW.lag, ClkW.ahead, hs] <;> omega
    · exact .inl rfl
  | slaveW =>
    simp only [ClkW.step] at hv ⊢
    unfold ClkW.slaveW at hv ⊢
    split
    · rename_i r hg
      split
      · right; simp [ClkW.lag, ClkW.ahead, hg]
      · exact .inl rfl
    · rename_i a hg hs hh
      split
      · right; simp [ClkW.lag, ClkW.ahead, hs, hg, hh]
      · exact .inl rfl
    · rename_i a x hg hs hh
      simp only [hg, hs, hh] at hv
      have h1 := congrArg (fun q : Port χ ρ => q.rsp.length) hv
      simp [ClkW.view, hg] at h1
    · exact .inl rfl
  | deliver =>
    simp only [ClkW.step] at hv ⊢
    unfold ClkW.deliver at hv ⊢
    split
    · rename_i r hs ha
      simp only [hs, ha] at hv
      have h1 := congrArg (fun q : Port χ ρ => q.rsp.length) hv
      simp [ClkW.view, (hi.b.recv ha).2] at h1
    · exact .inl rfl
  | reset v => simp [ClkWEv.progress] at he

theorem ClkRInv.small {p : ClkR χ ρ} {f : χ → σ → ρ × σ} (hi : ClkRInv p) (mem : σ) (e : ClkREv χ ρ) (he : e.progress = true)
    (hv : (p.step f mem e).1.view = p.view) :
    (p.step f mem e).1 = p ∨ ClkR.lag (p.step f mem e).1.ahead < ClkR.lag p.ahead := by
  cases e with
  | master e =>
    left
    simp only [ClkR.step] at hv ⊢
    rcases ClkR.master_eq p e with h0 | ⟨ho, h0⟩
    · exact h0
    · rw [h0] at hv ⊢
      have : p.m.step e = p.m := congrArg Port.m hv
      rw [this]
  | sendAR =>
    simp only [ClkR.step] at hv ⊢
    unfold ClkR.sendAR at hv ⊢
    split
    · rename_i op x rem hr hc hs
      simp only [hr, hc, hs] at hv
      have h1 := congrArg (fun q : Port χ ρ => q.m.sent.length) hv
      simp [ClkR.view, Lite.step, Lite.send, hr, hc] at h1
    · exact .inl rfl
  | slaveR =>
    simp only [ClkR.step] at hv ⊢
    unfold ClkR.slaveR at hv ⊢
    split
    · rename_i r hg hb
      right; simp [ClkR.lag, ClkR.ahead, hg]
    · rename_i hg hh hb
      split
      · right; simp [ClkR.lag, ClkR.ahead, hg, hh]
      · exact .inl rfl
    · rename_i x hg hh
      simp only [hg, hh] at hv
      have h1 := congrArg (fun q : Port χ ρ => q.rsp.length) hv
      simp [ClkR.view, hg] at h1
    · exact .inl rfl
  | deliver =>
    simp only [ClkR.step] at hv ⊢
    unfold ClkR.deliver at hv ⊢
    split
    · rename_i r hs ha
      simp only [hs, ha] at hv
      have h1 := congrArg (fun q : Port χ ρ => q.rsp.length) hv
      simp [ClkR.view, (hi.r.recv ha).2] at h1
    · exact .inl rfl
  | reset v => simp [ClkREv.progress] at he

/-- What is left to do that the view does not show. -/
def Clk.lag (s : Clk χ α β ρ χ' ρ' σ) : Nat := ClkW.lag s.w.ahead + ClkR.lag s.r.ahead

theorem Clk.lag_le (s : Clk χ α β ρ χ' ρ' σ) : s.lag ≤ 6 := Nat.add_le_add (ClkW.lag_le _) (ClkR.lag_le _)

theorem ClkInv.inner_aw {s : Clk χ α β ρ χ' ρ' σ} (k : Chan) (e : Inner) :
    (s.inner k e).w.ahead = s.w.ahead ∧ (s.inner k e).r.ahead = s.r.ahead ∧ (s.inner k e).w.m = s.w.m := by
  cases k <;> exact ⟨rfl, rfl, rfl⟩

/-- An event that changes nothing in the view. -/
theorem ClkInv.small {s : Clk χ α β ρ χ' ρ' σ} (hi : ClkInv h s) (e : ClkEv χ ρ χ' ρ') (he : e.quiet = true)
    (hv : (s.step h f g e).view h = s.view h) :
    (s.step h f g e).xview h = s.xview h ∨ (s.step h f g e).lag < s.lag := by
  have hx : (s.step h f g e).w.ahead = s.w.ahead → (s.step h f g e).r.ahead = s.r.ahead →
      (s.step h f g e).xview h = s.xview h := by
    intro h1 h2
    simp only [Clk.xview, hv, h1, h2]
  cases e with
  | w e =>
    rcases hi.w.small (f := f) s.mem e he (congrArg Duo.w hv) with h1 | h1
    · left
      apply hx
      · simp only [Clk.step, h1]
      · rfl
    · right
      exact Nat.add_lt_add_right h1 _
  | r e =>
    rcases hi.r.small (f := g) s.mem e he (congrArg Duo.r hv) with h1 | h1
    · left
      apply hx
      · rfl
      · simp only [Clk.step, h1]
    · right
      exact Nat.add_lt_add_left h1 _
  | chan k e => exact .inl (hx (ClkInv.inner_aw k e).1 (ClkInv.inner_aw k e).2.1)
  | tick =>
    left
    apply hx
    · simp only [Clk.step]; split <;> rfl
    · simp only [Clk.step]; split <;> rfl
  | commit =>
    left
    apply hx
    · simp only [Clk.step]; split <;> rfl
    · simp only [Clk.step]; split <;> rfl

/-- A piece of a coroutine of a master or slave that changes nothing that is seen changes nothing. -/
theorem ClkInv.same {s : Clk χ α β ρ χ' ρ' σ} (hi : ClkInv h s) (e : ClkEv χ ρ χ' ρ') (he : e.quiet = true)
    (hv : (s.step h f g e).xview h = s.xview h)
    (hp : (∃ e', e = .w e') ∨ ∃ e', e = .r e') : s.step h f g e = s := by
  have h0 := congrArg (fun x => x.1) hv
  have h1 := congrArg Duo.w h0
  have h2 := congrArg Duo.mem h0
  have h3 := congrArg Duo.r h0
  rcases hp with ⟨e, rfl⟩ | ⟨e, rfl⟩
  · have a1 : (s.w.step h f s.mem e).1.ahead = s.w.ahead := congrArg (fun x => x.2.1) hv
    have h4 : (s.w.step h f s.mem e).1 = s.w := by
      rcases hi.w.small (f := f) s.mem e he h1 with h5 | h5
      · exact h5
      · rw [a1] at h5; omega
    have h5 : (s.w.step h f s.mem e).2 = s.mem := h2
    simp only [Clk.step, h4, h5]
  · have a1 : (s.r.step g s.mem e).1.ahead = s.r.ahead := congrArg (fun x => x.2.2) hv
    have h4 : (s.r.step g s.mem e).1 = s.r := by
      rcases hi.r.small (f := g) s.mem e he h3 with h5 | h5
      · exact h5
      · rw [a1] at h5; omega
    have h5 : (s.r.step g s.mem e).2 = s.mem := h2
    simp only [Clk.step, h4, h5]

/-! ## The values of `pause` -/

theorem flags_w {p : ClkW χ α β ρ} (mem : σ) (e : ClkWEv χ ρ) (he : e.progress = true) :
    flags (p.step h f mem e).1.aw = flags p.aw ∧ flags (p.step h f mem e).1.w = flags p.w ∧
      flags (p.step h f mem e).1.b = flags p.b := by
  cases e with
  | master e =>
    simp only [ClkW.step]
    rcases ClkW.master_eq p e with h0 | ⟨ho, h0⟩ <;> rw [h0] <;> exact ⟨rfl, rfl, rfl⟩
  | sendAW =>
    simp only [ClkW.step]
    unfold ClkW.sendAW
    split
    · exact ⟨AxiSys.flags_send _ _, rfl, rfl⟩
    · exact ⟨rfl, rfl, rfl⟩
  | sendW =>
    simp only [ClkW.step]
    unfold ClkW.sendW
    split
    · exact ⟨rfl, AxiSys.flags_send _ _, rfl⟩
    · exact ⟨rfl, rfl, rfl⟩
  | slaveAW =>
    simp only [ClkW.step]
    unfold ClkW.slaveAW
    split
    · exact ⟨AxiSys.flags_recv _, rfl, rfl⟩
    · exact ⟨rfl, rfl, rfl⟩
  | slaveW =>
    simp only [ClkW.step]
    unfold ClkW.slaveW
    simp only
    repeat' split
    all_goals first | exact ⟨rfl, rfl, rfl⟩ | exact ⟨rfl, AxiSys.flags_recv _, rfl⟩ | exact ⟨rfl, rfl, AxiSys.flags_send _ _⟩
  | deliver =>
    simp only [ClkW.step]
    unfold ClkW.deliver
    split
    · exact ⟨rfl, rfl, AxiSys.flags_recv _⟩
    · exact ⟨rfl, rfl, rfl⟩
  | reset v => simp [ClkWEv.progress] at he

theorem flags_r {f : χ → σ → ρ × σ} {p : ClkR χ ρ} (mem : σ) (e : ClkREv χ ρ) (he : e.progress = true) :
    flags (p.step f mem e).1.ar = flags p.ar ∧ flags (p.step f mem e).1.r = flags p.r := by
  cases e with
  | master e =>
    simp only [ClkR.step]
    rcases ClkR.master_eq p e with h0 | ⟨ho, h0⟩ <;> rw [h0] <;> exact ⟨rfl, rfl⟩
  | sendAR =>
    simp only [ClkR.step]
    unfold ClkR.sendAR
    split
    · exact ⟨AxiSys.flags_send _ _, rfl⟩
    · exact ⟨rfl, rfl⟩
  | slaveR =>
    simp only [ClkR.step]
    unfold ClkR.slaveR
    simp only
    repeat' split
    all_goals first | exact ⟨rfl, rfl⟩ | exact ⟨AxiSys.flags_recv _, rfl⟩ | exact ⟨rfl, AxiSys.flags_send _ _⟩
  | deliver =>
    simp only [ClkR.step]
    unfold ClkR.deliver
    split
    · exact ⟨rfl, AxiSys.flags_recv _⟩
    · exact ⟨rfl, rfl⟩
  | reset v => simp [ClkREv.progress] at he

/-- The values of `pause` at all ends. -/
def Clk.flags (s : Clk χ α β ρ χ' ρ' σ) : List (Bool × Bool) :=
  [AxiSys.flags s.w.aw, AxiSys.flags s.w.w, AxiSys.flags s.w.b, AxiSys.flags s.r.ar, AxiSys.flags s.r.r]

theorem unpaused_iff {s : Clk χ α β ρ χ' ρ' σ} : Unpaused s ↔ s.flags = List.replicate 5 (false, false) := by
  simp only [Clk.flags, AxiSys.flags, List.replicate, List.cons.injEq, Prod.mk.injEq, and_true]
  exact ⟨fun ⟨a, b, c, d, e⟩ => ⟨a, b, c, d, e⟩, fun ⟨a, b, c, d, e⟩ => ⟨a, b, c, d, e⟩⟩

theorem Clk.step_flags (s : Clk χ α β ρ χ' ρ' σ) (e : ClkEv χ ρ χ' ρ') (he : e.progress = true) :
    (s.step h f g e).flags = s.flags := by
  cases e with
  | w e =>
    obtain ⟨h1, h2, h3⟩ := flags_w (h := h) (f := f) (p := s.w) s.mem e he
    simp only [Clk.flags, Clk.step, h1, h2, h3]
  | r e =>
    obtain ⟨h1, h2⟩ := flags_r (f := g) (p := s.r) s.mem e he
    simp only [Clk.flags, Clk.step, h1, h2]
  | chan k e => cases k <;> simp only [Clk.flags, Clk.step, Clk.inner, AxiSys.flags_inner _ e he]
  | tick =>
    simp only [Clk.step]
    split
    · simp only [Clk.flags, Clk.all, AxiSys.flags_all]
    · rfl
  | commit =>
    simp only [Clk.step]
    split
    · simp only [Clk.flags, Clk.all, AxiSys.flags_all]
    · rfl

theorem Unpaused.step {s : Clk χ α β ρ χ' ρ' σ} (hu : Unpaused s) (e : ClkEv χ ρ χ' ρ') (he : e.progress = true) :
    Unpaused (s.step h f g e) := by
  rw [unpaused_iff, Clk.step_flags s e he, ← unpaused_iff]
  exact hu

theorem ClkEv.quiet_of {e : ClkEv χ ρ χ' ρ'} (h : e.progress = true) : e.quiet = true := by cases e <;> first | exact h | rfl

/-! ## One event -/

/-- All channels do something of their own, or nothing. -/
structure AllQuiet (s s' : Clk χ α β ρ χ' ρ' σ) : Prop where
  aw : AxiSys.Quiet s.w.aw s'.w.aw
  w : AxiSys.Quiet s.w.w s'.w.w
  b : AxiSys.Quiet s.w.b s'.w.b
  ar : AxiSys.Quiet s.r.ar s'.r.ar
  r : AxiSys.Quiet s.r.r s'.r.r

theorem AllQuiet.refl (s : Clk χ α β ρ χ' ρ' σ) : AllQuiet s s := ⟨.stay, .stay, .stay, .stay, .stay⟩

/-- Every channel is ready for the edge. -/
def ticks (s : Clk χ α β ρ χ' ρ' σ) : Bool :=
  canTick s.w.aw && canTick s.w.w && canTick s.w.b && canTick s.r.ar && canTick s.r.r

theorem quiet_inner (s : Clk χ α β ρ χ' ρ' σ) (k : Chan) (e : Inner) : AllQuiet s (s.inner k e) := by
  cases k
  · exact ⟨.inner e, .stay, .stay, .stay, .stay⟩
  · exact ⟨.stay, .inner e, .stay, .stay, .stay⟩
  · exact ⟨.stay, .stay, .inner e, .stay, .stay⟩
  · exact ⟨.stay, .stay, .stay, .inner e, .stay⟩
  · exact ⟨.stay, .stay, .stay, .stay, .inner e⟩

theorem quiet_tick (s : Clk χ α β ρ χ' ρ' σ) (h : ticks s = true) : AllQuiet s (s.all .tick) := by
  simp only [ticks, Bool.and_eq_true] at h
  obtain ⟨⟨⟨⟨h1, h2⟩, h3⟩, h4⟩, h5⟩ := h
  exact ⟨.tick h1, .tick h2, .tick h3, .tick h4, .tick h5⟩

theorem quiet_commit (s : Clk χ α β ρ χ' ρ' σ)
    (h : (canCommit s.w.aw && canCommit s.w.w && canCommit s.w.b && canCommit s.r.ar && canCommit s.r.r) = true) :
    AllQuiet s (s.all .commit) := by
  simp only [Bool.and_eq_true] at h
  obtain ⟨⟨⟨⟨h1, h2⟩, h3⟩, h4⟩, h5⟩ := h
  exact ⟨.commit h1, .commit h2, .commit h3, .commit h4, .commit h5⟩

theorem ClkInv.quiet {s : Clk χ α β ρ χ' ρ' σ} (hi : ClkInv h s) (e : ClkEv χ ρ χ' ρ') (he : e.quiet = true)
    (hv : (s.step h f g e).xview h = s.xview h) : AllQuiet s (s.step h f g e) := by
  cases e with
  | w e => rw [hi.same _ he hv (.inl ⟨e, rfl⟩)]; exact .refl s
  | r e => rw [hi.same _ he hv (.inr ⟨e, rfl⟩)]; exact .refl s
  | chan k e => exact quiet_inner s k e
  | tick =>
    simp only [Clk.step]
    split
    · rename_i h; exact quiet_tick s h
    · exact .refl s
  | commit =>
    simp only [Clk.step]
    split
    · rename_i h; exact quiet_commit s h
    · exact .refl s

/-- What can still happen in the channels before the next edge. -/
def calms (s : Clk χ α β ρ χ' ρ' σ) : Nat := calm s.w.aw + calm s.w.w + calm s.w.b + calm s.r.ar + calm s.r.r

theorem ClkInv.calms {s : Clk χ α β ρ χ' ρ' σ} (hi : ClkInv h s) (e : ClkEv χ ρ χ' ρ') (he : e.progress = true)
    (hv : (s.step h f g e).xview h = s.xview h) :
    s.step h f g e = s ∨ (e = .tick ∧ ticks s = true ∧ s.step h f g e = s.all .tick) ∨
      calms (s.step h f g e) < calms s := by
  cases e with
  | w e => exact .inl (hi.same _ he hv (.inl ⟨e, rfl⟩))
  | r e => exact .inl (hi.same _ he hv (.inr ⟨e, rfl⟩))
  | chan k e =>
    cases k
    · rcases AxiSys.calm_inner hi.w.aw e he with h1 | h1
      · left; simp only [Clk.step, Clk.inner, h1]
      · right; right; simp only [Clk.step, Clk.inner, LiteOps.calms]; omega
    · rcases AxiSys.calm_inner hi.w.w e he with h1 | h1
      · left; simp only [Clk.step, Clk.inner, h1]
      · right; right; simp only [Clk.step, Clk.inner, LiteOps.calms]; omega
    · rcases AxiSys.calm_inner hi.w.b e he with h1 | h1
      · left; simp only [Clk.step, Clk.inner, h1]
      · right; right; simp only [Clk.step, Clk.inner, LiteOps.calms]; omega
    · rcases AxiSys.calm_inner hi.r.ar e he with h1 | h1
      · left; simp only [Clk.step, Clk.inner, h1]
      · right; right; simp only [Clk.step, Clk.inner, LiteOps.calms]; omega
    · rcases AxiSys.calm_inner hi.r.r e he with h1 | h1
      · left; simp only [Clk.step, Clk.inner, h1]
      · right; right; simp only [Clk.step, Clk.inner, LiteOps.calms]; omega
  | tick =>
    by_cases ht : ticks s = true
    · right; left
      refine ⟨rfl, ht, ?_⟩
      simp only [Clk.step]
      rw [if_pos (by exact ht)]
    · left
      simp only [Clk.step]
      rw [if_neg (by exact ht)]
  | commit =>
    simp only [Clk.step]
    split
    · rename_i hh
      simp only [Bool.and_eq_true] at hh
      obtain ⟨⟨⟨⟨h1, h2⟩, h3⟩, h4⟩, h5⟩ := hh
      have key : ∀ {α : Type} {n : Net α}, ChanInv n → canCommit n = true →
          calm (n.step chanCfg .commit) ≤ calm n ∧ (calm (n.step chanCfg .commit) = calm n → n.step chanCfg .commit = n) := by
        intro α n hn hcm
        rcases AxiSys.calm_commit hn hcm with g | g
        · exact ⟨by rw [g]; exact Nat.le_refl _, fun _ => g⟩
        · exact ⟨by omega, fun hh => by omega⟩
      have a1 := key hi.w.aw h1
      have a2 := key hi.w.w h2
      have a3 := key hi.w.b h3
      have a4 := key hi.r.ar h4
      have a5 := key hi.r.r h5
      by_cases hlt : LiteOps.calms (s.all .commit) < LiteOps.calms s
      · exact .inr (.inr hlt)
      · left
        simp only [LiteOps.calms, Clk.all] at hlt
        simp only [Clk.all]
        rw [a1.2 (by omega), a2.2 (by omega), a3.2 (by omega), a4.2 (by omega), a5.2 (by omega)]
    · exact .inl rfl

/-! ## The master asks for what is there -/

/-- If a response is on its way, `_process_write_resp` awaits it or can do something else. -/
theorem PInv.needs {p : Nat → Port χ ρ} {μ : Nat → σ} {n : Nat} {sv : List (Served χ ρ)}
    (hi : PInv f p μ n sv) (hr : (p n).m.running = true)
    (q1 : (p n).m.step .respTake = (p n).m) (q2 : (p n).m.step .respGet = (p n).m) (q3 : (p n).m.step .respDone = (p n).m)
    (hrsp : (p n).rsp ≠ []) : (p n).m.awaits = true := by
  have h1 := congrArg List.length hi.sent
  have h2 := congrArg List.length hi.arr
  have hI := hi.inv
  generalize (p n).rsp = rs at hrsp h1 h2
  generalize (p n).m = s at hr q1 q2 q3 h1 h2 hI
  clear hi
  simp only [List.length_append, List.length_map] at h1 h2
  have h3 : 0 < rs.length := List.length_pos_iff.2 hrsp
  have hd := hI.done_length
  rw [labels_length] at hd
  have hsent := congrArg List.length hI.sent
  have harr := congrArg List.length hI.arrived
  simp only [Lite.started, Lite.got, List.flatMap_append, List.length_append] at hsent harr
  cases hc : s.respCur with
  | none =>
    exfalso
    have hq : s.respQ = [] := by
      cases hx : s.respQ with
      | nil => rfl
      | cons op rest =>
        have := congrArg (fun s => s.respQ.length) q1
        simp [Lite.step, Lite.respTake, hr, hx, hc] at this
    simp only [Lite.respOps, hc, hq, Option.map_none, Option.toList_none, List.nil_append, List.flatMap_nil, List.length_nil,
      Option.getD_none] at hsent harr
    omega
  | some c =>
    obtain ⟨op, rm, got⟩ := c
    cases rm with
    | zero =>
      have := congrArg (fun s => s.respCur) q3
      simp [Lite.step, Lite.respDone, hr, hc] at this
    | succ rm =>
      have hb : s.bch = [] := by
        cases hx : s.bch with
        | nil => rfl
        | cons r rest =>
          have := congrArg (fun s => s.bch.length) q2
          simp [Lite.step, Lite.respGet, hr, hx, hc] at this
      simp [Lite.awaits, hr, hc, hb]

end Verif.LiteOps
