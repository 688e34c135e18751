import Verif.Proof.AxiClockRest
import Verif.Proof.LiteClockRest
import Verif.Proof.PauseGenNet

/-!
# Pause generators at the ends of the AXI and AXI-lite channels
-/

namespace Verif.PauseGen

open Verif.AxiSys (Chan CSys CEv CWPort CRPort WEv REv Inner flags canTick resetNet startNet Lull lull_inner lull_commit lull_tick chanCfg)
open Verif.Axi
open Verif.LiteOps (Clk ClkEv ClkWEv ClkREv ClkW ClkR Halves)
open Verif.Stream (Net)

theorem busEnds_all (k : End) : k ∈ busEnds := by
  obtain ⟨c, s⟩ := k
  cases c <;> cases s <;> decide

/-! ## One channel -/

section

variable {α : Type}

theorem pauseOf_flags {s t : Net α} (h : flags t = flags s) (b : Bool) : pauseOf t b = pauseOf s b := by
  simp only [flags, Prod.mk.injEq] at h
  cases b
  · exact h.1
  · exact h.2

theorem flags_reset (s : Net α) : flags (resetNet s) = flags s := rfl

theorem flags_start (s : Net α) : flags (startNet s) = flags s := by
  simp only [flags, startNet, Stream.Src.reset, Stream.Snk.reset, Bool.false_eq_true, if_false]
  congr 1 <;> split <;> rfl

theorem setter_set (s : Net α) (b v b' : Bool) : pauseOf ((setter b v).step s) b' = if b' = b then v else pauseOf s b' := by
  cases b <;> cases b' <;> simp [setter, Inner.step, Net.step, pauseOf, Stream.Src.setPause, Stream.Snk.setPause]

theorem setter_other (s : Net α) (b : Bool) (e : Inner) (h : ∀ v, e ≠ setter b v) : pauseOf (e.step s) b = pauseOf s b := by
  by_cases hp : e.piece = true
  · exact pauseOf_flags (AxiSys.flags_inner s e hp) b
  · cases e <;> simp only [Inner.piece, not_true] at hp
    case srcPause v =>
      cases b
      · exact absurd rfl (h v)
      · rfl
    case snkPause v =>
      cases b
      · rfl
      · exact absurd rfl (h v)

/-- Something that has no effect. -/
def netIdle (s : Net α) : Stream.NetEv α := if s.src.pc = .due then .tick else .srcRun

theorem net_laws (c : Stream.NetCfg) : Laws [false, true] (netBase (α := α) c) netIdle where
  all k := by cases k <;> simp
  idle s := by
    simp only [netBase, netIdle]
    split
    · rename_i h
      simp [Net.step, h, Stream.Pc.still]
    · rename_i h
      simp only [Net.step, if_neg h]
  set s k v j := by
    cases k <;> cases j <;> simp [netBase, Net.step, pauseOf, Stream.Src.setPause, Stream.Snk.setPause]
  notTick k v := by cases k <;> rfl
  early s e h1 h2 := by
    cases e <;> simp only [netBase, Bool.false_eq_true] at h1
    simp only [netBase] at h2
    simp only [netBase, Net.step, h2, Bool.false_eq_true, if_false]

/-- Only the setter changes `pause`. -/
theorem net_keeps (c : Stream.NetCfg) (k : Bool) (e : Stream.NetEv α) (he : ∀ v, e ≠ (netBase c).setPause k v) (s : Net α) :
    (netBase c).pause ((netBase c).step s e) k = (netBase c).pause s k := by
  have keep : flags (s.step c e) = flags s → pauseOf (s.step c e) k = pauseOf s k := fun h => pauseOf_flags h k
  cases e
  case srcPause v =>
    cases k
    · exact absurd rfl (he v)
    · rfl
  case snkPause v =>
    cases k
    · rfl
    · exact absurd rfl (he v)
  case srcRun =>
    refine keep ?_
    simp only [Net.step]
    split
    · simp only [flags, AxiSys.run_pause]
    · rfl
  case snkRun =>
    refine keep ?_
    simp only [Net.step]
    split
    · simp only [flags, AxiSys.snk_run_pause]
    · rfl
  case commit =>
    refine keep ?_
    simp only [Net.step]
    split
    · simp only [flags]
      split <;> rfl
    · rfl
  case srcReset v =>
    refine keep ?_
    cases v
    · simp only [Net.step, flags, Stream.Src.reset]; congr 1
      repeat' split
      all_goals rfl
    · rfl
  case snkReset v =>
    refine keep ?_
    cases v
    · simp only [Net.step, flags, Stream.Snk.reset]; congr 1
      repeat' split
      all_goals rfl
    · rfl
  all_goals
    refine keep ?_
    simp only [Net.step, Stream.Src.send, Stream.Src.sendNowait, Stream.Src.resume, Stream.Src.clear, Stream.Snk.recv, Stream.Snk.clear,
      Stream.Snk.top, flags]
    repeat' split
    all_goals rfl

end

/-! ## AXI -/

section

variable {σ : Type} {c : Cfg} {wa : Nat → AxiSys.WArgs} {ra : Nat → Req} {t : Target σ}

theorem axi_flags_w (p : CWPort) (st : σ) (e : WEv) :
    flags (p.step c wa t st e).1.aw = flags p.aw ∧ flags (p.step c wa t st e).1.w = flags p.w ∧
      flags (p.step c wa t st e).1.b = flags p.b := by
  by_cases he : e.progress = true
  · exact AxiSys.flags_w st e he
  · cases e <;> simp only [WEv.progress, not_true] at he
    case write => exact ⟨rfl, rfl, rfl⟩
    case init => exact ⟨rfl, rfl, rfl⟩
    case reset v =>
      cases v <;> simp only [CWPort.step, CWPort.reset, Bool.false_eq_true, if_true, if_false, flags_reset, flags_start, and_self]

theorem axi_flags_r (p : CRPort) (st : σ) (e : REv) :
    flags (p.step c ra t st e).1.ar = flags p.ar ∧ flags (p.step c ra t st e).1.r = flags p.r := by
  by_cases he : e.progress = true
  · exact AxiSys.flags_r st e he
  · cases e <;> simp only [REv.progress, not_true] at he
    case read => exact ⟨rfl, rfl⟩
    case init => exact ⟨rfl, rfl⟩
    case reset v =>
      cases v <;> simp only [CRPort.step, CRPort.reset, Bool.false_eq_true, if_true, if_false, flags_reset, flags_start, and_self]

/-- Only the setter changes `pause`. -/
theorem axi_keeps (k : End) (e : CEv) (he : ∀ v, e ≠ (axiBase c wa ra t).setPause k v) (s : CSys σ) :
    (axiBase c wa ra t).pause ((axiBase c wa ra t).step s e) k = (axiBase c wa ra t).pause s k := by
  obtain ⟨k, b⟩ := k
  cases e with
  | w e =>
    obtain ⟨h1, h2, h3⟩ := axi_flags_w (c := c) (wa := wa) (t := t) s.w s.mem e
    cases k <;> first | exact pauseOf_flags h1 b | exact pauseOf_flags h2 b | exact pauseOf_flags h3 b | rfl
  | r e =>
    obtain ⟨h1, h2⟩ := axi_flags_r (c := c) (ra := ra) (t := t) s.r s.mem e
    cases k <;> first | exact pauseOf_flags h1 b | exact pauseOf_flags h2 b | rfl
  | chan j e =>
    by_cases hj : j = k
    · subst hj
      have he' : ∀ v, e ≠ setter b v := fun v hh => he v (by simp only [axiBase, hh])
      cases j <;> exact setter_other _ b e he'
    · cases j <;> cases k <;> first | rfl | exact absurd rfl hj
  | tick =>
    cases k <;> (simp only [axiBase, CSys.step]; split; exact pauseOf_flags (AxiSys.flags_all _).2 b; rfl)
  | commit =>
    cases k <;> (simp only [axiBase, CSys.step]; split; exact pauseOf_flags (AxiSys.flags_all _).1 b; rfl)

/-- Something that has no effect. -/
def axiIdle (s : CSys σ) : CEv := .w (.runInit s.w.m.wrappers.length)

theorem axi_laws : Laws busEnds (axiBase c wa ra t) (axiIdle (σ := σ)) where
  all := busEnds_all
  idle s := by simp only [axiBase, axiIdle, CSys.step, CWPort.step, AxiSys.Master.step_runInit]
  set s k v j := by
    obtain ⟨k, b⟩ := k
    obtain ⟨j, b'⟩ := j
    by_cases hj : j = k
    · subst hj
      have : (⟨j, b'⟩ : End) = ⟨j, b⟩ ↔ b' = b := by simp
      simp only [this]
      cases j <;> exact setter_set _ b v b'
    · rw [if_neg (by simp [hj])]
      cases j <;> cases k <;> first | rfl | exact absurd rfl hj
  notTick k v := rfl
  early s e h1 h2 := by
    cases e <;> simp only [axiBase, Bool.false_eq_true] at h1
    simp only [axiBase] at h2
    simp only [axiBase, CSys.step, h2, Bool.false_eq_true, if_false]

/-- A step in which only the channels do something wakes a sleeping sink for a reason. -/
structure AxiLull (s s' : CSys σ) : Prop where
  aw : Lull s.w.aw s'.w.aw
  w : Lull s.w.w s'.w.w
  b : Lull s.w.b s'.w.b
  ar : Lull s.r.ar s'.r.ar
  r : Lull s.r.r s'.r.r

theorem axi_lull {s : CSys σ} (h : AxiSys.CInv s) (e : CEv) (he : e.quiet = true) (hsp : ∀ k, e ≠ .chan k .snkSpurious)
    (hv : (s.step c wa ra t e).seen = s.seen) : AxiLull s (s.step c wa ra t e) := by
  have refl : AxiLull s s := ⟨.refl _, .refl _, .refl _, .refl _, .refl _⟩
  cases e with
  | w e => rw [h.same _ he hv (.inl ⟨e, rfl⟩)]; exact refl
  | r e => rw [h.same _ he hv (.inr ⟨e, rfl⟩)]; exact refl
  | chan k e =>
    have he' : e ≠ .snkSpurious := fun hh => hsp k (by rw [hh])
    cases k
    · exact ⟨lull_inner _ e he', .refl _, .refl _, .refl _, .refl _⟩
    · exact ⟨.refl _, lull_inner _ e he', .refl _, .refl _, .refl _⟩
    · exact ⟨.refl _, .refl _, lull_inner _ e he', .refl _, .refl _⟩
    · exact ⟨.refl _, .refl _, .refl _, lull_inner _ e he', .refl _⟩
    · exact ⟨.refl _, .refl _, .refl _, .refl _, lull_inner _ e he'⟩
  | tick =>
    simp only [CSys.step]
    split
    · exact ⟨lull_tick _, lull_tick _, lull_tick _, lull_tick _, lull_tick _⟩
    · exact refl
  | commit =>
    simp only [CSys.step]
    split
    · rename_i hc
      simp only [Bool.and_eq_true] at hc
      obtain ⟨⟨⟨⟨h1, h2⟩, h3⟩, h4⟩, h5⟩ := hc
      exact ⟨lull_commit _ h1, lull_commit _ h2, lull_commit _ h3, lull_commit _ h4, lull_commit _ h5⟩
    · exact refl

end

/-! ## AXI-lite -/

section

variable {χ α β ρ χ' ρ' σ : Type} {h : Halves χ α β} {f : χ → σ → ρ × σ} {g : χ' → σ → ρ' × σ}

theorem lite_flags_w (p : ClkW χ α β ρ) (m : σ) (e : ClkWEv χ ρ) :
    flags (p.step h f m e).1.aw = flags p.aw ∧ flags (p.step h f m e).1.w = flags p.w ∧ flags (p.step h f m e).1.b = flags p.b := by
  cases e with
  | reset v => cases v <;> simp only [ClkW.step, ClkW.reset, Bool.false_eq_true, if_true, if_false, flags_reset, flags_start, and_self]
  | master e =>
    simp only [ClkW.step]
    rcases ClkW.master_eq p e with h0 | ⟨ho, h0⟩ <;> rw [h0] <;> exact ⟨rfl, rfl, rfl⟩
  | _ => exact LiteOps.flags_w m _ rfl

theorem lite_flags_r (p : ClkR χ' ρ') (m : σ) (e : ClkREv χ' ρ') :
    flags (p.step g m e).1.ar = flags p.ar ∧ flags (p.step g m e).1.r = flags p.r := by
  cases e with
  | reset v => cases v <;> simp only [ClkR.step, ClkR.reset, Bool.false_eq_true, if_true, if_false, flags_reset, flags_start, and_self]
  | master e =>
    simp only [ClkR.step]
    rcases ClkR.master_eq p e with h0 | ⟨ho, h0⟩ <;> rw [h0] <;> exact ⟨rfl, rfl⟩
  | _ => exact LiteOps.flags_r m _ rfl

/-- Only the setter changes `pause`. -/
theorem lite_keeps (k : End) (e : ClkEv χ ρ χ' ρ') (he : ∀ v, e ≠ (liteBase h f g).setPause k v) (s : Clk χ α β ρ χ' ρ' σ) :
    (liteBase h f g).pause ((liteBase h f g).step s e) k = (liteBase h f g).pause s k := by
  obtain ⟨k, b⟩ := k
  cases e with
  | w e =>
    obtain ⟨h1, h2, h3⟩ := lite_flags_w (h := h) (f := f) s.w s.mem e
    cases k <;> first | exact pauseOf_flags h1 b | exact pauseOf_flags h2 b | exact pauseOf_flags h3 b | rfl
  | r e =>
    obtain ⟨h1, h2⟩ := lite_flags_r (g := g) s.r s.mem e
    cases k <;> first | exact pauseOf_flags h1 b | exact pauseOf_flags h2 b | rfl
  | chan j e =>
    by_cases hj : j = k
    · subst hj
      have he' : ∀ v, e ≠ setter b v := fun v hh => he v (by simp only [liteBase, hh])
      cases j <;> exact setter_other _ b e he'
    · cases j <;> cases k <;> first | rfl | exact absurd rfl hj
  | tick =>
    cases k <;> (simp only [liteBase, Clk.step]; split; exact pauseOf_flags (AxiSys.flags_all _).2 b; rfl)
  | commit =>
    cases k <;> (simp only [liteBase, Clk.step]; split; exact pauseOf_flags (AxiSys.flags_all _).1 b; rfl)

/-- Something that has no effect. -/
def liteIdle (_ : Clk χ α β ρ χ' ρ' σ) : ClkEv χ ρ χ' ρ' := .w (.master .send)

theorem lite_laws : Laws busEnds (liteBase h f g) (liteIdle (α := α) (β := β) (σ := σ)) where
  all := busEnds_all
  idle s := by simp [liteBase, liteIdle, Clk.step, ClkW.step, ClkW.master, LiteOps.own]
  set s k v j := by
    obtain ⟨k, b⟩ := k
    obtain ⟨j, b'⟩ := j
    by_cases hj : j = k
    · subst hj
      have : (⟨j, b'⟩ : End) = ⟨j, b⟩ ↔ b' = b := by simp
      simp only [this]
      cases j <;> exact setter_set _ b v b'
    · rw [if_neg (by simp [hj])]
      cases j <;> cases k <;> first | rfl | exact absurd rfl hj
  notTick k v := rfl
  early s e h1 h2 := by
    cases e <;> simp only [liteBase, Bool.false_eq_true] at h1
    simp only [liteBase] at h2
    simp only [liteBase, Clk.step, h2, Bool.false_eq_true, if_false]

/-- A step in which only the channels do something wakes a sleeping sink for a reason. -/
structure LiteLull (s s' : Clk χ α β ρ χ' ρ' σ) : Prop where
  aw : Lull s.w.aw s'.w.aw
  w : Lull s.w.w s'.w.w
  b : Lull s.w.b s'.w.b
  ar : Lull s.r.ar s'.r.ar
  r : Lull s.r.r s'.r.r

theorem lite_lull {s : Clk χ α β ρ χ' ρ' σ} (hi : LiteOps.ClkInv h s) (e : ClkEv χ ρ χ' ρ') (he : e.quiet = true)
    (hsp : ∀ k, e ≠ .chan k .snkSpurious) (hv : (s.step h f g e).xview h = s.xview h) : LiteLull s (s.step h f g e) := by
  have refl : LiteLull s s := ⟨.refl _, .refl _, .refl _, .refl _, .refl _⟩
  cases e with
  | w e => rw [hi.same _ he hv (.inl ⟨e, rfl⟩)]; exact refl
  | r e => rw [hi.same _ he hv (.inr ⟨e, rfl⟩)]; exact refl
  | chan k e =>
    have he' : e ≠ .snkSpurious := fun hh => hsp k (by rw [hh])
    cases k
    · exact ⟨lull_inner _ e he', .refl _, .refl _, .refl _, .refl _⟩
    · exact ⟨.refl _, lull_inner _ e he', .refl _, .refl _, .refl _⟩
    · exact ⟨.refl _, .refl _, lull_inner _ e he', .refl _, .refl _⟩
    · exact ⟨.refl _, .refl _, .refl _, lull_inner _ e he', .refl _⟩
    · exact ⟨.refl _, .refl _, .refl _, .refl _, lull_inner _ e he'⟩
  | tick =>
    simp only [Clk.step]
    split
    · exact ⟨lull_tick _, lull_tick _, lull_tick _, lull_tick _, lull_tick _⟩
    · exact refl
  | commit =>
    simp only [Clk.step]
    split
    · rename_i hc
      simp only [Bool.and_eq_true] at hc
      obtain ⟨⟨⟨⟨h1, h2⟩, h3⟩, h4⟩, h5⟩ := hc
      exact ⟨lull_commit _ h1, lull_commit _ h2, lull_commit _ h3, lull_commit _ h4, lull_commit _ h5⟩
    · exact refl

end

end Verif.PauseGen
