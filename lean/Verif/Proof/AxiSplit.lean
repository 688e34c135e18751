import Verif.Spec.AxiSplit
import Verif.Proof.AxiSystem
import Verif.Proof.AxiClock

/-!
# Separate resets of an AXI master and slave: refinement
-/

namespace Verif.AxiSys

open Verif.Axi Verif.AxiOps Verif.AxiOps.Master

/-! ## At rest -/

theorem pend_nil {ρ : Type} {m : Master ρ} (h : m.Inv) (hi : m.idle = true) : m.pend = [] := by
  have h1 := h.flight
  simp only [Master.idle, decide_eq_true_eq] at hi
  rw [hi] at h1
  exact List.length_eq_zero_iff.1 (by omega)

/-- All responses have arrived. -/
theorem _root_.Verif.AxiOps.InOrder.all {ρ δ : Type} {s : Master ρ} {rv : List δ} {lab : δ → Nat × Op × Nat} {rsp : δ → ρ} (hi : InOrder s rv lab rsp)
    (h : s.Inv) (hp : s.pend = []) : (slots (taken s)).length ≤ s.arrived.length := by
  refine Nat.le_of_not_lt fun hlt => ?_
  have := hi.pend h (i := s.arrived.length) (t := (slots (taken s))[s.arrived.length].1)
    (op := (slots (taken s))[s.arrived.length].2.1) (j := (slots (taken s))[s.arrived.length].2.2)
    (List.getElem?_eq_getElem hlt) (Nat.le_refl _)
  rw [hp] at this
  cases this

theorem WInv.rest_of {c : Cfg} {args : Nat → WArgs} {p : WPort} {w : WWit} (hc : c.Std) (h : WInv c args p w)
    (hr : p.m.idle = true ∨ p.m.running = false) :
    p.todo = [] ∧ p.aw = [] ∧ p.w = [] ∧ p.b = [] ∧ p.sl = none := by
  have hl : (wAll c args p.m).length ≤ p.m.arrived.length ∧ p.m.cur = none := by
    rcases hr with hr | hr
    · have hp := pend_nil h.m.inv hr
      have h1 := (h.inOrder hc).all h.m.inv hp
      rw [← wAll_lab hc h.m, List.length_map] at h1
      refine ⟨h1, ?_⟩
      cases hcur : p.m.cur with
      | none => rfl
      | some x => simp [pend, hcur] at hp
    · have h0 := h.m.off hr
      refine ⟨by unfold wAll; rw [h0]; simp, ?_⟩
      cases hcur : p.m.cur with
      | none => rfl
      | some x => simp [taken, hcur] at h0
  obtain ⟨hl, hcur⟩ := hl
  have ht := h.todo hcur
  have h1 := congrArg List.length h.split
  have h2 := congrArg List.length h.arr
  simp only [List.length_append, List.length_map] at h1 h2
  have h3 : w.rest = [] := List.length_eq_zero_iff.1 (by omega)
  have h4 : w.cur.toList = [] := List.length_eq_zero_iff.1 (by omega)
  have h5 : p.b = [] := List.length_eq_zero_iff.1 (by omega)
  have h6 := h.aws
  have h7 := h.wbs
  have h8 := h.sl
  rw [h3, ht] at h6
  rw [h3, h4, ht] at h7
  rw [Option.toList_eq_nil_iff.1 h4] at h8
  refine ⟨ht, ?_, ?_, h5, h8⟩
  · simpa [awsOf] using h6
  · simpa [wsOf] using h7

theorem RInv.rest_of {c : Cfg} {args : Nat → Req} {p : RPort} {w : RWit} (hc : c.Std) (h : RInv c args p w)
    (hr : p.m.idle = true ∨ p.m.running = false) :
    p.todo = [] ∧ p.ar = [] ∧ p.r = [] ∧ p.sl = none := by
  have hl : ((rAll c args p.m).flatMap RGrp.atoms).length ≤ p.m.arrived.length ∧ p.m.cur = none := by
    rcases hr with hr | hr
    · have hp := pend_nil h.m.inv hr
      have h1 := (h.inOrder hc).all h.m.inv hp
      rw [← rAll_lab hc h.m, List.length_map] at h1
      refine ⟨h1, ?_⟩
      cases hcur : p.m.cur with
      | none => rfl
      | some x => simp [pend, hcur] at hp
    · have h0 := h.m.off hr
      refine ⟨by unfold rAll; rw [h0]; simp, ?_⟩
      cases hcur : p.m.cur with
      | none => rfl
      | some x => simp [taken, hcur] at h0
  obtain ⟨hl, hcur⟩ := hl
  have ht := h.todo hcur
  have h1 := congrArg (fun l => (l.flatMap RGrp.atoms).length) h.split
  have h2 := congrArg List.length h.arr
  have h3 := congrArg List.length h.svs
  simp only [List.length_append, List.length_map, List.flatMap_append] at h1 h2 h3
  have h4 : w.cur = none := by
    cases hcu : w.cur with
    | none => rfl
    | some g =>
      have := h.nl g hcu
      rw [hcu] at h1 h3
      simp only [Option.toList_some, List.flatMap_cons, List.flatMap_nil, List.append_nil, RGrp.atoms_length, List.length_take,
        ABeat.beats] at h1 h3
      omega
  have h5 : w.rest = [] := by
    cases hre : w.rest with
    | nil => rfl
    | cons g l =>
      rw [hre, h4] at h1
      rw [h4] at h3
      simp only [Option.toList_none, List.flatMap_cons, List.flatMap_nil, List.length_nil, List.length_append, RGrp.atoms_length,
        ABeat.beats] at h1 h3
      omega
  have h6 : p.r = [] := by
    rw [h4] at h1 h3
    simp only [Option.toList_none, List.flatMap_nil, List.length_nil] at h1 h3
    exact List.length_eq_zero_iff.1 (by omega)
  have h7 := h.ars
  have h8 := h.sl
  rw [h5, ht] at h7
  rw [h4] at h8
  exact ⟨ht, by simpa using h7, h6, h8⟩

/-! ## One event -/

section

variable {σ : Type} {c : Cfg} {args : Nat → WArgs} {t : Target σ}

/-- What it means for the slave and the channels to be at rest. -/
def WPort.AtRest (p : WPort) : Prop := p.todo = [] ∧ p.aw = [] ∧ p.w = [] ∧ p.b = [] ∧ p.sl = none

theorem WPort.own_frame (p : WPort) (st : σ) (e : WEv) (he : e.own = true) (hd : e ≠ .deliver) :
    (p.step c args t st e).1.aw = p.aw ∧ (p.step c args t st e).1.w = p.w ∧ (p.step c args t st e).1.b = p.b ∧
    (p.step c args t st e).2 = st ∧
    ∀ aw w b, ({ p with aw := aw, w := w, b := b } : WPort).step c args t st e =
      ({ (p.step c args t st e).1 with aw := aw, w := w, b := b }, st) := by
  cases e <;> simp only [WEv.own, Bool.false_eq_true] at he <;> simp only [WPort.step]
  case write =>
    obtain ⟨h1, h2, h3⟩ := WPort.write_chan (c := c) (args := args) p
    refine ⟨h1, h2, h3, trivial, fun _ _ _ => ?_⟩
    simp only [WPort.write]
    split <;> rfl
  case init =>
    obtain ⟨h1, h2, h3⟩ := WPort.init_chan (c := c) (args := args) p
    refine ⟨h1, h2, h3, trivial, fun _ _ _ => ?_⟩
    simp only [WPort.init]
    split <;> rfl
  case take =>
    obtain ⟨h1, h2, h3⟩ := WPort.take_chan (c := c) (args := args) p
    refine ⟨h1, h2, h3, trivial, fun _ _ _ => ?_⟩
    simp only [WPort.take]
    split
    · split
      · rfl
      · split <;> rfl
    · rfl
  case start =>
    obtain ⟨h1, h2, h3⟩ := WPort.start_chan (c := c) p
    refine ⟨h1, h2, h3, trivial, fun _ _ _ => ?_⟩
    simp only [WPort.start]
    split <;> rfl
  case deliver => exact absurd rfl hd
  all_goals exact ⟨trivial, trivial, trivial, trivial, fun _ _ _ => trivial⟩

theorem SplitW.sim (s : SplitW) (st : σ) (e : SplitWEv) (hd : s.whole.died = false) (hr : e.alone = true → s.whole.AtRest) :
    ∃ e', ((s.step c args t st e).1.whole, (s.step c args t st e).2) = s.whole.step c args t st e' := by
  have stay : ∃ e', (s.whole, st) = s.whole.step c args t st e' := ⟨_, (WPort.step_idle c args t s.whole st).symm⟩
  have hd1 : s.p.died = false ∧ s.slDied = false := by simpa [whole] using hd
  obtain ⟨hd1, hd2⟩ := hd1
  obtain ⟨p, awSrc, wSrc, bSrc, up, slDied⟩ := s
  obtain ⟨m, calls, todo, aw, w, b, sl, died⟩ := p
  simp only at hd1 hd2
  subst hd1 hd2
  cases e with
  | master e =>
    simp only [SplitW.step]
    split
    · rename_i he
      by_cases hde : e = .deliver
      · subst hde
        cases b with
        | nil => exact stay
        | cons x rest => exact ⟨.deliver, rfl⟩
      · refine ⟨e, ?_⟩
        obtain ⟨h1, h2, h3, _, h5⟩ := WPort.own_frame (c := c) (args := args) (t := t)
          ⟨m, calls, todo, aw, w, b, sl, false⟩ st e he hde
        have h6 := h5 (aw ++ awSrc) (w ++ wSrc) (b ++ bSrc)
        simp only [whole, Bool.or_false]
        rw [h6, h1, h2, h3]
    · exact stay
  | sendAW =>
    cases todo with
    | nil => exact stay
    | cons x rest =>
      cases x with
      | inl a =>
        refine ⟨.sendAW, ?_⟩
        by_cases hid : a.id < c.idCount <;> simp [SplitW.step, SplitW.sendAW, WPort.step, WPort.sendAW, whole, hid]
      | inr a => exact stay
  | sendW =>
    cases todo with
    | nil => exact stay
    | cons x rest =>
      cases x with
      | inl a => exact stay
      | inr a => exact ⟨.sendW, by simp [SplitW.step, SplitW.sendW, WPort.step, WPort.sendW, whole]⟩
  | moveAW =>
    simp only [SplitW.step]
    split
    · obtain ⟨e', h⟩ := stay
      exact ⟨e', by rw [← h]; simp [whole, *]⟩
    · exact stay
  | moveW =>
    simp only [SplitW.step]
    split
    · obtain ⟨e', h⟩ := stay
      exact ⟨e', by rw [← h]; simp [whole, *]⟩
    · exact stay
  | moveB =>
    simp only [SplitW.step]
    split
    · obtain ⟨e', h⟩ := stay
      exact ⟨e', by rw [← h]; simp [whole, *]⟩
    · exact stay
  | slaveAW =>
    cases up with
    | false => exact stay
    | true =>
      cases sl with
      | some x => exact stay
      | none =>
        cases aw with
        | nil => exact stay
        | cons a rest =>
          refine ⟨.slaveAW, ?_⟩
          simp only [SplitW.step, SplitW.slaveAW, WPort.step, WPort.slaveAW, whole, Bool.or_false, List.cons_append, if_true]
          split
          · rfl
          · split <;> rfl
  | slaveW =>
    cases up with
    | false => exact stay
    | true =>
      cases sl with
      | none => exact stay
      | some x =>
        cases w with
        | nil => exact stay
        | cons a rest =>
          refine ⟨.slaveW, ?_⟩
          simp only [SplitW.step, SplitW.slaveW, WPort.step, WPort.slaveW, whole, Bool.or_false, List.cons_append, if_true]
          split
          · split
            · rfl
            · split <;> rfl
          · rfl
  | slaveB =>
    cases up with
    | false => exact stay
    | true =>
      cases sl with
      | none => exact stay
      | some x =>
        refine ⟨.slaveB, ?_⟩
        simp only [SplitW.step, SplitW.slaveB, WPort.step, WPort.slaveB, whole, Bool.or_false, if_true]
        split
        · simp
        · rfl
  | resetM v =>
    refine ⟨.reset v, ?_⟩
    cases v with
    | false => rfl
    | true =>
      obtain ⟨h1, h2, h3, h4, h5⟩ := hr rfl
      simp only [whole, List.append_eq_nil_iff] at h1 h2 h3 h4 h5
      simp [SplitW.step, SplitW.resetM, WPort.step, WPort.reset, whole, h2, h3, h4, h5]
  | resetS v =>
    cases v with
    | false => exact stay
    | true =>
      obtain ⟨h1, h2, h3, h4, h5⟩ := hr rfl
      simp only [whole, List.append_eq_nil_iff] at h1 h2 h3 h4 h5
      obtain ⟨e', h⟩ := stay
      exact ⟨e', by rw [← h]; simp [SplitW.step, SplitW.resetS, whole, h2, h3, h4, h5]⟩
  | resetBoth v =>
    refine ⟨.reset v, ?_⟩
    cases v <;> rfl

end

section

variable {σ : Type} {c : Cfg} {args : Nat → Req} {t : Target σ}

/-- What it means for the slave and the channels to be at rest. -/
def RPort.AtRest (p : RPort) : Prop := p.todo = [] ∧ p.ar = [] ∧ p.r = [] ∧ p.sl = none

theorem RPort.own_frame (p : RPort) (st : σ) (e : REv) (he : e.own = true) (hd : e ≠ .deliver) :
    (p.step c args t st e).1.ar = p.ar ∧ (p.step c args t st e).1.r = p.r ∧
    (p.step c args t st e).2 = st ∧
    ∀ ar r, ({ p with ar := ar, r := r } : RPort).step c args t st e = ({ (p.step c args t st e).1 with ar := ar, r := r }, st) := by
  cases e <;> simp only [REv.own, Bool.false_eq_true] at he <;> simp only [RPort.step]
  case read =>
    obtain ⟨h1, h2⟩ := RPort.read_chan (c := c) (args := args) p
    refine ⟨h1, h2, trivial, fun _ _ => ?_⟩
    simp only [RPort.read]
    split <;> rfl
  case init =>
    obtain ⟨h1, h2⟩ := RPort.init_chan (c := c) (args := args) p
    refine ⟨h1, h2, trivial, fun _ _ => ?_⟩
    simp only [RPort.init]
    split <;> rfl
  case take =>
    obtain ⟨h1, h2⟩ := RPort.take_chan (c := c) (args := args) p
    refine ⟨h1, h2, trivial, fun _ _ => ?_⟩
    simp only [RPort.take]
    split
    · split <;> rfl
    · rfl
  case start =>
    obtain ⟨h1, h2⟩ := RPort.start_chan (c := c) p
    refine ⟨h1, h2, trivial, fun _ _ => ?_⟩
    simp only [RPort.start]
    split <;> rfl
  case deliver => exact absurd rfl hd
  all_goals exact ⟨trivial, trivial, trivial, fun _ _ => trivial⟩

theorem SplitR.sim (s : SplitR) (st : σ) (e : SplitREv) (hd : s.whole.died = false) (hr : e.alone = true → s.whole.AtRest) :
    ∃ e', ((s.step c args t st e).1.whole, (s.step c args t st e).2) = s.whole.step c args t st e' := by
  have stay : ∃ e', (s.whole, st) = s.whole.step c args t st e' := ⟨_, (RPort.step_idle c args t s.whole st).symm⟩
  have hd1 : s.p.died = false ∧ s.slDied = false := by simpa [whole] using hd
  obtain ⟨hd1, hd2⟩ := hd1
  obtain ⟨p, arSrc, rSrc, up, slDied⟩ := s
  obtain ⟨m, calls, todo, ar, r, sl, died⟩ := p
  simp only at hd1 hd2
  subst hd1 hd2
  cases e with
  | master e =>
    simp only [SplitR.step]
    split
    · rename_i he
      by_cases hde : e = .deliver
      · subst hde
        cases r with
        | nil => exact stay
        | cons x rest => exact ⟨.deliver, rfl⟩
      · refine ⟨e, ?_⟩
        obtain ⟨h1, h2, _, h5⟩ := RPort.own_frame (c := c) (args := args) (t := t) ⟨m, calls, todo, ar, r, sl, false⟩ st e he hde
        have h6 := h5 (ar ++ arSrc) (r ++ rSrc)
        simp only [whole, Bool.or_false]
        rw [h6, h1, h2]
    · exact stay
  | sendAR =>
    cases todo with
    | nil => exact stay
    | cons a rest =>
      refine ⟨.sendAR, ?_⟩
      by_cases hid : a.id < c.idCount <;> simp [SplitR.step, SplitR.sendAR, RPort.step, RPort.sendAR, whole, hid]
  | moveAR =>
    simp only [SplitR.step]
    split
    · obtain ⟨e', h⟩ := stay
      exact ⟨e', by rw [← h]; simp [whole, *]⟩
    · exact stay
  | moveR =>
    simp only [SplitR.step]
    split
    · obtain ⟨e', h⟩ := stay
      exact ⟨e', by rw [← h]; simp [whole, *]⟩
    · exact stay
  | slaveAR =>
    cases up with
    | false => exact stay
    | true =>
      cases sl with
      | some x => exact stay
      | none =>
        cases ar with
        | nil => exact stay
        | cons a rest =>
          refine ⟨.slaveAR, ?_⟩
          simp only [SplitR.step, SplitR.slaveAR, RPort.step, RPort.slaveAR, whole, Bool.or_false, List.cons_append, if_true]
          split
          · rfl
          · split <;> rfl
  | slaveR =>
    cases up with
    | false => exact stay
    | true =>
      cases sl with
      | none => exact stay
      | some x =>
        refine ⟨.slaveR, ?_⟩
        simp [SplitR.step, SplitR.slaveR, RPort.step, RPort.slaveR, whole]
  | resetM v =>
    refine ⟨.reset v, ?_⟩
    cases v with
    | false => rfl
    | true =>
      obtain ⟨h1, h2, h4, h5⟩ := hr rfl
      simp only [whole, List.append_eq_nil_iff] at h1 h2 h4 h5
      simp [SplitR.step, SplitR.resetM, RPort.step, RPort.reset, whole, h2, h4, h5]
  | resetS v =>
    cases v with
    | false => exact stay
    | true =>
      obtain ⟨h1, h2, h4, h5⟩ := hr rfl
      simp only [whole, List.append_eq_nil_iff] at h1 h2 h4 h5
      obtain ⟨e', h⟩ := stay
      exact ⟨e', by rw [← h]; simp [SplitR.step, SplitR.resetS, whole, h2, h4, h5]⟩
  | resetBoth v =>
    refine ⟨.reset v, ?_⟩
    cases v <;> rfl

end

/-! ## Whole histories -/

section

variable {σ : Type} {c : Cfg} {wa : Nat → WArgs} {ra : Nat → Req} {t : Target σ} {st : σ}

theorem Split.after_succ (evs : List SplitEv) (n : Nat) :
    (∃ e, evs[n]? = some e ∧ Split.after c wa ra t st evs (n + 1) = (Split.after c wa ra t st evs n).step c wa ra t e) ∨
      (evs.length ≤ n ∧ Split.after c wa ra t st evs (n + 1) = Split.after c wa ra t st evs n) := by
  by_cases hn : n < evs.length
  · refine .inl ⟨evs[n], List.getElem?_eq_getElem hn, ?_⟩
    simp only [Split.after, Split.run]
    rw [List.take_succ_eq_append_getElem hn, List.foldl_append]
    rfl
  · refine .inr ⟨by omega, ?_⟩
    simp only [Split.after]
    rw [List.take_of_length_le (by omega), List.take_of_length_le (by omega)]

theorem Sys.run_at (evs : List Ev) (n : Nat) (hn : evs.length ≤ n) : Sys.at c wa ra t st evs n = Sys.run c wa ra t st evs := by
  simp only [Sys.at]
  rw [List.take_of_length_le hn]

/-- The events of the system with joint resets, up to event `n`. -/
theorem Split.refine_upto (hc : c.Std) (hw : ∀ k, (wa k).req.id ≠ some (2 ^ c.idWidth)) (hr : ∀ k, (ra k).id ≠ some (2 ^ c.idWidth))
    (evs : List SplitEv) (hcalm : Split.Calm c wa ra t st evs) (n : Nat) :
    ∃ evs' : List Ev, evs'.length = n ∧ ∀ k ≤ n, (Split.after c wa ra t st evs k).whole = Sys.at c wa ra t st evs' k := by
  induction n with
  | zero =>
    refine ⟨[], rfl, fun k hk => ?_⟩
    obtain rfl : k = 0 := by omega
    rfl
  | succ n ih =>
    obtain ⟨evs', hl, he⟩ := ih
    have hext : ∀ e' : Ev, ∀ k ≤ n, Sys.at c wa ra t st (evs' ++ [e']) k = Sys.at c wa ra t st evs' k := by
      intro e' k hk
      simp only [Sys.at]
      rw [List.take_append_of_le_length (by omega)]
    have hlast : ∀ e' : Ev, Sys.at c wa ra t st (evs' ++ [e']) (n + 1) = (Sys.at c wa ra t st evs' n).step c wa ra t e' := by
      intro e'
      rw [Sys.run_at _ _ (by simp [hl]), Sys.run_at evs' n (by omega)]
      simp [Sys.run]
    have key : ∃ e' : Ev, (Split.after c wa ra t st evs (n + 1)).whole =
        (Split.after c wa ra t st evs n).whole.step c wa ra t e' := by
      rcases Split.after_succ (c := c) (wa := wa) (ra := ra) (t := t) (st := st) evs n with ⟨e, h1, h2⟩ | ⟨_, h2⟩
      · rw [h2]
        have hn := he n (Nat.le_refl n)
        obtain ⟨w, hW, _⟩ := (Sys.traceW (wa := wa) (ra := ra) (t := t) (st := st) (evs := evs') hc hw).inv n
        obtain ⟨r, hR, _⟩ := (Sys.traceR (wa := wa) (ra := ra) (t := t) (st := st) (evs := evs') hc hr).inv n
        simp only [← hn] at hW hR
        cases e with
        | w e =>
          obtain ⟨e', h3⟩ := SplitW.sim (c := c) (args := wa) (t := t) (Split.after c wa ra t st evs n).w
            (Split.after c wa ra t st evs n).mem e hW.died (fun ha => hW.rest_of hc (hcalm.1 n e h1 ha))
          refine ⟨.w e', ?_⟩
          simp only [Prod.ext_iff] at h3
          simp only [Split.step, Split.whole, Sys.step]
          rw [h3.1, h3.2]
        | r e =>
          obtain ⟨e', h3⟩ := SplitR.sim (c := c) (args := ra) (t := t) (Split.after c wa ra t st evs n).r
            (Split.after c wa ra t st evs n).mem e hR.died (fun ha => hR.rest_of hc (hcalm.2 n e h1 ha))
          refine ⟨.r e', ?_⟩
          simp only [Prod.ext_iff] at h3
          simp only [Split.step, Split.whole, Sys.step]
          rw [h3.1, h3.2]
      · rw [h2]; exact ⟨_, (Sys.step_idle _).symm⟩
    obtain ⟨e', h⟩ := key
    refine ⟨evs' ++ [e'], by simp [hl], fun k hk => ?_⟩
    by_cases hkn : k ≤ n
    · rw [hext e' k hkn]; exact he k hkn
    · obtain rfl : k = n + 1 := by omega
      rw [hlast e', h, he n (Nat.le_refl n)]

/-- Every calm history is, seen with whole channels, a history of the system with joint resets. -/
theorem Split.refine (hc : c.Std) (hw : ∀ k, (wa k).req.id ≠ some (2 ^ c.idWidth)) (hr : ∀ k, (ra k).id ≠ some (2 ^ c.idWidth))
    (evs : List SplitEv) (hcalm : Split.Calm c wa ra t st evs) :
    ∃ evs' : List Ev, ∀ k, (Split.after c wa ra t st evs k).whole = Sys.at c wa ra t st evs' k := by
  obtain ⟨evs', hl, he⟩ := Split.refine_upto hc hw hr evs hcalm evs.length
  refine ⟨evs', fun k => ?_⟩
  by_cases hk : k ≤ evs.length
  · exact he k hk
  · have h1 : Split.after c wa ra t st evs k = Split.after c wa ra t st evs evs.length := by
      simp only [Split.after]
      rw [List.take_of_length_le (by omega), List.take_of_length_le (by omega)]
    rw [h1, he _ (Nat.le_refl _), Sys.run_at _ _ (by omega), Sys.run_at _ _ (by omega)]

end

end Verif.AxiSys
