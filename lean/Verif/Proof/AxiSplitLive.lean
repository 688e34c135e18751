import Verif.Proof.AxiSplit
import Verif.Props.AxiSysProgress

/-!
# Separate resets of an AXI master and slave: progress
-/

namespace Verif.AxiSys

open Verif.Axi Verif.AxiOps Verif.AxiOps.Master

section

variable {σ : Type} {c : Cfg} {args : Nat → WArgs} {t : Target σ}

/-- The transactions that have not left the component that sends them. -/
def SplitW.near (s : SplitW) : Nat := s.awSrc.length + s.wSrc.length + s.bSrc.length

/-- The event of the divided system that does what `e` does. -/
def WEv.toSplit : WEv → SplitWEv
  | .sendAW => .sendAW
  | .sendW => .sendW
  | .slaveAW => .slaveAW
  | .slaveW => .slaveW
  | .slaveB => .slaveB
  | e => .master e

/-- A piece of a coroutine or a handshake does nothing, or moves a transaction from one end to the other, or is a piece of a coroutine of the whole system. -/
theorem SplitW.advance (s : SplitW) (st : σ) (e : SplitWEv) (hp : e.progress = true) (hd : s.whole.died = false) :
    s.step c args t st e = (s, st) ∨
    ((s.step c args t st e).1.whole = s.whole ∧ (s.step c args t st e).2 = st ∧ (s.step c args t st e).1.near < s.near) ∨
    ∃ e', e'.progress = true ∧ ((s.step c args t st e).1.whole, (s.step c args t st e).2) = s.whole.step c args t st e' ∧
      (s.step c args t st e).1.near ≤ s.near + 1 ∧
      ((s.step c args t st e).1.whole = s.whole → (s.step c args t st e).1 = s) := by
  have hd1 : s.p.died = false ∧ s.slDied = false := by simpa [whole] using hd
  obtain ⟨hd1, hd2⟩ := hd1
  obtain ⟨p, awSrc, wSrc, bSrc, up, slDied⟩ := s
  obtain ⟨m, calls, todo, aw, w, b, sl, died⟩ := p
  simp only at hd1 hd2
  subst hd1 hd2
  cases e with
  | master e =>
    simp only [SplitW.step]
    split
    · rename_i he
      by_cases hde : e = .deliver
      · subst hde
        cases b with
        | nil => exact .inl rfl
        | cons x rest =>
          refine .inr (.inr ⟨.deliver, rfl, rfl, by simp [near], fun h => ?_⟩)
          have := congrArg (fun q : WPort => q.b.length) h
          simp [whole, WPort.step, WPort.deliver] at this
      · obtain ⟨h1, h2, h3, _, h5⟩ := WPort.own_frame (c := c) (args := args) (t := t)
          ⟨m, calls, todo, aw, w, b, sl, false⟩ st e he hde
        have h6 := h5 (aw ++ awSrc) (w ++ wSrc) (b ++ bSrc)
        refine .inr (.inr ⟨e, hp, ?_, by simp [near], fun h => ?_⟩)
        · simp only [whole, Bool.or_false]
          rw [h6, h1, h2, h3]
        · simp only [whole, Bool.or_false, WPort.mk.injEq] at h
          obtain ⟨g1, g2, g3, _, _, _, g7, g8⟩ := h
          simp only [SplitW.mk.injEq, and_true]
          generalize (WPort.step c args t ⟨m, calls, todo, aw, w, b, sl, false⟩ st e).1 = q at *
          cases q
          simp_all
    · exact .inl rfl
  | sendAW =>
    cases todo with
    | nil => exact .inl rfl
    | cons x rest =>
      cases x with
      | inl a =>
        refine .inr (.inr ⟨.sendAW, rfl, ?_, ?_, ?_⟩)
        · by_cases hid : a.id < c.idCount <;> simp [SplitW.step, SplitW.sendAW, WPort.step, WPort.sendAW, whole, hid]
        · by_cases hid : a.id < c.idCount <;> simp [SplitW.step, SplitW.sendAW, WPort.sendAW, near, hid] <;> omega
        · by_cases hid : a.id < c.idCount <;> simp [SplitW.step, SplitW.sendAW, WPort.sendAW, whole, hid]
      | inr a => exact .inl rfl
  | sendW =>
    cases todo with
    | nil => exact .inl rfl
    | cons x rest =>
      cases x with
      | inl a => exact .inl rfl
      | inr a =>
        refine .inr (.inr ⟨.sendW, rfl, ?_, ?_, ?_⟩)
        · simp [SplitW.step, SplitW.sendW, WPort.step, WPort.sendW, whole]
        · simp [SplitW.step, SplitW.sendW, WPort.sendW, near]; omega
        · simp [SplitW.step, SplitW.sendW, WPort.sendW, whole]
  | moveAW =>
    simp only [SplitW.step]
    split
    · right; left; simp [whole, near, *]
    · exact .inl rfl
  | moveW =>
    simp only [SplitW.step]
    split
    · right; left; simp [whole, near, *]
    · exact .inl rfl
  | moveB =>
    simp only [SplitW.step]
    split
    · right; left; simp [whole, near, *]
    · exact .inl rfl
  | slaveAW =>
    cases up with
    | false => exact .inl rfl
    | true =>
      cases sl with
      | some x => exact .inl rfl
      | none =>
        cases aw with
        | nil => exact .inl rfl
        | cons a rest =>
          refine .inr (.inr ⟨.slaveAW, rfl, ?_, ?_, ?_⟩)
          · simp only [SplitW.step, SplitW.slaveAW, WPort.step, WPort.slaveAW, whole, Bool.or_false, List.cons_append, if_true]
            split
            · rfl
            · split <;> rfl
          · simp [SplitW.step, SplitW.slaveAW, near]
          · simp only [SplitW.step, SplitW.slaveAW, WPort.slaveAW, whole, Bool.or_false, if_true]
            split
            · simp
            · split <;> simp
  | slaveW =>
    cases up with
    | false => exact .inl rfl
    | true =>
      cases sl with
      | none => exact .inl rfl
      | some x =>
        cases w with
        | nil => exact .inl rfl
        | cons a rest =>
          refine .inr (.inr ⟨.slaveW, rfl, ?_, ?_, ?_⟩)
          · simp only [SplitW.step, SplitW.slaveW, WPort.step, WPort.slaveW, whole, Bool.or_false, List.cons_append, if_true]
            split
            · split
              · rfl
              · split <;> rfl
            · rfl
          · simp [SplitW.step, SplitW.slaveW, near]
          · simp only [SplitW.step, SplitW.slaveW, WPort.slaveW, whole, Bool.or_false, if_true]
            split
            · split
              · simp
              · split <;> simp
            · simp
  | slaveB =>
    cases up with
    | false => exact .inl rfl
    | true =>
      cases sl with
      | none => exact .inl rfl
      | some x =>
        refine .inr (.inr ⟨.slaveB, rfl, ?_, ?_, ?_⟩)
        · simp only [SplitW.step, SplitW.slaveB, WPort.step, WPort.slaveB, whole, Bool.or_false, if_true]
          split
          · simp
          · rfl
        · simp only [SplitW.step, SplitW.slaveB, WPort.slaveB, near, if_true]
          split <;> simp <;> omega
        · simp only [SplitW.step, SplitW.slaveB, WPort.slaveB, whole, Bool.or_false, if_true]
          split <;> simp
  | resetM v => simp [SplitWEv.progress] at hp
  | resetS v => simp [SplitWEv.progress] at hp
  | resetBoth v => simp [SplitWEv.progress] at hp

theorem SplitW.up_keep (s : SplitW) (st : σ) (e : SplitWEv) (hp : e.progress = true) : (s.step c args t st e).1.up = s.up := by
  cases e <;> simp only [SplitWEv.progress, Bool.false_eq_true] at hp <;> simp only [SplitW.step]
  all_goals first
    | rfl
    | (split <;> rfl)
    | (simp only [SplitW.slaveAW]; split <;> rfl)
    | (simp only [SplitW.slaveW]; split <;> rfl)
    | (simp only [SplitW.slaveB]; split <;> rfl)

/-- If nothing can happen in the divided system, nothing can happen in the whole system. -/
theorem SplitW.quiet (s : SplitW) (st : σ) (hd : s.whole.died = false) (hr : s.p.m.running = true) (hu : s.up = true)
    (hq : ∀ e, e.progress = true → s.step c args t st e = (s, st)) (e : WEv) (he : e.progress = true) :
    s.whole.step c args t st e = (s.whole, st) := by
  have hd1 : s.p.died = false ∧ s.slDied = false := by simpa [whole] using hd
  obtain ⟨hd1, hd2⟩ := hd1
  have ha : s.awSrc = [] := by
    have := hq .moveAW rfl
    cases hx : s.awSrc with
    | nil => rfl
    | cons x rest =>
      have := congrArg (fun q => q.1.awSrc.length) this
      simp [SplitW.step, hr, hu, hx] at this
  have hw : s.wSrc = [] := by
    have := hq .moveW rfl
    cases hx : s.wSrc with
    | nil => rfl
    | cons x rest =>
      have := congrArg (fun q => q.1.wSrc.length) this
      simp [SplitW.step, hr, hu, hx] at this
  have hb : s.bSrc = [] := by
    have := hq .moveB rfl
    cases hx : s.bSrc with
    | nil => rfl
    | cons x rest =>
      have := congrArg (fun q => q.1.bSrc.length) this
      simp [SplitW.step, hr, hu, hx] at this
  have key : ((s.step c args t st e.toSplit).1.whole, (s.step c args t st e.toSplit).2) = s.whole.step c args t st e := by
    obtain ⟨p, awSrc, wSrc, bSrc, up, slDied⟩ := s
    obtain ⟨m, calls, todo, aw, w, b, sl, died⟩ := p
    simp only at hd1 hd2 ha hw hb hu
    subst hd1 hd2 ha hw hb hu
    have own : ∀ e : WEv, e.own = true → (((SplitW.step c args t ⟨⟨m, calls, todo, aw, w, b, sl, false⟩, [], [], [], true, false⟩ st
        (.master e)).1.whole, (SplitW.step c args t ⟨⟨m, calls, todo, aw, w, b, sl, false⟩, [], [], [], true, false⟩ st
        (.master e)).2) = (SplitW.whole ⟨⟨m, calls, todo, aw, w, b, sl, false⟩, [], [], [], true, false⟩).step c args t st e) := by
      intro e he
      simp only [SplitW.step, he, if_true, whole, List.append_nil, Bool.or_false]
      by_cases hde : e = .deliver
      · subst hde
        cases b <;> rfl
      · obtain ⟨_, _, _, h4, _⟩ := WPort.own_frame (c := c) (args := args) (t := t) ⟨m, calls, todo, aw, w, b, sl, false⟩ st e he hde
        exact Prod.ext rfl h4.symm
    cases e with
    | sendAW =>
      cases todo with
      | nil => rfl
      | cons x rest =>
        cases x with
        | inl a =>
          by_cases hid : a.id < c.idCount <;>
            simp [WEv.toSplit, SplitW.step, SplitW.sendAW, WPort.step, WPort.sendAW, whole, hid]
        | inr a => simp [WEv.toSplit, SplitW.step, SplitW.sendAW, WPort.step, WPort.sendAW, whole]
    | sendW =>
      cases todo with
      | nil => rfl
      | cons x rest => cases x <;> simp [WEv.toSplit, SplitW.step, SplitW.sendW, WPort.step, WPort.sendW, whole]
    | slaveAW =>
      simp only [WEv.toSplit, SplitW.step, SplitW.slaveAW, WPort.step, whole, List.append_nil, Bool.or_false, if_true, Bool.false_or]
    | slaveW =>
      simp only [WEv.toSplit, SplitW.step, SplitW.slaveW, WPort.step, whole, List.append_nil, Bool.or_false, if_true, Bool.false_or]
    | slaveB =>
      simp only [WEv.toSplit, SplitW.step, SplitW.slaveB, WPort.step, WPort.slaveB, whole, List.append_nil, Bool.or_false, if_true]
      split
      · split <;> simp
      · simp
    | write => simp [WEv.progress] at he
    | init => simp [WEv.progress] at he
    | reset v => simp [WEv.progress] at he
    | take => exact own _ rfl
    | start => exact own _ rfl
    | deliver => exact own _ rfl
    | runInit i => exact own _ rfl
    | workTake i => exact own _ rfl
    | workGet i => exact own _ rfl
    | workDone i => exact own _ rfl
  have hpr : e.toSplit.progress = true := by cases e <;> first | rfl | (simp [WEv.progress] at he)
  rw [← key, hq _ hpr]

end

section

variable {σ : Type} {c : Cfg} {args : Nat → Req} {t : Target σ}

def SplitR.near (s : SplitR) : Nat := s.arSrc.length + s.rSrc.length

def REv.toSplit : REv → SplitREv
  | .sendAR => .sendAR
  | .slaveAR => .slaveAR
  | .slaveR => .slaveR
  | e => .master e

theorem SplitR.advance (s : SplitR) (st : σ) (e : SplitREv) (hp : e.progress = true) (hd : s.whole.died = false) :
    s.step c args t st e = (s, st) ∨
    ((s.step c args t st e).1.whole = s.whole ∧ (s.step c args t st e).2 = st ∧ (s.step c args t st e).1.near < s.near) ∨
    ∃ e', e'.progress = true ∧ ((s.step c args t st e).1.whole, (s.step c args t st e).2) = s.whole.step c args t st e' ∧
      (s.step c args t st e).1.near ≤ s.near + 1 ∧
      ((s.step c args t st e).1.whole = s.whole → (s.step c args t st e).1 = s) := by
  have hd1 : s.p.died = false ∧ s.slDied = false := by simpa [whole] using hd
  obtain ⟨hd1, hd2⟩ := hd1
  obtain ⟨p, arSrc, rSrc, up, slDied⟩ := s
  obtain ⟨m, calls, todo, ar, r, sl, died⟩ := p
  simp only at hd1 hd2
  subst hd1 hd2
  cases e with
  | master e =>
    simp only [SplitR.step]
    split
    · rename_i he
      by_cases hde : e = .deliver
      · subst hde
        cases r with
        | nil => exact .inl rfl
        | cons x rest =>
          refine .inr (.inr ⟨.deliver, rfl, rfl, by simp [near], fun h => ?_⟩)
          have := congrArg (fun q : RPort => q.r.length) h
          simp [whole, RPort.step, RPort.deliver] at this
      · obtain ⟨h1, h2, _, h5⟩ := RPort.own_frame (c := c) (args := args) (t := t) ⟨m, calls, todo, ar, r, sl, false⟩ st e he hde
        have h6 := h5 (ar ++ arSrc) (r ++ rSrc)
        refine .inr (.inr ⟨e, hp, ?_, by simp [near], fun h => ?_⟩)
        · simp only [whole, Bool.or_false]
          rw [h6, h1, h2]
        · simp only [whole, Bool.or_false, RPort.mk.injEq] at h
          obtain ⟨g1, g2, g3, _, _, g7, g8⟩ := h
          simp only [SplitR.mk.injEq, and_true]
          generalize (RPort.step c args t ⟨m, calls, todo, ar, r, sl, false⟩ st e).1 = q at *
          cases q
          simp_all
    · exact .inl rfl
  | sendAR =>
    cases todo with
    | nil => exact .inl rfl
    | cons a rest =>
      refine .inr (.inr ⟨.sendAR, rfl, ?_, ?_, ?_⟩)
      · by_cases hid : a.id < c.idCount <;> simp [SplitR.step, SplitR.sendAR, RPort.step, RPort.sendAR, whole, hid]
      · by_cases hid : a.id < c.idCount <;> simp [SplitR.step, SplitR.sendAR, RPort.sendAR, near, hid] <;> omega
      · by_cases hid : a.id < c.idCount <;> simp [SplitR.step, SplitR.sendAR, RPort.sendAR, whole, hid]
  | moveAR =>
    simp only [SplitR.step]
    split
    · right; left; simp [whole, near, *]
    · exact .inl rfl
  | moveR =>
    simp only [SplitR.step]
    split
    · right; left; simp [whole, near, *]
    · exact .inl rfl
  | slaveAR =>
    cases up with
    | false => exact .inl rfl
    | true =>
      cases sl with
      | some x => exact .inl rfl
      | none =>
        cases ar with
        | nil => exact .inl rfl
        | cons a rest =>
          refine .inr (.inr ⟨.slaveAR, rfl, ?_, ?_, ?_⟩)
          · simp only [SplitR.step, SplitR.slaveAR, RPort.step, RPort.slaveAR, whole, Bool.or_false, List.cons_append, if_true]
            split
            · rfl
            · split <;> rfl
          · simp [SplitR.step, SplitR.slaveAR, near]
          · simp only [SplitR.step, SplitR.slaveAR, RPort.slaveAR, whole, Bool.or_false, if_true]
            split
            · simp
            · split <;> simp
  | slaveR =>
    cases up with
    | false => exact .inl rfl
    | true =>
      cases sl with
      | none => exact .inl rfl
      | some x =>
        refine .inr (.inr ⟨.slaveR, rfl, ?_, ?_, ?_⟩)
        · simp [SplitR.step, SplitR.slaveR, RPort.step, RPort.slaveR, whole]
        · simp [SplitR.step, SplitR.slaveR, RPort.slaveR, near]; omega
        · intro h
          have := congrArg (fun q : RPort => q.r.length) h
          simp [SplitR.step, SplitR.slaveR, RPort.slaveR, whole] at this
  | resetM v => simp [SplitREv.progress] at hp
  | resetS v => simp [SplitREv.progress] at hp
  | resetBoth v => simp [SplitREv.progress] at hp

theorem SplitR.up_keep (s : SplitR) (st : σ) (e : SplitREv) (hp : e.progress = true) : (s.step c args t st e).1.up = s.up := by
  cases e <;> simp only [SplitREv.progress, Bool.false_eq_true] at hp <;> simp only [SplitR.step]
  all_goals first
    | rfl
    | (split <;> rfl)
    | (simp only [SplitR.slaveAR]; split <;> rfl)
    | (simp only [SplitR.slaveR]; split <;> rfl)

theorem SplitR.quiet (s : SplitR) (st : σ) (hd : s.whole.died = false) (hr : s.p.m.running = true) (hu : s.up = true)
    (hq : ∀ e, e.progress = true → s.step c args t st e = (s, st)) (e : REv) (he : e.progress = true) :
    s.whole.step c args t st e = (s.whole, st) := by
  have hd1 : s.p.died = false ∧ s.slDied = false := by simpa [whole] using hd
  obtain ⟨hd1, hd2⟩ := hd1
  have ha : s.arSrc = [] := by
    have := hq .moveAR rfl
    cases hx : s.arSrc with
    | nil => rfl
    | cons x rest =>
      have := congrArg (fun q => q.1.arSrc.length) this
      simp [SplitR.step, hr, hu, hx] at this
  have hb : s.rSrc = [] := by
    have := hq .moveR rfl
    cases hx : s.rSrc with
    | nil => rfl
    | cons x rest =>
      have := congrArg (fun q => q.1.rSrc.length) this
      simp [SplitR.step, hr, hu, hx] at this
  have key : ((s.step c args t st e.toSplit).1.whole, (s.step c args t st e.toSplit).2) = s.whole.step c args t st e := by
    obtain ⟨p, arSrc, rSrc, up, slDied⟩ := s
    obtain ⟨m, calls, todo, ar, r, sl, died⟩ := p
    simp only at hd1 hd2 ha hb hu
    subst hd1 hd2 ha hb hu
    have own : ∀ e : REv, e.own = true → (((SplitR.step c args t ⟨⟨m, calls, todo, ar, r, sl, false⟩, [], [], true, false⟩ st
        (.master e)).1.whole, (SplitR.step c args t ⟨⟨m, calls, todo, ar, r, sl, false⟩, [], [], true, false⟩ st
        (.master e)).2) = (SplitR.whole ⟨⟨m, calls, todo, ar, r, sl, false⟩, [], [], true, false⟩).step c args t st e) := by
      intro e he
      simp only [SplitR.step, he, if_true, whole, List.append_nil, Bool.or_false]
      by_cases hde : e = .deliver
      · subst hde
        cases r <;> rfl
      · obtain ⟨_, _, h4, _⟩ := RPort.own_frame (c := c) (args := args) (t := t) ⟨m, calls, todo, ar, r, sl, false⟩ st e he hde
        exact Prod.ext rfl h4.symm
    cases e with
    | sendAR =>
      cases todo with
      | nil => rfl
      | cons a rest =>
        by_cases hid : a.id < c.idCount <;>
          simp [REv.toSplit, SplitR.step, SplitR.sendAR, RPort.step, RPort.sendAR, whole, hid]
    | slaveAR =>
      simp only [REv.toSplit, SplitR.step, SplitR.slaveAR, RPort.step, whole, List.append_nil, Bool.or_false, if_true, Bool.false_or]
    | slaveR =>
      cases sl with
      | none => simp [REv.toSplit, SplitR.step, SplitR.slaveR, RPort.step, RPort.slaveR, whole]
      | some x => simp [REv.toSplit, SplitR.step, SplitR.slaveR, RPort.step, RPort.slaveR, whole]
    | read => simp [REv.progress] at he
    | init => simp [REv.progress] at he
    | reset v => simp [REv.progress] at he
    | take => exact own _ rfl
    | start => exact own _ rfl
    | deliver => exact own _ rfl
    | runInit i => exact own _ rfl
    | workTake i => exact own _ rfl
    | workGet i => exact own _ rfl
    | workDone i => exact own _ rfl
  have hpr : e.toSplit.progress = true := by cases e <;> first | rfl | (simp [REv.progress] at he)
  rw [← key, hq _ hpr]

end

/-! ## Whole histories -/

section

variable {σ : Type} {c : Cfg} {wa : Nat → WArgs} {ra : Nat → Req} {t : Target σ} {st : σ}

theorem SplitEv.not_alone_w {e : SplitWEv} (h : e.progress = true) : e.alone = false := by
  cases e <;> first | rfl | (simp [SplitWEv.progress] at h)

theorem SplitEv.not_alone_r {e : SplitREv} (h : e.progress = true) : e.alone = false := by
  cases e <;> first | rfl | (simp [SplitREv.progress] at h)

/-- A calm history stays calm while nothing is reset. -/
theorem Split.Calm.append {evs more : List SplitEv} (h : Split.Calm c wa ra t st evs) (hm : ∀ e ∈ more, e.progress = true) :
    Split.Calm c wa ra t st (evs ++ more) := by
  have hin : ∀ {n : Nat} {e : SplitEv}, (evs ++ more)[n]? = some e → e.progress = false →
      evs[n]? = some e ∧ Split.after c wa ra t st (evs ++ more) n = Split.after c wa ra t st evs n := by
    intro n e hn he
    by_cases hl : n < evs.length
    · rw [List.getElem?_append_left hl] at hn
      exact ⟨hn, by simp only [Split.after]; rw [List.take_append_of_le_length (by omega)]⟩
    · rw [List.getElem?_append_right (by omega)] at hn
      rw [hm e (List.mem_of_getElem? hn)] at he
      cases he
  constructor
  · intro n e hn ha
    have hp : (SplitEv.w e).progress = false := by
      cases hq : (SplitEv.w e).progress with
      | false => rfl
      | true => rw [SplitEv.not_alone_w hq] at ha; cases ha
    obtain ⟨h1, h2⟩ := hin hn hp
    rw [h2]; exact h.1 n e h1 ha
  · intro n e hn ha
    have hp : (SplitEv.r e).progress = false := by
      cases hq : (SplitEv.r e).progress with
      | false => rfl
      | true => rw [SplitEv.not_alone_r hq] at ha; cases ha
    obtain ⟨h1, h2⟩ := hin hn hp
    rw [h2]; exact h.2 n e h1 ha

/-- After a calm history, the whole system is in a reachable state. -/
theorem Split.reach (hc : c.Std) (hi : IdsFit c wa ra) {evs : List SplitEv} (h : Split.Calm c wa ra t st evs) :
    ∃ evs', (Split.run c wa ra t st evs).whole = Sys.run c wa ra t st evs' := by
  obtain ⟨evs', he⟩ := Split.refine hc hi.w hi.r evs h
  refine ⟨evs'.take evs.length, ?_⟩
  have := he evs.length
  simp only [Split.after, List.take_length] at this
  exact this

def Split.near (s : Split σ) : Nat := s.w.near + s.r.near

theorem Split.advance (hc : c.Std) (hi : IdsFit c wa ra) {evs : List SplitEv} (h : Split.Calm c wa ra t st evs) (e : SplitEv)
    (hp : e.progress = true) :
    let s := Split.run c wa ra t st evs
    s.step c wa ra t e = s ∨ ((s.step c wa ra t e).whole = s.whole ∧ (s.step c wa ra t e).near < s.near) ∨
    ∃ e' : Ev, e'.progress = true ∧ (s.step c wa ra t e).whole = s.whole.step c wa ra t e' ∧
      (s.step c wa ra t e).near ≤ s.near + 1 ∧ ((s.step c wa ra t e).whole = s.whole → s.step c wa ra t e = s) := by
  intro s
  obtain ⟨evs', he⟩ := Split.reach hc hi h
  obtain ⟨w, hW⟩ := run_winv c hc wa ra hi t st evs'
  obtain ⟨r, hR⟩ := run_rinv c hc wa ra hi t st evs'
  rw [← he] at hW hR
  have hs : s = ⟨s.w, s.r, s.mem⟩ := rfl
  cases e with
  | w e =>
    rcases SplitW.advance (c := c) (args := wa) (t := t) s.w s.mem e hp hW.died with h1 | ⟨h1, h2, h3⟩ | ⟨e', h1, h2, h3, h4⟩
    · left; simp only [Split.step, h1]
    · right; left
      refine ⟨?_, ?_⟩
      · simp only [Split.step, Split.whole, h1, h2]
      · simp only [Split.step, Split.near]; omega
    · right; right
      simp only [Prod.ext_iff] at h2
      refine ⟨.w e', h1, ?_, ?_, ?_⟩
      · simp only [Split.step, Split.whole, Sys.step]; rw [h2.1, h2.2]
      · simp only [Split.step, Split.near]; omega
      · intro hw
        have g1 := congrArg Sys.w hw
        have g2 := congrArg Sys.mem hw
        have g3 := h4 g1
        simp only [Split.step, Split.whole] at g2 ⊢
        rw [g3, g2]
  | r e =>
    rcases SplitR.advance (c := c) (args := ra) (t := t) s.r s.mem e hp hR.died with h1 | ⟨h1, h2, h3⟩ | ⟨e', h1, h2, h3, h4⟩
    · left; simp only [Split.step, h1]
    · right; left
      refine ⟨?_, ?_⟩
      · simp only [Split.step, Split.whole, h1, h2]
      · simp only [Split.step, Split.near]; omega
    · right; right
      simp only [Prod.ext_iff] at h2
      refine ⟨.r e', h1, ?_, ?_, ?_⟩
      · simp only [Split.step, Split.whole, Sys.step]; rw [h2.1, h2.2]
      · simp only [Split.step, Split.near]; omega
      · intro hw
        have g1 := congrArg Sys.r hw
        have g2 := congrArg Sys.mem hw
        have g3 := h4 g1
        simp only [Split.step, Split.whole] at g2 ⊢
        rw [g3, g2]

/-- If nothing can happen in the divided system, nothing can happen in the whole system. -/
theorem Split.quiet (hc : c.Std) (hi : IdsFit c wa ra) {evs : List SplitEv} (h : Split.Calm c wa ra t st evs) :
    let s := Split.run c wa ra t st evs
    s.Up → (∀ e : SplitEv, e.progress = true → s.step c wa ra t e = s) →
    ∀ e : Ev, e.progress = true → s.whole.step c wa ra t e = s.whole := by
  intro s hup hq e he
  obtain ⟨evs', hr⟩ := Split.reach hc hi h
  obtain ⟨w, hW⟩ := run_winv c hc wa ra hi t st evs'
  obtain ⟨r, hR⟩ := run_rinv c hc wa ra hi t st evs'
  rw [← hr] at hW hR
  cases e with
  | w e =>
    have := SplitW.quiet (c := c) (args := wa) (t := t) s.w s.mem hW.died hup.1 hup.2.1 (fun e he => by
      have := hq (.w e) he
      exact Prod.ext (congrArg Split.w this) (congrArg Split.mem this)) e he
    simp only [Split.whole, Sys.step]; rw [this]
  | r e =>
    have := SplitR.quiet (c := c) (args := ra) (t := t) s.r s.mem hR.died hup.2.2.1 hup.2.2.2 (fun e he => by
      have := hq (.r e) he
      exact Prod.ext (congrArg Split.r this) (congrArg Split.mem this)) e he
    simp only [Split.whole, Sys.step]; rw [this]

end

end Verif.AxiSys
