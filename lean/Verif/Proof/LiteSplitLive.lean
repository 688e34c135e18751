import Verif.Proof.LiteSplit
import Verif.Props.LiteProgress

/-!
# Separate resets of an AXI-lite master and slave: progress
-/

namespace Verif.LiteOps

variable {χ α β ρ χ' ρ' σ : Type}

namespace SplitW

/-- What is left to do in the channels, apart from what the view shows. -/
def near (p : SplitW χ α β ρ) : Nat := (if p.awSent then 0 else 4) + 2 * p.awSrc.length + p.awSnk.length + p.wSrc.length

theorem near_master (p : SplitW χ α β ρ) (m : Lite χ ρ) : ({ p with m := m } : SplitW χ α β ρ).near = p.near := rfl

/-- Every piece of a coroutine and every handshake that does anything leaves less to do. -/
theorem decreases {h : Halves χ α β} (hl : ∀ x, h.join (h.aw x) (h.w x) = x) {f : χ → σ → ρ × σ} {p : SplitW χ α β ρ}
    (hi : SInv h p) (mem : σ) (e : SplitWEv χ ρ) (hp : e.progress = true) :
    p.step h f mem e = (p, mem) ∨
      6 * ((p.step h f mem e).1.view h).wt + (p.step h f mem e).1.near < 6 * (p.view h).wt + p.near := by
  obtain ⟨req, hq⟩ := hi.pairs
  have hreq := hq.req hl
  have same : ∀ p' : SplitW χ α β ρ, p'.Pairs h req → p'.m = p.m → p'.bSrc = p.bSrc → (p'.view h).wt = (p.view h).wt := by
    intro p' hp hm hb
    rw [show p'.view h = p.view h from Port.ext' hm ((hp.req hl).trans hreq.symm) hb]
  cases e with
  | master e =>
    simp only [SplitW.step]
    by_cases ho : own e = true
    · simp only [ho, if_true]
      have hpe : (PortEv.master e : PortEv χ ρ).progress = true := by
        cases e <;> first | rfl | (simp [own] at ho; done) | (simp [SplitWEv.progress] at hp; done)
      have hst : (p.view h).step f mem (.master e) = (({ p with m := p.m.step e } : SplitW χ α β ρ).view h, mem) := by
        simp [Port.step, ho, view]
      rcases Port.decreases f (p.view h) mem (.master e) hpe with h1 | h1
      · left
        rw [hst] at h1
        have h2 : p.m.step e = p.m := congrArg (fun x => x.1.m) h1
        rw [h2]
      · right
        rw [hst] at h1
        rw [near_master]
        simp only at h1
        omega
    · left; simp only [ho, if_neg (show ¬ (false = true) by decide)]
  | sendAW =>
    simp only [SplitW.step]
    split
    · rename_i op x rem hr hc ha
      right
      have hA : SplitW.Pairs h { p with awSent := true, awSrc := p.awSrc ++ [h.aw x] } req := by
        refine ⟨hq.1, .inr ⟨rfl, op, x, rem, hc, ?_⟩⟩
        rcases hq.2 with ⟨_, h2⟩ | ⟨h2, _⟩
        · simp only [← List.append_assoc] at h2 ⊢
          rw [h2]
        · rw [ha] at h2; cases h2
      have := same _ hA rfl rfl
      simp only [near, ha, List.length_append, List.length_singleton, if_true, Bool.false_eq_true, if_false] at *
      omega
    · exact .inl rfl
  | sendW =>
    simp only [SplitW.step]
    split
    · rename_i op x rem hr hc ha
      right
      have hA : p.sl.toList ++ p.awSnk ++ p.awSrc = (req ++ [x]).map h.aw := by
        rcases hq.2 with ⟨h2, _⟩ | ⟨_, op', x', rem', h2, h3⟩
        · rw [ha] at h2; cases h2
        · rw [hc] at h2
          simp only [Option.some.injEq, Prod.mk.injEq, List.cons.injEq] at h2
          obtain ⟨_, rfl, _⟩ := h2
          rw [h3]; simp
      have hp : SplitW.Pairs h { p with m := p.m.step .send, awSent := false, wSrc := p.wSrc ++ [h.w x] } (req ++ [x]) := by
        refine ⟨?_, .inl ⟨rfl, hA⟩⟩
        show p.wSnk ++ (p.wSrc ++ [h.w x]) = _
        rw [← List.append_assoc, hq.1]; simp
      have hv := hp.req hl
      have e2 : (p.view h).step f mem .send = ({ p.view h with m := p.m.step .send, req := (p.view h).req ++ [x] }, mem) := by
        simp only [Port.step]
        rw [show (p.view h).m = p.m from rfl]
        simp only [hr, hc]
      have e3 : (({ p with m := p.m.step .send, awSent := false, wSrc := p.wSrc ++ [h.w x] } : SplitW χ α β ρ).view h, mem) =
          (p.view h).step f mem .send := by
        rw [e2]
        exact Prod.ext (Port.ext' rfl (by rw [hv]; simp [hreq]) rfl) rfl
      rcases Port.decreases f (p.view h) mem .send rfl with h1 | h1
      · rw [← e3] at h1
        have h2 := congrArg (fun y => y.1.req.length) h1
        simp only [hv, hreq, List.length_append, List.length_singleton] at h2
        omega
      · rw [← e3] at h1
        simp only [near, ha, List.length_append, List.length_singleton, if_true, Bool.false_eq_true, if_false] at h1 ⊢
        omega
    · exact .inl rfl
  | moveAW =>
    simp only [SplitW.step]
    split
    · rename_i a rest _ _ ha
      right
      have hA : SplitW.Pairs h { p with awSrc := rest, awSnk := p.awSnk ++ [a] } req := by
        refine ⟨hq.1, ?_⟩
        have := hq.2
        rw [ha] at this
        simpa only [List.append_assoc, List.singleton_append] using this
      have := same _ hA rfl rfl
      simp only [near, ha, List.length_append, List.length_nil, List.length_cons] at *
      omega
    · exact .inl rfl
  | moveW =>
    simp only [SplitW.step]
    split
    · rename_i x rest _ _ ha
      right
      have hA : SplitW.Pairs h { p with wSrc := rest, wSnk := p.wSnk ++ [x] } req := by
        refine ⟨?_, hq.2⟩
        have := hq.1
        rw [ha] at this
        simpa only [List.append_assoc, List.singleton_append] using this
      have := same _ hA rfl rfl
      simp only [near, ha, List.length_cons] at *
      omega
    · exact .inl rfl
  | moveB =>
    simp only [SplitW.step]
    split
    · rename_i r rest hr _ hb
      right
      have e3 : (({ p with m := p.m.step (.resp r), bSrc := rest } : SplitW χ α β ρ).view h, mem) = (p.view h).step f mem .deliver := by
        simp only [Port.step, view, hb]
      rcases Port.decreases f (p.view h) mem .deliver rfl with h1 | h1
      · rw [← e3] at h1
        have h2 := congrArg (fun y => y.1.rsp.length) h1
        simp [view, hb] at h2
      · rw [← e3] at h1
        simp only [near] at h1 ⊢
        omega
    · exact .inl rfl
  | slaveAW =>
    simp only [SplitW.step]
    split
    · rename_i a rest _ hs ha
      right
      have hA : SplitW.Pairs h { p with sl := some a, awSnk := rest } req := by
        refine ⟨hq.1, ?_⟩
        have := hq.2
        rw [hs, ha] at this
        simpa using this
      have := same _ hA rfl rfl
      simp only [near, ha, List.length_cons] at *
      omega
    · exact .inl rfl
  | slaveW =>
    simp only [SplitW.step]
    split
    · rename_i a x rest hu hs hw
      right
      have hnr : (p.step h f mem .slaveW).1.near = p.near := by simp [SplitW.step, hu, hs, hw, near]
      obtain ⟨_, e', h3⟩ := hi.step hl (f := f) mem .slaveW (fun hx => by cases hx)
      have q1 := hq.1
      rw [hw] at q1
      cases req with
      | nil => simp at q1
      | cons y req =>
        simp only [List.cons_append, List.map_cons, List.cons.injEq] at q1
        have hay : a = h.aw y ∧ ((p.awSent = false ∧ p.awSnk ++ p.awSrc = req.map h.aw) ∨
            (p.awSent = true ∧ ∃ op x rem, p.m.cur = some (op, x :: rem) ∧ p.awSnk ++ p.awSrc = req.map h.aw ++ [h.aw x])) := by
          have := hq.2
          rw [hs] at this
          simp only [Option.toList_some, List.cons_append, List.map_cons, List.cons.injEq] at this
          rcases this with ⟨t1, t2, t3⟩ | ⟨t1, op, z, rem, t2, t3, t4⟩
          · exact ⟨t2, .inl ⟨t1, t3⟩⟩
          · exact ⟨t3, .inr ⟨t1, op, z, rem, t2, t4⟩⟩
        have hj : h.join a x = y := by rw [hay.1, q1.1]; exact hl y
        have hp : SplitW.Pairs h { p with sl := none, wSnk := rest, bSrc := p.bSrc ++ [(f (h.join a x) mem).1] } req :=
          ⟨q1.2, by simpa using hay.2⟩
        have hv := hp.req hl
        have e3 : (({ p with sl := none, wSnk := rest, bSrc := p.bSrc ++ [(f (h.join a x) mem).1] } : SplitW χ α β ρ).view h,
            (f (h.join a x) mem).2) = (p.view h).step f mem .serve := by
          simp only [Port.step, hreq, hj]
          rw [hj] at hv
          exact Prod.ext (Port.ext' rfl hv rfl) rfl
        rcases Port.decreases f (p.view h) mem .serve rfl with h1 | h1
        · rw [← e3] at h1
          have h2 := congrArg (fun y => y.1.rsp.length) h1
          simp [view] at h2
        · rw [← e3] at h1
          simp only [near] at h1 ⊢
          omega
    · exact .inl rfl
  | resetM v => simp [SplitWEv.progress] at hp
  | resetS v => simp [SplitWEv.progress] at hp
  | resetBoth v => simp [SplitWEv.progress] at hp

theorem keep {h : Halves χ α β} {f : χ → σ → ρ × σ} (p : SplitW χ α β ρ) (mem : σ) (e : SplitWEv χ ρ) (hp : e.progress = true) :
    (p.step h f mem e).1.up = p.up ∧ Later p.m (p.step h f mem e).1.m := by
  cases e with
  | master e =>
    simp only [SplitW.step]
    split
    · refine ⟨rfl, Later.step _ _ ?_⟩
      rintro rfl
      simp [SplitWEv.progress, own] at hp
    · exact ⟨rfl, Later.refl _⟩
  | sendW => simp only [SplitW.step]; split; (exact ⟨rfl, Later.step _ .send (by simp)⟩); exact ⟨rfl, Later.refl _⟩
  | moveB => simp only [SplitW.step]; split; (exact ⟨rfl, Later.step _ (.resp _) (by simp)⟩); exact ⟨rfl, Later.refl _⟩
  | sendAW => simp only [SplitW.step]; split <;> exact ⟨rfl, Later.refl _⟩
  | moveAW => simp only [SplitW.step]; split <;> exact ⟨rfl, Later.refl _⟩
  | moveW => simp only [SplitW.step]; split <;> exact ⟨rfl, Later.refl _⟩
  | slaveAW => simp only [SplitW.step]; split <;> exact ⟨rfl, Later.refl _⟩
  | slaveW => simp only [SplitW.step]; split <;> exact ⟨rfl, Later.refl _⟩
  | resetM v => simp [SplitWEv.progress] at hp
  | resetS v => simp [SplitWEv.progress] at hp
  | resetBoth v => simp [SplitWEv.progress] at hp

/-- If nothing can happen, nothing can happen in the view. -/
theorem still {h : Halves χ α β} (hl : ∀ x, h.join (h.aw x) (h.w x) = x) {f : χ → σ → ρ × σ} {p : SplitW χ α β ρ}
    (hi : SInv h p) (mem : σ) (hr : p.m.running = true) (hu : p.up = true)
    (hq : ∀ e : SplitWEv χ ρ, e.progress = true → p.step h f mem e = (p, mem)) (e : PortEv χ ρ) (he : e.progress = true) :
    (p.view h).step f mem e = (p.view h, mem) := by
  have ha : p.awSrc = [] := by
    cases hx : p.awSrc with
    | nil => rfl
    | cons x rest =>
      have := congrArg (fun q => q.1.awSrc.length) (hq .moveAW rfl)
      simp [SplitW.step, hr, hu, hx] at this
  have hw : p.wSrc = [] := by
    cases hx : p.wSrc with
    | nil => rfl
    | cons x rest =>
      have := congrArg (fun q => q.1.wSrc.length) (hq .moveW rfl)
      simp [SplitW.step, hr, hu, hx] at this
  have hb : p.bSrc = [] := by
    cases hx : p.bSrc with
    | nil => rfl
    | cons x rest =>
      have := congrArg (fun q => q.1.bSrc.length) (hq .moveB rfl)
      simp [SplitW.step, hr, hu, hx] at this
  have hcur : ∀ op x rem, p.m.cur ≠ some (op, x :: rem) := by
    intro op x rem hc
    cases hs : p.awSent with
    | false =>
      have := congrArg (fun q => q.1.awSrc.length) (hq .sendAW rfl)
      simp [SplitW.step, hr, hc, hs] at this
    | true =>
      have := congrArg (fun q => q.1.wSrc.length) (hq .sendW rfl)
      simp [SplitW.step, hr, hc, hs] at this
  have hreq : (p.view h).req = [] := by
    obtain ⟨req, hp⟩ := hi.pairs
    rw [hp.req hl]
    cases req with
    | nil => rfl
    | cons y req =>
      obtain ⟨h1, h2⟩ := hp
      rw [hw] at h1
      rw [ha] at h2
      simp only [List.append_nil, List.map_cons] at h1 h2
      have h3 : ∃ a l, p.sl.toList ++ p.awSnk = a :: l := by
        rcases h2 with ⟨_, h2⟩ | ⟨_, _, _, _, _, h2⟩
        · exact ⟨_, _, h2⟩
        · exact ⟨_, _, h2⟩
      obtain ⟨a, l, h3⟩ := h3
      cases hs : p.sl with
      | none =>
        rw [hs] at h3
        simp only [Option.toList_none, List.nil_append] at h3
        have := congrArg (fun q => q.1.awSnk.length) (hq .slaveAW rfl)
        simp [SplitW.step, hu, hs, h3] at this
      | some b =>
        have := congrArg (fun q => q.1.wSnk.length) (hq .slaveW rfl)
        simp [SplitW.step, hu, hs, h1] at this
  cases e with
  | master e =>
    have hpe : (SplitWEv.master e : SplitWEv χ ρ).progress = true := by
      cases e <;> first | rfl | (simp [PortEv.progress, own] at he; done)
    have h1 := hq (.master e) hpe
    have ho : own e = true := by
      cases e <;> first | rfl | (simp [PortEv.progress, own] at he)
    simp only [SplitW.step, ho, if_true] at h1
    have h2 : p.m.step e = p.m := congrArg (fun q => q.1.m) h1
    simp only [Port.step, ho, if_true]
    exact Prod.ext (Port.ext' h2 rfl rfl) rfl
  | send =>
    simp only [Port.step]
    split
    · rename_i op x rem _ hc
      exact absurd hc (hcur op x rem)
    · rfl
  | serve => simp only [Port.step, hreq]
  | deliver =>
    have hb : (p.view h).rsp = [] := hb
    simp only [Port.step, hb]
  | reset v => simp [PortEv.progress] at he

end SplitW

namespace SplitR

def near (p : SplitR χ ρ) : Nat := p.arSrc.length

theorem decreases {g : χ → σ → ρ × σ} (p : SplitR χ ρ) (mem : σ) (e : SplitREv χ ρ) (hp : e.progress = true) :
    p.step g mem e = (p, mem) ∨ 6 * (p.step g mem e).1.view.wt + (p.step g mem e).1.near < 6 * p.view.wt + p.near := by
  cases e with
  | master e =>
    simp only [SplitR.step]
    by_cases ho : own e = true
    · simp only [ho, if_true]
      have hpe : (PortEv.master e : PortEv χ ρ).progress = true := by
        cases e <;> first | rfl | (simp [own] at ho; done) | (simp [SplitREv.progress] at hp; done)
      have hst : p.view.step g mem (.master e) = (({ p with m := p.m.step e } : SplitR χ ρ).view, mem) := by
        simp [Port.step, ho, view]
      rcases Port.decreases g p.view mem (.master e) hpe with h1 | h1
      · left
        rw [hst] at h1
        have h2 : p.m.step e = p.m := congrArg (fun x => x.1.m) h1
        rw [h2]
      · right
        rw [hst] at h1
        simp only [near] at h1 ⊢
        omega
    · left; simp only [ho, if_neg (show ¬ (false = true) by decide)]
  | sendAR =>
    simp only [SplitR.step]
    split
    · rename_i op x rem hr hc
      right
      have e3 : (({ p with m := p.m.step .send, arSrc := p.arSrc ++ [x] } : SplitR χ ρ).view, mem) = p.view.step g mem .send := by
        simp only [Port.step]
        rw [show p.view.m = p.m from rfl]
        simp only [hr, hc, view, List.append_assoc]
      rcases Port.decreases g p.view mem .send rfl with h1 | h1
      · rw [← e3] at h1
        have h2 := congrArg (fun y => y.1.req.length) h1
        simp [view] at h2
      · rw [← e3] at h1
        simp only [near, List.length_append, List.length_singleton] at h1 ⊢
        omega
    · exact .inl rfl
  | moveAR =>
    simp only [SplitR.step]
    split
    · rename_i a rest _ _ ha
      right
      have : (({ p with arSrc := rest, arSnk := p.arSnk ++ [a] } : SplitR χ ρ).view) = p.view := by simp [view, ha]
      rw [this]
      simp only [near, ha, List.length_cons]
      omega
    · exact .inl rfl
  | moveR =>
    simp only [SplitR.step]
    split
    · rename_i r rest hr _ hb
      right
      have e3 : (({ p with m := p.m.step (.resp r), rSrc := rest } : SplitR χ ρ).view, mem) = p.view.step g mem .deliver := by
        simp only [Port.step, view, hb]
      rcases Port.decreases g p.view mem .deliver rfl with h1 | h1
      · rw [← e3] at h1
        have h2 := congrArg (fun y => y.1.rsp.length) h1
        simp [view, hb] at h2
      · rw [← e3] at h1
        simp only [near] at h1 ⊢
        omega
    · exact .inl rfl
  | slaveR =>
    simp only [SplitR.step]
    split
    · rename_i x rest _ hx
      right
      have e3 : (({ p with arSnk := rest, rSrc := p.rSrc ++ [(g x mem).1] } : SplitR χ ρ).view, (g x mem).2) =
          p.view.step g mem .serve := by
        simp only [Port.step, view, hx, List.cons_append]
      rcases Port.decreases g p.view mem .serve rfl with h1 | h1
      · rw [← e3] at h1
        have h2 := congrArg (fun y => y.1.rsp.length) h1
        simp [view] at h2
      · rw [← e3] at h1
        simp only [near] at h1 ⊢
        omega
    · exact .inl rfl
  | resetM v => simp [SplitREv.progress] at hp
  | resetS v => simp [SplitREv.progress] at hp
  | resetBoth v => simp [SplitREv.progress] at hp

theorem keep {g : χ → σ → ρ × σ} (p : SplitR χ ρ) (mem : σ) (e : SplitREv χ ρ) (hp : e.progress = true) :
    (p.step g mem e).1.up = p.up ∧ Later p.m (p.step g mem e).1.m := by
  cases e with
  | master e =>
    simp only [SplitR.step]
    split
    · refine ⟨rfl, Later.step _ _ ?_⟩
      rintro rfl
      simp [SplitREv.progress, own] at hp
    · exact ⟨rfl, Later.refl _⟩
  | sendAR => simp only [SplitR.step]; split; (exact ⟨rfl, Later.step _ .send (by simp)⟩); exact ⟨rfl, Later.refl _⟩
  | moveR => simp only [SplitR.step]; split; (exact ⟨rfl, Later.step _ (.resp _) (by simp)⟩); exact ⟨rfl, Later.refl _⟩
  | moveAR => simp only [SplitR.step]; split <;> exact ⟨rfl, Later.refl _⟩
  | slaveR => simp only [SplitR.step]; split <;> exact ⟨rfl, Later.refl _⟩
  | resetM v => simp [SplitREv.progress] at hp
  | resetS v => simp [SplitREv.progress] at hp
  | resetBoth v => simp [SplitREv.progress] at hp

theorem still {g : χ → σ → ρ × σ} {p : SplitR χ ρ} (mem : σ) (hr : p.m.running = true) (hu : p.up = true)
    (hq : ∀ e : SplitREv χ ρ, e.progress = true → p.step g mem e = (p, mem)) (e : PortEv χ ρ) (he : e.progress = true) :
    p.view.step g mem e = (p.view, mem) := by
  have ha : p.arSrc = [] := by
    cases hx : p.arSrc with
    | nil => rfl
    | cons x rest =>
      have := congrArg (fun q => q.1.arSrc.length) (hq .moveAR rfl)
      simp [SplitR.step, hr, hu, hx] at this
  have hb : p.view.rsp = [] := by
    show p.rSrc = []
    cases hx : p.rSrc with
    | nil => rfl
    | cons x rest =>
      have := congrArg (fun q => q.1.rSrc.length) (hq .moveR rfl)
      simp [SplitR.step, hr, hu, hx] at this
  have hcur : ∀ op x rem, p.m.cur ≠ some (op, x :: rem) := by
    intro op x rem hc
    have := congrArg (fun q => q.1.arSrc.length) (hq .sendAR rfl)
    simp [SplitR.step, hr, hc] at this
  have hreq : p.view.req = [] := by
    show p.arSnk ++ p.arSrc = []
    rw [ha, List.append_nil]
    cases hx : p.arSnk with
    | nil => rfl
    | cons x rest =>
      have := congrArg (fun q => q.1.arSnk.length) (hq .slaveR rfl)
      simp [SplitR.step, hu, hx] at this
  cases e with
  | master e =>
    have hpe : (SplitREv.master e : SplitREv χ ρ).progress = true := by
      cases e <;> first | rfl | (simp [PortEv.progress, own] at he; done)
    have h1 := hq (.master e) hpe
    have ho : own e = true := by
      cases e <;> first | rfl | (simp [PortEv.progress, own] at he)
    simp only [SplitR.step, ho, if_true] at h1
    have h2 : p.m.step e = p.m := congrArg (fun q => q.1.m) h1
    simp only [Port.step, ho, if_true]
    exact Prod.ext (Port.ext' h2 rfl rfl) rfl
  | send =>
    simp only [Port.step]
    split
    · rename_i op x rem _ hc
      exact absurd hc (hcur op x rem)
    · rfl
  | serve => simp only [Port.step, hreq]
  | deliver => simp only [Port.step, hb]
  | reset v => simp [PortEv.progress] at he

end SplitR

namespace Split

variable {h : Halves χ α β} {f : χ → σ → ρ × σ} {g : χ' → σ → ρ' × σ} {m0 : σ}

/-- A calm history stays calm while nothing is reset. -/
theorem calm_append {evs more : List (SplitEv χ ρ χ' ρ')} (hm : ∀ e ∈ more, e.progress = true)
    (hw : CalmW h f g m0 evs) (hr : CalmR h f g m0 evs) : CalmW h f g m0 (evs ++ more) ∧ CalmR h f g m0 (evs ++ more) := by
  have hin : ∀ {n : Nat} {e : SplitEv χ ρ χ' ρ'}, (evs ++ more)[n]? = some e → e.progress = false →
      evs[n]? = some e ∧ after h f g m0 (evs ++ more) n = after h f g m0 evs n := by
    intro n e hn he
    by_cases hl : n < evs.length
    · rw [List.getElem?_append_left hl] at hn
      exact ⟨hn, by simp only [after]; rw [List.take_append_of_le_length (by omega)]⟩
    · rw [List.getElem?_append_right (by omega)] at hn
      rw [hm e (List.mem_of_getElem? hn)] at he
      cases he
  constructor
  · intro n e hn ha
    have hp : (SplitEv.w e : SplitEv χ ρ χ' ρ').progress = false := by
      cases e <;> first | rfl | (simp [SplitWEv.alone] at ha)
    obtain ⟨h1, h2⟩ := hin hn hp
    rw [h2]; exact hw n e h1 ha
  · intro n e hn ha
    have hp : (SplitEv.r e : SplitEv χ ρ χ' ρ').progress = false := by
      cases e <;> first | rfl | (simp [SplitREv.alone] at ha)
    obtain ⟨h1, h2⟩ := hin hn hp
    rw [h2]; exact hr n e h1 ha

end Split

end Verif.LiteOps
