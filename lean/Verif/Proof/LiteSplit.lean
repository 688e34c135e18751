import Verif.Spec.LiteSplit
import Verif.Proof.LiteClock

/-!
# With separate resets, while resets of one end only happen when the master is idle
-/

namespace Verif.LiteOps

variable {χ α β ρ χ' ρ' σ : Type}

/-- The transfers sent since the last reset have been answered, or are on their way. -/
def Balanced (p : Port χ ρ) : Prop := p.m.Inv ∧ p.m.sent.length = p.m.arrived.length + p.rsp.length + p.req.length

theorem Port.ext' {a b : Port χ ρ} (h1 : a.m = b.m) (h2 : a.req = b.req) (h3 : a.rsp = b.rsp) : a = b := by
  cases a; cases b; simp_all

/-- When the master is idle, nothing is on its way. -/
theorem Balanced.idle {p : Port χ ρ} (hb : Balanced p) (hi : p.m.idle = true) : p.m.cur = none ∧ p.req = [] ∧ p.rsp = [] := by
  obtain ⟨h, hb⟩ := hb
  have hp : p.m.pend = [] := by
    simp only [Lite.idle, decide_eq_true_eq, h.flight] at hi
    rw [← List.length_eq_zero_iff]; omega
  have hro : p.m.respOps = [] := (List.append_eq_nil_iff.mp hp).1
  have hs : p.m.started = p.m.done.map (·.1) := by rw [Lite.started, hro, List.append_nil]
  have h1 := congrArg List.length h.sent
  have hd := h.done_length
  rw [labels_length] at hd
  rw [hs, hd] at h1
  have h2 := congrArg List.length h.arrived
  simp only [List.length_append] at h1 h2
  have hrem : p.m.rem = [] := by rw [← List.length_eq_zero_iff]; omega
  refine ⟨?_, ?_, ?_⟩
  · match hc : p.m.cur with
    | none => rfl
    | some (op, rem) =>
      have := (h.cur op rem hc).1
      simp [Lite.rem, hc] at hrem
      exact absurd hrem this
  · rw [← List.length_eq_zero_iff]; omega
  · rw [← List.length_eq_zero_iff]; omega

theorem Balanced.own {p : Port χ ρ} (hb : Balanced p) (e : Ev χ ρ) (he : own e = true) :
    Balanced { p with m := p.m.step e } := by
  obtain ⟨h1, h2, _⟩ := own_step p.m e he
  refine ⟨Lite.step_inv hb.1 e, ?_⟩
  show (p.m.step e).sent.length = (p.m.step e).arrived.length + _ + _
  rw [h1, h2]; exact hb.2

namespace SplitW

/-- The same with the two parts of a channel, and the two halves of a transfer, as one. -/
def view (h : Halves χ α β) (p : SplitW χ α β ρ) : Port χ ρ :=
  { m := p.m, req := List.zipWith h.join (p.sl.toList ++ p.awSnk ++ p.awSrc) (p.wSnk ++ p.wSrc), rsp := p.bSrc }

def Pairs (h : Halves χ α β) (p : SplitW χ α β ρ) (req : List χ) : Prop :=
  p.wSnk ++ p.wSrc = req.map h.w ∧
    ((p.awSent = false ∧ p.sl.toList ++ p.awSnk ++ p.awSrc = req.map h.aw) ∨
      (p.awSent = true ∧ ∃ op x rem, p.m.cur = some (op, x :: rem) ∧
        p.sl.toList ++ p.awSnk ++ p.awSrc = req.map h.aw ++ [h.aw x]))

theorem Pairs.req {h : Halves χ α β} (hl : ∀ x, h.join (h.aw x) (h.w x) = x) {p : SplitW χ α β ρ} {req : List χ}
    (hp : p.Pairs h req) : (p.view h).req = req := by
  obtain ⟨h1, h2⟩ := hp
  simp only [view, h1]
  rcases h2 with ⟨_, h2⟩ | ⟨_, _, x, _, _, h2⟩
  · have := zip_join hl req []
    rwa [List.append_nil, ← h2] at this
  · rw [h2]; exact zip_join hl req _

structure SInv (h : Halves χ α β) (p : SplitW χ α β ρ) : Prop where
  pairs : ∃ req, p.Pairs h req
  bal : Balanced (p.view h)

theorem SInv.init (h : Halves χ α β) : SInv h ({} : SplitW χ α β ρ) :=
  ⟨⟨[], rfl, .inl ⟨rfl, rfl⟩⟩, Lite.inv_init, rfl⟩

theorem SInv.quiet {h : Halves χ α β} (hl : ∀ x, h.join (h.aw x) (h.w x) = x) {p : SplitW χ α β ρ} (hi : SInv h p)
    (hid : p.m.idle = true) : p.m.cur = none ∧ p.sl = none ∧ p.awSnk = [] ∧ p.awSrc = [] ∧ p.wSnk = [] ∧ p.wSrc = [] ∧ p.bSrc = [] := by
  obtain ⟨req, hq⟩ := hi.pairs
  obtain ⟨h1, h2, h3⟩ := hi.bal.idle hid
  have h1 : p.m.cur = none := h1
  rw [hq.req hl] at h2
  subst h2
  obtain ⟨q1, q2⟩ := hq
  rcases q2 with ⟨_, q2⟩ | ⟨_, _, _, _, q2, _⟩
  · simp only [List.map_nil, List.append_eq_nil_iff, Option.toList_eq_nil_iff] at q1 q2
    exact ⟨h1, q2.1.1, q2.1.2, q2.2, q1.1, q1.2, h3⟩
  · rw [h1] at q2; cases q2

/-- One event of the write side is one event of the write side with joint resets, or nothing. -/
theorem SInv.step {h : Halves χ α β} (hl : ∀ x, h.join (h.aw x) (h.w x) = x) {f : χ → σ → ρ × σ} {p : SplitW χ α β ρ}
    (hi : SInv h p) (mem : σ) (e : SplitWEv χ ρ) (he : e.alone = true → p.m.idle = true) :
    SInv h (p.step h f mem e).1 ∧ ∃ e', ((p.step h f mem e).1.view h, (p.step h f mem e).2) = (p.view h).step f mem e' := by
  have stay : SInv h p ∧ ∃ e', (p.view h, mem) = (p.view h).step f mem e' := ⟨hi, _, (Port.step_idle f _ mem).symm⟩
  have hinv : ∀ e, (p.m.step e).Inv := fun e => Lite.step_inv hi.bal.1 e
  obtain ⟨req, hq⟩ := hi.pairs
  have hreq := hq.req hl
  have same : ∀ p' : SplitW χ α β ρ, p'.Pairs h req → p'.m = p.m → p'.bSrc = p.bSrc →
      SInv h p' ∧ ∃ e', (p'.view h, mem) = (p.view h).step f mem e' := by
    intro p' hp hm hb
    have hv : p'.view h = p.view h := Port.ext' hm ((hp.req hl).trans hreq.symm) hb
    exact ⟨⟨⟨req, hp⟩, hv ▸ hi.bal⟩, _, by rw [hv]; exact (Port.step_idle f _ mem).symm⟩
  cases e with
  | master e =>
    simp only [SplitW.step]
    by_cases ho : own e = true
    · simp only [ho, if_true]
      refine ⟨⟨⟨req, hq.1, ?_⟩, hi.bal.own e ho⟩, .master e, by simp [Port.step, ho, view]⟩
      rcases hq.2 with h2 | ⟨h2, op, x, rem, h3, h4⟩
      · exact .inl h2
      · refine .inr ⟨h2, op, x, rem, ?_, h4⟩
        show (p.m.step e).cur = _
        rw [Lite.own_cur _ _ ho (by simp [h3]), h3]
    · simp only [ho, if_neg (show ¬ (false = true) by decide)]
      exact stay
  | sendAW =>
    simp only [SplitW.step]
    split
    · rename_i op x rem hr hc ha
      refine same _ ⟨hq.1, .inr ⟨rfl, op, x, rem, hc, ?_⟩⟩ rfl rfl
      rcases hq.2 with ⟨_, h2⟩ | ⟨h2, _⟩
      · simp only [← List.append_assoc] at h2 ⊢
        rw [h2]
      · rw [ha] at h2; cases h2
    · exact stay
  | sendW =>
    simp only [SplitW.step]
    split
    · rename_i op x rem hr hc ha
      have hA : p.sl.toList ++ p.awSnk ++ p.awSrc = (req ++ [x]).map h.aw := by
        rcases hq.2 with ⟨h2, _⟩ | ⟨_, op', x', rem', h2, h3⟩
        · rw [ha] at h2; cases h2
        · rw [hc] at h2
          simp only [Option.some.injEq, Prod.mk.injEq, List.cons.injEq] at h2
          obtain ⟨_, rfl, _⟩ := h2
          rw [h3]; simp
      have hp : SplitW.Pairs h { p with m := p.m.step .send, awSent := false, wSrc := p.wSrc ++ [h.w x] } (req ++ [x]) := by
        refine ⟨?_, .inl ⟨rfl, hA⟩⟩
        show p.wSnk ++ (p.wSrc ++ [h.w x]) = _
        rw [← List.append_assoc, hq.1]; simp
      have hv := hp.req hl
      have e2 : (p.view h).step f mem .send = ({ p.view h with m := p.m.step .send, req := (p.view h).req ++ [x] }, mem) := by
        simp only [Port.step]
        rw [show (p.view h).m = p.m from rfl]
        simp only [hr, hc]
      refine ⟨⟨⟨_, hp⟩, hinv .send, ?_⟩, .send, ?_⟩
      · rw [hv]
        have := hi.bal.2
        rw [hreq] at this
        have this : p.m.sent.length = p.m.arrived.length + p.bSrc.length + req.length := this
        simp only [view, Lite.step, Lite.send, hr, hc, List.length_append, List.length_singleton]
        omega
      · rw [e2]
        exact Prod.ext (Port.ext' rfl (by rw [hv]; simp [hreq]) rfl) rfl
    · exact stay
  | moveAW =>
    simp only [SplitW.step]
    split
    · rename_i a rest _ _ ha
      refine same _ ⟨hq.1, ?_⟩ rfl rfl
      have := hq.2
      rw [ha] at this
      simpa only [List.append_assoc, List.singleton_append] using this
    · exact stay
  | moveW =>
    simp only [SplitW.step]
    split
    · rename_i x rest _ _ ha
      refine same _ ⟨?_, hq.2⟩ rfl rfl
      have := hq.1
      rw [ha] at this
      simpa only [List.append_assoc, List.singleton_append] using this
    · exact stay
  | moveB =>
    simp only [SplitW.step]
    split
    · rename_i r rest hr _ hb
      refine ⟨⟨⟨req, hq.1, ?_⟩, hinv (.resp r), ?_⟩, .deliver, ?_⟩
      · show (_ ∧ _) ∨ (_ ∧ ∃ op x rem, (p.m.step (.resp r)).cur = _ ∧ _)
        rw [show (p.m.step (.resp r)).cur = p.m.cur by simp [Lite.step, Lite.resp, hr]]
        exact hq.2
      · have := hi.bal.2
        simp only [view, Lite.step, Lite.resp, hr, hb, if_true, List.length_append, List.length_cons, List.length_nil] at this ⊢
        omega
      · simp only [Port.step, view, hb]
    · exact stay
  | slaveAW =>
    simp only [SplitW.step]
    split
    · rename_i a rest _ hs ha
      refine same _ ⟨hq.1, ?_⟩ rfl rfl
      have := hq.2
      rw [hs, ha] at this
      simpa using this
    · exact stay
  | slaveW =>
    simp only [SplitW.step]
    split
    · rename_i a x rest _ hs hw
      have q1 := hq.1
      rw [hw] at q1
      cases req with
      | nil => simp at q1
      | cons y req =>
        simp only [List.cons_append, List.map_cons, List.cons.injEq] at q1
        have hay : a = h.aw y ∧ ((p.awSent = false ∧ p.awSnk ++ p.awSrc = req.map h.aw) ∨
            (p.awSent = true ∧ ∃ op x rem, p.m.cur = some (op, x :: rem) ∧ p.awSnk ++ p.awSrc = req.map h.aw ++ [h.aw x])) := by
          have := hq.2
          rw [hs] at this
          simp only [Option.toList_some, List.cons_append, List.map_cons, List.cons.injEq] at this
          rcases this with ⟨t1, t2, t3⟩ | ⟨t1, op, z, rem, t2, t3, t4⟩
          · exact ⟨t2, .inl ⟨t1, t3⟩⟩
          · exact ⟨t3, .inr ⟨t1, op, z, rem, t2, t4⟩⟩
        have hj : h.join a x = y := by rw [hay.1, q1.1]; exact hl y
        have hp : SplitW.Pairs h { p with sl := none, wSnk := rest, bSrc := p.bSrc ++ [(f (h.join a x) mem).1] } req :=
          ⟨q1.2, by simpa using hay.2⟩
        have hv := hp.req hl
        refine ⟨⟨⟨req, hp⟩, hi.bal.1, ?_⟩, .serve, ?_⟩
        · rw [hv]
          have := hi.bal.2
          rw [hreq] at this
          simp only [view, List.length_append, List.length_cons, List.length_nil] at this ⊢
          omega
        · simp only [Port.step, hreq, hj]
          rw [hj] at hv
          exact Prod.ext (Port.ext' rfl hv rfl) rfl
    · exact stay
  | resetM v =>
    simp only [SplitW.step, SplitW.resetM]
    cases v with
    | true =>
      obtain ⟨_, q2, q3, q4, q5, q6, q7⟩ := hi.quiet hl (he rfl)
      simp only [if_true]
      refine ⟨⟨⟨[], ?_, .inl ⟨rfl, ?_⟩⟩, hinv (.reset true), ?_⟩, .reset true, ?_⟩
      · simp [q5]
      · simp [q2, q3]
      · simp [view, q5, q7, Lite.step, Lite.reset]
      · exact Prod.ext (Port.ext' rfl (by simp [view, q5, Port.step]) (by simp [view, q7, Port.step])) rfl
    | false =>
      refine ⟨⟨⟨req, hq.1, ?_⟩, hinv (.reset false), hi.bal.2⟩, .reset false, rfl⟩
      exact hq.2
  | resetS v =>
    simp only [SplitW.step, SplitW.resetS]
    cases v with
    | true =>
      obtain ⟨_, q2, q3, q4, q5, q6, q7⟩ := hi.quiet hl (he rfl)
      simp only [if_true]
      refine same _ ?_ rfl q7.symm
      simpa only [Pairs, q2, q3, q5] using hq
    | false => exact same _ hq rfl rfl
  | resetBoth v =>
    simp only [SplitW.step, SplitW.resetM, SplitW.resetS]
    cases v with
    | true =>
      simp only [if_true]
      refine ⟨⟨⟨[], rfl, .inl ⟨rfl, rfl⟩⟩, hinv (.reset true), ?_⟩, .reset true, ?_⟩
      · simp [view, Lite.step, Lite.reset]
      · exact Prod.ext (Port.ext' rfl rfl rfl) rfl
    | false =>
      exact ⟨⟨⟨req, hq.1, hq.2⟩, hinv (.reset false), hi.bal.2⟩, .reset false, rfl⟩

end SplitW

namespace SplitR

def view (p : SplitR χ ρ) : Port χ ρ := { m := p.m, req := p.arSnk ++ p.arSrc, rsp := p.rSrc }

theorem step_ok {g : χ → σ → ρ × σ} {p : SplitR χ ρ} (hi : Balanced p.view) (mem : σ) (e : SplitREv χ ρ)
    (he : e.alone = true → p.m.idle = true) :
    Balanced (p.step g mem e).1.view ∧ ∃ e', ((p.step g mem e).1.view, (p.step g mem e).2) = p.view.step g mem e' := by
  have stay : Balanced p.view ∧ ∃ e', (p.view, mem) = p.view.step g mem e' := ⟨hi, _, (Port.step_idle g _ mem).symm⟩
  have same : ∀ p' : SplitR χ ρ, p'.view = p.view →
      Balanced p'.view ∧ ∃ e', (p'.view, mem) = p.view.step g mem e' :=
    fun p' hv => ⟨hv ▸ hi, _, by rw [hv]; exact (Port.step_idle g _ mem).symm⟩
  have hinv : ∀ e, (p.m.step e).Inv := fun e => Lite.step_inv hi.1 e
  have hb := hi.2
  simp only [view] at hb
  cases e with
  | master e =>
    simp only [SplitR.step]
    by_cases ho : own e = true
    · simp only [ho, if_true]
      exact ⟨hi.own e ho, .master e, by simp [Port.step, ho, view]⟩
    · simp only [ho, if_neg (show ¬ (false = true) by decide)]
      exact stay
  | sendAR =>
    simp only [SplitR.step]
    split
    · rename_i op x rem hr hc
      refine ⟨⟨hinv .send, ?_⟩, .send, ?_⟩
      · simp only [view, Lite.step, Lite.send, hr, hc, List.length_append, List.length_singleton] at hb ⊢
        omega
      · simp only [Port.step]
        rw [show p.view.m = p.m from rfl]
        simp only [hr, hc, view, List.append_assoc]
    · exact stay
  | moveAR =>
    simp only [SplitR.step]
    split
    · rename_i a rest _ _ ha
      exact same _ (by simp [view, ha])
    · exact stay
  | moveR =>
    simp only [SplitR.step]
    split
    · rename_i r rest hr _ hb'
      refine ⟨⟨hinv (.resp r), ?_⟩, .deliver, ?_⟩
      · simp only [view, Lite.step, Lite.resp, hr, hb', if_true, List.length_append, List.length_cons, List.length_nil] at hb ⊢
        omega
      · simp only [Port.step, view, hb']
    · exact stay
  | slaveR =>
    simp only [SplitR.step]
    split
    · rename_i x rest _ hx
      refine ⟨⟨hi.1, ?_⟩, .serve, ?_⟩
      · simp only [view, hx, List.length_append, List.length_cons, List.length_nil] at hb ⊢
        omega
      · simp only [Port.step, view, hx, List.cons_append]
    · exact stay
  | resetM v =>
    simp only [SplitR.step, SplitR.resetM]
    cases v with
    | true =>
      obtain ⟨_, q2, q3⟩ := hi.idle (he rfl)
      simp only [view, List.append_eq_nil_iff] at q2 q3
      simp only [if_true]
      refine ⟨⟨hinv (.reset true), ?_⟩, .reset true, ?_⟩
      · simp [view, q2.1, q3, Lite.step, Lite.reset]
      · exact Prod.ext (Port.ext' rfl (by simp [view, q2.1, Port.step]) (by simp [view, q3, Port.step])) rfl
    | false => exact ⟨⟨hinv (.reset false), hi.2⟩, .reset false, rfl⟩
  | resetS v =>
    simp only [SplitR.step, SplitR.resetS]
    cases v with
    | true =>
      obtain ⟨_, q2, q3⟩ := hi.idle (he rfl)
      simp only [view, List.append_eq_nil_iff] at q2 q3
      simp only [if_true]
      exact same _ (by simp [view, q2.1, q2.2, q3])
    | false => exact same _ rfl
  | resetBoth v =>
    simp only [SplitR.step, SplitR.resetM, SplitR.resetS]
    cases v with
    | true =>
      simp only [if_true]
      refine ⟨⟨hinv (.reset true), ?_⟩, .reset true, ?_⟩
      · simp [view, Lite.step, Lite.reset]
      · exact Prod.ext (Port.ext' rfl rfl rfl) rfl
    | false => exact ⟨⟨hinv (.reset false), hi.2⟩, .reset false, rfl⟩

end SplitR

namespace Split

variable (h : Halves χ α β) (f : χ → σ → ρ × σ) (g : χ' → σ → ρ' × σ) (m0 : σ) (evs : List (SplitEv χ ρ χ' ρ'))

theorem at_succ (n : Nat) :
    (∃ e, evs[n]? = some e ∧ after h f g m0 evs (n + 1) = (after h f g m0 evs n).step h f g e) ∨
      (evs.length ≤ n ∧ after h f g m0 evs (n + 1) = after h f g m0 evs n) := by
  by_cases hn : n < evs.length
  · left
    refine ⟨evs[n], List.getElem?_eq_getElem hn, ?_⟩
    simp only [after, run]
    rw [List.take_succ_eq_append_getElem hn, List.foldl_append]; rfl
  · right
    refine ⟨by omega, ?_⟩
    simp only [after]
    rw [List.take_of_length_le (by omega), List.take_of_length_le (by omega)]

theorem invW (hl : ∀ x, h.join (h.aw x) (h.w x) = x) (hc : CalmW h f g m0 evs) (n : Nat) :
    SplitW.SInv h (after h f g m0 evs n).w := by
  induction n with
  | zero => exact .init h
  | succ n ih =>
    rcases at_succ h f g m0 evs n with ⟨e, hn, he⟩ | ⟨_, he⟩
    · rw [he]
      cases e with
      | w e => exact (ih.step hl _ e (hc n e hn)).1
      | r e => exact ih
    · rw [he]; exact ih

theorem invR (hc : CalmR h f g m0 evs) (n : Nat) : Balanced (after h f g m0 evs n).r.view := by
  induction n with
  | zero => exact ⟨Lite.inv_init, rfl⟩
  | succ n ih =>
    rcases at_succ h f g m0 evs n with ⟨e, hn, he⟩ | ⟨_, he⟩
    · rw [he]
      cases e with
      | w e => exact ih
      | r e => exact (SplitR.step_ok ih _ e (hc n e hn)).1
    · rw [he]; exact ih

theorem traceW (hl : ∀ x, h.join (h.aw x) (h.w x) = x)
    (hc : CalmW h f g m0 evs) :
    Trace f (fun n => (after h f g m0 evs n).w.view h) (fun n => (after h f g m0 evs n).mem) := by
  have hinv := invW h f g m0 evs hl hc
  refine ⟨rfl, fun n => ?_⟩
  rcases at_succ h f g m0 evs n with ⟨e, hn, he⟩ | ⟨_, he⟩
  · rw [he]
    cases e with
    | w e =>
      exact .inl ((hinv n).step hl (after h f g m0 evs n).mem e (hc n e hn)).2
    | r e => exact .inr rfl
  · rw [he]; exact .inr rfl

theorem traceR (hc : CalmR h f g m0 evs) :
    Trace g (fun n => (after h f g m0 evs n).r.view) (fun n => (after h f g m0 evs n).mem) := by
  have hinv := invR h f g m0 evs hc
  refine ⟨rfl, fun n => ?_⟩
  rcases at_succ h f g m0 evs n with ⟨e, hn, he⟩ | ⟨_, he⟩
  · rw [he]
    cases e with
    | w e => exact .inr rfl
    | r e =>
      exact .inl (SplitR.step_ok (hinv n) (after h f g m0 evs n).mem e (hc n e hn)).2
  · rw [he]; exact .inr rfl

/-- A step of a port changes the target only if it serves a transfer. -/
theorem port_mem {f : χ → σ → ρ × σ} {p : Port χ ρ} {mem mem' : σ} {p' : Port χ ρ} {e : PortEv χ ρ}
    (he : (p', mem') = p.step f mem e) : mem' = mem ∨ ∃ x rest, p.req = x :: rest ∧ mem' = (f x mem).2 := by
  cases e with
  | serve =>
    simp only [Port.step] at he
    split at he
    · rename_i x rest hreq
      exact .inr ⟨x, rest, hreq, (Prod.mk.inj he).2⟩
    · exact .inl (Prod.mk.inj he).2
  | _ => exact .inl (Prod.mk.inj he).2

/-- What can change the memory. -/
theorem mem_step (hl : ∀ x, h.join (h.aw x) (h.w x) = x) (hw : CalmW h f g m0 evs) (hr : CalmR h f g m0 evs) (n : Nat) :
    let S := after h f g m0 evs
    (S (n + 1)).mem = (S n).mem ∨
    (∃ op, op ∈ (S n).w.m.pend ∧ ∃ x ∈ op.xs, (S (n + 1)).mem = (f x (S n).mem).2) ∨
    (∃ op, op ∈ (S n).r.m.pend ∧ ∃ x ∈ op.xs, (S (n + 1)).mem = (g x (S n).mem).2) := by
  simp only
  rcases at_succ h f g m0 evs n with ⟨e, hn, he⟩ | ⟨_, he⟩
  · rw [he]
    cases e with
    | w e =>
      obtain ⟨e', h'⟩ := ((invW h f g m0 evs hl hw n).step hl (f := f) (after h f g m0 evs n).mem e (hw n e hn)).2
      rcases port_mem h' with h1 | ⟨x, rest, h1, h2⟩
      · exact .inl h1
      · obtain ⟨sv, hi⟩ := (traceW h f g m0 evs hl hw).inv n
        obtain ⟨op, i, _, hp, hx⟩ := hi.owner h1
        exact .inr (.inl ⟨op, hp.1, x, List.mem_of_getElem? hx, h2⟩)
    | r e =>
      obtain ⟨e', h'⟩ := (SplitR.step_ok (g := g) (invR h f g m0 evs hr n) (after h f g m0 evs n).mem e (hr n e hn)).2
      rcases port_mem h' with h1 | ⟨x, rest, h1, h2⟩
      · exact .inl h1
      · obtain ⟨sv, hi⟩ := (traceR h f g m0 evs hr).inv n
        obtain ⟨op, i, _, hp, hx⟩ := hi.owner h1
        exact .inr (.inr ⟨op, hp.1, x, List.mem_of_getElem? hx, h2⟩)
  · rw [he]; exact .inl rfl

end Split
end Verif.LiteOps
