import Verif.Proof.AxiOpsMaster

/-!
# The master's internal steps terminate
-/

namespace Verif.AxiOps

variable {ρ : Type}

/-- Steps a context can still make, given enough responses. -/
def Ctx.wt (c : Ctx ρ) : Nat := ((c.cur.map (fun j => needOf j.rem + 1)).getD 0) + (c.cmds.map (·.need + 2)).sum

namespace Mgr

/-- Steps the workers can still make. -/
def wt (m : Mgr ρ) : Nat := ((List.range m.count).map (fun i => (m.ctxs i).wt)).sum

theorem sum_range_congr (f g : Nat → Nat) (n : Nat) (h : ∀ i, i < n → f i = g i) :
    ((List.range n).map f).sum = ((List.range n).map g).sum := by
  induction n with
  | zero => rfl
  | succ n ih =>
    simp only [List.range_succ, List.map_append, List.sum_append, List.map_cons, List.map_nil, List.sum_cons, List.sum_nil]
    rw [ih (fun i hi => h i (by omega)), h n (by omega)]

theorem sum_range_upd (f g : Nat → Nat) (n i : Nat) (hi : i < n) (h : ∀ j, j ≠ i → f j = g j) :
    ((List.range n).map f).sum + g i = ((List.range n).map g).sum + f i := by
  induction n with
  | zero => omega
  | succ n ih =>
    simp only [List.range_succ, List.map_append, List.sum_append, List.map_cons, List.map_nil, List.sum_cons, List.sum_nil]
    by_cases hn : i = n
    · subst hn; rw [sum_range_congr f g i (fun j hj => h j (by omega))]; omega
    · have := ih (by omega); rw [h n (by omega)]; omega

theorem wt_upd {m : Mgr ρ} {i : Nat} (c : Ctx ρ) (hi : i < m.count) :
    ({ m with ctxs := upd m.ctxs i c } : Mgr ρ).wt + (m.ctxs i).wt = m.wt + c.wt := by
  have := sum_range_upd (fun k => (upd m.ctxs i c k).wt) (fun k => (m.ctxs k).wt) m.count i hi
    (by intro j hj; simp only [upd_other _ _ hj])
  simpa [wt] using this

theorem getContext_wt (m : Mgr ρ) (t : Nat) : (m.getContext t).2.wt = m.wt := by
  unfold getContext
  cases hm : m.map t with
  | some i => rfl
  | none =>
    cases hl : m.idle.getLast? with
    | some i =>
      simp only [wt]
      refine sum_range_congr _ _ _ ?_
      intro k _; simp only [AxiOps.upd]; split
      · rename_i he; subst he; rfl
      · rfl
    | none =>
      simp only [wt, List.range_succ, List.map_append, List.sum_append, List.map_cons, List.map_nil, List.sum_cons,
        List.sum_nil, upd_same]
      have : (({ tag := some t, started := true } : Ctx ρ).wt) = 0 := rfl
      rw [this]
      simp only [Nat.add_zero]
      refine sum_range_congr _ _ _ ?_
      intro k hk; simp only [AxiOps.upd, if_neg (show k ≠ m.count by omega)]

theorem startCmd_wt {m : Mgr ρ} (h : m.Inv) (t : Nat) (op : Op) : (m.startCmd t op).wt = m.wt + (op.need + 2) := by
  have h0 := getContext_wt m t
  obtain ⟨h1, h2, _⟩ := getContext_spec h t
  unfold startCmd
  revert h0 h1 h2
  generalize m.getContext t = p
  obtain ⟨i, m'⟩ := p
  intro h0 h1 h2
  simp only at *
  have := wt_upd (m := m') { m'.ctxs i with cmds := (m'.ctxs i).cmds ++ [op] } (h1.mapped t i h2).1
  simp only [Ctx.wt, List.map_append, List.sum_append, List.map_cons, List.map_nil, List.sum_cons, List.sum_nil] at this
  omega

theorem take_wt {m : Mgr ρ} (h : m.Inv) (i : Nat) : m.take i = m ∨ (m.take i).wt < m.wt := by
  unfold take
  simp only
  split
  · rename_i op rest hs hcur hcmd
    right
    obtain ⟨t, ht⟩ := h.tag_of (i := i) (by simp [hcmd])
    have := wt_upd (m := m) { m.ctxs i with cmds := rest, cur := some ⟨op, op.bursts, []⟩ }
      (h.mapped t i (h.tagged i t ht)).1
    have e : needOf op.bursts = op.need := rfl
    simp only [Ctx.wt, hcur, hcmd, Option.map_none, Option.getD_none, Option.map_some, Option.getD_some, List.map_cons,
      List.sum_cons, e] at this
    omega
  · left; rfl

theorem get_wt {m : Mgr ρ} (h : m.Inv) (i : Nat) {x : Nat × Bool} (hg : (m.get i).1 = some x) : (m.get i).2.wt < m.wt := by
  unfold get at hg ⊢
  simp only at hg ⊢
  split
  · rename_i op n rem got r rest t' hs hcur hresp ht
    have := wt_upd (m := m) { m.ctxs i with resps := rest, cur := some ⟨op, if n = 0 then rem else (n - 1) :: rem, got ++ [r]⟩ }
      (h.mapped t' i (h.tagged i t' ht)).1
    have e : needOf (if n = 0 then rem else (n - 1) :: rem) < needOf (n :: rem) := by
      split
      · simp [needOf]
        try omega
      · simp [needOf]
        omega
    simp only [Ctx.wt, hcur, Option.map_some, Option.getD_some] at this
    simp only
    omega
  · rename_i hno
    exfalso
    revert hg
    split
    · rename_i a b c d; exact fun _ => hno _ _ _ _ _ _ _ a b c d
    · simp

theorem setIdle_wt (m : Mgr ρ) (i : Nat) : (m.setIdle i).wt = m.wt := by
  have key : ∀ (m : Mgr ρ) (i : Nat) (mp : Nat → Option Nat) (l : List Nat),
      ({ m with map := mp, idle := l, ctxs := upd m.ctxs i { m.ctxs i with tag := none } } : Mgr ρ).wt = m.wt := by
    intro m i mp l
    simp only [wt]
    refine sum_range_congr _ _ _ ?_
    intro k _; simp only [AxiOps.upd]; split
    · rename_i he; subst he; rfl
    · rfl
  unfold setIdle
  split
  · split
    · exact key m i _ _
    · exact key m i m.map m.idle
  · rfl

theorem finish_wt {m : Mgr ρ} (h : m.Inv) (i : Nat) {x : Nat × Op × List ρ} (hg : (m.finish i).1 = some x) :
    (m.finish i).2.wt < m.wt := by
  unfold finish at hg ⊢
  simp only at hg ⊢
  split
  · rename_i op' got t' hs hcur ht
    have := wt_upd (m := m) { m.ctxs i with cur := none } (h.mapped t' i (h.tagged i t' ht)).1
    simp only [Ctx.wt, hcur, Option.map_some, Option.getD_some, Option.map_none, Option.getD_none] at this
    simp only
    split
    · rw [setIdle_wt]; omega
    · omega
  · rename_i hno
    exfalso
    revert hg
    split
    · rename_i a b c; exact fun _ => hno _ _ _ a b c
    · simp

end Mgr

namespace Master

/-- The remaining work of the current command's issue. -/
def curWt (s : Master ρ) : Nat :=
  match s.cur with
  | some (op, _, n) => op.need + (op.bursts.length - n) + 3
  | none => 0

/-- The measure. -/
def wt (s : Master ρ) : Nat :=
  (s.queue.map (fun op => op.need + op.bursts.length + 4)).sum + s.curWt + s.mgr.wt

theorem Inv.decreases {s : Master ρ} (h : s.Inv) (c : Nat) (e : Ev ρ) (he : internal e = true) :
    s.step c e = s ∨ (s.step c e).wt < s.wt := by
  cases e with
  | take =>
    simp only [Master.step, Master.take]
    split
    · rename_i op rest hr hc hq
      right
      split <;> simp [wt, curWt, hc, hq] <;> omega
    · left; rfl
  | burst =>
    simp only [Master.step, Master.burst]
    split
    · rename_i op t n hr hc
      split
      · rename_i k hk
        right
        have := (List.getElem?_eq_some_iff.1 hk).1
        simp [wt, curWt, hc]; omega
      · left; rfl
    · left; rfl
  | start =>
    simp only [Master.step, Master.start]
    split
    · rename_i op t n hr hc
      split
      · right
        have := Mgr.startCmd_wt h.mgr t op
        simp [wt, curWt, hc]; omega
      · left; rfl
    · left; rfl
  | workTake i =>
    simp only [Master.step]
    rcases Mgr.take_wt h.mgr i with h' | h'
    · left; rw [h']
    · right; simp only [wt, curWt] at h' ⊢; omega
  | workGet i =>
    simp only [Master.step, Master.workGet]
    have hn := Mgr.get_none (m := s.mgr) (i := i)
    have hw := fun x => Mgr.get_wt h.mgr i (x := x)
    have hs := fun t b => Mgr.get_spec h.mgr i (t := t) (b := b)
    revert hn hw hs
    generalize s.mgr.get i = p
    obtain ⟨o, m⟩ := p
    intro hn hw hs
    match o with
    | none => left; simp only at hn ⊢; rw [hn trivial]
    | some (t, b) =>
      right
      have ho := (hs t b rfl).2.2.2.2.1
      have ha := h.act t
      have := hw _ rfl
      simp only at this ⊢
      rw [if_neg (by omega)]
      simp only [wt, curWt]; omega
  | workDone i =>
    simp only [Master.step, Master.workDone]
    have hn := Mgr.finish_none (m := s.mgr) (i := i)
    have hw := fun x => Mgr.finish_wt h.mgr i (x := x)
    revert hn hw
    generalize s.mgr.finish i = p
    obtain ⟨o, m⟩ := p
    intro hn hw
    match o with
    | none => left; simp only at hn ⊢; rw [hn trivial]
    | some (t, op, rs) =>
      right
      have := hw _ rfl
      simp only [wt, curWt] at this ⊢; omega
  | write op => simp [internal] at he
  | init op => simp [internal] at he
  | runInit i => simp [internal] at he
  | resp t r => simp [internal] at he
  | reset v => simp [internal] at he

/-! ### Results -/

/-- Without reset, the results added are those of the operations completed. -/
theorem step_results (c : Nat) (s : Master ρ) (e : Ev ρ) (he : e ≠ .reset true) :
    ∃ d, (s.step c e).done = s.done ++ d ∧
      (s.step c e).results = s.results ++ d.map (fun x => (x.2.1, some x.2.2)) := by
  cases e with
  | write op => exact ⟨[], by simp [Master.step, Master.write]⟩
  | init op => exact ⟨[], by simp [Master.step]⟩
  | runInit i => refine ⟨[], ?_⟩; simp only [Master.step]; split <;> simp [Master.write]
  | take =>
    refine ⟨[], ?_⟩; simp only [Master.step, Master.take]; split
    · split <;> simp
    · simp
  | burst =>
    refine ⟨[], ?_⟩; simp only [Master.step, Master.burst]; split
    · split <;> simp
    · simp
  | start =>
    refine ⟨[], ?_⟩; simp only [Master.step, Master.start]; split
    · split <;> simp
    · simp
  | resp t r =>
    refine ⟨[], ?_⟩; simp only [Master.step, Master.resp]; split
    · split <;> simp
    · simp
  | workTake i => exact ⟨[], by simp [Master.step]⟩
  | workGet i =>
    refine ⟨[], ?_⟩; simp only [Master.step, Master.workGet]
    split
    · simp
    · split <;> simp
  | workDone i =>
    simp only [Master.step, Master.workDone]
    split
    · rename_i t op rs m _
      exact ⟨[(t, op, rs)], by simp⟩
    · exact ⟨[], by simp⟩
  | reset v =>
    cases v with
    | true => exact absurd rfl he
    | false => exact ⟨[], by simp [Master.step, Master.reset]⟩

theorem step_results_prefix (c : Nat) (s : Master ρ) (e : Ev ρ) : s.results <+: (s.step c e).results := by
  by_cases he : e = .reset true
  · subst he; simp [Master.step, Master.reset]
  · obtain ⟨d, _, h⟩ := step_results c s e he
    rw [h]; exact List.prefix_append _ _

theorem foldl_results_prefix (c : Nat) (evs : List (Ev ρ)) (s : Master ρ) :
    s.results <+: (evs.foldl (step c) s).results := by
  induction evs generalizing s with
  | nil => exact List.prefix_refl _
  | cons e es ih => exact (step_results_prefix c s e).trans (ih _)

theorem foldl_results (c : Nat) (evs : List (Ev ρ)) (s : Master ρ) (he : Ev.reset true ∉ evs) :
    ∃ d, (evs.foldl (step c) s).done = s.done ++ d ∧
      (evs.foldl (step c) s).results = s.results ++ d.map (fun x => (x.2.1, some x.2.2)) := by
  induction evs generalizing s with
  | nil => exact ⟨[], by simp⟩
  | cons e es ih =>
    obtain ⟨d1, h1, h2⟩ := step_results c s e (by rintro rfl; simp at he)
    obtain ⟨d2, h3, h4⟩ := ih (s.step c e) (by intro h; exact he (by simp [h]))
    exact ⟨d1 ++ d2, by simp [List.foldl_cons, h3, h1], by simp [List.foldl_cons, h4, h2]⟩

end Master
end Verif.AxiOps
