import Verif.Proof.AxiOps

/-!
# Invariants of the master's operation bookkeeping
-/

namespace Verif.AxiOps

variable {ρ : Type}

@[simp] theorem forId_nil {β : Type} (t : Nat) : forId t ([] : List (Nat × β)) = [] := rfl

theorem forId_append {β : Type} (t : Nat) (l l' : List (Nat × β)) : forId t (l ++ l') = forId t l ++ forId t l' := by
  simp [forId]

theorem forId_single {β : Type} (t u : Nat) (x : β) : forId t [(u, x)] = if t = u then [x] else [] := by
  simp only [forId, List.filter_cons, List.filter_nil]
  by_cases h : t = u
  · subst h; simp
  · have : u ≠ t := Ne.symm h
    simp [h, this]

namespace Master

/-- The operations that have entered `write()` and have no result yet. -/
def pend (s : Master ρ) : List Op := s.queue ++ (s.cur.map (·.1)).toList ++ s.mgr.allOps

/-- The bursts the current command has issued under ID `t`. -/
def curBursts (s : Master ρ) (t : Nat) : List Nat :=
  match s.cur with
  | some (op, u, n) => if t = u then op.bursts.take n else []
  | none => []

/-- The invariant. -/
structure Inv (s : Master ρ) : Prop where
  mgr : s.mgr.Inv
  cmd : ∀ t, forId t s.started = (forId t s.done).map (·.1) ++ s.mgr.opsOf t
  rsp : ∀ t, forId t s.arrived = ((forId t s.done).map (·.2)).flatten ++ s.mgr.rspsOf t
  len : ∀ x ∈ s.done, x.2.2.length = x.2.1.need
  acct : s.issued.Perm (s.results.map (·.1) ++ s.pend)
  flight : s.inFlight = s.pend.length
  curn : ∀ op t n, s.cur = some (op, t, n) → n ≤ op.bursts.length
  act : ∀ t, s.active t = s.mgr.owedOf t + (s.curBursts t).length
  sent : ∀ t, forId t s.sent = ((forId t s.started).map (·.bursts)).flatten ++ s.curBursts t
  ev : s.idleEv = decide (s.inFlight = 0)
  ok : s.workFailed = false

theorem Inv.init : ({} : Master ρ).Inv := by
  constructor <;> simp [Mgr.Inv.init, Mgr.opsOf, Mgr.rspsOf, Mgr.owedOf, pend, Mgr.allOps, curBursts]

theorem Inv.write {s : Master ρ} (h : s.Inv) (op : Op) : (s.write op).Inv := by
  obtain ⟨h1, h2, h3, h4, h5, h6, h7, h8, h9, h10, h11⟩ := h
  constructor
  · exact h1
  · exact h2
  · exact h3
  · exact h4
  · simp only [Master.write, pend] at h5 ⊢
    refine (List.Perm.append_right _ h5).trans ?_
    simp only [List.append_assoc]
    refine List.Perm.append_left _ (List.Perm.append_left _ ?_)
    rw [← List.append_assoc]
    exact List.perm_append_comm
  · simp [Master.write, pend, h6]; omega
  · exact h7
  · exact h8
  · exact h9
  · simp only [Master.write, h6]; simp; omega
  · exact h11

theorem Inv.take {s : Master ρ} (h : s.Inv) (c : Nat) : (s.take c).Inv := by
  obtain ⟨h1, h2, h3, h4, h5, h6, h7, h8, h9, h10, h11⟩ := h
  unfold Master.take
  split
  · rename_i op rest hr hc hq
    have hb : ∀ t, s.curBursts t = [] := by intro t; simp [curBursts, hc]
    have key : ∀ t k, ({ s with queue := rest, cur := some (op, t, 0), curId := k } : Master ρ).Inv := by
      intro t k
      constructor
      · exact h1
      · exact h2
      · exact h3
      · exact h4
      · simp only [pend, hc, hq] at h5 ⊢
        refine h5.trans (List.Perm.append_left _ ?_)
        simp only [Option.map_none, Option.toList_none, List.append_nil, Option.map_some, Option.toList_some]
        refine List.Perm.append_right _ ?_
        exact List.perm_append_comm (l₁ := [op])
      · simp [pend, h6, hc, hq]; omega
      · intro op' t' n' he; simp only [Option.some.injEq, Prod.mk.injEq] at he; omega
      · intro u; simp only [h8, hb]; simp [curBursts]
      · intro u; simp only [h9, hb]; simp [curBursts]
      · exact h10
      · exact h11
    split
    · exact key _ _
    · exact key _ _
  · exact ⟨h1, h2, h3, h4, h5, h6, h7, h8, h9, h10, h11⟩

theorem Inv.burst {s : Master ρ} (h : s.Inv) : s.burst.Inv := by
  have h0 := h
  obtain ⟨h1, h2, h3, h4, h5, h6, h7, h8, h9, h10, h11⟩ := h
  unfold Master.burst
  split
  · rename_i op t n hr hc
    split
    · rename_i k hk
      have hlt := (List.getElem?_eq_some_iff.1 hk).1
      have hb : ∀ u, s.curBursts u = if u = t then op.bursts.take n else [] := by intro u; simp [curBursts, hc]
      constructor
      · exact h1
      · exact h2
      · exact h3
      · exact h4
      · simpa only [pend, hc, Option.map_some] using h5
      · simpa only [pend, hc, Option.map_some] using h6
      · intro op' t' n' he; simp only [Option.some.injEq, Prod.mk.injEq] at he; obtain ⟨rfl, rfl, rfl⟩ := he; omega
      · intro u
        have := h8 u
        simp only [curBursts, AxiOps.upd]
        rw [hb] at this
        split
        · subst u; simp only [if_true, List.length_take] at this ⊢; rw [this]; omega
        · rename_i hu; simpa [hu] using this
      · intro u
        simp only [forId_append, forId_single, h9 u, hb]
        simp only [curBursts, List.append_assoc]
        split
        · rw [List.take_add_one, hk]; simp
        · simp
      · exact h10
      · exact h11
    · exact h0
  · exact h0

theorem Inv.start {s : Master ρ} (h : s.Inv) : s.start.Inv := by
  have h0 := h
  obtain ⟨h1, h2, h3, h4, h5, h6, h7, h8, h9, h10, h11⟩ := h
  unfold Master.start
  split
  · rename_i op t n hr hc
    split
    · rename_i hn
      obtain ⟨g1, g2, g3, g4, g5⟩ := Mgr.startCmd_spec h1 t op
      have hb : ∀ u, s.curBursts u = if u = t then op.bursts else [] := by
        intro u; simp [curBursts, hc, hn]
      constructor
      · exact g1
      · intro u; simp only [forId_append, forId_single, g2, h2, List.append_assoc]
      · intro u; rw [g3]; exact h3 u
      · exact h4
      · refine h5.trans (List.Perm.append_left _ ?_)
        simp only [pend, hc, Option.map_some, Option.toList_some, Option.map_none, Option.toList_none, List.append_nil,
          List.append_assoc]
        exact List.Perm.append_left _ g5.symm
      · have := g5.length_eq
        simp only [pend, hc, Option.map_some, Option.toList_some, Option.map_none, Option.toList_none, List.append_nil,
          List.length_append, List.length_cons, List.length_nil] at h6 this ⊢
        omega
      · simp
      · intro u
        have := h8 u
        simp only [curBursts, g4]
        rw [hb] at this
        split
        · subst u; simpa using this
        · rename_i hu; simpa [hu] using this
      · intro u
        simp only [h9 u, hb, forId_append, forId_single]
        simp only [curBursts, List.map_append, List.flatten_append, List.append_nil]
        split <;> simp
      · exact h10
      · exact h11
    · exact h0
  · exact h0

theorem Inv.resp {s : Master ρ} (h : s.Inv) (t : Nat) (r : ρ) : (s.resp t r).Inv := by
  have h0 := h
  obtain ⟨h1, h2, h3, h4, h5, h6, h7, h8, h9, h10, h11⟩ := h
  unfold Master.resp
  split
  · split
    · exact ⟨h1, h2, h3, h4, h5, h6, h7, h8, h9, h10, h11⟩
    · obtain ⟨g1, g2, g3, g4, g5⟩ := Mgr.putResp_spec h1 t r
      constructor
      · exact g1
      · intro u; rw [g2]; exact h2 u
      · intro u; simp only [forId_append, forId_single, g3, h3, List.append_assoc]
      · exact h4
      · refine h5.trans (List.Perm.append_left _ (List.Perm.append_left _ g5.symm))
      · have := g5.length_eq
        simp only [pend, List.length_append] at h6 this ⊢; omega
      · exact h7
      · intro u; rw [g4]; exact h8 u
      · exact h9
      · exact h10
      · exact h11
  · exact h0

theorem Inv.workTake {s : Master ρ} (h : s.Inv) (i : Nat) : ({ s with mgr := s.mgr.take i } : Master ρ).Inv := by
  obtain ⟨h1, h2, h3, h4, h5, h6, h7, h8, h9, h10, h11⟩ := h
  obtain ⟨g1, g2, g3, g4, g5⟩ := Mgr.take_spec h1 i
  constructor
  · exact g1
  · intro u; rw [g2]; exact h2 u
  · intro u; rw [g3]; exact h3 u
  · exact h4
  · refine h5.trans (List.Perm.append_left _ (List.Perm.append_left _ g5.symm))
  · have := g5.length_eq
    simp only [pend, List.length_append] at h6 this ⊢; omega
  · exact h7
  · intro u; rw [g4]; exact h8 u
  · exact h9
  · exact h10
  · exact h11

theorem Inv.workGet {s : Master ρ} (h : s.Inv) (i : Nat) : (s.workGet i).Inv := by
  have h0 := h
  obtain ⟨h1, h2, h3, h4, h5, h6, h7, h8, h9, h10, h11⟩ := h
  unfold Master.workGet
  have hn := Mgr.get_none (m := s.mgr) (i := i)
  have hs := fun t b => Mgr.get_spec h1 i (t := t) (b := b)
  revert hn hs
  generalize s.mgr.get i = p
  obtain ⟨o, m⟩ := p
  intro hn hs
  match o with
  | none => simp only at hn ⊢; rw [hn trivial]; exact h0
  | some (t, b) =>
    simp only at hs ⊢
    obtain ⟨g1, g2, g3, g4, g0, g5⟩ := hs t b rfl
    have ha := h8 t
    rw [if_neg (by omega)]
    constructor
    · exact g1
    · intro u; rw [g2]; exact h2 u
    · intro u; rw [g3]; exact h3 u
    · exact h4
    · refine h5.trans (List.Perm.append_left _ (List.Perm.append_left _ g5.symm))
    · have := g5.length_eq
      simp only [pend, List.length_append] at h6 this ⊢; omega
    · exact h7
    · intro u
      have hu := h8 u
      simp only [g4, curBursts] at hu ⊢
      cases b
      · simpa using hu
      · simp only [AxiOps.upd, if_true, and_true]
        by_cases he : u = t
        · subst he; simp only [if_true]; rw [hu]; omega
        · simp only [if_neg he]; rw [hu]; omega
    · exact h9
    · exact h10
    · exact h11

theorem Inv.workDone {s : Master ρ} (h : s.Inv) (i : Nat) : (s.workDone i).Inv := by
  have h0 := h
  obtain ⟨h1, h2, h3, h4, h5, h6, h7, h8, h9, h10, h11⟩ := h
  unfold Master.workDone
  have hn := Mgr.finish_none (m := s.mgr) (i := i)
  have hs := fun t op rs => Mgr.finish_spec h1 i (t := t) (op := op) (rs := rs)
  revert hn hs
  generalize s.mgr.finish i = p
  obtain ⟨o, m⟩ := p
  intro hn hs
  match o with
  | none => simp only at hn ⊢; rw [hn trivial]; exact h0
  | some (t, op, rs) =>
    simp only at hs ⊢
    obtain ⟨g1, g2, g3, g4, g0, g5⟩ := hs t op rs rfl
    have hl : s.pend.length = 1 + (s.queue ++ (s.cur.map (·.1)).toList ++ m.allOps).length := by
      have := g5.length_eq
      simp only [pend, List.length_append, List.length_cons, List.length_nil] at this ⊢; omega
    constructor
    · exact g1
    · intro u
      simp only [h2, forId_append, forId_single, g2 u, List.map_append, List.append_assoc]
      split <;> simp
    · intro u
      simp only [h3, forId_append, forId_single, g3 u, List.map_append, List.flatten_append, List.append_assoc]
      split <;> simp
    · intro x hx
      simp only [List.mem_append, List.mem_singleton] at hx
      rcases hx with hx | rfl
      · exact h4 x hx
      · exact g0
    · refine h5.trans ?_
      simp only [pend, List.map_append, List.map_cons, List.map_nil, List.append_assoc]
      refine List.Perm.append_left _ ?_
      refine (List.Perm.append_left _ (List.Perm.append_left _ g5)).trans ?_
      rw [← List.append_assoc, ← List.append_assoc, ← List.append_assoc, ← List.append_assoc]
      refine List.Perm.append_right _ ?_
      exact List.perm_append_comm.trans (by simp)
    · simp only [pend] at hl h6 ⊢; omega
    · exact h7
    · intro u; rw [g4]; exact h8 u
    · exact h9
    · simp only
      rw [h10]
      have : s.inFlight ≠ 0 := by omega
      simp [this]
    · exact h11

theorem Inv.reset {s : Master ρ} (h : s.Inv) (v : Bool) : (s.reset v).Inv := by
  have h0 := h
  obtain ⟨h1, h2, h3, h4, h5, h6, h7, h8, h9, h10, h11⟩ := h
  unfold Master.reset
  split
  · obtain ⟨g1, g2, g3, g4⟩ := Mgr.flush_spec h1
    obtain ⟨e1, e2, e3, e4⟩ := Mgr.empty_of_unmapped g1 g4
    constructor
    · exact g1
    · intro u; simp [e2]
    · intro u; simp [e3]
    · simp
    · simp only [pend, e1, g2]
      simp only [pend] at h5
      simpa [List.map_map, Function.comp_def] using h5
    · simp [pend, e1]
    · simp
    · intro u; simp [e4, curBursts]
    · intro u; simp [curBursts]
    · simp
    · exact h11
  · exact ⟨h1, h2, h3, h4, h5, h6, h7, h8, h9, h10, h11⟩

theorem Inv.step {s : Master ρ} (h : s.Inv) (c : Nat) (e : Ev ρ) : (s.step c e).Inv := by
  cases e with
  | write op => exact h.write op
  | init op => exact ⟨h.1, h.2, h.3, h.4, h.5, h.6, h.7, h.8, h.9, h.10, h.11⟩
  | runInit i =>
    simp only [Master.step]
    split
    · rename_i op _
      have h' : ({ s with wrappers := s.wrappers.eraseIdx i } : Master ρ).Inv :=
        ⟨h.1, h.2, h.3, h.4, h.5, h.6, h.7, h.8, h.9, h.10, h.11⟩
      exact h'.write op
    · exact h
  | take => exact h.take c
  | burst => exact h.burst
  | start => exact h.start
  | resp t r => exact h.resp t r
  | workTake i => exact h.workTake i
  | workGet i => exact h.workGet i
  | workDone i => exact h.workDone i
  | reset v => exact h.reset v

theorem foldl_inv {s : Master ρ} (h : s.Inv) (c : Nat) (evs : List (Ev ρ)) : (evs.foldl (step c) s).Inv := by
  induction evs generalizing s with
  | nil => exact h
  | cons e es ih => exact ih (h.step c e)

theorem exec_inv (c : Nat) (evs : List (Ev ρ)) : (exec c evs : Master ρ).Inv := foldl_inv Inv.init c evs

/-! ### Blocks -/

theorem blocks_prefix : ∀ (d : List (Op × List ρ)) (ops : List Op) (rs : List ρ)
    (_ : ∀ x ∈ d, x.2.length = x.1.need), blocks (d.map (·.1) ++ ops) ((d.map (·.2)).flatten ++ rs) = d ++ blocks ops rs := by
  intro d
  induction d with
  | nil => intro ops rs _; simp
  | cons x d ih =>
    intro ops rs h
    have hx := h x (by simp)
    simp only [List.map_cons, List.cons_append, List.flatten_cons, blocks, List.append_assoc]
    rw [if_pos (by simp [hx]), ← hx]
    simp only [List.take_left, List.drop_left]
    rw [ih ops rs (fun y hy => h y (by simp [hy]))]

theorem Inv.blocks {s : Master ρ} (h : s.Inv) (t : Nat) :
    AxiOps.blocks (forId t s.started) (forId t s.arrived) =
      forId t s.done ++ AxiOps.blocks (s.mgr.opsOf t) (s.mgr.rspsOf t) := by
  rw [h.cmd, h.rsp]
  refine blocks_prefix _ _ _ ?_
  intro x hx
  simp only [forId, List.mem_map, List.mem_filter] at hx
  obtain ⟨y, ⟨hy, _⟩, rfl⟩ := hx
  exact h.len y hy

/-! ### Quiet states -/

theorem take_ne {m : Mgr ρ} {i : Nat} {op : Op} {rest : List Op} (h1 : (m.ctxs i).started = true)
    (h2 : (m.ctxs i).cur = none) (h3 : (m.ctxs i).cmds = op :: rest) : m.take i ≠ m := by
  intro h
  have := congrArg (fun m : Mgr ρ => (m.ctxs i).cmds.length) h
  simp [Mgr.take, h1, h2, h3] at this

/-- In a quiet state the operations held for an ID lack responses. -/
theorem Inv.quiet {s : Master ρ} (h : s.Inv) (hq : ∀ i, s.step 0 (.workTake i) = s ∧ s.step 0 (.workGet i) = s ∧
    s.step 0 (.workDone i) = s) (t : Nat) :
    s.mgr.opsOf t = [] ∨ ∃ op ops, s.mgr.opsOf t = op :: ops ∧ (s.mgr.rspsOf t).length < op.need := by
  cases hm : s.mgr.map t with
  | none => left; simp [Mgr.opsOf, hm]
  | some i =>
    obtain ⟨q1, q2, q3⟩ := hq i
    obtain ⟨_, ht, hs⟩ := h.mgr.mapped t i hm
    simp only [Mgr.opsOf, Mgr.rspsOf, hm, Option.map_some, Option.getD_some, Ctx.ops, Ctx.rsps]
    cases hc : (s.mgr.ctxs i).cur with
    | none =>
      cases hcm : (s.mgr.ctxs i).cmds with
      | nil => left; rfl
      | cons op rest =>
        exfalso
        have := congrArg Master.mgr q1
        exact take_ne hs hc hcm this
    | some j =>
      right
      obtain ⟨op, rem, got⟩ := j
      have hj := h.mgr.job i _ hc
      refine ⟨op, _, rfl, ?_⟩
      cases rem with
      | nil =>
        exfalso
        have := congrArg (fun s : Master ρ => s.results.length) q3
        simp [Master.step, Master.workDone, Mgr.finish, hs, hc, ht] at this
      | cons n rem =>
        cases hr : (s.mgr.ctxs i).resps with
        | nil =>
          simp only [needOf, List.map_cons, List.sum_cons] at hj
          simp; omega
        | cons r rest =>
          exfalso
          have ho : 0 < s.mgr.owedOf t := by simp [Mgr.owedOf, hm, Ctx.owed, hc]; omega
          have ha := h.act t
          have := congrArg (fun s : Master ρ => (s.mgr.ctxs i).resps.length) q2
          simp only [Master.step, Master.workGet, Mgr.get, hs, hc, ht, hr] at this
          rw [if_neg (by omega)] at this
          simp at this

theorem needOf_append (a b : List Nat) : needOf (a ++ b) = needOf a + needOf b := by simp [needOf]

theorem needOf_flatten (l : List Op) : needOf (l.map (·.bursts)).flatten = (l.map (·.need)).sum := by
  induction l with
  | nil => rfl
  | cons x l ih => simp only [List.map_cons, List.flatten_cons, needOf_append, ih, List.sum_cons]; rfl

theorem done_len (d : List (Op × List ρ)) (h : ∀ x ∈ d, x.2.length = x.1.need) :
    ((d.map (·.2)).flatten).length = ((d.map (·.1)).map (·.need)).sum := by
  induction d with
  | nil => rfl
  | cons x d ih =>
    simp only [List.map_cons, List.flatten_cons, List.length_append, List.sum_cons]
    rw [ih (fun y hy => h y (by simp [hy])), h x (by simp)]

theorem Inv.lenOf {s : Master ρ} (h : s.Inv) (t : Nat) : ∀ x ∈ forId t s.done, x.2.length = x.1.need := by
  intro x hx
  simp only [forId, List.mem_map, List.mem_filter] at hx
  obtain ⟨y, ⟨hy, _⟩, rfl⟩ := hx
  exact h.len y hy

/-- The responses the bursts issued so far will have, and those that have arrived. -/
theorem Inv.needs {s : Master ρ} (h : s.Inv) (t : Nat) :
    needOf (forId t s.sent) + (s.mgr.rspsOf t).length =
      (forId t s.arrived).length + ((s.mgr.opsOf t).map (·.need)).sum + needOf (s.curBursts t) := by
  rw [h.sent, needOf_append, needOf_flatten, h.cmd, h.rsp]
  simp only [List.map_append, List.sum_append, List.length_append]
  have := done_len _ (h.lenOf t)
  omega

theorem needOf_zero_of (l : List Nat) (h : l.length = 0) : needOf l = 0 := by
  simp [List.length_eq_zero_iff.1 h, needOf]

/-- If nothing is owed for an ID, all responses of the bursts issued under it have arrived. -/
theorem Inv.no_owed {s : Master ρ} (h : s.Inv) {t : Nat} (ha : s.active t = 0) :
    needOf (forId t s.sent) ≤ (forId t s.arrived).length := by
  have hn := h.needs t
  have hact := h.act t
  rw [needOf_zero_of (s.curBursts t) (by omega)] at hn
  have ho : s.mgr.owedOf t = 0 := by omega
  suffices ((s.mgr.opsOf t).map (·.need)).sum ≤ (s.mgr.rspsOf t).length by omega
  cases hm : s.mgr.map t with
  | none => simp [Mgr.opsOf, Mgr.rspsOf, hm]
  | some i =>
    simp only [Mgr.opsOf, Mgr.rspsOf, Mgr.owedOf, hm, Option.map_some, Option.getD_some, Ctx.ops, Ctx.rsps, Ctx.owed] at ho ⊢
    have hz : (((s.mgr.ctxs i).cmds).map (·.need)).sum = 0 := by
      rw [← needOf_flatten]
      refine needOf_zero_of _ ?_
      simp only [List.length_flatten, List.map_map, Function.comp_def]; omega
    cases hc : (s.mgr.ctxs i).cur with
    | none => simp [hz]
    | some j =>
      have hj := h.mgr.job i j hc
      rw [hc] at ho
      simp only [Option.map_some, Option.getD_some] at ho
      rw [needOf_zero_of j.rem (by omega)] at hj
      simp [hz]; omega

/-- A running master with nothing left to do and every response received has completed everything. -/
theorem Inv.drained {s : Master ρ} (h : s.Inv) (c : Nat) (hr : s.running = true) (h1 : s.step c .take = s)
    (h2 : s.step c .burst = s) (h3 : s.step c .start = s)
    (hq : ∀ i, s.step c (.workTake i) = s ∧ s.step c (.workGet i) = s ∧ s.step c (.workDone i) = s)
    (ha : ∀ t, needOf (forId t s.sent) ≤ (forId t s.arrived).length) : s.pend = [] := by
  have hc : s.cur = none := by
    cases hc : s.cur with
    | none => rfl
    | some x =>
      exfalso
      obtain ⟨op, t, n⟩ := x
      by_cases hn : n = op.bursts.length
      · have := congrArg (fun s : Master ρ => s.started.length) h3
        simp [Master.step, Master.start, hr, hc, hn] at this
      · have hlt : n < op.bursts.length := by have := h.curn op t n hc; omega
        have := congrArg (fun s : Master ρ => s.sent.length) h2
        simp [Master.step, Master.burst, hr, hc, List.getElem?_eq_getElem hlt] at this
  have hqu : s.queue = [] := by
    cases hqq : s.queue with
    | nil => rfl
    | cons op rest =>
      exfalso
      have := congrArg (fun s : Master ρ => s.queue.length) h1
      simp only [Master.step, Master.take, hr, hc, hqq] at this
      split at this <;> simp at this
  have hops : ∀ t, s.mgr.opsOf t = [] := by
    intro t
    rcases h.quiet hq t with h' | ⟨op, ops, h', hl⟩
    · exact h'
    · exfalso
      have hn := h.needs t
      have hat := ha t
      rw [h'] at hn
      simp only [List.map_cons, List.sum_cons] at hn
      omega
  have : s.mgr.allOps = [] := by
    simp only [Mgr.allOps, List.flatMap_eq_nil_iff]
    intro i _
    cases ht : (s.mgr.ctxs i).tag with
    | none => simp [Ctx.ops, h.mgr.free i ht]
    | some t => have := hops t; simpa [Mgr.opsOf, h.mgr.tagged i t ht] using this
  simp [pend, hc, hqu, this]

end Master
end Verif.AxiOps
