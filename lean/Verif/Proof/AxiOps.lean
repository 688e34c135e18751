import Verif.Spec.Matching

/-!
# Invariants of the response workers (`TagContextManager`)
-/

namespace Verif.AxiOps

variable {ρ : Type}

@[simp] theorem upd_same {β : Type} (f : Nat → β) (i : Nat) (x : β) : upd f i x i = x := by simp [upd]

theorem upd_other {β : Type} (f : Nat → β) {i j : Nat} (x : β) (h : j ≠ i) : upd f i x j = f j := by simp [upd, h]

/-- The operations a context holds. -/
def Ctx.ops (c : Ctx ρ) : List Op := (c.cur.map (·.op)).toList ++ c.cmds

/-- The responses a context holds. -/
def Ctx.rsps (c : Ctx ρ) : List ρ := ((c.cur.map (·.got)).getD []) ++ c.resps

/-- Bursts of the operations a context holds that have not been completed. -/
def Ctx.owed (c : Ctx ρ) : Nat := ((c.cur.map (·.rem.length)).getD 0) + (c.cmds.map (·.bursts.length)).sum

/-- The number of responses in a list of bursts. -/
def needOf (l : List Nat) : Nat := (l.map (· + 1)).sum

namespace Mgr

/-- Operations held for an ID. -/
def opsOf (m : Mgr ρ) (t : Nat) : List Op := ((m.map t).map (fun i => (m.ctxs i).ops)).getD []

/-- Responses held for an ID. -/
def rspsOf (m : Mgr ρ) (t : Nat) : List ρ := ((m.map t).map (fun i => (m.ctxs i).rsps)).getD []

/-- Uncompleted bursts of the operations held for an ID. -/
def owedOf (m : Mgr ρ) (t : Nat) : Nat := ((m.map t).map (fun i => (m.ctxs i).owed)).getD 0

/-- All operations held. -/
def allOps (m : Mgr ρ) : List Op := (List.range m.count).flatMap (fun i => (m.ctxs i).ops)

/-- The invariant. -/
structure Inv (m : Mgr ρ) : Prop where
  mapped : ∀ t i, m.map t = some i → i < m.count ∧ (m.ctxs i).tag = some t ∧ (m.ctxs i).started = true
  tagged : ∀ i t, (m.ctxs i).tag = some t → m.map t = some i
  free : ∀ i, (m.ctxs i).tag = none → (m.ctxs i).cmds = [] ∧ (m.ctxs i).cur = none ∧ (m.ctxs i).resps = []
  idleOk : ∀ i, i ∈ m.idle ↔ i < m.count ∧ (m.ctxs i).tag = none
  nodup : m.idle.Nodup
  beyond : ∀ i, m.count ≤ i → (m.ctxs i).tag = none
  job : ∀ i j, (m.ctxs i).cur = some j → j.got.length + needOf j.rem = j.op.need

theorem Inv.init : ({} : Mgr ρ).Inv := by
  constructor <;> simp

/-- An update of one context that keeps the tag. -/
theorem Inv.upd {m : Mgr ρ} (h : m.Inv) {i : Nat} {t : Nat} (c : Ctx ρ) (ht : (m.ctxs i).tag = some t)
    (hc : c.tag = some t) (hs : c.started = true)
    (hj : ∀ j, c.cur = some j → j.got.length + needOf j.rem = j.op.need) :
    ({ m with ctxs := upd m.ctxs i c } : Mgr ρ).Inv := by
  have hi := h.tagged i t ht
  constructor
  · intro u k hk
    have := h.mapped u k hk
    simp only [AxiOps.upd]
    split
    · subst k
      have := h.mapped u i hk
      grind
    · exact this
  · intro k u; simp only [AxiOps.upd]; split
    · intro h'; subst k; grind
    · exact h.tagged k u
  · intro k; simp only [AxiOps.upd]; split
    · simp [hc]
    · exact h.free k
  · intro k; simp only [AxiOps.upd, h.idleOk]; split
    · subst k; simp [ht, hc]
    · rfl
  · exact h.nodup
  · intro k; simp only [AxiOps.upd]; split
    · subst k; intro hk; have := h.beyond _ hk; simp [ht] at this
    · exact h.beyond k
  · intro k j; simp only [AxiOps.upd]; split
    · exact hj j
    · exact h.job k j

theorem opsOf_upd {m : Mgr ρ} (h : m.Inv) {i t : Nat} (c : Ctx ρ) (hi : m.map t = some i) (u : Nat) :
    ({ m with ctxs := upd m.ctxs i c } : Mgr ρ).opsOf u = if u = t then c.ops else m.opsOf u := by
  simp only [opsOf]
  split
  · subst u; simp [hi]
  · rename_i hne
    cases hu : m.map u with
    | none => simp
    | some k =>
      have : k ≠ i := by
        intro e; subst e
        have := (h.mapped u k hu).2.1; have := (h.mapped t k hi).2.1; grind
      simp [upd_other _ _ this]

theorem rspsOf_upd {m : Mgr ρ} (h : m.Inv) {i t : Nat} (c : Ctx ρ) (hi : m.map t = some i) (u : Nat) :
    ({ m with ctxs := upd m.ctxs i c } : Mgr ρ).rspsOf u = if u = t then c.rsps else m.rspsOf u := by
  simp only [rspsOf]
  split
  · subst u; simp [hi]
  · rename_i hne
    cases hu : m.map u with
    | none => simp
    | some k =>
      have : k ≠ i := by
        intro e; subst e
        have := (h.mapped u k hu).2.1; have := (h.mapped t k hi).2.1; grind
      simp [upd_other _ _ this]

theorem owedOf_upd {m : Mgr ρ} (h : m.Inv) {i t : Nat} (c : Ctx ρ) (hi : m.map t = some i) (u : Nat) :
    ({ m with ctxs := upd m.ctxs i c } : Mgr ρ).owedOf u = if u = t then c.owed else m.owedOf u := by
  simp only [owedOf]
  split
  · subst u; simp [hi]
  · rename_i hne
    cases hu : m.map u with
    | none => simp
    | some k =>
      have : k ≠ i := by
        intro e; subst e
        have := (h.mapped u k hu).2.1; have := (h.mapped t k hi).2.1; grind
      simp [upd_other _ _ this]

theorem flatMap_range_congr {β : Type} (f g : Nat → List β) (n : Nat) (h : ∀ i, i < n → f i = g i) :
    (List.range n).flatMap f = (List.range n).flatMap g := by
  induction n with
  | zero => rfl
  | succ n ih =>
    simp only [List.range_succ, List.flatMap_append, List.flatMap_cons, List.flatMap_nil, List.append_nil]
    rw [ih (fun i hi => h i (by omega)), h n (by omega)]

theorem flatMap_range_perm {β : Type} (f g : Nat → List β) (l : List β) (n i : Nat) (hi : i < n)
    (hf : (f i).Perm (l ++ g i)) (h : ∀ j, j ≠ i → f j = g j) :
    ((List.range n).flatMap f).Perm (l ++ (List.range n).flatMap g) := by
  induction n with
  | zero => omega
  | succ n ih =>
    simp only [List.range_succ, List.flatMap_append, List.flatMap_cons, List.flatMap_nil, List.append_nil]
    by_cases hn : i = n
    · subst hn
      rw [flatMap_range_congr f g i (fun j hj => h j (by omega))]
      refine (List.Perm.append_left _ hf).trans ?_
      rw [← List.append_assoc, ← List.append_assoc]
      exact List.Perm.append_right _ List.perm_append_comm
    · rw [h n (by omega), ← List.append_assoc]
      exact List.Perm.append_right _ (ih (by omega))

theorem allOps_upd {m : Mgr ρ} {i : Nat} (c : Ctx ρ) (hi : i < m.count) (l : List Op)
    (hc : c.ops.Perm (l ++ (m.ctxs i).ops)) :
    ({ m with ctxs := upd m.ctxs i c } : Mgr ρ).allOps.Perm (l ++ m.allOps) := by
  refine flatMap_range_perm _ _ l _ i hi (by simpa using hc) ?_
  intro j hj; simp [upd_other _ _ hj]

theorem allOps_upd' {m : Mgr ρ} {i : Nat} (c : Ctx ρ) (hi : i < m.count) (l : List Op)
    (hc : (m.ctxs i).ops.Perm (l ++ c.ops)) :
    m.allOps.Perm (l ++ ({ m with ctxs := upd m.ctxs i c } : Mgr ρ).allOps) := by
  refine flatMap_range_perm _ _ l _ i hi (by simpa using hc) ?_
  intro j hj; simp [upd_other _ _ hj]

/-- What `_get_context` does: the context is mapped and nothing held changes. -/
theorem getContext_spec {m : Mgr ρ} (h : m.Inv) (t : Nat) :
    (m.getContext t).2.Inv ∧ (m.getContext t).2.map t = some (m.getContext t).1 ∧
    (∀ u, (m.getContext t).2.opsOf u = m.opsOf u) ∧ (∀ u, (m.getContext t).2.rspsOf u = m.rspsOf u) ∧
    (∀ u, (m.getContext t).2.owedOf u = m.owedOf u) ∧ (m.getContext t).2.allOps = m.allOps := by
  unfold getContext
  cases hm : m.map t with
  | some i => simp [h, hm]
  | none =>
    cases hl : m.idle.getLast? with
    | some i =>
      simp only
      obtain ⟨xs, hxs⟩ := List.getLast?_eq_some_iff.1 hl
      have hd : m.idle.dropLast = xs := by simp [hxs]
      have hin := (h.idleOk i).1 (by simp [hxs])
      have hnd := h.nodup
      rw [hxs] at hnd
      have hni : i ∉ xs := by
        intro hx
        have := (List.nodup_append.1 hnd).2.2 i hx i (by simp)
        exact this rfl
      have hmi : ∀ u, m.map u ≠ some i := by
        intro u hu; have := (h.mapped u i hu).2.1; simp [hin.2] at this
      have hf := h.free i hin.2
      refine ⟨?_, by simp, ?_, ?_, ?_, ?_⟩
      · constructor
        · intro u k hk
          simp only [AxiOps.upd] at hk ⊢
          split at hk
          · simp only [Option.some.injEq] at hk; subst hk; simp_all
          · have := h.mapped u k hk
            have hne : k ≠ i := by rintro rfl; exact hmi u hk
            simp only [if_neg hne]; exact this
        · intro k u
          simp only [AxiOps.upd]
          split
          · rename_i he; subst he; simp only [Option.some.injEq]; rintro rfl; simp
          · intro hk
            have := h.tagged k u hk
            have : u ≠ t := by rintro rfl; simp [hm] at this
            simp only [if_neg this]; assumption
        · intro k; simp only [AxiOps.upd]; split
          · simp
          · exact h.free k
        · intro k
          have := h.idleOk k
          simp only [AxiOps.upd, hd]
          rw [hxs] at this
          split
          · rename_i he; subst he; simp [hni]
          · rw [← this]; simp; omega
        · simp only [hd]; exact (List.nodup_append.1 hnd).1
        · intro k hk; simp only [AxiOps.upd]; split
          · simp only at hk; omega
          · exact h.beyond k hk
        · intro k j; simp only [AxiOps.upd]; split
          · simp [hf.2.1]
          · exact h.job k j
      · intro u
        simp only [opsOf, AxiOps.upd]
        by_cases hu : u = t
        · subst hu; simp [hm, Ctx.ops, hf.1, hf.2.1]
        · simp only [if_neg hu]
          cases hk : m.map u with
          | none => simp
          | some k =>
            have hne : k ≠ i := by rintro rfl; exact hmi u hk
            simp [hne]
      · intro u
        simp only [rspsOf, AxiOps.upd]
        by_cases hu : u = t
        · subst hu; simp [hm, Ctx.rsps, hf.2.1, hf.2.2]
        · simp only [if_neg hu]
          cases hk : m.map u with
          | none => simp
          | some k =>
            have hne : k ≠ i := by rintro rfl; exact hmi u hk
            simp [hne]
      · intro u
        simp only [owedOf, AxiOps.upd]
        by_cases hu : u = t
        · subst hu; simp [hm, Ctx.owed, hf.1, hf.2.1]
        · simp only [if_neg hu]
          cases hk : m.map u with
          | none => simp
          | some k =>
            have hne : k ≠ i := by rintro rfl; exact hmi u hk
            simp [hne]
      · simp only [allOps]
        refine flatMap_range_congr _ _ _ ?_
        intro k _; simp only [AxiOps.upd]; split
        · rename_i he; subst he; simp [Ctx.ops]
        · rfl
    | none =>
      simp only
      have hbe := h.beyond m.count (Nat.le_refl _)
      have hf := h.free _ hbe
      have hil : m.idle = [] := by simpa using hl
      have hmi : ∀ u, m.map u ≠ some m.count := by
        intro u hu; have := (h.mapped u _ hu).1; omega
      refine ⟨?_, by simp, ?_, ?_, ?_, ?_⟩
      · constructor
        · intro u k hk
          simp only [AxiOps.upd] at hk ⊢
          split at hk
          · simp only [Option.some.injEq] at hk; subst hk; simp_all
          · have := h.mapped u k hk
            have hne : k ≠ m.count := by rintro rfl; exact hmi u hk
            simp only [if_neg hne]; exact ⟨by omega, this.2⟩
        · intro k u
          simp only [AxiOps.upd]
          split
          · rename_i he; subst he; simp only [Option.some.injEq]; rintro rfl; simp
          · intro hk
            have := h.tagged k u hk
            have : u ≠ t := by rintro rfl; simp [hm] at this
            simp only [if_neg this]; assumption
        · intro k; simp only [AxiOps.upd]; split
          · simp
          · exact h.free k
        · intro k
          have := h.idleOk k
          simp only [AxiOps.upd]
          split
          · rename_i he; subst he; simp [hil]
          · rw [this]
            constructor
            · rintro ⟨a, b⟩; exact ⟨by omega, b⟩
            · rintro ⟨a, b⟩; exact ⟨by omega, b⟩
        · exact h.nodup
        · intro k hk; simp only [AxiOps.upd]; simp only at hk; split
          · omega
          · exact h.beyond k (by omega)
        · intro k j; simp only [AxiOps.upd]; split
          · simp
          · exact h.job k j
      · intro u
        simp only [opsOf, AxiOps.upd]
        by_cases hu : u = t
        · subst hu; simp [hm, Ctx.ops]
        · simp only [if_neg hu]
          cases hk : m.map u with
          | none => simp
          | some k =>
            have hne : k ≠ m.count := by rintro rfl; exact hmi u hk
            simp [hne]
      · intro u
        simp only [rspsOf, AxiOps.upd]
        by_cases hu : u = t
        · subst hu; simp [hm, Ctx.rsps]
        · simp only [if_neg hu]
          cases hk : m.map u with
          | none => simp
          | some k =>
            have hne : k ≠ m.count := by rintro rfl; exact hmi u hk
            simp [hne]
      · intro u
        simp only [owedOf, AxiOps.upd]
        by_cases hu : u = t
        · subst hu; simp [hm, Ctx.owed]
        · simp only [if_neg hu]
          cases hk : m.map u with
          | none => simp
          | some k =>
            have hne : k ≠ m.count := by rintro rfl; exact hmi u hk
            simp [hne]
      · simp only [allOps, List.range_succ, List.flatMap_append, List.flatMap_cons, List.flatMap_nil, List.append_nil,
          upd_same]
        simp only [Ctx.ops, Option.map_none, Option.toList_none, List.append_nil]
        refine flatMap_range_congr _ _ _ ?_
        intro k hk; simp only [AxiOps.upd]; split
        · omega
        · rfl

theorem startCmd_spec {m : Mgr ρ} (h : m.Inv) (t : Nat) (op : Op) :
    (m.startCmd t op).Inv ∧
    (∀ u, (m.startCmd t op).opsOf u = m.opsOf u ++ (if u = t then [op] else [])) ∧
    (∀ u, (m.startCmd t op).rspsOf u = m.rspsOf u) ∧
    (∀ u, (m.startCmd t op).owedOf u = m.owedOf u + (if u = t then op.bursts.length else 0)) ∧
    (m.startCmd t op).allOps.Perm ([op] ++ m.allOps) := by
  obtain ⟨h1, h2, h3, h4, h5, h6⟩ := getContext_spec h t
  unfold startCmd
  revert h1 h2 h3 h4 h5 h6
  generalize m.getContext t = p
  obtain ⟨i, m'⟩ := p
  intro h1 h2 h3 h4 h5 h6
  simp only at *
  have hm := h1.mapped t i h2
  refine ⟨?_, ?_, ?_, ?_, ?_⟩
  · exact h1.upd _ hm.2.1 hm.2.1 hm.2.2 (fun j hj => h1.job i j hj)
  · intro u; rw [opsOf_upd h1 _ h2]
    split
    · subst u; rw [← h3]; simp [opsOf, h2, Ctx.ops]
    · simp [h3]
  · intro u; rw [rspsOf_upd h1 _ h2]
    split
    · subst u; rw [← h4]; simp [rspsOf, h2, Ctx.rsps]
    · simp [h4]
  · intro u; rw [owedOf_upd h1 _ h2]
    split
    · subst u; rw [← h5]; simp [owedOf, h2, Ctx.owed]; omega
    · simp [h5]
  · rw [← h6]
    refine allOps_upd _ hm.1 _ ?_
    simp only [Ctx.ops, ← List.append_assoc]
    exact List.perm_append_comm

theorem putResp_spec {m : Mgr ρ} (h : m.Inv) (t : Nat) (r : ρ) :
    (m.putResp t r).Inv ∧
    (∀ u, (m.putResp t r).opsOf u = m.opsOf u) ∧
    (∀ u, (m.putResp t r).rspsOf u = m.rspsOf u ++ (if u = t then [r] else [])) ∧
    (∀ u, (m.putResp t r).owedOf u = m.owedOf u) ∧
    (m.putResp t r).allOps.Perm m.allOps := by
  obtain ⟨h1, h2, h3, h4, h5, h6⟩ := getContext_spec h t
  unfold putResp
  revert h1 h2 h3 h4 h5 h6
  generalize m.getContext t = p
  obtain ⟨i, m'⟩ := p
  intro h1 h2 h3 h4 h5 h6
  simp only at *
  have hm := h1.mapped t i h2
  refine ⟨?_, ?_, ?_, ?_, ?_⟩
  · exact h1.upd _ hm.2.1 hm.2.1 hm.2.2 (fun j hj => h1.job i j hj)
  · intro u; rw [opsOf_upd h1 _ h2]
    split
    · subst u; rw [← h3]; simp [opsOf, h2, Ctx.ops]
    · simp [h3]
  · intro u; rw [rspsOf_upd h1 _ h2]
    split
    · subst u; rw [← h4]; simp [rspsOf, h2, Ctx.rsps]
    · simp [h4]
  · intro u; rw [owedOf_upd h1 _ h2]
    split
    · subst u; rw [← h5]; simp [owedOf, h2, Ctx.owed]
    · simp [h5]
  · rw [← h6]
    refine allOps_upd _ hm.1 [] ?_
    simp [Ctx.ops]

/-- A context with something in it is mapped. -/
theorem Inv.tag_of {m : Mgr ρ} (h : m.Inv) {i : Nat}
    (hc : (m.ctxs i).cmds ≠ [] ∨ (m.ctxs i).cur ≠ none ∨ (m.ctxs i).resps ≠ []) : ∃ t, (m.ctxs i).tag = some t := by
  cases ht : (m.ctxs i).tag with
  | some t => exact ⟨t, rfl⟩
  | none => have := h.free i ht; grind

theorem take_spec {m : Mgr ρ} (h : m.Inv) (i : Nat) :
    (m.take i).Inv ∧ (∀ u, (m.take i).opsOf u = m.opsOf u) ∧ (∀ u, (m.take i).rspsOf u = m.rspsOf u) ∧
    (∀ u, (m.take i).owedOf u = m.owedOf u) ∧ (m.take i).allOps.Perm m.allOps := by
  unfold take
  simp only
  split
  · rename_i op rest hs hcur hcmd
    obtain ⟨t, ht⟩ := h.tag_of (i := i) (by simp [hcmd])
    have hmap := h.tagged i t ht
    have hlt := (h.mapped t i hmap).1
    refine ⟨?_, ?_, ?_, ?_, ?_⟩
    · refine h.upd _ ht ht hs ?_
      intro j hj; simp only [Option.some.injEq] at hj; subst hj; simp [needOf, Op.need]
    · intro u; rw [opsOf_upd h _ hmap]
      split
      · subst u; simp [opsOf, hmap, Ctx.ops, hcur, hcmd]
      · rfl
    · intro u; rw [rspsOf_upd h _ hmap]
      split
      · subst u; simp [rspsOf, hmap, Ctx.rsps, hcur]
      · rfl
    · intro u; rw [owedOf_upd h _ hmap]
      split
      · subst u; simp [owedOf, hmap, Ctx.owed, hcur, hcmd]
      · rfl
    · refine allOps_upd _ hlt [] ?_
      simp [Ctx.ops, hcur, hcmd]
  · exact ⟨h, fun _ => rfl, fun _ => rfl, fun _ => rfl, List.Perm.refl _⟩

theorem get_none {m : Mgr ρ} {i : Nat} (h : (m.get i).1 = none) : (m.get i).2 = m := by
  unfold get at h ⊢
  simp only at h ⊢
  split
  · rename_i h1 h2 h3 h4
    simp only [h1, h2, h3, h4] at h
    exact absurd h (by simp)
  · rfl

theorem get_spec {m : Mgr ρ} (h : m.Inv) (i : Nat) {t : Nat} {b : Bool} (hg : (m.get i).1 = some (t, b)) :
    (m.get i).2.Inv ∧ (∀ u, (m.get i).2.opsOf u = m.opsOf u) ∧ (∀ u, (m.get i).2.rspsOf u = m.rspsOf u) ∧
    (∀ u, (m.get i).2.owedOf u = m.owedOf u - (if u = t ∧ b = true then 1 else 0)) ∧ 0 < m.owedOf t ∧
    (m.get i).2.allOps.Perm m.allOps := by
  unfold get at hg ⊢
  simp only at hg ⊢
  split
  · rename_i op n rem got r rest t' hs hcur hresp ht
    simp only [hs, hcur, hresp, ht, Option.some.injEq, Prod.mk.injEq] at hg
    obtain ⟨rfl, hb⟩ := hg
    have hmap := h.tagged i t' ht
    have hlt := (h.mapped t' i hmap).1
    have hjob := h.job i _ hcur
    refine ⟨?_, ?_, ?_, ?_, ?_, ?_⟩
    · refine h.upd _ ht ht hs ?_
      intro j hj; simp only [Option.some.injEq] at hj; subst hj
      simp only [needOf, List.map_cons, List.sum_cons, List.length_append, List.length_cons, List.length_nil] at hjob ⊢
      split
      · omega
      · simp only [List.map_cons, List.sum_cons]; omega
    · intro u; rw [opsOf_upd h _ hmap]
      split
      · subst u; simp [opsOf, hmap, Ctx.ops, hcur]
      · rfl
    · intro u; rw [rspsOf_upd h _ hmap]
      split
      · subst u; simp [rspsOf, hmap, Ctx.rsps, hcur, hresp]
      · rfl
    · intro u; rw [owedOf_upd h _ hmap]
      split
      · rename_i hu
        subst hu; simp only [owedOf, hmap, Ctx.owed, ← hb, true_and, decide_eq_true_eq, Option.map_some,
          Option.getD_some]
        rw [hcur]
        simp only [Option.map_some, Option.getD_some]
        split
        · simp
          try omega
        · simp
      · rename_i hu; simp [hu]
    · simp [owedOf, hmap, Ctx.owed, hcur]; omega
    · refine allOps_upd _ hlt [] ?_
      simp [Ctx.ops, hcur]
  · rename_i hno
    exfalso
    revert hg
    split
    · rename_i a b c d; exact fun _ => hno _ _ _ _ _ _ _ a b c d
    · simp

/-- `_set_idle` on an empty mapped context. -/
theorem setIdle_spec {m : Mgr ρ} (h : m.Inv) {i t : Nat} (ht : (m.ctxs i).tag = some t)
    (he : (m.ctxs i).cmds = [] ∧ (m.ctxs i).cur = none ∧ (m.ctxs i).resps = []) :
    (m.setIdle i).Inv ∧ (∀ u, (m.setIdle i).opsOf u = m.opsOf u) ∧ (∀ u, (m.setIdle i).rspsOf u = m.rspsOf u) ∧
    (∀ u, (m.setIdle i).owedOf u = m.owedOf u) ∧ (m.setIdle i).allOps = m.allOps := by
  have hmap := h.tagged i t ht
  have hlt := (h.mapped t i hmap).1
  unfold setIdle
  simp only [ht, hmap]
  have hinj : ∀ u k, m.map u = some k → u ≠ t → k ≠ i := by
    rintro u k hk hu rfl
    have := (h.mapped u k hk).2.1; grind
  refine ⟨?_, ?_, ?_, ?_, ?_⟩
  · constructor
    · intro u k hk
      simp only [AxiOps.upd] at hk ⊢
      split at hk
      · simp at hk
      · rename_i hu
        rw [if_neg (hinj u k hk hu)]; exact h.mapped u k hk
    · intro k u
      simp only [AxiOps.upd]
      split
      · simp
      · rename_i hk
        intro hu
        have := h.tagged k u hu
        split
        · rename_i h'; subst h'; rw [hmap] at this; grind
        · exact this
    · intro k; simp only [AxiOps.upd]; split
      · rename_i hk; subst hk; intro _; exact he
      · exact h.free k
    · intro k
      have := h.idleOk k
      simp only [AxiOps.upd, List.mem_append, List.mem_singleton]
      split
      · rename_i hk; subst hk; simp [hlt]
      · rename_i hk; simp [hk, this]
    · have : i ∉ m.idle := by rw [h.idleOk]; simp [ht]
      simp only [List.nodup_append]
      exact ⟨h.nodup, by simp, by rintro a ha b hb rfl; simp at hb; subst hb; exact this ha⟩
    · intro k hk; simp only [AxiOps.upd]; split
      · rfl
      · exact h.beyond k hk
    · intro k j; simp only [AxiOps.upd]; split
      · rename_i hk; subst hk; simp [he]
      · exact h.job k j
  · intro u
    simp only [opsOf, AxiOps.upd]
    by_cases hu : u = t
    · subst hu; simp [hmap, Ctx.ops, he]
    · simp only [if_neg hu]
      cases hk : m.map u with
      | none => simp
      | some k => simp [hinj u k hk hu]
  · intro u
    simp only [rspsOf, AxiOps.upd]
    by_cases hu : u = t
    · subst hu; simp [hmap, Ctx.rsps, he]
    · simp only [if_neg hu]
      cases hk : m.map u with
      | none => simp
      | some k => simp [hinj u k hk hu]
  · intro u
    simp only [owedOf, AxiOps.upd]
    by_cases hu : u = t
    · subst hu; simp [hmap, Ctx.owed, he]
    · simp only [if_neg hu]
      cases hk : m.map u with
      | none => simp
      | some k => simp [hinj u k hk hu]
  · simp only [allOps]
    refine flatMap_range_congr _ _ _ ?_
    intro k _; simp only [AxiOps.upd]; split
    · rename_i hk; subst hk; simp [Ctx.ops]
    · rfl

theorem finish_none {m : Mgr ρ} {i : Nat} (h : (m.finish i).1 = none) : (m.finish i).2 = m := by
  unfold finish at h ⊢
  simp only at h ⊢
  split
  · rename_i h1 h2 h3
    simp only [h1, h2, h3] at h
    exact absurd h (by simp)
  · rfl

theorem finish_spec {m : Mgr ρ} (h : m.Inv) (i : Nat) {t : Nat} {op : Op} {rs : List ρ}
    (hg : (m.finish i).1 = some (t, op, rs)) :
    (m.finish i).2.Inv ∧ (∀ u, m.opsOf u = (if u = t then [op] else []) ++ (m.finish i).2.opsOf u) ∧
    (∀ u, m.rspsOf u = (if u = t then rs else []) ++ (m.finish i).2.rspsOf u) ∧
    (∀ u, (m.finish i).2.owedOf u = m.owedOf u) ∧ rs.length = op.need ∧
    m.allOps.Perm ([op] ++ (m.finish i).2.allOps) := by
  unfold finish at hg ⊢
  simp only at hg ⊢
  split
  · rename_i op' got t' hs hcur ht
    simp only [hs, hcur, ht, Option.some.injEq, Prod.mk.injEq] at hg
    obtain ⟨rfl, rfl, rfl⟩ := hg
    have hmap := h.tagged i t' ht
    have hlt := (h.mapped t' i hmap).1
    have hjob := h.job i _ hcur
    simp only
    have hI : ({ m with ctxs := AxiOps.upd m.ctxs i { m.ctxs i with cur := none } } : Mgr ρ).Inv :=
      h.upd _ ht ht hs (by simp)
    have hO : ∀ u, m.opsOf u = (if u = t' then [op'] else []) ++
        ({ m with ctxs := AxiOps.upd m.ctxs i { m.ctxs i with cur := none } } : Mgr ρ).opsOf u := by
      intro u; rw [opsOf_upd h _ hmap]
      split
      · subst u; simp [opsOf, hmap, Ctx.ops, hcur]
      · simp
    have hR : ∀ u, m.rspsOf u = (if u = t' then got else []) ++
        ({ m with ctxs := AxiOps.upd m.ctxs i { m.ctxs i with cur := none } } : Mgr ρ).rspsOf u := by
      intro u; rw [rspsOf_upd h _ hmap]
      split
      · subst u; simp [rspsOf, hmap, Ctx.rsps, hcur]
      · simp
    have hW : ∀ u, ({ m with ctxs := AxiOps.upd m.ctxs i { m.ctxs i with cur := none } } : Mgr ρ).owedOf u = m.owedOf u := by
      intro u; rw [owedOf_upd h _ hmap]
      split
      · subst u; simp [owedOf, hmap, Ctx.owed, hcur]
      · simp
    have hA : m.allOps.Perm ([op'] ++
        ({ m with ctxs := AxiOps.upd m.ctxs i { m.ctxs i with cur := none } } : Mgr ρ).allOps) := by
      refine allOps_upd' _ hlt _ ?_
      simp [Ctx.ops, hcur]
    have hL : got.length = op'.need := by simpa [needOf] using hjob
    split
    · rename_i hE
      simp only [Bool.and_eq_true, List.isEmpty_iff] at hE
      obtain ⟨g1, g2, g3, g4, g5⟩ := setIdle_spec (i := i) (t := t') hI (by simpa using ht) (by simpa using hE)
      refine ⟨g1, ?_, ?_, ?_, hL, ?_⟩
      · intro u; rw [g2, ← hO]
      · intro u; rw [g3, ← hR]
      · intro u; rw [g4, hW]
      · rw [g5]; exact hA
    · exact ⟨hI, hO, hR, hW, hL, hA⟩
  · rename_i hno
    exfalso
    revert hg
    split
    · rename_i a b c; exact fun _ => hno _ _ _ a b c
    · simp

/-! ### Flush -/

/-- Flushing one context: its operations are returned, it is empty, unmapped and idle; the others do not change. -/
theorem flushCtx_spec {m : Mgr ρ} (h : m.Inv) (i : Nat) (hi : i < m.count) :
    (m.flushCtx i).2.Inv ∧ (m.flushCtx i).2.count = m.count ∧ (m.flushCtx i).1 = (m.ctxs i).ops ∧
    ((m.flushCtx i).2.ctxs i).tag = none ∧ ∀ k, k ≠ i → (m.flushCtx i).2.ctxs k = m.ctxs k := by
  unfold flushCtx setIdle
  cases ht : (m.ctxs i).tag with
  | none =>
    have hf := h.free i ht
    simp only [upd_same, ht]
    refine ⟨?_, trivial, ?_, by simp, ?_⟩
    · constructor
      · intro u k hk
        have := h.mapped u k hk
        have hne : k ≠ i := by rintro rfl; simp [ht] at this
        simp only [AxiOps.upd, if_neg hne]; exact this
      · intro k u; simp only [AxiOps.upd]; split
        · simp
        · exact h.tagged k u
      · intro k; simp only [AxiOps.upd]; split
        · simp
        · exact h.free k
      · intro k; simp only [AxiOps.upd, h.idleOk]; split
        · rename_i hk; subst hk; simp [ht]
        · rfl
      · exact h.nodup
      · intro k hk; simp only [AxiOps.upd]; split
        · rfl
        · exact h.beyond k hk
      · intro k j; simp only [AxiOps.upd]; split
        · simp
        · exact h.job k j
    · simp [Ctx.ops]
    · intro k hk; simp [AxiOps.upd, hk]
  | some t =>
    have hmap := h.tagged i t ht
    have hinj : ∀ u k, m.map u = some k → u ≠ t → k ≠ i := by
      rintro u k hk hu rfl
      have := (h.mapped u k hk).2.1; grind
    simp only [upd_same, ht, hmap]
    refine ⟨?_, trivial, ?_, by simp, ?_⟩
    · constructor
      · intro u k hk
        simp only [AxiOps.upd] at hk ⊢
        split at hk
        · simp at hk
        · rename_i hu
          have hne := hinj u k hk hu
          simp only [if_neg hne]; exact h.mapped u k hk
      · intro k u
        simp only [AxiOps.upd]
        split
        · simp
        · rename_i hk
          intro hu
          have := h.tagged k u hu
          split
          · rename_i h'; subst h'; rw [hmap] at this; grind
          · exact this
      · intro k; simp only [AxiOps.upd]; split
        · simp
        · exact h.free k
      · intro k
        have := h.idleOk k
        simp only [AxiOps.upd, List.mem_append, List.mem_singleton]
        split
        · rename_i hk; subst hk; simp [hi]
        · rename_i hk; simp [hk, this]
      · have : i ∉ m.idle := by rw [h.idleOk]; simp [ht]
        simp only [List.nodup_append]
        exact ⟨h.nodup, by simp, by rintro a ha b hb rfl; simp at hb; subst hb; exact this ha⟩
      · intro k hk; simp only [AxiOps.upd]; split
        · rfl
        · exact h.beyond k hk
      · intro k j; simp only [AxiOps.upd]; split
        · simp
        · exact h.job k j
    · simp [Ctx.ops]
    · intro k hk; simp [AxiOps.upd, hk]

theorem flushFrom_spec : ∀ (n : Nat) {m : Mgr ρ} (_ : m.Inv) (i : Nat) (_ : i + n = m.count),
    (m.flushFrom i n).2.Inv ∧ (m.flushFrom i n).2.count = m.count ∧
    (m.flushFrom i n).1 = (List.range' i n).flatMap (fun k => (m.ctxs k).ops) ∧
    (∀ k, i ≤ k → k < m.count → ((m.flushFrom i n).2.ctxs k).tag = none) ∧
    ∀ k, k < i → (m.flushFrom i n).2.ctxs k = m.ctxs k := by
  intro n
  induction n with
  | zero =>
    intro m h i hi
    refine ⟨h, rfl, by simp [flushFrom], ?_, fun _ _ => rfl⟩
    intro k h1 h2; omega
  | succ n ih =>
    intro m h i hi
    obtain ⟨h1, h2, h3, h4, h5⟩ := flushCtx_spec h i (by omega)
    obtain ⟨g1, g2, g3, g4, g5⟩ := ih h1 (i + 1) (by omega)
    simp only [flushFrom]
    refine ⟨g1, by omega, ?_, ?_, ?_⟩
    · rw [g3, h3]
      simp only [List.range'_succ, List.flatMap_cons]
      congr 1
      simp only [List.flatMap_def]
      congr 1
      refine List.map_congr_left ?_
      intro k hk
      simp only [List.mem_range'_1] at hk
      rw [h5 k (by omega)]
    · intro k a b
      by_cases hk : k = i
      · subst hk; rw [g5 k (by omega)]; exact h4
      · exact g4 k (by omega) (by omega)
    · intro k hk; rw [g5 k (by omega), h5 k (by omega)]

/-- Flushing: exactly the operations held are returned, and nothing is left. -/
theorem flush_spec {m : Mgr ρ} (h : m.Inv) :
    m.flush.2.Inv ∧ m.flush.1 = m.allOps ∧ (∀ i, (m.flush.2.ctxs i).tag = none) ∧ ∀ t, m.flush.2.map t = none := by
  obtain ⟨h1, h2, h3, h4, h5⟩ := flushFrom_spec m.count h 0 (by omega)
  have ht : ∀ i, (m.flush.2.ctxs i).tag = none := by
    intro i
    by_cases hi : i < m.count
    · exact h4 i (by omega) hi
    · exact h1.beyond i (by omega)
  refine ⟨h1, ?_, ht, ?_⟩
  · unfold flush; rw [h3, allOps, List.range_eq_range']
  · intro t
    cases hk : m.flush.2.map t with
    | none => rfl
    | some i => have := (h1.mapped t i hk).2.1; have := ht i; simp_all [flush]

theorem empty_of_unmapped {m : Mgr ρ} (h : m.Inv) (hm : ∀ t, m.map t = none) :
    m.allOps = [] ∧ (∀ t, m.opsOf t = []) ∧ (∀ t, m.rspsOf t = []) ∧ ∀ t, m.owedOf t = 0 := by
  have ht : ∀ i, (m.ctxs i).tag = none := by
    intro i
    cases hi : (m.ctxs i).tag with
    | none => rfl
    | some t => have := h.tagged i t hi; simp [hm] at this
  refine ⟨?_, fun t => by simp [opsOf, hm], fun t => by simp [rspsOf, hm], fun t => by simp [owedOf, hm]⟩
  simp only [allOps, List.flatMap_eq_nil_iff]
  intro i _
  simp [Ctx.ops, h.free i (ht i)]

end Mgr
end Verif.AxiOps
