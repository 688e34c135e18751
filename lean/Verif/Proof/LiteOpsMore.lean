import Verif.Proof.LiteOps
import Verif.Spec.LiteMatching

/-!
# Matching, finality and progress of AXI-lite operations
-/

namespace Verif.LiteOps

variable {χ ρ : Type}

theorem blocks_done (dn : List (Op χ × List ρ)) (ops : List (Op χ)) (rs : List ρ)
    (h : ∀ d ∈ dn, d.2.length = d.1.xs.length) :
    blocks (dn.map (·.1) ++ ops) (dn.flatMap (·.2) ++ rs) = dn ++ blocks ops rs := by
  induction dn with
  | nil => rfl
  | cons d dn ih =>
    have h0 := h d (by simp)
    simp only [List.map_cons, List.cons_append, List.flatMap_cons, List.append_assoc, blocks]
    rw [← h0, if_pos (by simp), List.take_left, List.drop_left, ih (fun d hd => h d (by simp [hd]))]

namespace Lite

theorem Inv.blocks_eq {s : Lite χ ρ} (h : s.Inv) :
    blocks s.epoch s.arrived = s.done ++ blocks s.pend (s.got ++ s.bch) := by
  rw [h.epoch, h.arrived]
  simp only [started, pend, List.append_assoc]
  exact blocks_done _ _ _ h.doneLen

/-- Without internal steps left, nothing whose responses have all arrived is pending. -/
theorem Inv.quiet {s : Lite χ ρ} (h : s.Inv) (hr : s.running = true) (hq : Quiet s) :
    blocks s.pend (s.got ++ s.bch) = [] := by
  have q1 := hq .take rfl
  have q2 := hq .send rfl
  have q3 := hq .respTake rfl
  have q4 := hq .respGet rfl
  have q5 := hq .respDone rfl
  simp only [step] at q1 q2 q3 q4 q5
  cases hc : s.respCur with
  | some p =>
    obtain ⟨op, rm, gt⟩ := p
    have hl := h.curLen op rm gt hc
    cases rm with
    | zero =>
      exfalso
      have := congrArg Lite.respCur q5
      simp only [respDone, hr, hc] at this
      cases this
    | succ rm =>
      cases hb : s.bch with
      | cons r rest =>
        exfalso
        have := congrArg Lite.bch q4
        simp only [respGet, hr, hc, hb] at this
        have := congrArg List.length this
        simp at this
      | nil =>
        simp only [pend, respOps, got, hc, Option.map_some, Option.toList_some, List.cons_append, Option.getD_some,
          List.append_nil, blocks]
        rw [if_neg (by omega)]
  | none =>
    cases hq : s.respQ with
    | cons op rest =>
      exfalso
      have := congrArg Lite.respQ q3
      simp only [respTake, hr, hc, hq] at this
      have := congrArg List.length this
      simp at this
    | nil =>
      have hcur : s.cur = none := by
        cases hcu : s.cur with
        | none => rfl
        | some p =>
          obtain ⟨op, rm⟩ := p
          exfalso
          have h3 := (h.cur op rm hcu).1
          cases rm with
          | nil => exact h3 rfl
          | cons x rm =>
            have := congrArg Lite.sent q2
            simp only [send, hr, hcu] at this
            have := congrArg List.length this
            simp at this
      cases hqu : s.queue with
      | nil => simp [pend, respOps, hc, hq, hqu, blocks]
      | cons op rest =>
        exfalso
        have := congrArg Lite.queue q1
        simp only [take, hr, hcur, hqu] at this
        have := congrArg List.length this
        simp at this

/-- If the slave did not answer early, the command being sent still waits for its responses. -/
theorem Inv.cur_waits {s : Lite χ ρ} (h : s.Inv) (he : s.arrived.length ≤ s.sent.length) {op : Op χ} {rm : List χ}
    (hc : s.cur = some (op, rm)) : op ∈ s.respOps := by
  obtain ⟨h1, i, hi⟩ := h.cur op rm hc
  have hs := h.sent
  have hrem : s.rem = rm := by simp [rem, hc]
  rw [hrem] at hs
  have hpos := List.length_pos_iff.2 h1
  have hl := congrArg List.length hs
  simp only [List.length_append] at hl
  by_cases hn : s.respOps = []
  · exfalso
    have ha := congrArg List.length h.arrived
    simp only [List.length_append] at ha
    have hd : (s.done.flatMap (·.2)).length = (s.started.flatMap (·.xs)).length := by
      simp only [started, hn, List.append_nil]
      have := h.doneLen
      revert this
      generalize s.done = dn
      intro this
      induction dn with
      | nil => rfl
      | cons d dn ih =>
        have h0 := this d (by simp)
        simp only [List.flatMap_cons, List.length_append, List.map_cons]
        rw [ih (fun d hd => this d (by simp [hd])), h0]
    omega
  · have : s.started.getLast? = s.respOps.getLast? := by
      simp only [started]
      rw [List.getLast?_append]
      cases hg : s.respOps.getLast? with
      | none => exact absurd (List.getLast?_eq_none_iff.1 hg) hn
      | some o => rfl
    rw [hi] at this
    simp only [List.getLast?_append, List.getLast?_singleton, Option.some_or] at this
    exact List.mem_of_getLast? this.symm

/-- What a step signals was pending. -/
theorem step_results {s : Lite χ ρ} (h : s.Inv) (he : s.arrived.length ≤ s.sent.length) (e : Ev χ ρ) :
    ∃ l, (s.step e).results = s.results ++ l ∧ ∀ x ∈ l, x.1 ∈ s.pend := by
  cases e with
  | respDone =>
    simp only [step, respDone]
    split
    · rename_i op gt hr hc
      exact ⟨_, rfl, by simp [pend, respOps, hc]⟩
    · exact ⟨[], by simp, by simp⟩
  | reset v =>
    cases v with
    | false => exact ⟨[], by simp [step, reset], by simp⟩
    | true =>
      refine ⟨_, rfl, ?_⟩
      intro x hx
      obtain ⟨o, ho, rfl⟩ := List.mem_map.1 hx
      simp only [List.mem_append] at ho
      rcases ho with ((h1 | h1) | h1) | h1
      · simp [pend, h1]
      · cases hc : s.cur with
        | none => simp [hc] at h1
        | some p =>
          obtain ⟨op, rm⟩ := p
          simp only [hc, Option.map_some, Option.toList_some, List.mem_singleton] at h1
          have := h.cur_waits he hc
          subst h1
          simp [pend, this]
      · simp [pend, respOps, h1]
      · simp only [pend, respOps, List.mem_append]; exact .inl (.inl h1)
  | take => refine ⟨[], ?_, by simp⟩; simp only [step, take]; split <;> simp
  | send => refine ⟨[], ?_, by simp⟩; simp only [step, send]; split <;> simp
  | resp r => refine ⟨[], ?_, by simp⟩; simp only [step, resp]; split <;> simp
  | respTake => refine ⟨[], ?_, by simp⟩; simp only [step, respTake]; split <;> simp
  | respGet => refine ⟨[], ?_, by simp⟩; simp only [step, respGet]; split <;> simp
  | write op => exact ⟨[], by simp [step, write], by simp⟩
  | init op => exact ⟨[], by simp [step], by simp⟩
  | runInit i => refine ⟨[], ?_, by simp⟩; simp only [step]; split <;> simp [write]

theorem step_issued (s : Lite χ ρ) (e : Ev χ ρ) : s.issued <+: (s.step e).issued := by
  cases e with
  | respDone => simp only [step, respDone]; split <;> simp
  | reset v => simp only [step, reset]; split <;> simp
  | take => simp only [step, take]; split <;> simp
  | send => simp only [step, send]; split <;> simp
  | resp r => simp only [step, resp]; split <;> simp
  | respTake => simp only [step, respTake]; split <;> simp
  | respGet => simp only [step, respGet]; split <;> simp
  | write op => simp [step, write]
  | init op => simp [step]
  | runInit i => simp only [step]; split <;> simp [write]

/-- A pending operation has no result, and the other way round. -/
theorem Inv.pend_iff {s : Lite χ ρ} (h : s.Inv) (hk : s.issued.Nodup) (op : Op χ) :
    op ∈ s.pend ↔ op ∈ s.issued ∧ ∀ r, (op, r) ∉ s.results := by
  obtain ⟨st, h1, h2⟩ := h.acct
  rw [h1.nodup_iff] at hk
  constructor
  · intro hp
    refine ⟨h1.mem_iff.2 (by simp [hp]), ?_⟩
    intro r hr
    exact (List.nodup_append.1 hk).2.2 op ((h2 op).2 ⟨r, hr⟩) op hp rfl
  · rintro ⟨hi, hn⟩
    rcases List.mem_append.1 (h1.mem_iff.1 hi) with h3 | h3
    · obtain ⟨r, hr⟩ := (h2 op).1 h3
      exact absurd hr (hn r)
    · exact h3

/-- Sequences of states of a master. -/
structure Seq (m : Nat → Lite χ ρ) : Prop where
  start : (m 0).Inv
  next : ∀ n, m (n + 1) = m n ∨ ∃ e, m (n + 1) = (m n).step e

theorem Seq.inv {m : Nat → Lite χ ρ} (h : Seq m) (n : Nat) : (m n).Inv := by
  induction n with
  | zero => exact h.start
  | succ n ih =>
    rcases h.next n with h' | ⟨e, h'⟩
    · rw [h']; exact ih
    · rw [h']; exact step_inv ih e

theorem Seq.issued_le {m : Nat → Lite χ ρ} (h : Seq m) (a n : Nat) : (m a).issued <+: (m (a + n)).issued := by
  induction n with
  | zero => exact List.prefix_refl _
  | succ n ih =>
    refine ih.trans ?_
    rw [← Nat.add_assoc]
    rcases h.next (a + n) with h' | ⟨e, h'⟩
    · rw [h']; exact List.prefix_refl _
    · rw [h']; exact step_issued _ e

/-- Results are final as long as the slave does not answer early. -/
theorem Seq.final [DecidableEq χ] {m : Nat → Lite χ ρ} (h : Seq m)
    (he : ∀ n, (m n).arrived.length ≤ (m n).sent.length) (a n : Nat) (hk : (m (a + n)).issued.Nodup) (op : Op χ)
    (r : Option (List ρ)) (hr : resultOf (m a).results op = some r) : resultOf (m (a + n)).results op = some r := by
  induction n with
  | zero => exact hr
  | succ n ih =>
    have hle : (m (a + n)).issued <+: (m (a + (n + 1))).issued := by
      have := h.issued_le (a + n) 1; rwa [Nat.add_assoc] at this
    have hk' := hk.sublist hle.sublist
    have ih := ih hk'
    rcases h.next (a + n) with h' | ⟨e, h'⟩
    · rw [← Nat.add_assoc, h']; exact ih
    · obtain ⟨l, h1, h2⟩ := step_results (h.inv (a + n)) (he _) e
      rw [← Nat.add_assoc, h', h1]
      simp only [resultOf, List.filter_append] at ih ⊢
      have : l.filter (fun x => x.1 = op) = [] := by
        rw [List.filter_eq_nil_iff]
        intro x hx hxo
        simp only [decide_eq_true_eq] at hxo
        have hp := h2 x hx
        rw [hxo] at hp
        have hn := (((h.inv (a + n)).pend_iff hk' op).1 hp).2
        have hne : (m (a + n)).results.filter (fun x => x.1 = op) ≠ [] := by
          intro hnil; rw [hnil] at ih; simp at ih
        obtain ⟨y, hy⟩ := List.exists_mem_of_ne_nil _ hne
        simp only [List.mem_filter, decide_eq_true_eq] at hy
        apply hn y.2
        rw [← hy.2]
        exact hy.1
      rw [this, List.append_nil]; exact ih

theorem exec_seq (evs : List (Ev χ ρ)) : Seq (fun n => (exec (evs.take n) : Lite χ ρ)) where
  start := exec_inv _
  next := by
    intro n
    by_cases hn : n < evs.length
    · right
      refine ⟨evs[n], ?_⟩
      simp only [exec]
      rw [List.take_succ_eq_append_getElem hn, List.foldl_append]
      rfl
    · left
      rw [List.take_of_length_le (by omega), List.take_of_length_le (by omega)]

/-- Steps the master can still make, given enough responses. -/
def wt (s : Lite χ ρ) : Nat :=
  (s.queue.map (fun o => 2 * o.xs.length + 3)).sum + s.rem.length + (s.respQ.map (fun o => o.xs.length + 2)).sum +
    ((s.respCur.map (fun p => p.2.1 + 1)).getD 0)

theorem decreases (s : Lite χ ρ) (e : Ev χ ρ) (he : internal e = true) : s.step e = s ∨ (s.step e).wt < s.wt := by
  cases e with
  | take =>
    simp only [step, take]
    split
    · rename_i op rest hr hc hq
      right
      simp only [wt, hq, rem, hc, List.map_cons, List.sum_cons, List.map_append, List.map_nil, List.sum_append,
        List.sum_nil, Option.map_none, Option.getD_none, List.length_nil]
      split
      · simp only [Option.map_none, Option.getD_none, List.length_nil]; omega
      · simp only [Option.map_some, Option.getD_some]; omega
    · exact .inl rfl
  | send =>
    simp only [step, send]
    split
    · rename_i op x rm hr hc
      right
      simp only [wt, rem, hc, Option.map_some, Option.getD_some, List.length_cons]
      split
      · simp only [Option.map_none, Option.getD_none, List.length_nil]; omega
      · simp only [Option.map_some, Option.getD_some]; omega
    · exact .inl rfl
  | respTake =>
    simp only [step, respTake]
    split
    · rename_i op rest hr hc hq
      right
      simp only [wt, rem, hc, hq, Option.map_some, Option.map_none, Option.getD_some, Option.getD_none, List.map_cons,
        List.sum_cons]
      omega
    · exact .inl rfl
  | respGet =>
    simp only [step, respGet]
    split
    · rename_i op rm gt r rest hr hc hq
      right
      simp only [wt, rem, hc, Option.map_some, Option.getD_some]
      omega
    · exact .inl rfl
  | respDone =>
    simp only [step, respDone]
    split
    · rename_i op gt hr hc
      right
      simp only [wt, rem, hc, Option.map_some, Option.map_none, Option.getD_some, Option.getD_none]
      omega
    · exact .inl rfl
  | _ => simp [internal] at he

/-- With enough responses for a list of operations, `blocks` completes them all. -/
theorem blocks_full (ops : List (Op χ)) (rs : List ρ) (h : (ops.flatMap (·.xs)).length ≤ rs.length) :
    (blocks ops rs).map (·.1) = ops := by
  induction ops generalizing rs with
  | nil => rfl
  | cons o os ih =>
    simp only [List.flatMap_cons, List.length_append] at h
    simp only [blocks]
    rw [if_pos (by omega), List.map_cons, ih]
    rw [List.length_drop]; omega

end Lite
end Verif.LiteOps
