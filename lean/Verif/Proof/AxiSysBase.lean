import Verif.Proof.AxiOrder
import Verif.Model.AxiSystem

/-!
# The operation bookkeeping inside a connected system

What both sides of `Model/AxiSystem.lean` share.
-/

namespace Verif.AxiSys

open Verif.Axi Verif.AxiOps Verif.AxiOps.Master

variable {ρ : Type}

/-- What is known of the master of a system in which call number `k` makes the operation `mk k`. -/
structure MInv (n : Nat) (mk : Nat → Option Op) (calls : Nat) (m : Master ρ) : Prop where
  inv : m.Inv
  ids : IdInv n m
  ord : ∃ old, m.issued = old ++ ((taken m).map (·.2) ++ m.queue)
  off : m.running = false → taken m = []
  made : ∀ op ∈ m.issued ++ m.wrappers, mk op.key = some op ∧ op.key < calls
  nodup : ((m.issued ++ m.wrappers).map (·.key)).Nodup

theorem MInv.start (n : Nat) (mk : Nat → Option Op) : MInv n mk 0 ({} : Master ρ) where
  inv := Inv.init
  ids := exec_idInv n []
  ord := ⟨[], rfl⟩
  off := fun _ => rfl
  made := by simp
  nodup := by simp

/-- A call or an `init` wrapper. -/
def isCall : AxiOps.Ev ρ → Bool
  | .write _ | .init _ => true
  | _ => false

theorem eraseIdx_perm {β : Type} {l : List β} {i : Nat} (h : i < l.length) : (l[i] :: l.eraseIdx i).Perm l := by
  induction l generalizing i with
  | nil => simp at h
  | cons a l ih =>
    cases i with
    | zero => exact List.Perm.refl _
    | succ i => exact (List.Perm.swap _ _ _).trans ((ih (by simpa using h)).cons a)

theorem iw_step (n : Nat) (m : Master ρ) (e : AxiOps.Ev ρ) (he : isCall e = false) :
    ((m.step n e).issued ++ (m.step n e).wrappers).Perm (m.issued ++ m.wrappers) := by
  cases e with
  | write op => simp [isCall] at he
  | init op => simp [isCall] at he
  | runInit i =>
    simp only [Master.step]
    split
    · rename_i op hop
      obtain ⟨hi, rfl⟩ := List.getElem?_eq_some_iff.1 hop
      simp only [Master.write, List.append_assoc]
      exact List.Perm.append_left _ (eraseIdx_perm hi)
    · exact List.Perm.refl _
  | take => simp only [Master.step, Master.take]; split <;> (try split) <;> exact List.Perm.refl _
  | burst => simp only [Master.step, Master.burst]; split <;> (try split) <;> exact List.Perm.refl _
  | start => simp only [Master.step, Master.start]; split <;> (try split) <;> exact List.Perm.refl _
  | resp t r => simp only [Master.step, Master.resp]; split <;> (try split) <;> exact List.Perm.refl _
  | workTake i => exact List.Perm.refl _
  | workGet i => simp only [Master.step, Master.workGet]; split <;> (try split) <;> exact List.Perm.refl _
  | workDone i => simp only [Master.step, Master.workDone]; split <;> exact List.Perm.refl _
  | reset v => simp only [Master.step, Master.reset]; split <;> exact List.Perm.refl _

theorem off_step (n : Nat) (m : Master ρ) (e : AxiOps.Ev ρ) (h : m.running = false → taken m = []) :
    (m.step n e).running = false → taken (m.step n e) = [] := by
  cases e with
  | write op => exact h
  | init op => exact h
  | runInit i => simp only [Master.step]; split <;> exact h
  | take =>
    simp only [Master.step, Master.take]
    split
    · rename_i hr _ _
      split <;> (intro hf; rw [hr] at hf; cases hf)
    · exact h
  | burst =>
    simp only [Master.step, Master.burst]
    split
    · rename_i hr _
      split
      · intro hf; rw [hr] at hf; cases hf
      · exact h
    · exact h
  | start =>
    simp only [Master.step, Master.start]
    split
    · rename_i hr _
      split
      · intro hf; rw [hr] at hf; cases hf
      · exact h
    · exact h
  | resp t r => simp only [Master.step, Master.resp]; split <;> (try split) <;> exact h
  | workTake i => exact h
  | workGet i => simp only [Master.step, Master.workGet]; split <;> (try split) <;> exact h
  | workDone i => simp only [Master.step, Master.workDone]; split <;> exact h
  | reset v =>
    simp only [Master.step, Master.reset]
    split
    · intro _; rfl
    · intro hf; cases hf

theorem ord_step (n : Nat) (m : Master ρ) (e : AxiOps.Ev ρ) (h : ∃ old, m.issued = old ++ ((taken m).map (·.2) ++ m.queue)) :
    ∃ old, (m.step n e).issued = old ++ ((taken (m.step n e)).map (·.2) ++ (m.step n e).queue) := by
  by_cases he : e = .reset true
  · subst he
    exact ⟨m.issued, by simp [Master.step, Master.reset, taken]⟩
  · obtain ⟨old, h⟩ := h
    exact ⟨old, order_step n m e he old h⟩

theorem MInv.step {n : Nat} {mk : Nat → Option Op} {calls : Nat} {m : Master ρ} (h : MInv n mk calls m) (e : AxiOps.Ev ρ)
    (he : isCall e = false) : MInv n mk calls (m.step n e) where
  inv := h.inv.step n e
  ids := h.ids.step e
  ord := ord_step n m e h.ord
  off := off_step n m e h.off
  made := fun op ho => h.made op ((iw_step n m e he).mem_iff.1 ho)
  nodup := ((iw_step n m e he).map _).nodup_iff.2 h.nodup

theorem MInv.call {n : Nat} {mk : Nat → Option Op} {calls : Nat} {m : Master ρ} (h : MInv n mk calls m) {op : Op}
    (hop : mk calls = some op) (hk : op.key = calls) :
    MInv n mk (calls + 1) (m.step n (.write op)) ∧ MInv n mk (calls + 1) (m.step n (.init op)) := by
  have hm : ∀ o ∈ m.issued ++ m.wrappers ++ [op], mk o.key = some o ∧ o.key < calls + 1 := by
    intro o ho
    rcases List.mem_append.1 ho with ho | ho
    · have := h.made o ho; exact ⟨this.1, by omega⟩
    · rw [List.mem_singleton] at ho
      subst ho
      rw [hk]; exact ⟨hop, by omega⟩
  have hn : ((m.issued ++ m.wrappers ++ [op]).map (·.key)).Nodup := by
    rw [List.map_append, List.nodup_append]
    refine ⟨h.nodup, by simp, ?_⟩
    intro a ha b hb
    obtain ⟨o, ho, rfl⟩ := List.mem_map.1 ha
    simp only [List.map_cons, List.map_nil, List.mem_singleton] at hb
    have := (h.made o ho).2
    omega
  have p1 : (m.issued ++ [op] ++ m.wrappers).Perm (m.issued ++ m.wrappers ++ [op]) := by
    rw [List.append_assoc, List.append_assoc]
    exact List.Perm.append_left _ List.perm_append_comm
  constructor
  · refine ⟨h.inv.step n _, h.ids.step _, ord_step n m _ h.ord, off_step n m _ h.off, ?_, ?_⟩
    · intro o ho
      exact hm o (p1.mem_iff.1 ho)
    · exact (p1.map _).nodup_iff.2 hn
  · refine ⟨h.inv.step n _, h.ids.step _, ord_step n m _ h.ord, off_step n m _ h.off, ?_, ?_⟩
    · intro o ho
      refine hm o ?_
      simpa [Master.step] using ho
    · simpa [Master.step] using hn

theorem MInv.later {n : Nat} {mk : Nat → Option Op} {calls : Nat} {m : Master ρ} (h : MInv n mk calls m) :
    MInv n mk (calls + 1) m :=
  ⟨h.inv, h.ids, h.ord, h.off, fun op ho => ⟨(h.made op ho).1, by have := (h.made op ho).2; omega⟩, h.nodup⟩

theorem MInv.issued_nodup {n : Nat} {mk : Nat → Option Op} {calls : Nat} {m : Master ρ} (h : MInv n mk calls m) :
    m.issued.Nodup := by
  have := h.nodup
  rw [List.map_append, List.nodup_append] at this
  exact List.Pairwise.of_map (·.key) (fun a b h e => h (e ▸ rfl)) this.1

theorem MInv.taken_issued {n : Nat} {mk : Nat → Option Op} {calls : Nat} {m : Master ρ} (h : MInv n mk calls m)
    {x : Nat × Op} (hx : x ∈ taken m) : x.2 ∈ m.issued := by
  obtain ⟨old, ho⟩ := h.ord
  rw [ho]
  exact List.mem_append_right _ (List.mem_append_left _ (List.mem_map_of_mem hx))

theorem MInv.queue_issued {n : Nat} {mk : Nat → Option Op} {calls : Nat} {m : Master ρ} (h : MInv n mk calls m)
    {x : Op} (hx : x ∈ m.queue) : x ∈ m.issued := by
  obtain ⟨old, ho⟩ := h.ord
  rw [ho]
  exact List.mem_append_right _ (List.mem_append_right _ hx)

theorem MInv.madeOf {n : Nat} {mk : Nat → Option Op} {calls : Nat} {m : Master ρ} (h : MInv n mk calls m)
    {op : Op} (hx : op ∈ m.issued) : mk op.key = some op := (h.made op (List.mem_append_left _ hx)).1

/-- Outstanding: issued, and without a result. -/
theorem MInv.pend_iff {n : Nat} {mk : Nat → Option Op} {calls : Nat} {m : Master ρ} (h : MInv n mk calls m) (op : Op) :
    op ∈ m.pend ↔ op ∈ m.issued ∧ ∀ r, (op, r) ∉ m.results := by
  have hp := h.inv.acct
  have hn := hp.nodup_iff.1 h.issued_nodup
  rw [List.nodup_append] at hn
  constructor
  · intro ho
    refine ⟨hp.mem_iff.2 (List.mem_append_right _ ho), ?_⟩
    intro r hr
    exact hn.2.2 op (List.mem_map.2 ⟨_, hr, rfl⟩) op ho rfl
  · rintro ⟨h1, h2⟩
    rcases List.mem_append.1 (hp.mem_iff.1 h1) with h3 | h3
    · obtain ⟨⟨o, r⟩, hr, rfl⟩ := List.mem_map.1 h3
      exact absurd hr (h2 r)
    · exact h3

/-- The IDs in use can be driven. -/
theorem MInv.id_lt {n : Nat} {mk : Nat → Option Op} {calls : Nat} {m : Master ρ} (h : MInv n mk calls m) (hn : 0 < n)
    (hid : ∀ k op i, mk k = some op → op.id? = some i → i < n) {x : Nat × Op} (hx : x ∈ taken m) : x.1 < n := by
  obtain ⟨i, hi, he⟩ := List.getElem_of_mem hx
  have hxi : (taken m)[i]? = some x := by rw [List.getElem?_eq_getElem hi, he]
  have := h.ids.ids i x hxi
  unfold mustHave at this
  rw [List.getElem?_map, hxi] at this
  simp only [Option.map_some, Option.some.injEq] at this
  rw [← this]
  cases ho : x.2.id? with
  | none => exact Nat.mod_lt _ hn
  | some j => exact hid _ _ j (h.madeOf (h.taken_issued hx)) ho

/-- The events of the master that concern neither the channels nor the reset. -/
def inside : AxiOps.Ev ρ → Bool
  | .write _ | .init _ | .runInit _ | .workTake _ | .workGet _ | .workDone _ => true
  | _ => false

/-- What the channels see of a master is the same. -/
structure Same (m m' : Master ρ) : Prop where
  started : m'.started = m.started
  cur : m'.cur = m.cur
  sent : m'.sent = m.sent
  arrived : m'.arrived = m.arrived
  respFailed : m'.respFailed = m.respFailed

theorem Same.refl (m : Master ρ) : Same m m := ⟨rfl, rfl, rfl, rfl, rfl⟩

theorem Same.taken {m m' : Master ρ} (h : Same m m') : taken m' = taken m := by
  unfold AxiOps.taken; rw [h.started, h.cur]

theorem inside_step (n : Nat) (m : Master ρ) (e : AxiOps.Ev ρ) (he : inside e = true) : Same m (m.step n e) := by
  cases e with
  | write op => exact ⟨rfl, rfl, rfl, rfl, rfl⟩
  | init op => exact ⟨rfl, rfl, rfl, rfl, rfl⟩
  | runInit i => simp only [Master.step]; split <;> exact ⟨rfl, rfl, rfl, rfl, rfl⟩
  | workTake i => exact ⟨rfl, rfl, rfl, rfl, rfl⟩
  | workGet i => simp only [Master.step, Master.workGet]; split <;> (try split) <;> exact ⟨rfl, rfl, rfl, rfl, rfl⟩
  | workDone i => simp only [Master.step, Master.workDone]; split <;> exact ⟨rfl, rfl, rfl, rfl, rfl⟩
  | take => simp [inside] at he
  | burst => simp [inside] at he
  | start => simp [inside] at he
  | resp t r => simp [inside] at he
  | reset v => simp [inside] at he

/-- A new result with responses is that of an operation that has just completed. -/
theorem step_results (n : Nat) (m : Master ρ) (e : AxiOps.Ev ρ) {op : Op} {got : List ρ}
    (h : (op, some got) ∈ (m.step n e).results) :
    (op, some got) ∈ m.results ∨ ∃ t, (t, op, got) ∈ (m.step n e).done := by
  cases e with
  | write op => exact .inl h
  | init op => exact .inl h
  | runInit i => simp only [Master.step] at h; split at h <;> exact .inl h
  | take => simp only [Master.step, Master.take] at h; split at h <;> (try split at h) <;> exact .inl h
  | burst => simp only [Master.step, Master.burst] at h; split at h <;> (try split at h) <;> exact .inl h
  | start => simp only [Master.step, Master.start] at h; split at h <;> (try split at h) <;> exact .inl h
  | resp t r => simp only [Master.step, Master.resp] at h; split at h <;> (try split at h) <;> exact .inl h
  | workTake i => exact .inl h
  | workGet i => simp only [Master.step, Master.workGet] at h; split at h <;> (try split at h) <;> exact .inl h
  | workDone i =>
    simp only [Master.step, Master.workDone] at h ⊢
    split at h
    · rename_i t op' rs mm hf
      rcases List.mem_append.1 h with h | h
      · exact .inl h
      · rw [List.mem_singleton] at h
        cases h
        exact .inr ⟨t, by simp⟩
    · exact .inl h
  | reset v =>
    simp only [Master.step, Master.reset] at h
    split at h
    · rcases List.mem_append.1 h with h | h
      · exact .inl h
      · obtain ⟨o, _, ho⟩ := List.mem_map.1 h
        cases ho
    · exact .inl h

/-- Results and issued operations are only added. -/
theorem step_grows (n : Nat) (m : Master ρ) (e : AxiOps.Ev ρ) :
    m.issued <+: (m.step n e).issued ∧ m.results <+: (m.step n e).results := by
  cases e with
  | write op => exact ⟨List.prefix_append _ _, List.prefix_refl _⟩
  | init op => exact ⟨List.prefix_refl _, List.prefix_refl _⟩
  | runInit i =>
    simp only [Master.step]
    split
    · exact ⟨List.prefix_append _ _, List.prefix_refl _⟩
    · exact ⟨List.prefix_refl _, List.prefix_refl _⟩
  | take =>
    simp only [Master.step, Master.take]; split <;> (try split) <;> exact ⟨List.prefix_refl _, List.prefix_refl _⟩
  | burst =>
    simp only [Master.step, Master.burst]; split <;> (try split) <;> exact ⟨List.prefix_refl _, List.prefix_refl _⟩
  | start =>
    simp only [Master.step, Master.start]; split <;> (try split) <;> exact ⟨List.prefix_refl _, List.prefix_refl _⟩
  | resp t r =>
    simp only [Master.step, Master.resp]; split <;> (try split) <;> exact ⟨List.prefix_refl _, List.prefix_refl _⟩
  | workTake i => exact ⟨List.prefix_refl _, List.prefix_refl _⟩
  | workGet i =>
    simp only [Master.step, Master.workGet]; split <;> (try split) <;> exact ⟨List.prefix_refl _, List.prefix_refl _⟩
  | workDone i =>
    simp only [Master.step, Master.workDone]
    split
    · exact ⟨List.prefix_refl _, List.prefix_append _ _⟩
    · exact ⟨List.prefix_refl _, List.prefix_refl _⟩
  | reset v =>
    simp only [Master.step, Master.reset]
    split
    · exact ⟨List.prefix_refl _, List.prefix_append _ _⟩
    · exact ⟨List.prefix_refl _, List.prefix_refl _⟩

/-- The number of bursts sent, and of all bursts due. -/
theorem IdInv.sent_length {n : Nat} {m : Master ρ} (h : IdInv n m) :
    m.sent.length + (m.cur.map fun x => x.1.bursts.length - x.2.2).getD 0 =
      ((taken m).flatMap fun x => x.2.bursts).length := by
  rw [h.sent, taken, List.flatMap_append, List.length_append, List.length_append, Nat.add_assoc]
  congr 1
  · generalize m.started = l
    induction l with
    | nil => rfl
    | cons x l ih => simp only [List.flatMap_cons, List.length_append, ih, List.length_map]
  · cases hc : m.cur with
    | none => rfl
    | some x =>
      have := h.bound x hc
      simp only [Option.map_some, Option.getD_some, Option.toList_some, List.flatMap_cons, List.flatMap_nil, List.append_nil,
        List.length_map, List.length_take]
      omega

theorem take_fields {ρ : Type} {n : Nat} {m : Master ρ} {op : Op} {rest : List Op} (hr : m.running = true)
    (hcur : m.cur = none) (hq : m.queue = op :: rest) :
    (m.step n .take).cur = some (op, (op.id?).getD m.curId, 0) ∧ (m.step n .take).sent = m.sent ∧
      (m.step n .take).arrived = m.arrived ∧ (m.step n .take).respFailed = m.respFailed ∧
      (m.step n .take).running = true ∧ taken (m.step n .take) = taken m ++ [((op.id?).getD m.curId, op)] := by
  simp only [Master.step, Master.take, hr, hcur, hq, taken]
  cases hid : op.id? <;> simp

theorem burst_fields {ρ : Type} {n : Nat} {m : Master ρ} {op : Op} {t k b : Nat} (hr : m.running = true)
    (hcur : m.cur = some (op, t, k)) (hb : op.bursts[k]? = some b) :
    (m.step n .burst).cur = some (op, t, k + 1) ∧ (m.step n .burst).sent = m.sent ++ [(t, b)] ∧
      (m.step n .burst).arrived = m.arrived ∧ (m.step n .burst).respFailed = m.respFailed ∧
      (m.step n .burst).running = true ∧ taken (m.step n .burst) = taken m := by
  simp only [Master.step, Master.burst, hr, hcur, hb, taken]
  simp

theorem start_fields {ρ : Type} (n : Nat) (m : Master ρ) :
    (m.step n .start).sent = m.sent ∧ (m.step n .start).arrived = m.arrived ∧
      (m.step n .start).respFailed = m.respFailed ∧ taken (m.step n .start) = taken m := by
  simp only [Master.step, Master.start]
  split
  · rename_i hcur
    split
    · exact ⟨rfl, rfl, rfl, by simp [taken, hcur]⟩
    · exact ⟨rfl, rfl, rfl, rfl⟩
  · exact ⟨rfl, rfl, rfl, rfl⟩

theorem resp_fields {ρ : Type} {n : Nat} {m : Master ρ} {t : Nat} {r : ρ} (hr : m.running = true)
    (hf : m.respFailed = false) (ha : m.active t ≠ 0) :
    (m.step n (.resp t r)).cur = m.cur ∧ (m.step n (.resp t r)).sent = m.sent ∧
      (m.step n (.resp t r)).arrived = m.arrived ++ [(t, r)] ∧ (m.step n (.resp t r)).respFailed = false ∧
      taken (m.step n (.resp t r)) = taken m := by
  simp only [Master.step, Master.resp, hr, hf, ha, taken]
  simp

/-- Masters over time. -/
structure MSeq {ρ : Type} (n : Nat) (m : Nat → Master ρ) : Prop where
  start : m 0 = {}
  next : ∀ k, m (k + 1) = m k ∨ ∃ e, m (k + 1) = (m k).step n e

theorem MSeq.grows {ρ : Type} {n : Nat} {m : Nat → Master ρ} (h : MSeq n m) {i j : Nat} (hij : i ≤ j) :
    (m i).issued <+: (m j).issued ∧ (m i).results <+: (m j).results := by
  obtain ⟨k, rfl⟩ := Nat.exists_eq_add_of_le hij
  clear hij
  induction k with
  | zero => exact ⟨List.prefix_refl _, List.prefix_refl _⟩
  | succ k ih =>
    rw [← Nat.add_assoc]
    rcases h.next (i + k) with hs | ⟨e, hs⟩
    · rw [hs]; exact ih
    · rw [hs]
      have := step_grows n (m (i + k)) e
      exact ⟨ih.1.trans this.1, ih.2.trans this.2⟩

/-- A result with responses: the operation completed at some instant. -/
theorem MSeq.result {ρ : Type} {n : Nat} {m : Nat → Master ρ} (h : MSeq n m) {j : Nat} {op : Op} {got : List ρ}
    (hr : (op, some got) ∈ (m j).results) : ∃ k, k ≤ j ∧ ∃ t, (t, op, got) ∈ (m k).done := by
  induction j with
  | zero => rw [h.start] at hr; simp at hr
  | succ j ih =>
    rcases h.next j with hs | ⟨e, hs⟩
    · rw [hs] at hr
      obtain ⟨k, hk, hd⟩ := ih hr
      exact ⟨k, by omega, hd⟩
    · rw [hs] at hr
      rcases step_results n (m j) e hr with hr | hr
      · obtain ⟨k, hk, hd⟩ := ih hr
        exact ⟨k, by omega, hd⟩
      · exact ⟨j + 1, Nat.le_refl _, by rw [hs]; exact hr⟩

theorem flatMap_sublist {α β : Type} (f : α → List β) {l l' : List α} (h : l.Sublist l') : (l.flatMap f).Sublist (l'.flatMap f) := by
  induction h with
  | slnil => exact List.Sublist.refl _
  | cons a _ ih => rw [List.flatMap_cons]; exact ih.trans (List.sublist_append_right _ _)
  | cons_cons a _ ih => rw [List.flatMap_cons, List.flatMap_cons]; exact (List.Sublist.refl _).append ih

/-- A completed operation has been given its ID. -/
theorem done_taken {ρ : Type} {m : Master ρ} (h : m.Inv) {u : Nat} {op : Op} {got : List ρ} (hd : (u, op, got) ∈ m.done) :
    (u, op) ∈ taken m := by
  have hst : op ∈ forId u (taken m) := by
    obtain ⟨l, hl, _⟩ := h.takenOf u
    rw [hl]
    refine List.mem_append_left _ (List.mem_map.2 ⟨(op, got), ?_, rfl⟩)
    simp only [forId, List.mem_map, List.mem_filter]
    exact ⟨_, ⟨hd, by simp⟩, rfl⟩
  simp only [forId, List.mem_map, List.mem_filter, decide_eq_true_eq] at hst
  obtain ⟨⟨a, b⟩, ⟨hx1, hx2⟩, hx3⟩ := hst
  simp only at hx2 hx3
  rw [hx2, hx3] at hx1
  exact hx1

/-- The ID of an operation that asked for one. -/
theorem MInv.own_id {n : Nat} {mk : Nat → Option Op} {calls : Nat} {m : Master ρ} (h : MInv n mk calls m) {t : Nat} {op : Op}
    (ht : (t, op) ∈ taken m) : (op.id?).getD t = t := by
  obtain ⟨i, hi, he⟩ := List.getElem_of_mem ht
  have hxi : (taken m)[i]? = some (t, op) := by rw [List.getElem?_eq_getElem hi, he]
  have := h.ids.ids i _ hxi
  unfold mustHave at this
  rw [List.getElem?_map, hxi] at this
  simp only [Option.map_some, Option.some.injEq] at this
  cases hid : op.id? with
  | none => rfl
  | some j => rw [hid] at this; exact this

end Verif.AxiSys
