import Verif.Props.AxiOps

/-!
# A slave that answers in order

If the responses come in the order of the bursts on the bus, then the response with number `i` belongs to the operation that
`slots` says, and the operation is not complete before.
-/

namespace Verif.AxiOps

open Master

variable {ρ δ : Type}

/-- The responses due for a list of operations with their IDs: ID, operation, number of the response. -/
def slots (l : List (Nat × Op)) : List (Nat × Op × Nat) :=
  l.flatMap fun x => (List.range x.2.need).map fun i => (x.1, x.2, i)

/-- The same for the operations of one ID. -/
def slotsOf (l : List Op) : List (Op × Nat) := l.flatMap fun o => (List.range o.need).map fun i => (o, i)

theorem slots_append (a b : List (Nat × Op)) : slots (a ++ b) = slots a ++ slots b := by simp [slots]

theorem slotsOf_append (a b : List Op) : slotsOf (a ++ b) = slotsOf a ++ slotsOf b := by simp [slotsOf]

theorem slotsOf_length (l : List Op) : (slotsOf l).length = (l.map (·.need)).sum := by
  induction l with
  | nil => rfl
  | cons o l ih =>
    have : slotsOf (o :: l) = ((List.range o.need).map fun i => (o, i)) ++ slotsOf l := rfl
    rw [this, List.length_append, ih]; simp

theorem mem_slotsOf {l : List Op} {o : Op} {i : Nat} (h : (o, i) ∈ slotsOf l) : o ∈ l := by
  simp only [slotsOf, List.mem_flatMap, List.mem_map, Prod.mk.injEq] at h
  obtain ⟨o', h1, _, _, rfl, _⟩ := h
  exact h1

theorem forId_slots (t : Nat) (l : List (Nat × Op)) : forId t (slots l) = slotsOf (forId t l) := by
  induction l with
  | nil => rfl
  | cons x l ih =>
    have h1 : slots (x :: l) = ((List.range x.2.need).map fun i => (x.1, x.2, i)) ++ slots l := rfl
    rw [h1, forId_append, ih]
    have h2 : forId t (x :: l) = forId t [x] ++ forId t l := by rw [← forId_append]; rfl
    rw [h2, slotsOf_append]
    congr 1
    rw [show x = (x.1, x.2) by rfl, forId_single]
    by_cases h : t = x.1
    · rw [if_pos h]
      subst h
      simp only [forId, slotsOf, List.flatMap_cons, List.flatMap_nil, List.append_nil]
      rw [List.filter_eq_self.2 (by simp)]
      simp
    · rw [if_neg h]
      simp only [forId, slotsOf, List.flatMap_nil]
      rw [List.filter_eq_nil_iff.2 (by simp; intro _ _ h'; exact h h'.symm)]
      rfl

theorem forId_prefix {β : Type} (t : Nat) {a b : List (Nat × β)} (h : a <+: b) : forId t a <+: forId t b := by
  obtain ⟨c, rfl⟩ := h
  rw [forId_append]; exact List.prefix_append _ _

theorem prefix_of_eq {β : Type} {a b : List β} (h : a = b) : a <+: b := h ▸ List.prefix_refl _

/-- The responses so far, `rv`, are those of the first slots; some of them have arrived. -/
structure InOrder (s : Master ρ) (rv : List δ) (lab : δ → Nat × Op × Nat) (rsp : δ → ρ) : Prop where
  labs : rv.map lab <+: slots (taken s)
  sent : rv.length ≤ needOf (s.sent.map (·.2))
  arr : s.arrived <+: rv.map fun d => ((lab d).1, rsp d)

theorem opsOf_pend {s : Master ρ} (h : s.Inv) {t : Nat} {op : Op} (ho : op ∈ s.mgr.opsOf t) : op ∈ s.pend := by
  unfold Mgr.opsOf at ho
  cases hm : s.mgr.map t with
  | none => rw [hm] at ho; simp at ho
  | some i =>
    rw [hm] at ho
    simp only [Option.map_some, Option.getD_some] at ho
    have := (h.mgr.mapped t i hm).1
    refine List.mem_append_right _ ?_
    simp only [Mgr.allOps, List.mem_flatMap, List.mem_range]
    exact ⟨i, this, ho⟩

/-- The operations of an ID: the completed ones, then those not complete. -/
theorem Master.Inv.takenOf {s : Master ρ} (h : s.Inv) (t : Nat) :
    ∃ l, forId t (taken s) = (forId t s.done).map (·.1) ++ l ∧ ∀ op ∈ l, op ∈ s.pend := by
  unfold taken
  rw [forId_append, h.cmd]
  refine ⟨s.mgr.opsOf t ++ forId t (s.cur.map fun x => (x.2.1, x.1)).toList, by simp, ?_⟩
  intro op ho
  rcases List.mem_append.1 ho with ho | ho
  · exact opsOf_pend h ho
  · cases hc : s.cur with
    | none => rw [hc] at ho; simp at ho
    | some x =>
      rw [hc] at ho
      simp only [forId, List.mem_map, List.mem_filter, Option.map_some, Option.toList_some, List.mem_singleton] at ho
      obtain ⟨y, ⟨rfl, _⟩, rfl⟩ := ho
      simp [pend, hc]

/-- A response that has not arrived is due for an operation that is not complete. -/
theorem InOrder.pend {s : Master ρ} {rv : List δ} {lab : δ → Nat × Op × Nat} {rsp : δ → ρ} (hi : InOrder s rv lab rsp)
    (h : s.Inv) {i t : Nat} {op : Op} {j : Nat} (hs : (slots (taken s))[i]? = some (t, op, j)) (hge : s.arrived.length ≤ i) :
    op ∈ s.pend := by
  obtain ⟨l, hl, hp⟩ := h.takenOf t
  apply hp
  /- the responses of `t` before number `i` -/
  have hsplit : slots (taken s) = (slots (taken s)).take i ++ (t, op, j) :: (slots (taken s)).drop (i + 1) := by
    obtain ⟨hlt, he⟩ := List.getElem?_eq_some_iff.1 hs
    rw [← he, ← List.drop_eq_getElem_cons hlt, List.take_append_drop]
  have hcount : ((forId t s.done).map (·.2)).flatten.length ≤ (forId t ((slots (taken s)).take i)).length := by
    have h1 : (forId t s.arrived).length ≤ (forId t ((slots (taken s)).take i)).length := by
      have ha := hi.arr
      have hl' := hi.labs
      have h2 : s.arrived.map (·.1) <+: (slots (taken s)).map (·.1) := by
        have e1 := ha.map (·.1)
        have e2 := hl'.map (·.1)
        rw [List.map_map] at e1 e2
        exact e1.trans e2
      have h3 : s.arrived.map (·.1) <+: ((slots (taken s)).take i).map (·.1) := by
        rw [List.map_take]
        exact List.prefix_take_iff.2 ⟨h2, by simpa using hge⟩
      have key : ∀ {β : Type} (x : List (Nat × β)), (forId t x).length = (x.map (·.1)).countP (· = t) := by
        intro β x
        simp only [forId, List.length_map]
        rw [← List.countP_eq_length_filter, List.countP_map]; rfl
      rw [key, key]
      exact h3.sublist.countP_le
    have := h.rsp t
    rw [this] at h1
    simp only [List.length_append] at h1
    omega
  have e : forId t (slots (taken s)) = forId t ((slots (taken s)).take i) ++ (op, j) ::
      forId t ((slots (taken s)).drop (i + 1)) := by
    conv => lhs; rw [hsplit]
    rw [forId_append, show (t, op, j) :: (slots (taken s)).drop (i + 1) = [(t, op, j)] ++ (slots (taken s)).drop (i + 1) by rfl,
      forId_append, forId_single, if_pos rfl]
    rfl
  rw [forId_slots, hl, slotsOf_append] at e
  have hd : (slotsOf ((forId t s.done).map (·.1))).length = ((forId t s.done).map (·.2)).flatten.length := by
    rw [slotsOf_length, done_len _ (h.lenOf t)]
  have hget : (slotsOf ((forId t s.done).map (·.1)) ++ slotsOf l)[(forId t ((slots (taken s)).take i)).length]? =
      some (op, j) := by
    rw [e, List.getElem?_append_right (Nat.le_refl _)]; simp
  rw [List.getElem?_append_right (by omega)] at hget
  exact mem_slotsOf (List.mem_of_getElem? hget)

/-- The bursts issued, as responses by ID. -/
theorem IdInv.sent_slots {n : Nat} {s : Master ρ} (h : IdInv n s) :
    (s.sent.flatMap fun x => List.replicate (x.2 + 1) x.1) <+: (slots (taken s)).map (·.1) := by
  have hs : s.sent <+: (taken s).flatMap fun x => x.2.bursts.map fun k => (x.1, k) := by
    rw [h.sent, taken, List.flatMap_append]
    refine List.prefix_append_right_inj _ |>.2 ?_
    cases s.cur with
    | none => exact List.nil_prefix
    | some x =>
      simp only [Option.map_some, Option.getD_some, Option.toList_some, List.flatMap_cons, List.flatMap_nil, List.append_nil]
      exact (List.take_prefix _ _).map _
  have he : (slots (taken s)).map (·.1) =
      ((taken s).flatMap fun x => x.2.bursts.map fun k => (x.1, k)).flatMap fun x => List.replicate (x.2 + 1) x.1 := by
    generalize taken s = l
    induction l with
    | nil => rfl
    | cons x l ih =>
      have h1 : slots (x :: l) = ((List.range x.2.need).map fun i => (x.1, x.2, i)) ++ slots l := rfl
      rw [h1, List.map_append, ih, List.flatMap_cons, List.flatMap_append]
      congr 1
      rw [List.map_map]
      have h2 : ((fun x => x.1) ∘ fun i => (x.1, x.2, i)) = fun _ : Nat => x.1 := rfl
      rw [h2, List.map_const', List.length_range]
      unfold Op.need
      generalize x.2.bursts = bs
      induction bs with
      | nil => rfl
      | cons b bs ihb =>
        simp only [List.map_cons, List.sum_cons, List.flatMap_cons]
        rw [← ihb, List.replicate_append_replicate]
  rw [he]
  obtain ⟨r, hr⟩ := hs
  rw [← hr, List.flatMap_append]
  exact List.prefix_append _ _

theorem needOf_length (l : List (Nat × Nat)) :
    (l.flatMap fun x => List.replicate (x.2 + 1) x.1).length = needOf (l.map (·.2)) := by
  induction l with
  | nil => rfl
  | cons x l ih => simp only [List.flatMap_cons, List.length_append, ih, List.length_replicate, needOf, List.map_cons,
      List.sum_cons]

theorem needOf_forId (t : Nat) (l : List (Nat × Nat)) :
    (l.flatMap fun x => List.replicate (x.2 + 1) x.1).countP (· = t) = needOf (forId t l) := by
  induction l with
  | nil => rfl
  | cons x l ih =>
    have h2 : forId t (x :: l) = forId t [(x.1, x.2)] ++ forId t l := by rw [← forId_append]; rfl
    rw [List.flatMap_cons, List.countP_append, ih, h2, needOf_append, forId_single]
    congr 1
    rw [List.countP_replicate]
    by_cases h : t = x.1
    · simp [h, needOf]
    · have : ¬ x.1 = t := fun h' => h h'.symm
      simp [h, this, needOf]

/-- A response that is delivered belongs to a burst that is being waited for. -/
theorem InOrder.active {n : Nat} {s : Master ρ} {rv : List δ} {lab : δ → Nat × Op × Nat} {rsp : δ → ρ}
    (hi : InOrder s rv lab rsp) (h : s.Inv) (hid : IdInv n s) {t : Nat} {r : ρ} {rest : List (Nat × ρ)}
    (he : (rv.map fun d => ((lab d).1, rsp d)) = s.arrived ++ (t, r) :: rest) : s.active t ≠ 0 := by
  intro ha
  have h1 := h.no_owed ha
  have hkey : ∀ {β : Type} (x : List (Nat × β)), (forId t x).length = (x.map (·.1)).countP (· = t) := by
    intro β x
    simp only [forId, List.length_map]
    rw [← List.countP_eq_length_filter, List.countP_map]; rfl
  have h2 : (forId t s.arrived).length + 1 ≤ ((rv.map fun d => ((lab d).1, rsp d)).map (·.1)).countP (· = t) := by
    rw [he, hkey, List.map_append, List.countP_append, List.map_cons, List.countP_cons]
    simp
  have h3 : ((rv.map fun d => ((lab d).1, rsp d)).map (·.1)) <+:
      (s.sent.flatMap fun x => List.replicate (x.2 + 1) x.1) := by
    have e2 := hi.labs.map (·.1)
    rw [List.map_map] at e2 ⊢
    have e3 := hid.sent_slots
    refine List.prefix_of_prefix_length_le e2 e3 ?_
    rw [List.length_map, needOf_length]
    exact hi.sent
  have h4 := h3.sublist.countP_le (p := (· = t))
  rw [needOf_forId] at h4
  omega

/-- The responses of a completed operation. -/
theorem InOrder.done {s : Master ρ} {rv : List δ} {lab : δ → Nat × Op × Nat} {rsp : δ → ρ} (hi : InOrder s rv lab rsp)
    (h : s.Inv) {t : Nat} {op : Op} {got : List ρ} (hd : (t, op, got) ∈ s.done) :
    ∃ ds : List δ, ds.Sublist rv ∧ ds.map lab = (List.range op.need).map (fun i => (t, op, i)) ∧ ds.map rsp = got := by
  have hm : (op, got) ∈ forId t s.done := by
    simp only [forId, List.mem_map, List.mem_filter]
    exact ⟨_, ⟨hd, by simp⟩, rfl⟩
  obtain ⟨d1, d2, hd12⟩ := List.append_of_mem hm
  obtain ⟨l, hl, _⟩ := h.takenOf t
  have hlenD := h.lenOf t
  /- the responses of `t` -/
  let fv := rv.filter fun d => (lab d).1 = t
  have hfl : fv.map (fun d => (lab d).2) <+: slotsOf (forId t (taken s)) := by
    have := forId_prefix t hi.labs
    rw [forId_slots] at this
    refine List.IsPrefix.trans (prefix_of_eq ?_) this
    simp only [forId, List.filter_map, List.map_map, fv]
    rfl
  have hfr : forId t s.arrived <+: fv.map rsp := by
    have := forId_prefix t hi.arr
    refine this.trans (prefix_of_eq ?_)
    simp only [forId, List.filter_map, List.map_map, fv]
    rfl
  rw [h.rsp, hd12] at hfr
  rw [hl, hd12] at hfl
  simp only [List.map_append, List.map_cons, List.flatten_append, List.flatten_cons, List.append_assoc] at hfr
  have hlg : got.length = op.need := hlenD (op, got) hm
  have hl1 : (d1.map (·.2)).flatten.length = ((d1.map (·.1)).map (·.need)).sum :=
    done_len d1 (fun x hx => hlenD x (by rw [hd12]; simp [hx]))
  have hfl' : fv.map (fun d => (lab d).2) <+: slotsOf (d1.map (·.1)) ++ (((List.range op.need).map fun i => (op, i)) ++
      slotsOf (d2.map (·.1) ++ l)) := by
    refine hfl.trans (prefix_of_eq ?_)
    rw [List.map_append, List.append_assoc, slotsOf_append, List.map_cons, List.cons_append]
    rfl
  obtain ⟨rest, hrest⟩ := hfr
  have hlen : (d1.map (·.2)).flatten.length + got.length ≤ fv.length := by
    have := congrArg List.length hrest
    simp only [List.length_append, List.length_map] at this
    omega
  refine ⟨(fv.drop (d1.map (·.2)).flatten.length).take op.need,
    ((List.take_sublist _ _).trans (List.drop_sublist _ _)).trans List.filter_sublist, ?_, ?_⟩
  · have hA : ((fv.drop (d1.map (·.2)).flatten.length).take op.need).map (fun d => (lab d).2) =
        (List.range op.need).map fun i => (op, i) := by
      obtain ⟨r2, hr2⟩ := hfl'
      have h0 : ((fv.map (fun d => (lab d).2) ++ r2).drop (d1.map (·.2)).flatten.length).take op.need =
          ((fv.map (fun d => (lab d).2)).drop (d1.map (·.2)).flatten.length).take op.need := by
        rw [List.drop_append_of_le_length (by rw [List.length_map]; omega),
          List.take_append_of_le_length (by rw [List.length_drop, List.length_map]; omega)]
      rw [List.map_take, List.map_drop, ← h0, hr2, hl1, ← slotsOf_length, List.drop_left, List.take_append_of_le_length (by simp),
        List.take_of_length_le (by simp)]
    have hB : ∀ d ∈ (fv.drop (d1.map (·.2)).flatten.length).take op.need, lab d = (t, (lab d).2) := by
      intro d hdm
      have := List.mem_of_mem_drop (List.mem_of_mem_take hdm)
      simp only [fv, List.mem_filter, decide_eq_true_eq] at this
      rw [← this.2]
    have hC : ((fv.drop (d1.map (·.2)).flatten.length).take op.need).map lab =
        (((fv.drop (d1.map (·.2)).flatten.length).take op.need).map (fun d => (lab d).2)).map fun x => (t, x) := by
      rw [List.map_map]
      exact List.map_congr_left hB
    rw [hC, hA, List.map_map]
    rfl
  · rw [List.map_take, List.map_drop, ← hrest, List.append_assoc, List.drop_left, ← hlg, List.append_assoc, List.take_left]

end Verif.AxiOps
