import Verif.Proof.LiteOpsMore

/-!
# An AXI-lite port connected to a slave: which transfer is served when
-/

namespace Verif.LiteOps

variable {χ ρ σ : Type}

/-- The transfers of a list of operations, with their operation and number. -/
def labels (ops : List (Op χ)) : List (Op χ × χ × Nat) := ops.flatMap fun o => o.xs.zipIdx.map fun p => (o, p)

theorem labels_append (a b : List (Op χ)) : labels (a ++ b) = labels a ++ labels b := by simp [labels]

theorem labels_xs (ops : List (Op χ)) : (labels ops).map (·.2.1) = ops.flatMap (·.xs) := by
  induction ops with
  | nil => rfl
  | cons o os ih =>
    have : labels (o :: os) = (o.xs.zipIdx.map fun p => (o, p)) ++ labels os := by simp [labels]
    rw [this, List.map_append, ih, List.flatMap_cons]
    congr 1
    rw [List.map_map]
    exact List.zipIdx_map_fst 0 o.xs

theorem labels_length (ops : List (Op χ)) : (labels ops).length = (ops.flatMap (·.xs)).length := by
  rw [← labels_xs, List.length_map]

theorem mem_labels {ops : List (Op χ)} {o : Op χ} {x : χ} {i : Nat} (h : (o, x, i) ∈ labels ops) :
    o ∈ ops ∧ o.xs[i]? = some x := by
  simp only [labels, List.mem_flatMap, List.mem_map] at h
  obtain ⟨o', ho, ⟨x', i'⟩, hp, he⟩ := h
  simp only [Prod.mk.injEq] at he
  obtain ⟨rfl, rfl, rfl⟩ := he
  exact ⟨ho, List.mem_zipIdx_iff_getElem?.1 hp⟩

/-- A served transfer: number `i` of operation `op`, its response and when it was served. -/
structure Served (χ ρ : Type) where
  op : Op χ
  x : χ
  i : Nat
  r : ρ
  t : Nat

def Served.lab (e : Served χ ρ) : Op χ × χ × Nat := (e.op, e.x, e.i)

/-- A history of a port whose target may also be changed by others: the port's state and the target's at every
instant. -/
structure Trace (f : χ → σ → ρ × σ) (p : Nat → Port χ ρ) (μ : Nat → σ) : Prop where
  start : p 0 = {}
  next : ∀ n, (∃ e, (p (n + 1), μ (n + 1)) = (p n).step f (μ n) e) ∨ p (n + 1) = p n

/-- The transfers of the operations issued since the last reset that the slave has not served, with their labels. -/
def Port.turn (p : Port χ ρ) : List (Op χ × χ × Nat) := (labels p.m.epoch).drop (p.m.sent.length - p.req.length)

/-- The operation at the front. -/
def Port.front (p : Port χ ρ) : Option (Op χ) := p.turn.head?.map (·.1)

structure PInv (f : χ → σ → ρ × σ) (p : Nat → Port χ ρ) (μ : Nat → σ) (n : Nat) (sv : List (Served χ ρ)) : Prop where
  inv : (p n).m.Inv
  sent : (p n).m.sent = sv.map (·.x) ++ (p n).req
  arr : (p n).m.arrived ++ (p n).rsp = sv.map (·.r)
  lab : sv.map (·.lab) = (labels (p n).m.epoch).take sv.length
  good : ∀ e ∈ sv, e.t < n ∧ (e.op ∈ (p e.t).m.pend ∧ (p e.t).front = some e.op) ∧ f e.x (μ e.t) = (e.r, μ (e.t + 1))
  mono : (sv.map (·.t)).Pairwise (· < ·)
  stopped : (p n).m.running = false → sv = []

theorem own_step (s : Lite χ ρ) (e : Ev χ ρ) (h : own e = true) :
    (s.step e).sent = s.sent ∧ (s.step e).arrived = s.arrived ∧ s.epoch <+: (s.step e).epoch ∧
      (s.step e).running = s.running := by
  cases e with
  | respDone => simp only [Lite.step, Lite.respDone]; split <;> simp
  | reset v => simp [own] at h
  | take => simp only [Lite.step, Lite.take]; split <;> simp
  | send => simp [own] at h
  | resp r => simp [own] at h
  | respTake => simp only [Lite.step, Lite.respTake]; split <;> simp
  | respGet => simp only [Lite.step, Lite.respGet]; split <;> simp
  | write op => simp [Lite.step, Lite.write]
  | init op => simp [Lite.step]
  | runInit i => simp only [Lite.step]; split <;> simp [Lite.write]

theorem Lite.Inv.done_length {s : Lite χ ρ} (h : s.Inv) :
    (labels (s.done.map (·.1))).length = (s.done.flatMap (·.2)).length := by
  rw [labels_length]
  have := h.doneLen
  revert this
  generalize s.done = dn
  intro this
  induction dn with
  | nil => rfl
  | cons d dn ih =>
    have h0 := this d (by simp)
    simp only [List.flatMap_cons, List.length_append, List.map_cons]
    rw [ih (fun d hd => this d (by simp [hd])), h0]

theorem Lite.Inv.epoch' {s : Lite χ ρ} (h : s.Inv) : s.epoch = s.done.map (·.1) ++ s.pend := by
  rw [h.epoch]; simp [Lite.started, Lite.pend]

/-- The transfer about to be served, with its label. -/
theorem PInv.owner {f : χ → σ → ρ × σ} {p : Nat → Port χ ρ} {μ : Nat → σ} {n : Nat} {sv : List (Served χ ρ)}
    (h : PInv f p μ n sv) {x : χ} {rest : List χ} (hreq : (p n).req = x :: rest) :
    ∃ op i, (labels (p n).m.epoch)[sv.length]? = some (op, x, i) ∧ (op ∈ (p n).m.pend ∧ (p n).front = some op) ∧
      op.xs[i]? = some x := by
  have hl : (labels (p n).m.epoch).map (·.2.1) = (p n).m.sent ++ ((p n).m.rem ++ (p n).m.queue.flatMap (·.xs)) := by
    rw [labels_xs, h.inv.epoch, List.flatMap_append, ← h.inv.sent, List.append_assoc]
  rw [h.sent, hreq] at hl
  have hx : ((labels (p n).m.epoch).map (·.2.1))[sv.length]? = some x := by
    rw [hl, List.append_assoc, List.getElem?_append_right (by simp)]
    simp
  rw [List.getElem?_map] at hx
  cases hg : (labels (p n).m.epoch)[sv.length]? with
  | none => rw [hg] at hx; cases hx
  | some q =>
    obtain ⟨op, y, i⟩ := q
    rw [hg] at hx
    simp only [Option.map_some, Option.some.injEq] at hx
    subst hx
    have hsl : (p n).m.sent.length - (p n).req.length = sv.length := by
      have := congrArg List.length h.sent
      simp only [List.length_append, List.length_map] at this
      omega
    have hfr : (p n).front = some op := by
      rw [Port.front, Port.turn, hsl, List.head?_drop, hg]; rfl
    refine ⟨op, i, rfl, ⟨?_, hfr⟩, (mem_labels (List.mem_of_getElem? hg)).2⟩
    have hlen : (labels ((p n).m.done.map (·.1))).length ≤ sv.length := by
      rw [h.inv.done_length]
      have h1 := congrArg List.length h.arr
      have h2 := congrArg List.length h.inv.arrived
      simp only [List.length_append, List.length_map] at h1 h2
      omega
    rw [h.inv.epoch', labels_append, List.getElem?_append_right hlen] at hg
    exact (mem_labels (List.mem_of_getElem? hg)).1

theorem PInv.mono_good {f : χ → σ → ρ × σ} {p : Nat → Port χ ρ} {μ : Nat → σ} {n : Nat} {sv : List (Served χ ρ)}
    (h : PInv f p μ n sv) :
    ∀ e ∈ sv, e.t < n + 1 ∧ (e.op ∈ (p e.t).m.pend ∧ (p e.t).front = some e.op) ∧ f e.x (μ e.t) = (e.r, μ (e.t + 1)) := by
  intro e he
  obtain ⟨h1, h2, h3⟩ := h.good e he
  exact ⟨by omega, h2, h3⟩

theorem Trace.inv {f : χ → σ → ρ × σ} {p : Nat → Port χ ρ} {μ : Nat → σ} (h : Trace f p μ) (n : Nat) :
    ∃ sv, PInv f p μ n sv := by
  induction n with
  | zero =>
    refine ⟨[], ?_, ?_, ?_, rfl, by simp, by simp, by simp⟩
    · rw [h.start]; exact Lite.inv_init
    · rw [h.start]; rfl
    · rw [h.start]; rfl
  | succ n ih =>
    obtain ⟨sv, ih⟩ := ih
    rcases h.next n with ⟨e, hs⟩ | hs
    · cases e with
      | master e =>
        simp only [Port.step, Prod.mk.injEq] at hs
        cases ho : own e with
        | false =>
          rw [ho] at hs
          simp only [Bool.false_eq_true, if_false] at hs
          refine ⟨sv, ?_, ?_, ?_, ?_, ih.mono_good, ih.mono, ?_⟩ <;> rw [hs.1]
          · exact ih.inv
          · exact ih.sent
          · exact ih.arr
          · exact ih.lab
          · exact ih.stopped
        | true =>
          rw [ho] at hs
          simp only [if_true] at hs
          obtain ⟨h1, h2, h3, h4⟩ := own_step (p n).m e ho
          refine ⟨sv, ?_, ?_, ?_, ?_, ih.mono_good, ih.mono, ?_⟩ <;> rw [hs.1] <;> simp only
          · exact Lite.step_inv ih.inv e
          · rw [h1]; exact ih.sent
          · rw [h2]; exact ih.arr
          · rw [ih.lab]
            obtain ⟨l, hl⟩ := h3
            rw [← hl, labels_append]
            have hle : sv.length ≤ (labels (p n).m.epoch).length := by
              have := congrArg List.length ih.lab
              simp only [List.length_map, List.length_take] at this
              omega
            rw [List.take_append_of_le_length hle]
          · rw [h4]; exact ih.stopped
      | send =>
        simp only [Port.step, Prod.mk.injEq] at hs
        obtain ⟨hs, _⟩ := hs
        split at hs
        · rename_i op x rm hr hc
          refine ⟨sv, ?_, ?_, ?_, ?_, ih.mono_good, ih.mono, ?_⟩ <;> rw [hs] <;> simp only
          · exact Lite.step_inv ih.inv _
          · simp only [Lite.step, Lite.send, hr, hc, ih.sent, List.append_assoc]
          · simp only [Lite.step, Lite.send, hr, hc, ih.arr]
          · simp only [Lite.step, Lite.send, hr, hc, ih.lab]
          · simp only [Lite.step, Lite.send, hr, hc]; intro hf; cases hf
        · refine ⟨sv, ?_, ?_, ?_, ?_, ih.mono_good, ih.mono, ?_⟩ <;> rw [hs]
          · exact ih.inv
          · exact ih.sent
          · exact ih.arr
          · exact ih.lab
          · exact ih.stopped
      | serve =>
        simp only [Port.step] at hs
        cases hreq : (p n).req with
        | nil =>
          rw [hreq] at hs
          simp only [Prod.mk.injEq] at hs
          refine ⟨sv, ?_, ?_, ?_, ?_, ih.mono_good, ih.mono, ?_⟩ <;> rw [hs.1]
          · exact ih.inv
          · exact ih.sent
          · exact ih.arr
          · exact ih.lab
          · exact ih.stopped
        | cons x rest =>
          rw [hreq] at hs
          simp only [Prod.mk.injEq] at hs
          obtain ⟨hs, hmem⟩ := hs
          obtain ⟨op, i, hlab, hpend, hxi⟩ := ih.owner hreq
          refine ⟨sv ++ [⟨op, x, i, (f x (μ n)).1, n⟩], ?_, ?_, ?_, ?_, ?_, ?_, ?_⟩
          · rw [hs]; exact ih.inv
          · rw [hs]; simp only [ih.sent, hreq, List.map_append, List.map_cons, List.map_nil, List.append_assoc]; rfl
          · rw [hs]; simp only [List.map_append, List.map_cons, List.map_nil, ← ih.arr, List.append_assoc]
          · rw [hs]
            simp only [List.map_append, List.map_cons, List.map_nil, List.length_append, List.length_cons, List.length_nil,
              ih.lab]
            rw [List.take_add_one, hlab]; rfl
          · intro e he
            rcases List.mem_append.1 he with he | he
            · exact ih.mono_good e he
            · rw [List.mem_singleton] at he
              subst he
              refine ⟨by simp, hpend, ?_⟩
              simp only [hmem]
          · rw [List.map_append, List.pairwise_append]
            refine ⟨ih.mono, by simp, ?_⟩
            intro a ha b hb
            simp only [List.map_cons, List.map_nil, List.mem_singleton] at hb
            subst hb
            obtain ⟨e, he, rfl⟩ := List.mem_map.1 ha
            exact (ih.good e he).1
          · rw [hs]
            intro hf
            exfalso
            have hs1 := (ih.inv.stopped hf)
            have := ih.sent
            rw [hreq] at this
            have hst : (p n).m.sent = [] := by
              have := ih.inv.sent
              simp only [Lite.started, Lite.respOps, hs1, Lite.rem] at this
              simpa using this
            rw [hst] at this
            simp at this
      | deliver =>
        simp only [Port.step, Prod.mk.injEq] at hs
        obtain ⟨hs, _⟩ := hs
        cases hrsp : (p n).rsp with
        | nil =>
          rw [hrsp] at hs
          simp only at hs
          refine ⟨sv, ?_, ?_, ?_, ?_, ih.mono_good, ih.mono, ?_⟩ <;> rw [hs]
          · exact ih.inv
          · exact ih.sent
          · exact ih.arr
          · exact ih.lab
          · exact ih.stopped
        | cons r rest =>
          rw [hrsp] at hs
          simp only at hs
          have hr : (p n).m.running = true := by
            cases hr : (p n).m.running with
            | true => rfl
            | false =>
              have := ih.arr
              rw [ih.stopped hr, hrsp] at this
              simp at this
          refine ⟨sv, ?_, ?_, ?_, ?_, ih.mono_good, ih.mono, ?_⟩ <;> rw [hs]
          · exact Lite.step_inv ih.inv (.resp r)
          · simp only [Lite.step, Lite.resp, hr, if_true, ih.sent]
          · simp only [Lite.step, Lite.resp, hr, if_true, ← ih.arr, hrsp, List.append_assoc]; rfl
          · simp only [Lite.step, Lite.resp, hr, if_true, ih.lab]
          · simp only [Lite.step, Lite.resp, hr, if_true]; intro hf; cases hf
      | reset v =>
        simp only [Port.step, Prod.mk.injEq] at hs
        obtain ⟨hs, _⟩ := hs
        cases v with
        | true =>
          simp only [if_true] at hs
          refine ⟨[], ?_, ?_, ?_, rfl, by simp, by simp, by simp⟩ <;> rw [hs]
          · exact Lite.step_inv ih.inv (.reset true)
          · rfl
          · rfl
        | false =>
          simp only [Bool.false_eq_true, if_false] at hs
          refine ⟨sv, ?_, ?_, ?_, ?_, ih.mono_good, ih.mono, ?_⟩ <;> rw [hs]
          · exact Lite.step_inv ih.inv (.reset false)
          · exact ih.sent
          · exact ih.arr
          · exact ih.lab
          · intro hf; cases hf
    · refine ⟨sv, ?_, ?_, ?_, ?_, ih.mono_good, ih.mono, ?_⟩ <;> rw [hs]
      · exact ih.inv
      · exact ih.sent
      · exact ih.arr
      · exact ih.lab
      · exact ih.stopped

/-- The master's states form a sequence of master steps, and the slave does not answer early. -/
theorem Trace.seq {f : χ → σ → ρ × σ} {p : Nat → Port χ ρ} {μ : Nat → σ} (h : Trace f p μ) :
    Lite.Seq (fun n => (p n).m) where
  start := by
    have := h.start
    rw [this]; exact Lite.inv_init
  next := by
    intro n
    rcases h.next n with ⟨e, hs⟩ | hs
    · cases e with
      | master e =>
        simp only [Port.step, Prod.mk.injEq] at hs
        rw [hs.1]
        split
        · exact .inr ⟨e, rfl⟩
        · exact .inl rfl
      | send =>
        simp only [Port.step, Prod.mk.injEq] at hs
        rw [hs.1]
        split
        · exact .inr ⟨.send, rfl⟩
        · exact .inl rfl
      | serve =>
        simp only [Port.step] at hs
        split at hs <;> (simp only [Prod.mk.injEq] at hs; rw [hs.1]; exact .inl rfl)
      | deliver =>
        simp only [Port.step, Prod.mk.injEq] at hs
        rw [hs.1]
        split
        · exact .inr ⟨.resp _, rfl⟩
        · exact .inl rfl
      | reset v =>
        simp only [Port.step, Prod.mk.injEq] at hs
        rw [hs.1]
        split
        · exact .inr ⟨.reset true, rfl⟩
        · exact .inr ⟨.reset false, rfl⟩
    · rw [hs]; exact .inl rfl

theorem Trace.not_early {f : χ → σ → ρ × σ} {p : Nat → Port χ ρ} {μ : Nat → σ} (h : Trace f p μ) (n : Nat) :
    (p n).m.arrived.length ≤ (p n).m.sent.length := by
  obtain ⟨sv, hi⟩ := h.inv n
  have h1 := congrArg List.length hi.arr
  have h2 := congrArg List.length hi.sent
  simp only [List.length_append, List.length_map] at h1 h2
  omega

/-- The instants at which the transfers of a completed operation were served. -/
theorem Trace.done {f : χ → σ → ρ × σ} {p : Nat → Port χ ρ} {μ : Nat → σ} (h : Trace f p μ) (n : Nat) (op : Op χ)
    (got : List ρ) (hd : (op, got) ∈ (p n).m.done) :
    got.length = op.xs.length ∧ ∃ ts : List Nat, ts.length = op.xs.length ∧ ts.Pairwise (· < ·) ∧
      ∀ (i : Nat) (x : χ) (r : ρ) (t : Nat), op.xs[i]? = some x → got[i]? = some r → ts[i]? = some t →
        t < n ∧ (op ∈ (p t).m.pend ∧ (p t).front = some op) ∧ f x (μ t) = (r, μ (t + 1)) := by
  obtain ⟨sv, hi⟩ := h.inv n
  obtain ⟨d1, d2, hd12⟩ := List.append_of_mem hd
  have hlen := hi.inv.doneLen (op, got) hd
  simp only at hlen
  refine ⟨hlen, ?_⟩
  have hA : (p n).m.arrived = d1.flatMap (·.2) ++ (got ++ (d2.flatMap (·.2) ++ (p n).m.got ++ (p n).m.bch)) := by
    rw [hi.inv.arrived, hd12]; simp
  have hE : labels (p n).m.epoch = labels (d1.map (·.1)) ++ ((op.xs.zipIdx.map fun q => (op, q)) ++
      labels (d2.map (·.1) ++ (p n).m.pend)) := by
    rw [hi.inv.epoch', hd12]; simp [labels]
  have hoff : (labels (d1.map (·.1))).length = (d1.flatMap (·.2)).length := by
    have hdl : ∀ d ∈ d1, d.2.length = d.1.xs.length := fun d hd => hi.inv.doneLen d (by rw [hd12]; simp [hd])
    rw [labels_length]
    clear hA hE hd12
    induction d1 with
    | nil => rfl
    | cons d dn ih =>
      have h0 := hdl d (by simp)
      simp only [List.flatMap_cons, List.length_append, List.map_cons]
      rw [ih (fun d hd => hdl d (by simp [hd])), h0]
  have hr := hi.arr
  rw [hA, List.append_assoc, List.append_assoc] at hr
  have hsv : (d1.flatMap (·.2)).length + got.length ≤ sv.length := by
    have := congrArg List.length hr
    simp only [List.length_append, List.length_map] at this
    omega
  refine ⟨((sv.drop (d1.flatMap (·.2)).length).take got.length).map (·.t), ?_, ?_, ?_⟩
  · simp only [List.length_map, List.length_take, List.length_drop]; omega
  · have h1 := hi.mono
    rw [List.map_take, List.map_drop]
    exact (h1.sublist (List.drop_sublist _ _)).sublist (List.take_sublist _ _)
  · intro i x r t hx hgr ht
    have hil : i < got.length := by
      rw [hlen]; exact (List.getElem?_eq_some_iff.1 hx).1
    rw [List.getElem?_map, List.getElem?_take, if_pos hil, List.getElem?_drop] at ht
    cases he : sv[(d1.flatMap (·.2)).length + i]? with
    | none => rw [he] at ht; cases ht
    | some e =>
      rw [he] at ht
      simp only [Option.map_some, Option.some.injEq] at ht
      have hmem := List.mem_of_getElem? he
      have hrr : e.r = r := by
        have : (sv.map (·.r))[(d1.flatMap (·.2)).length + i]? = some e.r := by rw [List.getElem?_map, he]; rfl
        rw [← hr, List.getElem?_append_right (by omega), Nat.add_sub_cancel_left,
          List.getElem?_append_left hil, hgr] at this
        exact (Option.some.inj this).symm
      have hlab : e.lab = (op, x, i) := by
        have : (sv.map (·.lab))[(d1.flatMap (·.2)).length + i]? = some e.lab := by rw [List.getElem?_map, he]; rfl
        rw [hi.lab, List.getElem?_take, if_pos (by omega), hE, List.getElem?_append_right (by omega), hoff,
          Nat.add_sub_cancel_left, List.getElem?_append_left (by simp; omega), List.getElem?_map,
          List.getElem?_zipIdx, hx] at this
        simpa using this.symm
      simp only [Served.lab, Prod.mk.injEq] at hlab
      have := hi.good e hmem
      rw [hlab.1, hlab.2.1, hrr, ht] at this
      exact this

/-- A result other than `None` was given by a completion. -/
theorem Trace.result {f : χ → σ → ρ × σ} {p : Nat → Port χ ρ} {μ : Nat → σ} (h : Trace f p μ) (n : Nat) (op : Op χ)
    (got : List ρ) (hr : (op, some got) ∈ (p n).m.results) : ∃ k ≤ n, (op, got) ∈ (p k).m.done := by
  induction n with
  | zero => rw [h.start] at hr; cases hr
  | succ n ih =>
    by_cases hold : (op, some got) ∈ (p n).m.results
    · obtain ⟨k, hk, hd⟩ := ih hold
      exact ⟨k, by omega, hd⟩
    · refine ⟨n + 1, Nat.le_refl _, ?_⟩
      rcases h.seq.next n with hs | ⟨e, hs⟩
      · rw [hs] at hr; exact absurd hr hold
      · rw [hs] at hr ⊢
        cases e with
        | respDone =>
          simp only [Lite.step, Lite.respDone] at hr ⊢
          split at hr
          · simp only [List.mem_append, List.mem_singleton, Prod.mk.injEq, Option.some.injEq] at hr ⊢
            rcases hr with hr | hr
            · exact absurd hr hold
            · exact .inr hr
          · exact absurd hr hold
        | reset v =>
          simp only [Lite.step, Lite.reset] at hr
          split at hr
          · simp only [List.mem_append, List.mem_map, Prod.mk.injEq] at hr
            rcases hr with hr | ⟨o, _, _, hn⟩
            · exact absurd hr hold
            · cases hn
          · exact absurd hr hold
        | take => simp only [Lite.step, Lite.take] at hr; split at hr <;> exact absurd hr hold
        | send => simp only [Lite.step, Lite.send] at hr; split at hr <;> exact absurd hr hold
        | resp r => simp only [Lite.step, Lite.resp] at hr; split at hr <;> exact absurd hr hold
        | respTake => simp only [Lite.step, Lite.respTake] at hr; split at hr <;> exact absurd hr hold
        | respGet => simp only [Lite.step, Lite.respGet] at hr; split at hr <;> exact absurd hr hold
        | write op => exact absurd hr hold
        | init op => exact absurd hr hold
        | runInit i => simp only [Lite.step] at hr; split at hr <;> exact absurd hr hold

/-! ## The two sides of a system -/

variable {χ' ρ' : Type}

/-- The state after the first `n` events. -/
def Duo.at (f : χ → σ → ρ × σ) (g : χ' → σ → ρ' × σ) (s : Duo χ ρ χ' ρ' σ) (evs : List (DuoEv χ ρ χ' ρ')) (n : Nat) :
    Duo χ ρ χ' ρ' σ := Duo.run f g s (evs.take n)

theorem Duo.at_succ (f : χ → σ → ρ × σ) (g : χ' → σ → ρ' × σ) (s : Duo χ ρ χ' ρ' σ) (evs : List (DuoEv χ ρ χ' ρ')) (n : Nat) :
    (∃ e, evs[n]? = some e ∧ Duo.at f g s evs (n + 1) = (Duo.at f g s evs n).step f g e) ∨
      (evs.length ≤ n ∧ Duo.at f g s evs (n + 1) = Duo.at f g s evs n) := by
  by_cases hn : n < evs.length
  · left
    refine ⟨evs[n], List.getElem?_eq_getElem hn, ?_⟩
    simp only [Duo.at, Duo.run]
    rw [List.take_succ_eq_append_getElem hn, List.foldl_append]; rfl
  · right
    refine ⟨by omega, ?_⟩
    simp only [Duo.at]
    rw [List.take_of_length_le (by omega), List.take_of_length_le (by omega)]

theorem Duo.traceW (f : χ → σ → ρ × σ) (g : χ' → σ → ρ' × σ) (m0 : σ) (evs : List (DuoEv χ ρ χ' ρ')) :
    Trace f (fun n => (Duo.at f g { mem := m0 } evs n).w) (fun n => (Duo.at f g { mem := m0 } evs n).mem) where
  start := rfl
  next := by
    intro n
    rcases Duo.at_succ f g { mem := m0 } evs n with ⟨e, _, he⟩ | ⟨_, he⟩
    · rw [he]
      cases e with
      | w e => exact .inl ⟨e, rfl⟩
      | r e => exact .inr rfl
    · rw [he]; exact .inr rfl

theorem Duo.traceR (f : χ → σ → ρ × σ) (g : χ' → σ → ρ' × σ) (m0 : σ) (evs : List (DuoEv χ ρ χ' ρ')) :
    Trace g (fun n => (Duo.at f g { mem := m0 } evs n).r) (fun n => (Duo.at f g { mem := m0 } evs n).mem) where
  start := rfl
  next := by
    intro n
    rcases Duo.at_succ f g { mem := m0 } evs n with ⟨e, _, he⟩ | ⟨_, he⟩
    · rw [he]
      cases e with
      | w e => exact .inr rfl
      | r e => exact .inl ⟨e, rfl⟩
    · rw [he]; exact .inr rfl

/-- What can change the memory. -/
theorem Duo.mem_step (f : χ → σ → ρ × σ) (g : χ' → σ → ρ' × σ) (m0 : σ) (evs : List (DuoEv χ ρ χ' ρ')) (n : Nat) :
    let S := Duo.at f g { mem := m0 } evs
    (S (n + 1)).mem = (S n).mem ∨
    (∃ op, (op ∈ (S n).w.m.pend ∧ (S n).w.front = some op) ∧ ∃ x ∈ op.xs, (S (n + 1)).mem = (f x (S n).mem).2) ∨
    (∃ op, (op ∈ (S n).r.m.pend ∧ (S n).r.front = some op) ∧ ∃ x ∈ op.xs, (S (n + 1)).mem = (g x (S n).mem).2) := by
  simp only
  rcases Duo.at_succ f g { mem := m0 } evs n with ⟨e, _, he⟩ | ⟨_, he⟩
  · rw [he]
    cases e with
    | w e =>
      cases e with
      | serve =>
        obtain ⟨sv, hi⟩ := (Duo.traceW f g m0 evs).inv n
        simp only [Duo.step, Port.step]
        split
        · rename_i x rest hreq
          obtain ⟨op, i, _, hp, hx⟩ := hi.owner hreq
          exact .inr (.inl ⟨op, hp, x, List.mem_of_getElem? hx, rfl⟩)
        · exact .inl rfl
      | _ => exact .inl rfl
    | r e =>
      cases e with
      | serve =>
        obtain ⟨sv, hi⟩ := (Duo.traceR f g m0 evs).inv n
        simp only [Duo.step, Port.step]
        split
        · rename_i x rest hreq
          obtain ⟨op, i, _, hp, hx⟩ := hi.owner hreq
          exact .inr (.inr ⟨op, hp, x, List.mem_of_getElem? hx, rfl⟩)
        · exact .inl rfl
      | _ => exact .inl rfl
  · rw [he]; exact .inl rfl

end Verif.LiteOps
