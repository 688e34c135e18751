import Verif.Spec.MultiPort
import Verif.Proof.ShareRam

/-!
# Several interfaces on one target: the histories of the ports
-/

namespace Verif.Multi

variable {σ : Type} {E : Ports σ} {st : σ} {evs : List MultiEv}

theorem at_succ (n : Nat) : at_ E st evs (n + 1) = (match evs[n]? with
    | some e => step E (at_ E st evs n) e
    | none => at_ E st evs n) := by
  unfold at_
  rw [List.take_add_one]
  cases h : evs[n]? with
  | none => simp
  | some e => simp [List.foldl_append]

/-- An instant at which nothing happens, or an event. -/
theorem at_step (n : Nat) : at_ E st evs (n + 1) = at_ E st evs n ∨
    ∃ e, evs[n]? = some e ∧ at_ E st evs (n + 1) = step E (at_ E st evs n) e := by
  rw [at_succ]
  cases h : evs[n]? with
  | none => exact .inl rfl
  | some e => exact .inr ⟨e, rfl, rfl⟩

theorem setAt_self {α : Type} (f : Nat → α) (i : Nat) (x : α) : setAt f i x i = x := if_pos rfl
theorem setAt_ne {α : Type} (f : Nat → α) {i j : Nat} (x : α) (h : j ≠ i) : setAt f i x j = f j := if_neg h

theorem traceAxiW (i : Nat) (hc : (E.axi i).Std) (hi : ∀ k, (E.wa i k).req.id ≠ some (2 ^ (E.axi i).idWidth)) :
    AxiSys.WTrace (E.axi i) (E.wa i) E.t (fun k => (at_ E st evs k).axiW i) (fun k => (at_ E st evs k).mem) where
  std := hc
  ids := hi
  start := rfl
  next n := by
    rcases at_step (E := E) (st := st) (evs := evs) n with h | ⟨e, _, h⟩
    · exact .inr (by rw [h])
    · cases e with
      | axiW j e =>
        by_cases hj : i = j
        · subst hj
          refine .inl ⟨e, ?_⟩
          rw [h]; simp only [step, setAt_self]
        · refine .inr ?_
          rw [h]; simp only [step, setAt_ne _ _ hj]
      | _ => exact .inr (by rw [h]; rfl)

theorem traceAxiR (i : Nat) (hc : (E.axi i).Std) (hi : ∀ k, (E.ra i k).id ≠ some (2 ^ (E.axi i).idWidth)) :
    AxiSys.RTrace (E.axi i) (E.ra i) E.t (fun k => (at_ E st evs k).axiR i) (fun k => (at_ E st evs k).mem) where
  std := hc
  ids := hi
  start := rfl
  next n := by
    rcases at_step (E := E) (st := st) (evs := evs) n with h | ⟨e, _, h⟩
    · exact .inr (by rw [h])
    · cases e with
      | axiR j e =>
        by_cases hj : i = j
        · subst hj
          refine .inl ⟨e, ?_⟩
          rw [h]; simp only [step, setAt_self]
        · refine .inr ?_
          rw [h]; simp only [step, setAt_ne _ _ hj]
      | _ => exact .inr (by rw [h]; rfl)

theorem traceLiteW (i : Nat) : LiteOps.Trace (Word.slaveWrite E.t (E.lite i).lanes true)
    (fun k => (at_ E st evs k).liteW i) (fun k => (at_ E st evs k).mem) where
  start := rfl
  next n := by
    rcases at_step (E := E) (st := st) (evs := evs) n with h | ⟨e, _, h⟩
    · exact .inr (by rw [h])
    · cases e with
      | liteW j e =>
        by_cases hj : i = j
        · subst hj
          refine .inl ⟨e, ?_⟩
          rw [h]; simp only [step, setAt_self]
        · refine .inr ?_
          rw [h]; simp only [step, setAt_ne _ _ hj]
      | _ => exact .inr (by rw [h]; rfl)

theorem traceLiteR (i : Nat) : LiteOps.Trace (Word.slaveRead E.t (E.lite i).lanes)
    (fun k => (at_ E st evs k).liteR i) (fun k => (at_ E st evs k).mem) where
  start := rfl
  next n := by
    rcases at_step (E := E) (st := st) (evs := evs) n with h | ⟨e, _, h⟩
    · exact .inr (by rw [h])
    · cases e with
      | liteR j e =>
        by_cases hj : i = j
        · subst hj
          refine .inl ⟨e, ?_⟩
          rw [h]; simp only [step, setAt_self]
        · refine .inr ?_
          rw [h]; simp only [step, setAt_ne _ _ hj]
      | _ => exact .inr (by rw [h]; rfl)

theorem traceApb (i : Nat) : Apb.ATrace (E.slverr i) (Apb.access E.t (E.apb i).lanes true)
    (fun k => (at_ E st evs k).apb i) (fun k => (at_ E st evs k).mem) where
  start := ⟨st, rfl⟩
  next n := by
    rcases at_step (E := E) (st := st) (evs := evs) n with h | ⟨e, _, h⟩
    · exact .inr (by rw [h])
    · cases e with
      | apb j e =>
        by_cases hj : i = j
        · subst hj
          refine .inl ⟨e, ?_⟩
          rw [h]; simp only [step, setAt_self]; exact ⟨trivial, trivial⟩
        · refine .inr ?_
          rw [h]; simp only [step, setAt_ne _ _ hj]
      | _ => exact .inr (by rw [h]; rfl)

/-- A port that takes part in no event. -/
theorem unused_axiW {i : Nat} (h : ∀ j e, .axiW j e ∈ evs → j ≠ i) (n : Nat) : (at_ E st evs n).axiW i = {} := by
  induction n with
  | zero => rfl
  | succ n ih =>
    rcases at_step (E := E) (st := st) (evs := evs) n with hs | ⟨e, he, hs⟩
    · rw [hs]; exact ih
    · rw [hs]
      cases e with
      | axiW j e =>
        simp only [step]
        rw [setAt_ne _ _ (Ne.symm (h j e (List.mem_of_getElem? he)))]
        exact ih
      | _ => exact ih

/-- A port that takes part in no event. -/
theorem unused_axiR {i : Nat} (h : ∀ j e, .axiR j e ∈ evs → j ≠ i) (n : Nat) : (at_ E st evs n).axiR i = {} := by
  induction n with
  | zero => rfl
  | succ n ih =>
    rcases at_step (E := E) (st := st) (evs := evs) n with hs | ⟨e, he, hs⟩
    · rw [hs]; exact ih
    · rw [hs]
      cases e with
      | axiR j e =>
        simp only [step]
        rw [setAt_ne _ _ (Ne.symm (h j e (List.mem_of_getElem? he)))]
        exact ih
      | _ => exact ih

/-- A port that takes part in no event. -/
theorem unused_liteW {i : Nat} (h : ∀ j e, .liteW j e ∈ evs → j ≠ i) (n : Nat) : (at_ E st evs n).liteW i = {} := by
  induction n with
  | zero => rfl
  | succ n ih =>
    rcases at_step (E := E) (st := st) (evs := evs) n with hs | ⟨e, he, hs⟩
    · rw [hs]; exact ih
    · rw [hs]
      cases e with
      | liteW j e =>
        simp only [step]
        rw [setAt_ne _ _ (Ne.symm (h j e (List.mem_of_getElem? he)))]
        exact ih
      | _ => exact ih

/-- A port that takes part in no event. -/
theorem unused_liteR {i : Nat} (h : ∀ j e, .liteR j e ∈ evs → j ≠ i) (n : Nat) : (at_ E st evs n).liteR i = {} := by
  induction n with
  | zero => rfl
  | succ n ih =>
    rcases at_step (E := E) (st := st) (evs := evs) n with hs | ⟨e, he, hs⟩
    · rw [hs]; exact ih
    · rw [hs]
      cases e with
      | liteR j e =>
        simp only [step]
        rw [setAt_ne _ _ (Ne.symm (h j e (List.mem_of_getElem? he)))]
        exact ih
      | _ => exact ih

/-- A port that takes part in no event. -/
theorem unused_apb {i : Nat} (h : ∀ j e, .apb j e ∈ evs → j ≠ i) (n : Nat) : (at_ E st evs n).apb i = Apb.Sys.start st := by
  induction n with
  | zero => rfl
  | succ n ih =>
    rcases at_step (E := E) (st := st) (evs := evs) n with hs | ⟨e, he, hs⟩
    · rw [hs]; exact ih
    · rw [hs]
      cases e with
      | apb j e =>
        simp only [step]
        rw [setAt_ne _ _ (Ne.symm (h j e (List.mem_of_getElem? he)))]
        exact ih
      | _ => exact ih

end Verif.Multi

namespace Verif.LiteOps

variable {χ ρ σ : Type}

theorem Lite.step_results_le (s : Lite χ ρ) (e : Ev χ ρ) : s.results <+: (s.step e).results := by
  cases e with
  | respDone => simp only [Lite.step, Lite.respDone]; split <;> simp
  | reset v => simp only [Lite.step, Lite.reset]; split <;> simp
  | take => simp only [Lite.step, Lite.take]; split <;> simp
  | send => simp only [Lite.step, Lite.send]; split <;> simp
  | resp r => simp only [Lite.step, Lite.resp]; split <;> simp
  | respTake => simp only [Lite.step, Lite.respTake]; split <;> simp
  | respGet => simp only [Lite.step, Lite.respGet]; split <;> simp
  | write op => simp [Lite.step, Lite.write]
  | init op => simp [Lite.step]
  | runInit i => simp only [Lite.step]; split <;> simp [Lite.write]

theorem Trace.results_le {f : χ → σ → ρ × σ} {p : Nat → Port χ ρ} {μ : Nat → σ} (h : Trace f p μ) {i j : Nat} (hij : i ≤ j) :
    (p i).m.results <+: (p j).m.results := by
  obtain ⟨d, rfl⟩ := Nat.exists_eq_add_of_le hij
  clear hij
  induction d with
  | zero => exact List.prefix_refl _
  | succ d ih =>
    refine ih.trans ?_
    rw [← Nat.add_assoc]
    rcases h.seq.next (i + d) with h' | ⟨e, h'⟩
    · rw [h']; exact List.prefix_refl _
    · rw [h']; exact Lite.step_results_le _ e

/-- What the caller gets is determined by the responses. -/
theorem WCall.returns_unique {c : Word.Cfg} {a : WCall} {got : List (Py Resp)} {r r' : Resp} (h : a.returns c got r)
    (h' : a.returns c got r') : r = r' := by
  obtain ⟨cmd, rs, h1, h2, h3⟩ := h
  obtain ⟨cmd', rs', h1', h2', h3'⟩ := h'
  rw [h1] at h1'
  simp only [Except.ok.injEq, Prod.mk.injEq, and_true] at h1'
  subst h1'
  have : rs = rs' := by
    rw [h2] at h2'
    exact (List.map_inj_right (f := Except.ok) (fun _ _ h => Except.ok.inj h)).1 h2'
  subst this
  rw [h3] at h3'
  simpa using h3'

theorem RCall.returns_unique {c : Word.Cfg} {a : RCall} {got : List (Nat × Resp)} {d d' : Bytes} {r r' : Resp}
    (h : a.returns c got d r) (h' : a.returns c got d' r') : d = d' ∧ r = r' := by
  obtain ⟨cmd, h1, h3⟩ := h
  obtain ⟨cmd', h1', h3'⟩ := h'
  rw [h1] at h1'
  cases h1'
  rw [h3] at h3'
  simpa using h3'

end Verif.LiteOps

namespace Verif.AxiSys

open Verif.Axi

theorem WArgs.returns_unique {c : Cfg} (hc : c.Std) {a : WArgs} {got : List BBeat} {r r' : Resp} (h : a.returns c got r)
    (h' : a.returns c got r') : r = r' := by
  obtain ⟨cmd, cur, out, id, bl, nid, us, h1, h2, h3⟩ := h
  obtain ⟨cmd', cur', out', id', bl', nid', us', h1', h2', h3'⟩ := h'
  rw [h1] at h1'
  cases h1'
  obtain ⟨g1, _, g3, _⟩ := acceptWrite_ok hc h1
  rw [processWrite_spec c cmd _ _ g1 g3] at h2 h2'
  simp only [Except.ok.injEq, Prod.mk.injEq] at h2 h2'
  rw [← h2.2.2.1] at h3
  rw [← h2'.2.2.1, h3] at h3'
  simp only [Except.ok.injEq, Prod.mk.injEq] at h3'
  exact h3'.1

theorem returnsR_unique {c : Cfg} {a : Req} {got : List RBeat} {d d' : Bytes} {r r' : Resp} (h : returnsR c a got d r)
    (h' : returnsR c a got d' r') : d = d' ∧ r = r' := by
  obtain ⟨cmd, cur, us, h1, h3⟩ := h
  obtain ⟨cmd', cur', us', h1', h3'⟩ := h'
  rw [h1] at h1'
  cases h1'
  rw [processRead_spec] at h3 h3'
  rw [h3] at h3'
  simp only [Except.ok.injEq, Prod.mk.injEq] at h3'
  exact ⟨h3'.1, h3'.2.1⟩

end Verif.AxiSys

namespace Verif.AxiSys

open Verif.Axi Verif.AxiOps

variable {σ : Type} {c : Cfg} {t : Target σ} {μ : Nat → σ}

/-- See `C92_write_order`. -/
theorem WTrace.ordered {wa : Nat → WArgs} {p : Nat → WPort} (hT : WTrace c wa t p μ) (n : Nat) :
    let S := fun k => ({ w := p k, r := {}, mem := μ k } : Sys σ)
    ∃ ex : Op → List BBeat → List ((ABeat × List WBeat) × List (Nat × Bool)),
      (∀ op got, (op, some got) ∈ (p n).m.results → WriteDone c wa t S n op got (ex op got)) ∧
      ∀ op1 got1 op2 got2, (op1, some got1) ∈ (p n).m.results → (op2, some got2) ∈ (p n).m.results →
        Before (p n).m op1 op2 → ∀ x1 ∈ (ex op1 got1).flatMap (·.2), ∀ x2 ∈ (ex op2 got2).flatMap (·.2), x1.1 < x2.1 := by
  intro S
  have hd := hT.write_done n
  refine ⟨fun op got => if h : (op, some got) ∈ (p n).m.results then Classical.choose (hd op got h) else [], ?_, ?_⟩
  · intro op got h
    simp only [h, dite_true]
    exact (Classical.choose_spec (hd op got h)).1
  · intro op1 got1 op2 got2 r1 r2 hb x1 m1 x2 m2
    simp only [r1, r2, dite_true] at m1 m2
    obtain ⟨_, g1, o1, rfl⟩ := (Classical.choose_spec (hd op1 got1 r1)).2 x1.1 (List.mem_map_of_mem m1)
    obtain ⟨l2, g2, o2, rfl⟩ := (Classical.choose_spec (hd op2 got2 r2)).2 x2.1 (List.mem_map_of_mem m2)
    exact hT.served.order o1 o2 (Nat.le_of_lt l2) hb

/-- See `C92_read_order`. -/
theorem RTrace.ordered {ra : Nat → Req} {p : Nat → RPort} (hT : RTrace c ra t p μ) (n : Nat) :
    let S := fun k => ({ w := {}, r := p k, mem := μ k } : Sys σ)
    ∃ ex : Op → List RBeat → List Nat,
      (∀ op got, (op, some got) ∈ (p n).m.results → ReadDone c ra t S n op got (ex op got)) ∧
      ∀ op1 got1 op2 got2, (op1, some got1) ∈ (p n).m.results → (op2, some got2) ∈ (p n).m.results →
        Before (p n).m op1 op2 → ∀ x1 ∈ ex op1 got1, ∀ x2 ∈ ex op2 got2, x1 < x2 := by
  intro S
  have hd := hT.read_done n
  refine ⟨fun op got => if h : (op, some got) ∈ (p n).m.results then Classical.choose (hd op got h) else [], ?_, ?_⟩
  · intro op got h
    simp only [h, dite_true]
    exact (Classical.choose_spec (hd op got h)).1
  · intro op1 got1 op2 got2 r1 r2 hb x1 m1 x2 m2
    simp only [r1, r2, dite_true] at m1 m2
    obtain ⟨_, g1, o1, rfl⟩ := (Classical.choose_spec (hd op1 got1 r1)).2 x1 m1
    obtain ⟨l2, g2, o2, rfl⟩ := (Classical.choose_spec (hd op2 got2 r2)).2 x2 m2
    exact hT.served.order o1 o2 (Nat.le_of_lt l2) hb

end Verif.AxiSys

namespace Verif.Apb

variable {σ : Type} {slverr : Bool} {f : Access σ} {y : Nat → Sys σ} {μ : Nat → σ}

theorem ATrace.issued_of_result (hT : ATrace slverr f y μ) {n : Nat} {op : Op} {r : Option (List Rsp)}
    (hr : (op, r) ∈ (y n).m.results) : op ∈ (y n).m.issued := by
  obtain ⟨st, h1, h2⟩ := (hT.minv n).book.acct
  exact h1.mem_iff.2 (by rw [List.append_assoc]; exact List.mem_append_left _ ((h2 op).2 ⟨_, hr⟩))

theorem ATrace.ordered (hT : ATrace slverr f y μ) (n : Nat) (hk : (y n).m.issued.Nodup) :
    ∃ ex : Op → List Rsp → List Nat,
      (∀ op got, (op, some got) ∈ (y n).m.results → Executed slverr f (fun k => (y k).m) μ n op got (ex op got)) ∧
      ∀ op1 got1 op2 got2, (op1, some got1) ∈ (y n).m.results → (op2, some got2) ∈ (y n).m.results →
        [op1, op2].Sublist (y n).m.issued → ∀ t1 ∈ ex op1 got1, ∀ t2 ∈ ex op2 got2, t1 < t2 := by
  have hd : ∀ op got, (op, some got) ∈ (y n).m.results → ∃ ts, Executed slverr f (fun k => (y k).m) μ n op got ts ∧
      ∀ t ∈ ts, t < n ∧ (y t).m.active = [op] := by
    intro op got hr
    obtain ⟨h1, ts, h2, h3, h4⟩ := hT.served n hk op got hr
    refine ⟨ts, ⟨h1, h2, h3, ?_⟩, ?_⟩
    · intro i x r t hx hg ht
      obtain ⟨g1, g2, g3⟩ := h4 i x r t hx hg ht
      exact ⟨g1, g2.1, g3⟩
    · intro t ht
      obtain ⟨i, hi, rfl⟩ := List.getElem_of_mem ht
      obtain ⟨g1, g2, _⟩ := h4 i _ _ _ (List.getElem?_eq_getElem (by omega)) (List.getElem?_eq_getElem (by omega))
        (List.getElem?_eq_getElem hi)
      exact ⟨g1, g2.2⟩
  refine ⟨fun op got => if h : (op, some got) ∈ (y n).m.results then Classical.choose (hd op got h) else [], ?_, ?_⟩
  · intro op got h
    simp only [h, dite_true]
    exact (Classical.choose_spec (hd op got h)).1
  · intro op1 got1 op2 got2 r1 r2 hb x1 m1 x2 m2
    simp only [r1, r2, dite_true] at m1 m2
    obtain ⟨l1, o1⟩ := (Classical.choose_spec (hd op1 got1 r1)).2 x1 m1
    obtain ⟨l2, o2⟩ := (Classical.choose_spec (hd op2 got2 r2)).2 x2 m2
    exact hT.order o1 o2 (Nat.le_of_lt l1) (Nat.le_of_lt l2) hk hb

end Verif.Apb
