import Verif.Proof.AxiSysProgress
import Verif.Props.AxiSystem

/-!
# Progress of a connected AXI master and slave (C93)

`Sys.run c wa ra t st evs` is the system after an arbitrary history `evs`. An event is a piece of a coroutine
(`Ev.progress`), a call or a change of the reset. The other files say what happens if something happens; here: it happens.
-/

namespace Verif.AxiSys

open Verif.Axi Verif.AxiOps Verif.AxiOps.Master

variable {σ : Type}

/-- A schedule is fair if it does not ignore any piece of a coroutine that can be executed from some instant on: again and again,
the piece is executed or would do nothing. -/
def Fair (c : Cfg) (wa : Nat → WArgs) (ra : Nat → Req) (t : Target σ) (S : Nat → Sys σ) (sched : Nat → Ev) : Prop :=
  ∀ e : Ev, e.progress = true → ∀ n, ∃ k, n ≤ k ∧ (sched k = e ∨ (S k).step c wa ra t e = S k)

theorem stabilises {α : Type} (f : Nat → α) (μ : α → Nat) (h : ∀ n, f (n + 1) = f n ∨ μ (f (n + 1)) < μ (f n)) :
    ∃ N, ∀ n, N ≤ n → f n = f N := by
  have key : ∀ k n0, μ (f n0) ≤ k → ∃ N, ∀ n, N ≤ n → f n = f N := by
    intro k
    induction k with
    | zero =>
      intro n0 hk
      refine ⟨n0, fun n hn => ?_⟩
      obtain ⟨d, rfl⟩ := Nat.exists_eq_add_of_le hn
      clear hn
      induction d with
      | zero => rfl
      | succ d ih =>
        rcases h (n0 + d) with h1 | h1
        · rw [← Nat.add_assoc, h1, ih]
        · rw [ih] at h1; omega
    | succ k ih =>
      intro n0 hk
      by_cases hex : ∃ n, n0 ≤ n ∧ f n ≠ f n0
      · have hmono : ∀ d, f (n0 + d) = f n0 ∨ μ (f (n0 + d)) < μ (f n0) := by
          intro d
          induction d with
          | zero => exact .inl rfl
          | succ d ihd =>
            rw [← Nat.add_assoc]
            rcases h (n0 + d) with h1 | h1
            · rw [h1]; exact ihd
            · rcases ihd with h2 | h2
              · rw [h2] at h1; exact .inr h1
              · exact .inr (by omega)
        obtain ⟨n, hn, hne⟩ := hex
        obtain ⟨d, rfl⟩ := Nat.exists_eq_add_of_le hn
        rcases hmono d with h1 | h1
        · exact absurd h1 hne
        · exact ih (n0 + d) (by omega)
      · refine ⟨n0, fun n hn => ?_⟩
        by_cases he : f n = f n0
        · exact he
        · exact absurd ⟨n, hn, he⟩ hex
  exact key _ 0 (Nat.le_refl _)

theorem run_append (c : Cfg) (wa : Nat → WArgs) (ra : Nat → Req) (t : Target σ) (st : σ) (evs : List Ev) (e : Ev) :
    Sys.run c wa ra t st (evs ++ [e]) = (Sys.run c wa ra t st evs).step c wa ra t e := by
  simp [Sys.run, List.foldl_append]

section

variable (c : Cfg) (hc : c.Std) (wa : Nat → WArgs) (ra : Nat → Req) (hi : IdsFit c wa ra) (t : Target σ) (st : σ)

include hc hi

theorem run_winv (evs : List Ev) : ∃ w, WInv c wa (Sys.run c wa ra t st evs).w w := by
  obtain ⟨w, hw, _⟩ := (Sys.traceW (wa := wa) (ra := ra) (t := t) (st := st) (evs := evs) hc hi.w).inv evs.length
  refine ⟨w, ?_⟩
  simp only [Sys.at, List.take_length] at hw
  exact hw

theorem run_rinv (evs : List Ev) : ∃ w, RInv c ra (Sys.run c wa ra t st evs).r w := by
  obtain ⟨w, hw, _⟩ := (Sys.traceR (wa := wa) (ra := ra) (t := t) (st := st) (evs := evs) hc hi.r).inv evs.length
  refine ⟨w, ?_⟩
  simp only [Sys.at, List.take_length] at hw
  exact hw

/-- **C93, termination.** Without further calls the system comes to rest: there is a measure which every piece of a coroutine
that does anything decreases. -/
theorem C93_terminates : ∃ μ : Sys σ → Nat, ∀ (evs : List Ev) (e : Ev), e.progress = true →
    (Sys.run c wa ra t st evs).step c wa ra t e = Sys.run c wa ra t st evs ∨
      μ ((Sys.run c wa ra t st evs).step c wa ra t e) < μ (Sys.run c wa ra t st evs) := by
  refine ⟨fun s => s.w.wt c wa + s.r.wt c ra, ?_⟩
  intro evs e he
  cases e with
  | w e =>
    obtain ⟨w, hw⟩ := run_winv c hc wa ra hi t st evs
    rcases hw.decreases (t := t) hc (wMk_id hc hi.w) (Sys.run c wa ra t st evs).mem e he with h | h
    · left; simp only [Sys.step, h]
    · right; simp only [Sys.step]; omega
  | r e =>
    obtain ⟨w, hw⟩ := run_rinv c hc wa ra hi t st evs
    rcases hw.decreases (t := t) hc (rMk_id hc hi.r) (Sys.run c wa ra t st evs).mem e he with h | h
    · left; simp only [Sys.step, h]
    · right; simp only [Sys.step]; omega

/-- **C93, no deadlock.** If the reset is not asserted and no coroutine can do anything, every operation has its result, no
`init_...` call is waiting and the masters are idle. -/
theorem C93_no_deadlock (evs : List Ev) :
    let s := Sys.run c wa ra t st evs
    (∀ e : Ev, e.progress = true → s.step c wa ra t e = s) →
    (s.w.m.running = true → s.w.m.idle = true ∧ s.w.m.wrappers = [] ∧ ∀ op ∈ s.w.m.issued, ∃ r, (op, r) ∈ s.w.m.results) ∧
    (s.r.m.running = true → s.r.m.idle = true ∧ s.r.m.wrappers = [] ∧ ∀ op ∈ s.r.m.issued, ∃ r, (op, r) ∈ s.r.m.results) := by
  intro s hq
  have done : ∀ {ρ : Type} {m : Master ρ}, m.Inv → m.pend = [] →
      m.idle = true ∧ ∀ op ∈ m.issued, ∃ r, (op, r) ∈ m.results := by
    intro ρ m hm hp
    refine ⟨?_, ?_⟩
    · simp only [idle, decide_eq_true_eq, hm.flight, hp]; rfl
    · intro op hop
      have := hm.acct.mem_iff.1 hop
      rw [hp, List.append_nil, List.mem_map] at this
      obtain ⟨⟨o, r⟩, h1, h2⟩ := this
      exact ⟨r, by simp only at h2; rw [← h2]; exact h1⟩
  obtain ⟨w, hw⟩ := run_winv c hc wa ra hi t st evs
  obtain ⟨r, hr⟩ := run_rinv c hc wa ra hi t st evs
  constructor
  · intro hrun
    obtain ⟨h1, h2⟩ := hw.quiet (t := t) hc hrun s.mem (fun e he => by
      have := hq (.w e) he
      have h1 := congrArg Sys.w this
      have h2 := congrArg Sys.mem this
      exact Prod.ext h1 h2) (wMk_id hc hi.w)
    obtain ⟨h3, h4⟩ := done hw.m.inv h1
    exact ⟨h3, h2, h4⟩
  · intro hrun
    obtain ⟨h1, h2⟩ := hr.quiet (t := t) hc hrun s.mem (fun e he => by
      have := hq (.r e) he
      have h1 := congrArg Sys.r this
      have h2 := congrArg Sys.mem this
      exact Prod.ext h1 h2)
    obtain ⟨h3, h4⟩ := done hr.m.inv h1
    exact ⟨h3, h2, h4⟩

end

/-! ## Every operation completes -/

/-- A piece of a coroutine of the write side is a step of the master, or leaves it alone; never a reset. -/
theorem WPort.step_m (c : Cfg) (args : Nat → WArgs) (t : Target σ) (p : WPort) (st : σ) (e : WEv) (he : e.progress = true) :
    (p.step c args t st e).1.m = p.m ∨ ∃ f, f ≠ AxiOps.Ev.reset true ∧ f ≠ AxiOps.Ev.reset false ∧
      (p.step c args t st e).1.m = p.m.step c.idCount f := by
  cases e with
  | write => simp [WEv.progress] at he
  | init => simp [WEv.progress] at he
  | reset v => simp [WEv.progress] at he
  | runInit i => exact .inr ⟨.runInit i, by simp, by simp, rfl⟩
  | take =>
    simp only [WPort.step, WPort.take]
    split
    · split
      · exact .inl rfl
      · split
        · exact .inl rfl
        · exact .inr ⟨.take, by simp, by simp, rfl⟩
    · exact .inl rfl
  | sendAW =>
    simp only [WPort.step, WPort.sendAW]
    split
    · split
      · exact .inr ⟨.burst, by simp, by simp, rfl⟩
      · exact .inl rfl
    · exact .inl rfl
  | sendW => simp only [WPort.step, WPort.sendW]; split <;> exact .inl rfl
  | start =>
    simp only [WPort.step, WPort.start]
    split
    · exact .inr ⟨.start, by simp, by simp, rfl⟩
    · exact .inl rfl
  | slaveAW => simp only [WPort.step, WPort.slaveAW]; split <;> (try split) <;> (try split) <;> exact .inl rfl
  | slaveW =>
    simp only [WPort.step, WPort.slaveW]
    split <;> (try split) <;> (try split) <;> (try split) <;> exact .inl rfl
  | slaveB => simp only [WPort.step, WPort.slaveB]; split <;> (try split) <;> exact .inl rfl
  | deliver =>
    simp only [WPort.step, WPort.deliver]
    split
    · rename_i x rest _
      exact .inr ⟨.resp x.id x, by simp, by simp, rfl⟩
    · exact .inl rfl
  | workTake i => exact .inr ⟨.workTake i, by simp, by simp, rfl⟩
  | workGet i => exact .inr ⟨.workGet i, by simp, by simp, rfl⟩
  | workDone i => exact .inr ⟨.workDone i, by simp, by simp, rfl⟩

theorem RPort.step_m (c : Cfg) (args : Nat → Req) (t : Target σ) (p : RPort) (st : σ) (e : REv) (he : e.progress = true) :
    (p.step c args t st e).1.m = p.m ∨ ∃ f, f ≠ AxiOps.Ev.reset true ∧ f ≠ AxiOps.Ev.reset false ∧
      (p.step c args t st e).1.m = p.m.step c.idCount f := by
  cases e with
  | read => simp [REv.progress] at he
  | init => simp [REv.progress] at he
  | reset v => simp [REv.progress] at he
  | runInit i => exact .inr ⟨.runInit i, by simp, by simp, rfl⟩
  | take =>
    simp only [RPort.step, RPort.take]
    split
    · split
      · exact .inl rfl
      · exact .inr ⟨.take, by simp, by simp, rfl⟩
    · exact .inl rfl
  | sendAR =>
    simp only [RPort.step, RPort.sendAR]
    split
    · split
      · exact .inr ⟨.burst, by simp, by simp, rfl⟩
      · exact .inl rfl
    · exact .inl rfl
  | start =>
    simp only [RPort.step, RPort.start]
    split
    · exact .inr ⟨.start, by simp, by simp, rfl⟩
    · exact .inl rfl
  | slaveAR => simp only [RPort.step, RPort.slaveAR]; split <;> (try split) <;> (try split) <;> exact .inl rfl
  | slaveR => simp only [RPort.step, RPort.slaveR]; split <;> exact .inl rfl
  | deliver =>
    simp only [RPort.step, RPort.deliver]
    split
    · rename_i x rest _
      exact .inr ⟨.resp x.id x, by simp, by simp, rfl⟩
    · exact .inl rfl
  | workTake i => exact .inr ⟨.workTake i, by simp, by simp, rfl⟩
  | workGet i => exact .inr ⟨.workGet i, by simp, by simp, rfl⟩
  | workDone i => exact .inr ⟨.workDone i, by simp, by simp, rfl⟩

/-- What later pieces of coroutines preserve. -/
structure Later {ρ : Type} (m m' : Master ρ) : Prop where
  run : m.running = true → m'.running = true
  calls : ∀ op ∈ m.issued ++ m.wrappers, op ∈ m'.issued ++ m'.wrappers
  flush : ∀ op, (op, none) ∈ m'.results → (op, none) ∈ m.results

theorem Later.refl {ρ : Type} (m : Master ρ) : Later m m := ⟨id, fun _ h => h, fun _ h => h⟩

theorem Later.trans {ρ : Type} {m m' m'' : Master ρ} (h : Later m m') (h' : Later m' m'') : Later m m'' :=
  ⟨fun x => h'.run (h.run x), fun op x => h'.calls op (h.calls op x), fun op x => h.flush op (h'.flush op x)⟩

theorem Later.step {ρ : Type} (n : Nat) (m : Master ρ) (e : AxiOps.Ev ρ) (he : e ≠ .reset true) : Later m (m.step n e) := by
  refine ⟨?_, ?_, ?_⟩
  · intro hr
    cases e with
    | write op => exact hr
    | init op => exact hr
    | runInit i => simp only [Master.step]; split <;> exact hr
    | take => simp only [Master.step, Master.take]; split <;> (try split) <;> exact hr
    | burst => simp only [Master.step, Master.burst]; split <;> (try split) <;> exact hr
    | start => simp only [Master.step, Master.start]; split <;> (try split) <;> exact hr
    | resp t r => simp only [Master.step, Master.resp]; split <;> (try split) <;> exact hr
    | workTake i => exact hr
    | workGet i => simp only [Master.step, Master.workGet]; split <;> (try split) <;> exact hr
    | workDone i => simp only [Master.step, Master.workDone]; split <;> exact hr
    | reset v =>
      cases v with
      | true => exact absurd rfl he
      | false => rfl
  · intro op ho
    by_cases hcall : isCall e = true
    · cases e with
      | write o =>
        simp only [Master.step, Master.write, List.mem_append, List.mem_singleton] at ho ⊢
        rcases ho with h | h
        · exact .inl (.inl h)
        · exact .inr h
      | init o =>
        simp only [Master.step, List.mem_append, List.mem_singleton] at ho ⊢
        rcases ho with h | h
        · exact .inl h
        · exact .inr (.inl h)
      | _ => simp [isCall] at hcall
    · exact (iw_step n m e (by simpa using hcall)).mem_iff.2 ho
  · intro op ho
    obtain ⟨d, _, hd⟩ := Master.step_results n m e he
    rw [hd, List.mem_append] at ho
    rcases ho with h | h
    · exact h
    · obtain ⟨x, _, hx⟩ := List.mem_map.1 h
      cases hx

section

variable (c : Cfg) (hc : c.Std) (wa : Nat → WArgs) (ra : Nat → Req) (hi : IdsFit c wa ra) (t : Target σ) (st : σ)

theorem later_step (s : Sys σ) (e : Ev) (he : e.progress = true) :
    Later s.w.m (s.step c wa ra t e).w.m ∧ Later s.r.m (s.step c wa ra t e).r.m := by
  cases e with
  | w e =>
    refine ⟨?_, Later.refl _⟩
    rcases WPort.step_m c wa t s.w s.mem e he with h | ⟨f, h1, _, h2⟩
    · simp only [Sys.step, h]; exact Later.refl _
    · simp only [Sys.step, h2]; exact Later.step _ _ _ h1
  | r e =>
    refine ⟨Later.refl _, ?_⟩
    rcases RPort.step_m c ra t s.r s.mem e he with h | ⟨f, h1, _, h2⟩
    · simp only [Sys.step, h]; exact Later.refl _
    · simp only [Sys.step, h2]; exact Later.step _ _ _ h1

include hc hi

/-- **C93.** After any history `evs` at whose end the reset is deasserted, if no more calls are made and the reset stays
deasserted, then under any fair schedule the system comes to rest (`N`): from then on both masters are idle, and every
operation that was called and had no result at the end of `evs` has completed with responses (never flushed). What the result
is then follows from C89 - C92. -/
theorem C93_completes (evs : List Ev) (sched : Nat → Ev) :
    let S : Nat → Sys σ := fun n => Sys.run c wa ra t st (evs ++ (List.range n).map sched)
    (∀ n, (sched n).progress = true) → Fair c wa ra t S sched →
    (S 0).w.m.running = true → (S 0).r.m.running = true →
    ∃ N, ∀ n, N ≤ n →
      (S n).w.m.idle = true ∧ (S n).r.m.idle = true ∧
      (∀ op ∈ (S 0).w.m.issued ++ (S 0).w.m.wrappers, (∀ r, (op, r) ∉ (S 0).w.m.results) →
        ∃ got, (op, some got) ∈ (S n).w.m.results) ∧
      (∀ op ∈ (S 0).r.m.issued ++ (S 0).r.m.wrappers, (∀ r, (op, r) ∉ (S 0).r.m.results) →
        ∃ got, (op, some got) ∈ (S n).r.m.results) := by
  intro S hs hf hw0 hr0
  have hsucc : ∀ n, S (n + 1) = (S n).step c wa ra t (sched n) := by
    intro n
    simp only [S]
    rw [List.range_succ, List.map_append, ← List.append_assoc]
    exact run_append c wa ra t st _ _
  obtain ⟨μ, hμ⟩ := C93_terminates c hc wa ra hi t st
  obtain ⟨N, hN⟩ := stabilises S μ (fun n => by rw [hsucc]; exact hμ _ _ (hs n))
  have hlater : ∀ n, Later (S 0).w.m (S n).w.m ∧ Later (S 0).r.m (S n).r.m := by
    intro n
    induction n with
    | zero => exact ⟨Later.refl _, Later.refl _⟩
    | succ n ih =>
      rw [hsucc]
      obtain ⟨h1, h2⟩ := later_step c wa ra t (S n) (sched n) (hs n)
      exact ⟨ih.1.trans h1, ih.2.trans h2⟩
  have hquiet : ∀ e : Ev, e.progress = true → (S N).step c wa ra t e = S N := by
    intro e he
    obtain ⟨k, hk, h⟩ := hf e he N
    rcases h with h | h
    · have h1 := hsucc k
      rw [h, hN k hk, hN (k + 1) (by omega)] at h1
      exact h1.symm
    · rw [hN k hk] at h; exact h
  obtain ⟨hdw, hdr⟩ := C93_no_deadlock c hc wa ra hi t st (evs ++ (List.range N).map sched) hquiet
  obtain ⟨w1, w2, w3⟩ := hdw ((hlater N).1.run hw0)
  obtain ⟨r1, r2, r3⟩ := hdr ((hlater N).2.run hr0)
  refine ⟨N, ?_⟩
  intro n hn
  rw [hN n hn]
  refine ⟨w1, r1, ?_, ?_⟩
  · intro op ho hno
    have h1 := (hlater N).1.calls op ho
    have h2 : (S N).w.m.wrappers = [] := w2
    rw [h2, List.append_nil] at h1
    obtain ⟨r, hr⟩ := w3 op h1
    cases r with
    | none => exact absurd ((hlater N).1.flush op hr) (hno none)
    | some got => exact ⟨got, hr⟩
  · intro op ho hno
    have h1 := (hlater N).2.calls op ho
    have h2 : (S N).r.m.wrappers = [] := r2
    rw [h2, List.append_nil] at h1
    obtain ⟨r, hr⟩ := r3 op h1
    cases r with
    | none => exact absurd ((hlater N).2.flush op hr) (hno none)
    | some got => exact ⟨got, hr⟩

end

/-! ## Fair schedules exist, and an example -/

/-- All pieces of coroutines, with the index `i` where there is one. -/
def pieces (i : Nat) : List Ev :=
  [.w (.runInit i), .w .take, .w .sendAW, .w .sendW, .w .start, .w .slaveAW, .w .slaveW, .w .slaveB, .w .deliver,
   .w (.workTake i), .w (.workGet i), .w (.workDone i),
   .r (.runInit i), .r .take, .r .sendAR, .r .start, .r .slaveAR, .r .slaveR, .r .deliver, .r (.workTake i), .r (.workGet i),
   .r (.workDone i)]

/-- Goes through the pieces again and again, with every index again and again. -/
def roundRobin (n : Nat) : Ev := ((pieces (n / 22 - 2 ^ (n / 22).log2))[n % 22]?).getD (.w .take)

theorem roundRobin_progress (n : Nat) : (roundRobin n).progress = true := by
  unfold roundRobin
  have h : ∀ i, ∀ e ∈ pieces i, e.progress = true := by
    intro i e he
    simp only [pieces, List.mem_cons, List.not_mem_nil, or_false] at he
    rcases he with h | h | h | h | h | h | h | h | h | h | h | h | h | h | h | h | h | h | h | h | h | h <;> (subst h; rfl)
  cases hx : (pieces (n / 22 - 2 ^ (n / 22).log2))[n % 22]? with
  | none => rfl
  | some e => exact h _ e (List.mem_of_getElem? hx)

theorem roundRobin_fair (c : Cfg) (wa : Nat → WArgs) (ra : Nat → Req) (t : Target σ) (S : Nat → Sys σ) :
    Fair c wa ra t S roundRobin := by
  intro e he n
  have h : ∃ i j, j < 22 ∧ (pieces i)[j]? = some e := by
    have key : ∀ i, e ∈ pieces i → ∃ i j, j < 22 ∧ (pieces i)[j]? = some e := by
      intro i hm
      obtain ⟨j, hj, hx⟩ := List.getElem_of_mem hm
      exact ⟨i, j, hj, by rw [List.getElem?_eq_getElem hj, hx]⟩
    cases e with
    | w e =>
      cases e with
      | write => simp [Ev.progress, WEv.progress] at he
      | init => simp [Ev.progress, WEv.progress] at he
      | reset v => simp [Ev.progress, WEv.progress] at he
      | runInit i => exact key i (by simp [pieces])
      | workTake i => exact key i (by simp [pieces])
      | workGet i => exact key i (by simp [pieces])
      | workDone i => exact key i (by simp [pieces])
      | _ => exact key 0 (by simp [pieces])
    | r e =>
      cases e with
      | read => simp [Ev.progress, REv.progress] at he
      | init => simp [Ev.progress, REv.progress] at he
      | reset v => simp [Ev.progress, REv.progress] at he
      | runInit i => exact key i (by simp [pieces])
      | workTake i => exact key i (by simp [pieces])
      | workGet i => exact key i (by simp [pieces])
      | workDone i => exact key i (by simp [pieces])
      | _ => exact key 0 (by simp [pieces])
  obtain ⟨i, j, hj, hx⟩ := h
  have hlt : n + i < 2 ^ (n + i) := Nat.lt_two_pow_self
  have hlog : (2 ^ (n + i) + i).log2 = n + i := by
    refine (Nat.log2_eq_iff (by omega)).2 ⟨by omega, ?_⟩
    rw [Nat.pow_succ]; omega
  refine ⟨22 * (2 ^ (n + i) + i) + j, by omega, .inl ?_⟩
  unfold roundRobin
  have h1 : (22 * (2 ^ (n + i) + i) + j) / 22 = 2 ^ (n + i) + i := by omega
  have h2 : (22 * (2 ^ (n + i) + i) + j) % 22 = j := by omega
  rw [h1, h2, hlog, Nat.add_sub_cancel_left, hx]
  rfl

/-- The history `exEvs` up to an instant at which two writes are under way (one half sent, one waiting) and a read has been
called with `init_read`: they all complete. -/
def exPart : List Ev := exEvs.take 9 ++ [.r .init]

theorem exPart_state : let s := Sys.run exC exW exR ramTarget exM exPart
    s.w.m.running = true ∧ s.r.m.running = true ∧ s.w.m.issued = [exW0, exW1] ∧ s.w.m.results = [] ∧ s.w.sl.isSome = true ∧
      s.w.todo ≠ [] ∧ s.r.m.issued = [] ∧ s.r.m.results = [] ∧ s.r.m.wrappers = [exR0] := by
  decide +kernel

example : ∃ N, ∀ n, N ≤ n → (∃ got, (exW0, some got) ∈
      (Sys.run exC exW exR ramTarget exM (exPart ++ (List.range n).map roundRobin)).w.m.results) ∧
    (∃ got, (exW1, some got) ∈ (Sys.run exC exW exR ramTarget exM (exPart ++ (List.range n).map roundRobin)).w.m.results) ∧
    ∃ got, (exR0, some got) ∈ (Sys.run exC exW exR ramTarget exM (exPart ++ (List.range n).map roundRobin)).r.m.results := by
  obtain ⟨h1, h2, h3, h4, _, _, h5, h6, h7⟩ := exPart_state
  have h0 : exPart ++ (List.range 0).map roundRobin = exPart := by simp
  have := C93_completes exC exC_std exW exR exIds ramTarget exM exPart roundRobin roundRobin_progress
    (roundRobin_fair _ _ _ _ _) (by simp only [h0]; exact h1) (by simp only [h0]; exact h2)
  simp only [h0, h3, h4, h5, h6, h7] at this
  obtain ⟨N, hN⟩ := this
  refine ⟨N, fun n hn => ?_⟩
  obtain ⟨_, _, hw, hr⟩ := hN n hn
  exact ⟨hw exW0 (by simp) (by simp), hw exW1 (by simp) (by simp), hr exR0 (by simp) (by simp)⟩

end Verif.AxiSys
