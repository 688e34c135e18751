import Verif.Proof.LiteProgress
import Verif.Props.AxiSysProgress
import Verif.Props.LiteSystem

/-!
# Progress of a connected AXI-lite master and slave (C97)

`Duo.run f g { mem := m0 } evs` is the system after an arbitrary history `evs`, with any slaves `f`, `g` on any target.
-/

namespace Verif.LiteOps

open AxiSys (stabilises)

variable {χ ρ χ' ρ' σ : Type}

theorem Duo.run_append (f : χ → σ → ρ × σ) (g : χ' → σ → ρ' × σ) (s : Duo χ ρ χ' ρ' σ) (evs : List (DuoEv χ ρ χ' ρ'))
    (e : DuoEv χ ρ χ' ρ') : Duo.run f g s (evs ++ [e]) = (Duo.run f g s evs).step f g e := by
  simp [Duo.run, List.foldl_append]

/-- **C97, termination.** Without further calls the system comes to rest: there is a measure which every piece of a coroutine
that does anything decreases. -/
theorem C97_terminates (f : χ → σ → ρ × σ) (g : χ' → σ → ρ' × σ) : ∃ μ : Duo χ ρ χ' ρ' σ → Nat,
    ∀ (s : Duo χ ρ χ' ρ' σ) (e : DuoEv χ ρ χ' ρ'), e.progress = true → s.step f g e = s ∨ μ (s.step f g e) < μ s := by
  refine ⟨fun s => s.w.wt + s.r.wt, ?_⟩
  intro s e he
  cases e with
  | w e =>
    rcases Port.decreases f s.w s.mem e he with h | h
    · left; simp only [Duo.step, h]
    · right; simp only [Duo.step]; omega
  | r e =>
    rcases Port.decreases g s.r s.mem e he with h | h
    · left; simp only [Duo.step, h]
    · right; simp only [Duo.step]; omega

theorem Lite.Inv.all_done {s : Lite χ ρ} (h : s.Inv) (hp : s.pend = []) :
    s.idle = true ∧ ∀ op ∈ s.issued, ∃ r, (op, r) ∈ s.results := by
  refine ⟨by simp [Lite.idle, h.flight, hp], ?_⟩
  intro op hop
  obtain ⟨st, h1, h2⟩ := h.acct
  rw [hp, List.append_nil] at h1
  exact (h2 op).1 (h1.mem_iff.1 hop)

/-- Each side by itself: if no coroutine of it can do anything, its operations have their results. -/
theorem Duo.done (f : χ → σ → ρ × σ) (g : χ' → σ → ρ' × σ) (m0 : σ) (evs : List (DuoEv χ ρ χ' ρ')) :
    let s := Duo.run f g { mem := m0 } evs
    ((∀ e : PortEv χ ρ, e.progress = true → s.w.step f s.mem e = (s.w, s.mem)) → s.w.m.running = true →
      s.w.m.idle = true ∧ s.w.m.wrappers = [] ∧ ∀ op ∈ s.w.m.issued, ∃ r, (op, r) ∈ s.w.m.results) ∧
    ((∀ e : PortEv χ' ρ', e.progress = true → s.r.step g s.mem e = (s.r, s.mem)) → s.r.m.running = true →
      s.r.m.idle = true ∧ s.r.m.wrappers = [] ∧ ∀ op ∈ s.r.m.issued, ∃ r, (op, r) ∈ s.r.m.results) := by
  intro s
  have hat : Duo.at f g { mem := m0 } evs evs.length = s := by simp only [Duo.at, List.take_length]; rfl
  constructor
  · intro hq hrun
    obtain ⟨sv, hi⟩ := (Duo.traceW f g m0 evs).inv evs.length
    have h0 : (Duo.at f g { mem := m0 } evs evs.length).w = s.w := congrArg Duo.w hat
    obtain ⟨h1, h2⟩ := hi.quiet (by rw [h0]; exact hrun) s.mem (fun e he => by rw [h0]; exact hq e he)
    have hI := hi.inv
    rw [h0] at h1 h2 hI
    obtain ⟨h3, h4⟩ := hI.all_done h1
    exact ⟨h3, h2, h4⟩
  · intro hq hrun
    obtain ⟨sv, hi⟩ := (Duo.traceR f g m0 evs).inv evs.length
    have h0 : (Duo.at f g { mem := m0 } evs evs.length).r = s.r := congrArg Duo.r hat
    obtain ⟨h1, h2⟩ := hi.quiet (by rw [h0]; exact hrun) s.mem (fun e he => by rw [h0]; exact hq e he)
    have hI := hi.inv
    rw [h0] at h1 h2 hI
    obtain ⟨h3, h4⟩ := hI.all_done h1
    exact ⟨h3, h2, h4⟩

/-- **C97, no deadlock.** If the reset is not asserted and no coroutine can do anything, every operation has its result, no
`init_...` call is waiting and the masters are idle. -/
theorem C97_no_deadlock (f : χ → σ → ρ × σ) (g : χ' → σ → ρ' × σ) (m0 : σ) (evs : List (DuoEv χ ρ χ' ρ')) :
    let s := Duo.run f g { mem := m0 } evs
    (∀ e : DuoEv χ ρ χ' ρ', e.progress = true → s.step f g e = s) →
    (s.w.m.running = true → s.w.m.idle = true ∧ s.w.m.wrappers = [] ∧ ∀ op ∈ s.w.m.issued, ∃ r, (op, r) ∈ s.w.m.results) ∧
    (s.r.m.running = true → s.r.m.idle = true ∧ s.r.m.wrappers = [] ∧ ∀ op ∈ s.r.m.issued, ∃ r, (op, r) ∈ s.r.m.results) := by
  intro s hq
  obtain ⟨h1, h2⟩ := Duo.done f g m0 evs
  exact ⟨h1 fun e he => Prod.ext (congrArg Duo.w (hq (.w e) he)) (congrArg Duo.mem (hq (.w e) he)),
    h2 fun e he => Prod.ext (congrArg Duo.r (hq (.r e) he)) (congrArg Duo.mem (hq (.r e) he))⟩

/-! ## Every operation completes -/

/-- What later pieces of coroutines preserve. -/
structure Later (m m' : Lite χ ρ) : Prop where
  run : m.running = true → m'.running = true
  calls : ∀ op ∈ m.issued ++ m.wrappers, op ∈ m'.issued ++ m'.wrappers
  flush : ∀ op, (op, none) ∈ m'.results → (op, none) ∈ m.results

theorem Later.refl (m : Lite χ ρ) : Later m m := ⟨id, fun _ h => h, fun _ h => h⟩

theorem Later.trans {m m' m'' : Lite χ ρ} (h : Later m m') (h' : Later m' m'') : Later m m'' :=
  ⟨fun x => h'.run (h.run x), fun op x => h'.calls op (h.calls op x), fun op x => h.flush op (h'.flush op x)⟩

theorem Later.step (m : Lite χ ρ) (e : Ev χ ρ) (he : e ≠ .reset true) : Later m (m.step e) := by
  cases e with
  | write op =>
    refine ⟨id, ?_, fun _ h => h⟩
    intro o ho
    simp only [Lite.step, Lite.write, List.mem_append, List.mem_singleton] at ho ⊢
    rcases ho with h | h
    · exact .inl (.inl h)
    · exact .inr h
  | init op =>
    refine ⟨id, ?_, fun _ h => h⟩
    intro o ho
    simp only [Lite.step, List.mem_append, List.mem_singleton] at ho ⊢
    rcases ho with h | h
    · exact .inl h
    · exact .inr (.inl h)
  | runInit i =>
    simp only [Lite.step]
    cases hw : m.wrappers[i]? with
    | none => exact Later.refl _
    | some op =>
      refine ⟨id, ?_, fun _ h => h⟩
      intro o ho
      simp only [Lite.write, List.mem_append, List.mem_singleton] at ho ⊢
      rcases ho with h | h
      · exact .inl (.inl h)
      · by_cases heq : o = op
        · exact .inl (.inr heq)
        · right
          obtain ⟨j, hj⟩ := List.getElem?_of_mem h
          refine List.mem_eraseIdx_iff_getElem?.2 ⟨j, ?_, hj⟩
          intro hji
          subst hji
          rw [hw] at hj
          exact heq (Option.some.inj hj).symm
  | take => simp only [Lite.step, Lite.take]; split <;> exact ⟨id, fun _ h => h, fun _ h => h⟩
  | send => simp only [Lite.step, Lite.send]; split <;> exact ⟨id, fun _ h => h, fun _ h => h⟩
  | resp r => simp only [Lite.step, Lite.resp]; split <;> exact ⟨id, fun _ h => h, fun _ h => h⟩
  | respTake => simp only [Lite.step, Lite.respTake]; split <;> exact ⟨id, fun _ h => h, fun _ h => h⟩
  | respGet => simp only [Lite.step, Lite.respGet]; split <;> exact ⟨id, fun _ h => h, fun _ h => h⟩
  | respDone =>
    simp only [Lite.step, Lite.respDone]
    split
    · refine ⟨id, fun _ h => h, fun op h => ?_⟩
      simp only [List.mem_append, List.mem_singleton, Prod.mk.injEq] at h
      rcases h with h | ⟨_, h⟩
      · exact h
      · cases h
    · exact ⟨id, fun _ h => h, fun _ h => h⟩
  | reset v =>
    cases v with
    | true => exact absurd rfl he
    | false => exact ⟨fun _ => rfl, fun _ h => h, fun _ h => h⟩

theorem Port.later (f : χ → σ → ρ × σ) (p : Port χ ρ) (mem : σ) (e : PortEv χ ρ) (he : e.progress = true) :
    Later p.m (p.step f mem e).1.m := by
  cases e with
  | reset v => simp [PortEv.progress] at he
  | serve =>
    simp only [Port.step]
    split <;> exact Later.refl _
  | deliver =>
    simp only [Port.step]
    split
    · exact Later.step _ (.resp _) (by simp)
    · exact Later.refl _
  | send =>
    simp only [Port.step]
    split
    · exact Later.step _ .send (by simp)
    · exact Later.refl _
  | master e =>
    simp only [Port.step]
    split
    · refine Later.step _ _ ?_
      rintro rfl
      simp [PortEv.progress, own] at he
    · exact Later.refl _

/-- **C97.** After any history `evs` at whose end the reset is deasserted, if no more calls are made and the reset stays
deasserted, then under any fair schedule the system comes to rest (`N`): from then on both masters are idle, and every
operation that was called and had no result at the end of `evs` has completed with responses (never flushed). What the result
is then follows from C75 - C77 and C96. -/
theorem C97_completes (f : χ → σ → ρ × σ) (g : χ' → σ → ρ' × σ) (m0 : σ) (evs : List (DuoEv χ ρ χ' ρ'))
    (sched : Nat → DuoEv χ ρ χ' ρ') :
    let S : Nat → Duo χ ρ χ' ρ' σ := fun n => Duo.run f g { mem := m0 } (evs ++ (List.range n).map sched)
    (∀ n, (sched n).progress = true) → Fair f g S sched →
    (S 0).w.m.running = true → (S 0).r.m.running = true →
    ∃ N, ∀ n, N ≤ n →
      (S n).w.m.idle = true ∧ (S n).r.m.idle = true ∧
      (∀ op ∈ (S 0).w.m.issued ++ (S 0).w.m.wrappers, (∀ r, (op, r) ∉ (S 0).w.m.results) →
        ∃ got, (op, some got) ∈ (S n).w.m.results) ∧
      (∀ op ∈ (S 0).r.m.issued ++ (S 0).r.m.wrappers, (∀ r, (op, r) ∉ (S 0).r.m.results) →
        ∃ got, (op, some got) ∈ (S n).r.m.results) := by
  intro S hs hf hw0 hr0
  have hsucc : ∀ n, S (n + 1) = (S n).step f g (sched n) := by
    intro n
    simp only [S]
    rw [List.range_succ, List.map_append, ← List.append_assoc]
    exact Duo.run_append f g _ _ _
  obtain ⟨μ, hμ⟩ := C97_terminates (χ := χ) (ρ := ρ) (χ' := χ') (ρ' := ρ') f g
  obtain ⟨N, hN⟩ := stabilises S μ (fun n => by rw [hsucc]; exact hμ _ _ (hs n))
  have hlater : ∀ n, Later (S 0).w.m (S n).w.m ∧ Later (S 0).r.m (S n).r.m := by
    intro n
    induction n with
    | zero => exact ⟨Later.refl _, Later.refl _⟩
    | succ n ih =>
      rw [hsucc]
      have hp := hs n
      revert hp
      cases sched n with
      | w e => exact fun hp => ⟨ih.1.trans (Port.later f _ _ e hp), ih.2⟩
      | r e => exact fun hp => ⟨ih.1, ih.2.trans (Port.later g _ _ e hp)⟩
  have hquiet : ∀ e : DuoEv χ ρ χ' ρ', e.progress = true → (S N).step f g e = S N := by
    intro e he
    obtain ⟨k, hk, h⟩ := hf e he N
    rcases h with h | h
    · have h1 := hsucc k
      rw [h, hN k hk, hN (k + 1) (by omega)] at h1
      exact h1.symm
    · rw [hN k hk] at h; exact h
  obtain ⟨hdw, hdr⟩ := C97_no_deadlock f g m0 (evs ++ (List.range N).map sched) hquiet
  obtain ⟨w1, w2, w3⟩ := hdw ((hlater N).1.run hw0)
  obtain ⟨r1, r2, r3⟩ := hdr ((hlater N).2.run hr0)
  refine ⟨N, ?_⟩
  intro n hn
  rw [hN n hn]
  refine ⟨w1, r1, ?_, ?_⟩
  · intro op ho hno
    have h1 := (hlater N).1.calls op ho
    have h2 : (S N).w.m.wrappers = [] := w2
    rw [h2, List.append_nil] at h1
    obtain ⟨r, hr⟩ := w3 op h1
    cases r with
    | none => exact absurd ((hlater N).1.flush op hr) (hno none)
    | some got => exact ⟨got, hr⟩
  · intro op ho hno
    have h1 := (hlater N).2.calls op ho
    have h2 : (S N).r.m.wrappers = [] := r2
    rw [h2, List.append_nil] at h1
    obtain ⟨r, hr⟩ := r3 op h1
    cases r with
    | none => exact absurd ((hlater N).2.flush op hr) (hno none)
    | some got => exact ⟨got, hr⟩

/-- **C97, the slave survives.** No transfer of an accepted write makes the slave's coroutine fail, whatever the target and with
or without a strobe signal: it always answers. -/
theorem C97_slave_survives (c : Word.Cfg) (hl : 0 < c.lanes) (a : WCall) (op : Op Word.WXfer) (h : a.makes c op)
    (t : Target σ) (strb : Bool) (st : σ) :
    ∀ x ∈ op.xs, ∃ r, (Word.slaveWrite t c.lanes strb x st).1 = .ok r := by
  obtain ⟨cmd, e1, e2, e3, _⟩ := WCall.makes_xs hl h
  intro x hx
  rw [e3] at hx
  obtain ⟨k, hk, rfl⟩ := List.mem_map.1 hx
  rw [List.mem_range] at hk
  have hb := Word.xAt_data_lt c cmd a.data hl e2.symm k hk
  simp only [Word.slaveWrite, Axi.toBytes_little _ _ hb]
  split <;> exact ⟨_, rfl⟩

example : (exW 0).makes exC exW0 := by
  refine ((exCalls.w exW0 ?_).1)
  have hW : (ramAt exC exM exEvs 30).w.m.issued = [exW0, exW1] := by decide +kernel
  rw [hW]; simp

/-! ## Fair schedules exist, and an example -/

/-- All pieces of coroutines, with the index `i` where there is one. -/
def pieces (i : Nat) : List (DuoEv χ ρ χ' ρ') :=
  [.w (.master (.runInit i)), .w (.master .take), .w .send, .w .serve, .w .deliver, .w (.master .respTake),
   .w (.master .respGet), .w (.master .respDone),
   .r (.master (.runInit i)), .r (.master .take), .r .send, .r .serve, .r .deliver, .r (.master .respTake),
   .r (.master .respGet), .r (.master .respDone)]

/-- Goes through the pieces again and again, with every index again and again. -/
def roundRobin (n : Nat) : DuoEv χ ρ χ' ρ' := ((pieces (n / 16 - 2 ^ (n / 16).log2))[n % 16]?).getD (.w .send)

theorem roundRobin_progress (n : Nat) : (roundRobin n : DuoEv χ ρ χ' ρ').progress = true := by
  unfold roundRobin
  have h : ∀ i, ∀ e ∈ (pieces i : List (DuoEv χ ρ χ' ρ')), e.progress = true := by
    intro i e he
    simp only [pieces, List.mem_cons, List.not_mem_nil, or_false] at he
    rcases he with h | h | h | h | h | h | h | h | h | h | h | h | h | h | h | h <;> (subst h; rfl)
  cases hx : (pieces (n / 16 - 2 ^ (n / 16).log2) : List (DuoEv χ ρ χ' ρ'))[n % 16]? with
  | none => rfl
  | some e => exact h _ e (List.mem_of_getElem? hx)

theorem roundRobin_fair (f : χ → σ → ρ × σ) (g : χ' → σ → ρ' × σ) (S : Nat → Duo χ ρ χ' ρ' σ) :
    Fair f g S roundRobin := by
  intro e he n
  have h : ∃ i j, j < 16 ∧ (pieces i)[j]? = some e := by
    have key : ∀ i, e ∈ pieces i → ∃ i j, j < 16 ∧ (pieces i)[j]? = some e := by
      intro i hm
      obtain ⟨j, hj, hx⟩ := List.getElem_of_mem hm
      exact ⟨i, j, hj, by rw [List.getElem?_eq_getElem hj, hx]⟩
    have hp : ∀ {χ ρ : Type} (e : PortEv χ ρ), e.progress = true → e ∈ ([.send, .serve, .deliver, .master .take,
        .master .respTake, .master .respGet, .master .respDone] : List (PortEv χ ρ)) ∨ ∃ i, e = .master (.runInit i) := by
      intro χ ρ e he
      cases e with
      | master e => cases e <;> simp [PortEv.progress, own] at he ⊢
      | reset v => simp [PortEv.progress] at he
      | _ => simp
    cases e with
    | w e =>
      rcases hp e he with h | ⟨i, rfl⟩
      · simp only [List.mem_cons, List.not_mem_nil, or_false] at h
        rcases h with h | h | h | h | h | h | h <;> (subst h; exact key 0 (by simp [pieces]))
      · exact key i (by simp [pieces])
    | r e =>
      rcases hp e he with h | ⟨i, rfl⟩
      · simp only [List.mem_cons, List.not_mem_nil, or_false] at h
        rcases h with h | h | h | h | h | h | h <;> (subst h; exact key 0 (by simp [pieces]))
      · exact key i (by simp [pieces])
  obtain ⟨i, j, hj, hx⟩ := h
  have hlt : n + i < 2 ^ (n + i) := Nat.lt_two_pow_self
  have hlog : (2 ^ (n + i) + i).log2 = n + i := by
    refine (Nat.log2_eq_iff (by omega)).2 ⟨by omega, ?_⟩
    rw [Nat.pow_succ]; omega
  refine ⟨16 * (2 ^ (n + i) + i) + j, by omega, .inl ?_⟩
  unfold roundRobin
  have h1 : (16 * (2 ^ (n + i) + i) + j) / 16 = 2 ^ (n + i) + i := by omega
  have h2 : (16 * (2 ^ (n + i) + i) + j) % 16 = j := by omega
  rw [h1, h2, hlog, Nat.add_sub_cancel_left, hx]
  rfl

/-- The history `exEvs` up to an instant at which two writes are under way (one half sent, one waiting), and a read called with
`init_read`: they all complete. -/
def exPart : List RamEv := exEvs.take 7 ++ [.r (.master (.init exR0))]

example : ∃ N, ∀ n, N ≤ n →
    let s := Duo.run (Word.slaveWrite ramTarget exC.lanes true) (Word.slaveRead ramTarget exC.lanes) { mem := exM }
      (exPart ++ (List.range n).map roundRobin)
    (∃ got, (exW0, some got) ∈ s.w.m.results) ∧ (∃ got, (exW1, some got) ∈ s.w.m.results) ∧
      ∃ got, (exR0, some got) ∈ s.r.m.results := by
  have h0 : exPart ++ (List.range 0).map roundRobin = exPart := by simp
  have hst :
      let s := Duo.run (Word.slaveWrite ramTarget exC.lanes true) (Word.slaveRead ramTarget exC.lanes) { mem := exM } exPart
      s.w.m.running = true ∧ s.r.m.running = true ∧ s.w.m.issued = [exW0, exW1] ∧ s.w.m.results = [] ∧ s.r.m.issued = [] ∧
        s.r.m.results = [] ∧ s.r.m.wrappers = [exR0] ∧ s.w.m.cur.isSome = true ∧ s.w.rsp ≠ [] := by decide +kernel
  obtain ⟨h1, h2, h3, h4, h5, h6, h7, _, _⟩ := hst
  have := C97_completes (Word.slaveWrite ramTarget exC.lanes true) (Word.slaveRead ramTarget exC.lanes) exM exPart roundRobin
    roundRobin_progress (roundRobin_fair _ _ _) (by simp only [h0]; exact h1) (by simp only [h0]; exact h2)
  simp only [h0, h3, h4, h5, h6, h7] at this
  obtain ⟨N, hN⟩ := this
  refine ⟨N, fun n hn => ?_⟩
  obtain ⟨_, _, hw, hr⟩ := hN n hn
  exact ⟨hw exW0 (by simp) (by simp), hw exW1 (by simp) (by simp), hr exR0 (by simp) (by simp)⟩

end Verif.LiteOps
