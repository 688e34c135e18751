import Verif.Proof.ApbClock
import Verif.Spec.ApbClock

/-!
# APB operations complete: endless schedules
-/

namespace Verif.Apb

/-- What holds now and not later ends at some instant. -/
theorem ends_at {P : Nat → Prop} {n k : Nat} (h : n ≤ k) (hn : P n) (hk : ¬ P k) :
    ∃ i, n ≤ i ∧ i < k ∧ (∀ j, n ≤ j → j ≤ i → P j) ∧ ¬ P (i + 1) := by
  obtain ⟨d, rfl⟩ := Nat.exists_eq_add_of_le h
  clear h
  induction d with
  | zero => exact absurd hn hk
  | succ d ih =>
    by_cases hd : P (n + d)
    · by_cases hall : ∀ j, n ≤ j → j ≤ n + d → P j
      · exact ⟨n + d, by omega, by omega, hall, hk⟩
      · have : ∃ j, n ≤ j ∧ j ≤ n + d ∧ ¬ P j :=
          Classical.byContradiction fun hx => hall fun j h1 h2 => Classical.byContradiction fun h3 => hx ⟨j, h1, h2, h3⟩
        obtain ⟨j, h1, h2, h3⟩ := this
        clear ih hk hd hall
        obtain ⟨e, rfl⟩ := Nat.exists_eq_add_of_le h1
        have : ∀ e, e ≤ d → ¬ P (n + e) → ∃ i, n ≤ i ∧ i < n + (d + 1) ∧ (∀ j, n ≤ j → j ≤ i → P j) ∧ ¬ P (i + 1) := by
          intro e
          induction e using Nat.strongRecOn with
          | ind e ih =>
            intro he hp
            by_cases hex : ∃ e', e' < e ∧ ¬ P (n + e')
            · obtain ⟨e', h5, h6⟩ := hex
              exact ih e' h5 (by omega) h6
            · cases e with
              | zero => exact absurd hn hp
              | succ e =>
                refine ⟨n + e, by omega, by omega, fun j h7 h8 => Classical.byContradiction fun h9 => hex ⟨j - n, by omega, ?_⟩, hp⟩
                rw [show n + (j - n) = j by omega]
                exact h9
        exact this e (by omega) h3
    · obtain ⟨i, h1, h2, h3⟩ := ih hd
      exact ⟨i, h1, by omega, h3⟩

namespace CSys

variable {σ : Type} {slverr : Bool} {f : Access σ} {st : σ}

/-- A clock edge can come. -/
def ticks (c : CSys σ) : Bool := c.settled && !c.mdue && !c.sdue

/-! ## One event -/

theorem next_done (p : Bool) : ∀ (q : List Op) (m : Master), ∃ l, (Master.next p q m).done = m.done ++ l
  | [], m => ⟨[], by simp [Master.next]⟩
  | op :: q, m => by
    unfold Master.next
    split
    · obtain ⟨l, h⟩ := next_done p q (({ m with cur := some op } : Master).finish op [])
      exact ⟨[(op, [])] ++ l, by rw [h]; simp [Master.finish]⟩
    · exact ⟨[], by rw [(Master.enter_facts _ _ _ _ _ _).2.1]; simp⟩

theorem edge_done (m : Master) (slverr p r : Bool) (d : Nat) (er : Bool) : ∃ l, (m.edge slverr p r d er).done = m.done ++ l := by
  unfold Master.edge
  split
  · exact ⟨[], by simp⟩
  · exact ⟨[], by simp⟩
  · exact next_done _ _ _
  · exact next_done _ _ _
  · exact ⟨[], by rw [(Master.enter_facts _ _ _ _ _ _).2.1]; simp⟩
  · exact ⟨[], by simp⟩
  · split
    · simp only
      split
      · exact ⟨[], by rw [(Master.enter_facts _ _ _ _ _ _).2.1]; simp⟩
      · obtain ⟨l, h⟩ := next_done p m.queue _
        rw [h]
        exact ⟨_, List.append_assoc _ _ _⟩
    · exact ⟨[], by simp⟩

theorem next_wrappers (p : Bool) : ∀ (q : List Op) (m : Master), (Master.next p q m).wrappers = m.wrappers
  | [], m => rfl
  | op :: q, m => by
    unfold Master.next
    split
    · rw [next_wrappers p q]; rfl
    · simp only [Master.enter]; split <;> rfl

theorem edge_wrappers (m : Master) (slverr p r : Bool) (d : Nat) (er : Bool) : (m.edge slverr p r d er).wrappers = m.wrappers := by
  unfold Master.edge
  split
  · rfl
  · rfl
  · exact next_wrappers _ _ _
  · exact next_wrappers _ _ _
  · simp only [Master.enter]; split <;> rfl
  · rfl
  · split
    · simp only
      split
      · simp only [Master.enter]; split <;> rfl
      · exact next_wrappers _ _ _
    · rfl

theorem edge_last {m : Master} (slverr p : Bool) (d : Nat) (er : Bool) {op : Op} {x : Xfer} {rs : List Rsp} (h : m.pc = .access op x [] rs) :
    ∃ l, (m.edge slverr p true d er).done = m.done ++ ((op, rs ++ [(d, if slverr && er then Resp.slverr else Resp.okay)]) :: l) := by
  simp only [Master.edge, h, if_true]
  obtain ⟨l, h⟩ := next_done p m.queue _
  rw [h]
  exact ⟨l, List.append_assoc _ _ _⟩

section

variable {c : CSys σ} {e : CEv} (hr : ∀ v, e ≠ .reset v)

theorem keep_mdue (h : c.mdue = false) (he : ¬ (e = .tick ∧ c.ticks = true)) : (c.step slverr f e).mdue = false := by
  cases e with
  | tick =>
    simp only [step]
    split
    · rename_i hc; exact absurd ⟨rfl, hc⟩ he
    · exact h
  | mrun => simp only [step]; split <;> first | rfl | exact h
  | srun => simp only [step]; split <;> exact h
  | commit => simp only [step]; split <;> exact h
  | reset v => simp only [step]; split <;> exact h
  | _ => exact h

theorem keep_sdue (h : c.sdue = false) (he : ¬ (e = .tick ∧ c.ticks = true)) : (c.step slverr f e).sdue = false := by
  cases e with
  | tick =>
    simp only [step]
    split
    · rename_i hc; exact absurd ⟨rfl, hc⟩ he
    · exact h
  | mrun => simp only [step]; split <;> exact h
  | srun => simp only [step]; split <;> first | rfl | exact h
  | commit => simp only [step]; split <;> exact h
  | reset v => simp only [step]; split <;> exact h
  | _ => exact h

theorem hold_mdue (h : c.mdue = true) (he : e ≠ .mrun) : (c.step slverr f e).mdue = true ∧ (c.step slverr f e).pready = c.pready := by
  cases e with
  | tick => simp [step, h]
  | mrun => exact absurd rfl he
  | srun => simp only [step]; split <;> exact ⟨h, rfl⟩
  | commit => simp [step, h]
  | reset v => simp [step, h]
  | _ => exact ⟨h, rfl⟩

theorem returned_ready {s : Slave σ} (h : s.pc = .busy) : (returned s).pc = .ready := by simp [returned, h]

include hr

theorem keep_spc (he : ¬ (e = .srun ∧ c.sdue = true)) (hb : c.y.s.pc ≠ .busy) : (c.step slverr f e).y.s = c.y.s := by
  cases e with
  | tick => simp only [step]; split <;> rfl
  | mrun => simp only [step]; split <;> rfl
  | srun => simp only [step]; rw [if_neg (fun hc => he ⟨rfl, hc⟩)]
  | commit => simp only [step]; split <;> rfl
  | back => exact returned_ne hb
  | reset v => exact absurd rfl (hr v)
  | _ => rfl

theorem keep_busy (hb : c.y.s.pc = .busy) (hd : c.sdue = false) (he : e ≠ .back) : (c.step slverr f e).y.s.pc = .busy := by
  cases e with
  | tick => simp only [step]; split <;> exact hb
  | mrun => simp only [step]; split <;> exact hb
  | srun => simp only [step, hd]; exact hb
  | commit => simp only [step]; split <;> exact hb
  | back => exact absurd rfl he
  | reset v => exact absurd rfl (hr v)
  | _ => exact hb

theorem keep_settled (hs : c.settled = true) (hm : c.mdue = false) (hd : c.sdue = false) (hb : c.y.s.pc ≠ .busy)
    (he : e ≠ .tick) : (c.step slverr f e).settled = true := by
  cases e with
  | tick => exact absurd rfl he
  | mrun => simp [step, hm, hs]
  | srun => simp [step, hd, hs]
  | commit => simp [step, hd, hm]
  | back => simp [step, hs, hb]
  | reset v => exact absurd rfl (hr v)
  | _ => exact hs

/-- The master stays where it is until its turn. -/
theorem keep_m (ha : c.y.m.pc.awaits = true) (he : ¬ (e = .mrun ∧ c.mdue = true)) :
    (c.step slverr f e).y.m.pc = c.y.m.pc ∧ (c.step slverr f e).y.m.done = c.y.m.done := by
  cases e with
  | tick => simp only [step]; split <;> exact ⟨rfl, rfl⟩
  | mrun => simp only [step]; rw [if_neg (fun hc => he ⟨rfl, hc⟩)]; exact ⟨rfl, rfl⟩
  | srun => simp only [step]; split <;> exact ⟨rfl, rfl⟩
  | commit => simp only [step]; split <;> exact ⟨rfl, rfl⟩
  | reset v => exact absurd rfl (hr v)
  | runInit i => simp only [step, side, Master.step]; split <;> exact ⟨rfl, rfl⟩
  | resume =>
    simp only [step, side, Master.step, Master.resume]
    split
    · rename_i h _; rw [h] at ha; cases ha
    · exact ⟨rfl, rfl⟩
  | _ => exact ⟨rfl, rfl⟩

/-- The operations called since the last reset, and those of them that have completed, do not become fewer. -/
theorem grow : ∃ l l', (c.step slverr f e).y.m.epoch = c.y.m.epoch ++ l ∧ (c.step slverr f e).y.m.done = c.y.m.done ++ l' := by
  have same : ∃ l l', c.y.m.epoch = c.y.m.epoch ++ l ∧ c.y.m.done = c.y.m.done ++ l' := ⟨[], [], by simp, by simp⟩
  cases e with
  | call op => exact ⟨[op], [], rfl, by simp [step, side, Master.step, Master.call]⟩
  | tick => simp only [step]; split <;> exact same
  | mrun =>
    simp only [step]
    split
    · obtain ⟨l', h'⟩ := edge_done c.y.m slverr c.mpause c.pready c.prdata c.pslverr
      exact ⟨[], l', by simp [(Master.edge_facts c.y.m slverr c.mpause c.pready c.prdata c.pslverr).1], h'⟩
    · exact same
  | srun => simp only [step]; split <;> exact same
  | commit => simp only [step]; split <;> exact same
  | reset v => exact absurd rfl (hr v)
  | runInit i =>
    simp only [step, side, Master.step]
    split
    · exact ⟨[_], [], rfl, by simp [Master.call]⟩
    · exact same
  | resume =>
    simp only [step, side, Master.step, Master.resume]
    split <;> exact same
  | _ => exact same

theorem keep_running (h : c.y.m.pc ≠ .stopped) : (c.step slverr f e).y.m.pc ≠ .stopped := by
  cases e with
  | tick => simp only [step]; split <;> exact h
  | mrun =>
    simp only [step]
    split
    · exact fun hh => h ((Master.edge_facts c.y.m slverr c.mpause c.pready c.prdata c.pslverr).2.2.1 hh)
    · exact h
  | srun => simp only [step]; split <;> exact h
  | commit => simp only [step]; split <;> exact h
  | reset v => exact absurd rfl (hr v)
  | runInit i => simp only [step, side, Master.step]; split <;> exact h
  | resume =>
    simp only [step, side, Master.step, Master.resume]
    split
    · simp
    · exact h
  | _ => exact h

/-- A master that waits for its queue goes on waiting, unless the queue has something for it. -/
theorem keep_get (h : c.y.m.pc = .get) (he : e ≠ .resume) : (c.step slverr f e).y.m.pc = .get := by
  cases e with
  | tick => simp only [step]; split <;> exact h
  | mrun =>
    simp only [step]
    split
    · simp [Master.edge, h]
    · exact h
  | srun => simp only [step]; split <;> exact h
  | commit => simp only [step]; split <;> exact h
  | reset v => exact absurd rfl (hr v)
  | runInit i => simp only [step, side, Master.step]; split <;> exact h
  | resume => exact absurd rfl he
  | _ => exact h

end

/-! ## Schedules -/

/-- An endless execution without reset. -/
structure Run (slverr : Bool) (f : Access σ) (st : σ) (S : Nat → CSys σ) (sched : Nat → CEv) : Prop where
  succ : ∀ n, S (n + 1) = (S n).step slverr f (sched n)
  abs : ∀ n, (S n).Abs slverr f st
  noReset : ∀ n v, sched n ≠ .reset v
  fair : CFair slverr f S sched
  on : (S 0).y.m.pc ≠ .stopped

theorem Abs.inv_m {c : CSys σ} (h : c.Abs slverr f st) : c.y.m.Inv := by
  have key : ∃ s', Reach slverr f st { c.y with s := s' } := by
    obtain ⟨_, h⟩ := h
    cases hm : c.mdue <;> cases hs : c.sdue <;> rw [hm, hs] at h <;> dsimp only at h
    · exact ⟨_, h _ (.inl rfl)⟩
    · exact ⟨_, h.2 true true⟩
    · obtain ⟨s0, _, h, _⟩ := h
      exact ⟨s0, h⟩
    · exact ⟨_, h.2.2⟩
  obtain ⟨s', evs, h⟩ := key
  have := (Sys.exec_inv slverr f st evs).m
  rw [h] at this
  exact this

theorem Abs.not_busy {c : CSys σ} (h : c.Abs slverr f st) (hs : c.sdue = true) : c.y.s.pc ≠ .busy := by
  obtain ⟨_, h⟩ := h
  cases hm : c.mdue <;> rw [hm, hs] at h <;> dsimp only at h
  · exact h.1
  · exact h.2.1

theorem Abs.at_edge {c : CSys σ} (h : c.Abs slverr f st) (ht : c.ticks = true) : c.y.Inv slverr f ∧ c.pready = c.y.s.pready := by
  simp only [ticks, Bool.and_eq_true, Bool.not_eq_true'] at ht
  obtain ⟨h0, h⟩ := h
  rw [ht.1.2, ht.2] at h
  obtain ⟨evs, he⟩ := h _ (.inl rfl)
  have := Sys.exec_inv slverr f st evs
  rw [he] at this
  exact ⟨this, (h0 ht.1.1).2.1⟩

namespace Run

variable {S : Nat → CSys σ} {sched : Nat → CEv} (R : Run slverr f st S sched)

include R

theorem running (n : Nat) : (S n).y.m.pc ≠ .stopped := by
  induction n with
  | zero => exact R.on
  | succ n ih => rw [R.succ]; exact keep_running (R.noReset n) ih

theorem mono (n d : Nat) : ∃ l l', (S (n + d)).y.m.epoch = (S n).y.m.epoch ++ l ∧ (S (n + d)).y.m.done = (S n).y.m.done ++ l' := by
  induction d with
  | zero => exact ⟨[], [], by simp, by simp⟩
  | succ d ih =>
    obtain ⟨l, l', h1, h2⟩ := ih
    obtain ⟨k, k', h3, h4⟩ := grow (slverr := slverr) (f := f) (c := S (n + d)) (R.noReset (n + d))
    rw [← R.succ] at h3 h4
    exact ⟨l ++ k, l' ++ k', by rw [← Nat.add_assoc, h3, h1, List.append_assoc], by rw [← Nat.add_assoc, h4, h2, List.append_assoc]⟩

/-- Clock edges keep coming. -/
theorem edges (n : Nat) : ∃ k, n ≤ k ∧ sched k = .tick ∧ (S k).ticks = true := by
  refine Classical.byContradiction fun hno => ?_
  have hno : ∀ k, n ≤ k → ¬ (sched k = .tick ∧ (S k).ticks = true) := fun k h1 h2 => hno ⟨k, h1, h2⟩
  -- the coroutines have their turns
  have m1 : ∃ n1, n ≤ n1 ∧ ∀ k, n1 ≤ k → (S k).mdue = false := by
    have stay : ∀ m, n ≤ m → (S m).mdue = false → ∀ k, m ≤ k → (S k).mdue = false := by
      intro m hm h k hk
      obtain ⟨d, rfl⟩ := Nat.exists_eq_add_of_le hk
      clear hk
      induction d with
      | zero => exact h
      | succ d ih => rw [← Nat.add_assoc, R.succ]; exact keep_mdue ih (hno _ (by omega))
    obtain ⟨k, hk, h⟩ := R.fair .mrun rfl n
    have : (S (k + 1)).mdue = false ∨ (S k).mdue = false := by
      cases hd : (S k).mdue with
      | false => exact .inr rfl
      | true =>
        left
        rcases h with h | h
        · rw [R.succ, h]; simp [step, hd]
        · have := congrArg mdue h
          simp [step, hd] at this
    rcases this with h | h
    · exact ⟨k + 1, by omega, stay _ (by omega) h⟩
    · exact ⟨k, hk, stay _ hk h⟩
  obtain ⟨n1, hn1, hm⟩ := m1
  have s1 : ∃ n2, n1 ≤ n2 ∧ ∀ k, n2 ≤ k → (S k).sdue = false := by
    have stay : ∀ m, n ≤ m → (S m).sdue = false → ∀ k, m ≤ k → (S k).sdue = false := by
      intro m hm h k hk
      obtain ⟨d, rfl⟩ := Nat.exists_eq_add_of_le hk
      clear hk
      induction d with
      | zero => exact h
      | succ d ih => rw [← Nat.add_assoc, R.succ]; exact keep_sdue ih (hno _ (by omega))
    obtain ⟨k, hk, h⟩ := R.fair .srun rfl n1
    have : (S (k + 1)).sdue = false ∨ (S k).sdue = false := by
      cases hd : (S k).sdue with
      | false => exact .inr rfl
      | true =>
        left
        rcases h with h | h
        · rw [R.succ, h]; simp [step, hd]
        · have := congrArg sdue h
          simp [step, hd] at this
    rcases this with h | h
    · exact ⟨k + 1, by omega, stay _ (by omega) h⟩
    · exact ⟨k, hk, stay _ (by omega) h⟩
  obtain ⟨n2, hn2, hs⟩ := s1
  -- the target returns
  have b1 : ∃ n3, n2 ≤ n3 ∧ ∀ k, n3 ≤ k → (S k).y.s.pc ≠ .busy := by
    have stay : ∀ m, n2 ≤ m → (S m).y.s.pc ≠ .busy → ∀ k, m ≤ k → (S k).y.s.pc ≠ .busy := by
      intro m hm h k hk
      obtain ⟨d, rfl⟩ := Nat.exists_eq_add_of_le hk
      clear hk
      induction d with
      | zero => exact h
      | succ d ih =>
        rw [← Nat.add_assoc, R.succ, keep_spc (R.noReset _) (fun hh => ?_) ih]
        · exact ih
        · have := hs (m + d) (by omega)
          rw [this] at hh
          cases hh.2
    obtain ⟨k, hk, h⟩ := R.fair .back rfl n2
    by_cases hb : (S k).y.s.pc = .busy
    · rcases h with h | h
      · refine ⟨k + 1, by omega, stay _ (by omega) ?_⟩
        rw [R.succ, h]
        simp [step, returned_ready hb]
      · have := congrArg (fun c => c.y.s.pc) h
        simp [step, returned_ready hb, hb] at this
    · exact ⟨k, hk, stay _ hk hb⟩
  obtain ⟨n3, hn3, hb⟩ := b1
  -- the signals take their values
  have c1 : ∃ n4, n3 ≤ n4 ∧ ∀ k, n4 ≤ k → (S k).settled = true := by
    have stay : ∀ m, n3 ≤ m → (S m).settled = true → ∀ k, m ≤ k → (S k).settled = true := by
      intro m hm' h k hk
      obtain ⟨d, rfl⟩ := Nat.exists_eq_add_of_le hk
      clear hk
      induction d with
      | zero => exact h
      | succ d ih =>
        rw [← Nat.add_assoc, R.succ]
        have h1 := hm (m + d) (by omega)
        have h2 := hs (m + d) (by omega)
        refine keep_settled (R.noReset _) ih h1 h2 (hb _ (by omega)) (fun hh => hno (m + d) (by omega) ⟨hh, ?_⟩)
        simp [ticks, ih, h1, h2]
    obtain ⟨k, hk, h⟩ := R.fair .commit rfl n3
    have h1 := hm k (by omega)
    have h2 := hs k (by omega)
    rcases h with h | h
    · refine ⟨k + 1, by omega, stay _ (by omega) ?_⟩
      rw [R.succ, h]
      simp [step, h1, h2]
    · have := congrArg settled h
      simp only [step, h1, h2] at this
      exact ⟨k, hk, stay _ hk this.symm⟩
  obtain ⟨n4, hn4, hse⟩ := c1
  obtain ⟨k, hk, h⟩ := R.fair .tick rfl n4
  have h1 := hm k (by omega)
  have h2 := hs k (by omega)
  have h3 := hse k hk
  rcases h with h | h
  · exact hno k (by omega) ⟨h, by simp [ticks, h1, h2, h3]⟩
  · have := congrArg settled h
    simp [step, h1, h2, h3] at this

/-- A master that awaits the clock edge has its turn, and stays where it is until then. -/
theorem turn {n : Nat} (ha : (S n).y.m.pc.awaits = true) :
    ∃ k, n ≤ k ∧ sched k = .mrun ∧ (S k).mdue = true ∧
      ∀ j, n ≤ j → j ≤ k → (S j).y.m.pc = (S n).y.m.pc ∧ (S j).y.m.done = (S n).y.m.done := by
  have hex : ∃ k, n ≤ k ∧ sched k = .mrun ∧ (S k).mdue = true := by
    refine Classical.byContradiction fun hno => ?_
    have hno : ∀ k, n ≤ k → ¬ (sched k = .mrun ∧ (S k).mdue = true) := fun k h1 h2 => hno ⟨k, h1, h2⟩
    have hpc : ∀ d, (S (n + d)).y.m.pc = (S n).y.m.pc := by
      intro d
      induction d with
      | zero => rfl
      | succ d ih =>
        rw [← Nat.add_assoc, R.succ, (keep_m (R.noReset _) (by rw [ih]; exact ha) (hno _ (by omega))).1, ih]
    obtain ⟨k, hk, h1, h2⟩ := R.edges n
    obtain ⟨d, rfl⟩ := Nat.exists_eq_add_of_le hk
    have hd : ∀ e, (S (n + d + 1 + e)).mdue = true := by
      intro e
      induction e with
      | zero =>
        rw [Nat.add_zero, R.succ, h1]
        simp only [ticks] at h2
        simp only [step]
        rw [if_pos h2]
        simp only
        rw [hpc d]
        exact ha
      | succ e ih =>
        rw [← Nat.add_assoc, R.succ]
        exact (hold_mdue ih (fun hh => hno (n + d + 1 + e) (by omega) ⟨hh, ih⟩)).1
    obtain ⟨j, hj, h⟩ := R.fair .mrun rfl (n + d + 1)
    obtain ⟨e, rfl⟩ := Nat.exists_eq_add_of_le hj
    rcases h with h | h
    · exact hno _ (by omega) ⟨h, hd e⟩
    · have := congrArg mdue h
      simp [step, hd e] at this
  obtain ⟨k, hk, h1, h2⟩ := hex
  -- the first turn
  obtain ⟨d, rfl⟩ := Nat.exists_eq_add_of_le hk
  clear hk
  induction d using Nat.strongRecOn with
  | ind d ih =>
    by_cases hex : ∃ d', d' < d ∧ sched (n + d') = .mrun ∧ (S (n + d')).mdue = true
    · obtain ⟨d', h3, h4, h5⟩ := hex
      exact ih d' h3 h4 h5
    · refine ⟨n + d, by omega, h1, h2, fun j h3 h4 => ?_⟩
      obtain ⟨i, rfl⟩ := Nat.exists_eq_add_of_le h3
      clear h3
      induction i with
      | zero => exact ⟨rfl, rfl⟩
      | succ i ihi =>
        obtain ⟨h5, h6⟩ := ihi (by omega)
        obtain ⟨h7, h8⟩ := keep_m (slverr := slverr) (f := f) (R.noReset (n + i)) (by rw [h5]; exact ha)
          (fun hh => hex ⟨i, by omega, hh⟩)
        rw [← Nat.add_assoc, R.succ, h7, h8]
        exact ⟨h5, h6⟩

/-! ## The slave answers -/

/-- The master stays in an access phase until it has its turn with `pready`. -/
theorem stays {n : Nat} {op : Op} {x : Xfer} {xs : List Xfer} {rs : List Rsp} (hpc : (S n).y.m.pc = .access op x xs rs)
    (hno : ∀ k, n ≤ k → ¬ (sched k = .mrun ∧ (S k).mdue = true ∧ (S k).pready = true)) (d : Nat) :
    (S (n + d)).y.m.pc = .access op x xs rs := by
  induction d with
  | zero => exact hpc
  | succ d ih =>
    rw [← Nat.add_assoc, R.succ]
    by_cases hm : sched (n + d) = .mrun ∧ (S (n + d)).mdue = true
    · have hr : (S (n + d)).pready = false := by
        cases hp : (S (n + d)).pready with
        | false => rfl
        | true => exact absurd ⟨hm.1, hm.2, hp⟩ (hno _ (by omega))
      rw [hm.1]
      simp only [step, hm.2, if_true, Master.edge, ih, hr]
      exact ih
    · rw [(keep_m (R.noReset _) (by rw [ih]; rfl) hm).1, ih]

/-- A busy target returns. -/
theorem returns {n : Nat} (hb : (S n).y.s.pc = .busy) : ∃ k, n ≤ k ∧ (S k).y.s.pc = .ready ∧ (S k).sdue = false := by
  have hd : ∀ k, (S k).y.s.pc = .busy → (S k).sdue = false := by
    intro k hk
    cases h : (S k).sdue with
    | false => rfl
    | true => exact absurd hk ((R.abs k).not_busy h)
  have hex : ∃ k, n ≤ k ∧ (S k).y.s.pc ≠ .busy := by
    obtain ⟨k, hk, h⟩ := R.fair .back rfl n
    by_cases hkb : (S k).y.s.pc = .busy
    · rcases h with h | h
      · exact ⟨k + 1, by omega, by rw [R.succ, h]; simp [step, returned_ready hkb]⟩
      · have := congrArg (fun c => c.y.s.pc) h
        simp [step, returned_ready hkb, hkb] at this
    · exact ⟨k, hk, hkb⟩
  obtain ⟨k, hk, h⟩ := hex
  obtain ⟨i, h1, h2, h3, h4⟩ := ends_at (P := fun k => (S k).y.s.pc = .busy) hk hb h
  have hi := h3 i h1 (Nat.le_refl i)
  have he : sched i = .back := by
    refine Classical.byContradiction fun hne => h4 ?_
    rw [R.succ]
    exact keep_busy (R.noReset i) hi (hd i hi) hne
  refine ⟨i + 1, by omega, ?_, ?_⟩
  · rw [R.succ, he]; simp [step, returned_ready hi]
  · rw [R.succ, he]; exact hd i hi

/-- A clock edge finds the slave ready. -/
theorem ready_at_edge {n : Nat} (hb : (S n).y.s.pc = .ready) (hd : (S n).sdue = false) :
    ∃ k, n ≤ k ∧ sched k = .tick ∧ (S k).ticks = true ∧ (S k).y.s.pc = .ready := by
  obtain ⟨k, hk, h1, h2⟩ := R.edges n
  obtain ⟨d, rfl⟩ := Nat.exists_eq_add_of_le hk
  clear hk
  induction d using Nat.strongRecOn with
  | ind d ih =>
    by_cases hex : ∃ d', d' < d ∧ sched (n + d') = .tick ∧ (S (n + d')).ticks = true
    · obtain ⟨d', h3, h4, h5⟩ := hex
      exact ih d' h3 h4 h5
    · refine ⟨n + d, by omega, h1, h2, ?_⟩
      have : ∀ i, i ≤ d → (S (n + i)).y.s.pc = .ready ∧ (S (n + i)).sdue = false := by
        intro i
        induction i with
        | zero => exact fun _ => ⟨hb, hd⟩
        | succ i ihi =>
          intro hi
          obtain ⟨h3, h4⟩ := ihi (by omega)
          rw [← Nat.add_assoc, R.succ, keep_spc (R.noReset _) (fun hh => by rw [h4] at hh; cases hh.2) (by rw [h3]; simp)]
          exact ⟨h3, keep_sdue h4 (fun hh => hex ⟨i, by omega, hh⟩)⟩
      exact (this d (Nat.le_refl d)).1

/-- The master, in an access phase, sees `pready`. -/
theorem answered (hU : Unheld S sched) {n : Nat} {op : Op} {x : Xfer} {xs : List Xfer} {rs : List Rsp}
    (hpc : (S n).y.m.pc = .access op x xs rs) :
    ∃ k, n ≤ k ∧ sched k = .mrun ∧ (S k).mdue = true ∧ (S k).pready = true ∧ (S k).y.m.pc = .access op x xs rs := by
  have hex : ∃ k, n ≤ k ∧ (sched k = .mrun ∧ (S k).mdue = true ∧ (S k).pready = true) := by
    refine Classical.byContradiction fun hno => ?_
    have hno : ∀ k, n ≤ k → ¬ (sched k = .mrun ∧ (S k).mdue = true ∧ (S k).pready = true) := fun k h1 h2 => hno ⟨k, h1, h2⟩
    have hst := R.stays hpc hno
    have hacc : ∀ k, n ≤ k → (S k).y.m.pc.isAccess = true := by
      intro k hk
      obtain ⟨d, rfl⟩ := Nat.exists_eq_add_of_le hk
      rw [hst d]
      rfl
    -- not with the slave ready at an edge
    have d1 : ∀ k, n ≤ k → sched k = .tick → (S k).ticks = true → (S k).y.s.pc ≠ .ready := by
      intro k hk h1 h2 h3
      obtain ⟨hI, hp⟩ := (R.abs k).at_edge h2
      have hp : (S k).pready = true := by rw [hp, hI.rdy, h3]; rfl
      have J : ∀ e, (S (k + 1 + e)).mdue = true ∧ (S (k + 1 + e)).pready = true := by
        intro e
        induction e with
        | zero =>
          rw [Nat.add_zero, R.succ, h1]
          simp only [ticks] at h2
          simp only [step]
          rw [if_pos h2]
          refine ⟨?_, hp⟩
          have := hacc k hk
          cases hq : (S k).y.m.pc <;> rw [hq] at this <;> simp [MPc.isAccess] at this ⊢ <;> rfl
        | succ e ih =>
          rw [← Nat.add_assoc, R.succ]
          obtain ⟨h4, h5⟩ := hold_mdue (slverr := slverr) (f := f) ih.1 (fun hh => hno (k + 1 + e) (by omega) ⟨hh, ih⟩)
          exact ⟨h4, by rw [h5]; exact ih.2⟩
      obtain ⟨j, hj, h⟩ := R.fair .mrun rfl (k + 1)
      obtain ⟨e, rfl⟩ := Nat.exists_eq_add_of_le hj
      rcases h with h | h
      · exact hno _ (by omega) ⟨h, J e⟩
      · have := congrArg mdue h
        simp [step, (J e).1] at this
    have d2 : ∀ k, n ≤ k → (S k).y.s.pc = .ready → (S k).sdue = false → False := by
      intro k hk h1 h2
      obtain ⟨j, h3, h4, h5, h6⟩ := R.ready_at_edge h1 h2
      exact d1 j (by omega) h4 h5 h6
    have d3 : ∀ k, n ≤ k → (S k).y.s.pc ≠ .busy := by
      intro k hk h1
      obtain ⟨j, h3, h4, h5⟩ := R.returns h1
      exact d2 j (by omega) h4 h5
    obtain ⟨k, hk, h1, h2⟩ := R.edges n
    obtain ⟨hI, _⟩ := (R.abs k).at_edge h2
    rcases hI.acc (hacc k hk) with h3 | h3 | h3
    · -- the slave is paused
      have hex : ∃ j, k ≤ j ∧ ¬ ((S j).y.s.pc.held = true) := by
        obtain ⟨j, hj, h⟩ := hU.s k
        by_cases hh : (S j).y.s.pc.held = true
        · rw [hh] at h
          obtain ⟨h5, h6, h7⟩ := h.resolve_left (by simp)
          refine absurd ?_ (d3 (j + 1) (by omega))
          rw [R.succ, h5]
          simp only [step, h6, if_true]
          cases hq : (S j).y.s.pc <;> rw [hq] at hh <;> simp [SPc.held] at hh
          simp [Slave.edge, hq, h7, Slave.perform]
        · exact ⟨j, hj, hh⟩
      obtain ⟨j, hj, h4⟩ := hex
      obtain ⟨i, h5, h6, h7, h8⟩ := ends_at (P := fun j => (S j).y.s.pc.held = true) hj (by rw [h3]; rfl) h4
      have hi := h7 i h5 (Nat.le_refl i)
      have hnb : (S i).y.s.pc ≠ .busy := fun hh => by rw [hh] at hi; cases hi
      by_cases hs : sched i = .srun ∧ (S i).sdue = true
      · refine d3 (i + 1) (by omega) ?_
        rw [R.succ, hs.1] at h8 ⊢
        simp only [step, hs.2, if_true] at h8 ⊢
        cases hq : (S i).y.s.pc <;> rw [hq] at hi <;> simp [SPc.held] at hi
        cases hp : (S i).spause with
        | true => rw [hp] at h8; simp [Slave.edge, hq, SPc.held] at h8
        | false => simp [Slave.edge, hq, Slave.perform]
      · refine h8 ?_
        rw [R.succ, keep_spc (R.noReset i) hs hnb]
        exact hi
    · exact d3 k hk h3
    · exact d1 k hk h1 h2 h3
  obtain ⟨k, hk, h⟩ := hex
  obtain ⟨d, rfl⟩ := Nat.exists_eq_add_of_le hk
  clear hk
  induction d using Nat.strongRecOn with
  | ind d ih =>
    by_cases hex : ∃ d', d' < d ∧ (sched (n + d') = .mrun ∧ (S (n + d')).mdue = true ∧ (S (n + d')).pready = true)
    · obtain ⟨d', h3, h4⟩ := hex
      exact ih d' h3 h4
    · refine ⟨n + d, by omega, h.1, h.2.1, h.2.2, ?_⟩
      have : ∀ i, i ≤ d → (S (n + i)).y.m.pc = .access op x xs rs := by
        intro i
        induction i with
        | zero => exact fun _ => hpc
        | succ i ihi =>
          intro hi
          have ih1 := ihi (by omega)
          rw [← Nat.add_assoc, R.succ]
          by_cases hm : sched (n + i) = .mrun ∧ (S (n + i)).mdue = true
          · have hr : (S (n + i)).pready = false := by
              cases hp : (S (n + i)).pready with
              | false => rfl
              | true => exact absurd ⟨i, by omega, hm.1, hm.2, hp⟩ hex
            rw [hm.1]
            simp only [step, hm.2, if_true, Master.edge, ih1, hr]
            exact ih1
          · rw [(keep_m (R.noReset _) (by rw [ih1]; rfl) hm).1, ih1]
      exact this d (Nat.le_refl d)

/-! ## The master gets on -/

/-- With an operation outstanding and none completing, there is a transfer to make. -/
theorem beat {n : Nat} {d : Nat} (hd : ∀ k, n ≤ k → (S k).y.m.done.length = d) (hlt : d < (S n).y.m.epoch.length) (k : Nat) (hk : n ≤ k) :
    ∃ j, k ≤ j ∧ ∃ op x xs rs, (S j).y.m.pc = .pause op x xs rs ∨ (S j).y.m.pc = .setup op x xs rs ∨
      (S j).y.m.pc = .access op x xs rs := by
  have some_left : ∀ k, n ≤ k → (S k).y.m.active ++ (S k).y.m.queue ≠ [] := by
    intro k hk hz
    have hep := (R.abs k).inv_m.book.epoch
    rw [hz, List.append_nil] at hep
    have := congrArg List.length hep
    rw [List.length_map, hd k hk] at this
    obtain ⟨e, rfl⟩ := Nat.exists_eq_add_of_le hk
    obtain ⟨l, l', h1, _⟩ := R.mono n e
    rw [h1, List.length_append] at this
    omega
  -- from the head of the loop
  have head : ∀ k p q m, n ≤ k → (S (k + 1)).y.m = Master.next p q m →
      ∃ j, k ≤ j ∧ ∃ op x xs rs, (S j).y.m.pc = .pause op x xs rs ∨ (S j).y.m.pc = .setup op x xs rs ∨
      (S j).y.m.pc = .access op x xs rs := by
    intro k p q m hk hq
    have hleft := some_left (k + 1) (by omega)
    rw [hq] at hleft
    refine ⟨k + 1, by omega, ?_⟩
    rw [hq]
    clear hq
    induction q generalizing m with
    | nil => exact absurd (by simp [Master.next, Master.active]) hleft
    | cons o q ih =>
      unfold Master.next at hleft ⊢
      split at hleft
      · exact ih _ hleft
      · rename_i x xs hx
        simp only [Master.enter]
        split
        · exact ⟨_, _, _, _, .inl rfl⟩
        · exact ⟨_, _, _, _, .inr (.inl rfl)⟩
  have got : ∀ k op, n ≤ k → (S k).y.m.pc = .got op →
      ∃ j, k ≤ j ∧ ∃ op x xs rs, (S j).y.m.pc = .pause op x xs rs ∨ (S j).y.m.pc = .setup op x xs rs ∨
      (S j).y.m.pc = .access op x xs rs := by
    intro k op hk hpc
    obtain ⟨j, h1, h2, h3, h4⟩ := R.turn (n := k) (by rw [hpc]; rfl)
    have h5 := (h4 j h1 (Nat.le_refl j)).1
    rw [hpc] at h5
    obtain ⟨i, h6, h7⟩ := head j (S j).mpause (op :: (S j).y.m.queue) (S j).y.m (by omega) (by
      rw [R.succ, h2]; simp only [step, h3, if_true, Master.edge, h5])
    exact ⟨i, by omega, h7⟩
  cases hpc : (S k).y.m.pc with
  | stopped => exact absurd hpc (R.running k)
  | init =>
    obtain ⟨j, h1, h2, h3, h4⟩ := R.turn (n := k) (by rw [hpc]; rfl)
    have h5 := (h4 j h1 (Nat.le_refl j)).1
    rw [hpc] at h5
    obtain ⟨i, h6, h7⟩ := head j (S j).mpause (S j).y.m.queue (S j).y.m (by omega) (by
      rw [R.succ, h2]; simp only [step, h3, if_true, Master.edge, h5])
    exact ⟨i, by omega, h7⟩
  | get =>
    have hex : ∃ j, k ≤ j ∧ ¬ ((S j).y.m.pc = .get) := by
      obtain ⟨j, hj, h⟩ := R.fair .resume rfl k
      by_cases hg : (S j).y.m.pc = .get
      · have hq : (S j).y.m.queue ≠ [] := by
          have := some_left j (by omega)
          simpa [Master.active, hg] using this
        have hst : ((S j).step slverr f .resume).y.m.pc ≠ .get := by
          simp only [step, side, Master.step, Master.resume, hg]
          cases hqq : (S j).y.m.queue with
          | nil => exact absurd hqq hq
          | cons o q => simp
        rcases h with h | h
        · exact ⟨j + 1, by omega, by rw [R.succ, h]; exact hst⟩
        · rw [h] at hst
          exact absurd hg hst
      · exact ⟨j, hj, hg⟩
    obtain ⟨j, hj, h⟩ := hex
    obtain ⟨i, h1, h2, h3, h4⟩ := ends_at (P := fun j => (S j).y.m.pc = .get) hj hpc h
    have hi := h3 i h1 (Nat.le_refl i)
    have he : sched i = .resume := by
      refine Classical.byContradiction fun hne => h4 ?_
      rw [R.succ]
      exact keep_get (R.noReset i) hi hne
    have hgot : ∃ op, (S (i + 1)).y.m.pc = .got op := by
      rw [R.succ, he] at h4 ⊢
      simp only [step, side, Master.step, Master.resume, hi] at h4 ⊢
      cases hqq : (S i).y.m.queue with
      | nil => simp [hqq, hi] at h4
      | cons o q => exact ⟨o, rfl⟩
    obtain ⟨op, hop⟩ := hgot
    obtain ⟨j, h5, h6⟩ := got (i + 1) op (by omega) hop
    exact ⟨j, by omega, h6⟩
  | got op => exact got k op hk hpc
  | pause op x xs rs => exact ⟨k, Nat.le_refl k, op, x, xs, rs, .inl hpc⟩
  | setup op x xs rs => exact ⟨k, Nat.le_refl k, op, x, xs, rs, .inr (.inl hpc)⟩
  | access op x xs rs => exact ⟨k, Nat.le_refl k, op, x, xs, rs, .inr (.inr hpc)⟩

/-- A paused master drives its transfer. -/
theorem released (hU : Unheld S sched) {n : Nat} {op : Op} {x : Xfer} {xs : List Xfer} {rs : List Rsp}
    (hpc : (S n).y.m.pc = .pause op x xs rs) : ∃ k, n ≤ k ∧ (S k).y.m.pc = .setup op x xs rs := by
  have hstep : ∀ i, (S i).y.m.pc = .pause op x xs rs → ¬ ((S (i + 1)).y.m.pc = .pause op x xs rs) →
      (S (i + 1)).y.m.pc = .setup op x xs rs := by
    intro i hi h8
    by_cases hs : sched i = .mrun ∧ (S i).mdue = true
    · rw [R.succ, hs.1] at h8 ⊢
      simp only [step, hs.2, if_true, Master.edge, hi, Master.enter] at h8 ⊢
      split at h8
      · exact absurd rfl h8
      · rename_i hp; simp only [hp, Bool.false_eq_true, if_false]
    · refine absurd ?_ h8
      rw [R.succ, (keep_m (R.noReset i) (by rw [hi]; rfl) hs).1, hi]
  have hex : ∃ j, n ≤ j ∧ ¬ ((S j).y.m.pc = .pause op x xs rs) := by
    obtain ⟨j, hj, h⟩ := hU.m n
    by_cases hh : (S j).y.m.pc = .pause op x xs rs
    · rw [hh] at h
      obtain ⟨h5, h6, h7⟩ := h.resolve_left (by simp [MPc.held])
      refine ⟨j + 1, by omega, ?_⟩
      rw [R.succ, h5]
      simp [step, h6, h7, Master.edge, hh, Master.enter]
    · exact ⟨j, hj, hh⟩
  obtain ⟨j, hj, h4⟩ := hex
  obtain ⟨i, h5, h6, h7, h8⟩ := ends_at (P := fun j => (S j).y.m.pc = .pause op x xs rs) hj hpc h4
  exact ⟨i + 1, by omega, hstep i (h7 i h5 (Nat.le_refl i)) h8⟩

theorem enabled {n : Nat} {op : Op} {x : Xfer} {xs : List Xfer} {rs : List Rsp} (hpc : (S n).y.m.pc = .setup op x xs rs) :
    ∃ k, n ≤ k ∧ (S k).y.m.pc = .access op x xs rs := by
  obtain ⟨j, h1, h2, h3, h4⟩ := R.turn (n := n) (by rw [hpc]; rfl)
  have h5 := (h4 j h1 (Nat.le_refl j)).1
  rw [hpc] at h5
  exact ⟨j + 1, by omega, by rw [R.succ, h2]; simp [step, h3, Master.edge, h5]⟩

/-- The operation under way completes. -/
theorem completes (hU : Unheld S sched) {n d : Nat} (hd : ∀ k, n ≤ k → (S k).y.m.done.length = d) : ∀ (xs : List Xfer) (k : Nat) (op : Op)
    (x : Xfer) (rs : List Rsp), n ≤ k → ¬ ((S k).y.m.pc = .pause op x xs rs ∨ (S k).y.m.pc = .setup op x xs rs ∨
      (S k).y.m.pc = .access op x xs rs) := by
  intro xs
  induction xs with
  | nil =>
    intro k op x rs hk h
    obtain ⟨k, hk, h⟩ : ∃ k', n ≤ k' ∧ (S k').y.m.pc = .access op x [] rs := by
      rcases h with h | h | h
      · obtain ⟨j, h1, h2⟩ := R.released hU h
        obtain ⟨i, h3, h4⟩ := R.enabled h2
        exact ⟨i, by omega, h4⟩
      · obtain ⟨i, h3, h4⟩ := R.enabled h
        exact ⟨i, by omega, h4⟩
      · exact ⟨k, hk, h⟩
    obtain ⟨j, h1, h2, h3, h4, h5⟩ := R.answered hU h
    have := hd (j + 1) (by omega)
    rw [R.succ, h2] at this
    simp only [step, h3, if_true, h4] at this
    obtain ⟨l, hl⟩ := edge_last slverr (S j).mpause (S j).prdata (S j).pslverr h5
    rw [hl] at this
    simp only [List.length_append, List.length_cons] at this
    have := hd j (by omega)
    omega
  | cons x' xs ih =>
    intro k op x rs hk h
    obtain ⟨k, hk, h⟩ : ∃ k', n ≤ k' ∧ (S k').y.m.pc = .access op x (x' :: xs) rs := by
      rcases h with h | h | h
      · obtain ⟨j, h1, h2⟩ := R.released hU h
        obtain ⟨i, h3, h4⟩ := R.enabled h2
        exact ⟨i, by omega, h4⟩
      · obtain ⟨i, h3, h4⟩ := R.enabled h
        exact ⟨i, by omega, h4⟩
      · exact ⟨k, hk, h⟩
    obtain ⟨j, h1, h2, h3, h4, h5⟩ := R.answered hU h
    refine ih (j + 1) op x' (rs ++ [((S j).prdata, if slverr && (S j).pslverr then Resp.slverr else Resp.okay)]) (by omega) ?_
    rw [R.succ, h2]
    simp only [step, h3, if_true, Master.edge, h5, h4, Master.enter]
    split
    · exact .inl rfl
    · exact .inr (.inl rfl)

/-- The next operation completes. -/
theorem one_more (hU : Unheld S sched) {n : Nat} (hlt : (S n).y.m.done.length < (S n).y.m.epoch.length) :
    ∃ k, n ≤ k ∧ (S n).y.m.done.length < (S k).y.m.done.length := by
  refine Classical.byContradiction fun hno => ?_
  have hd : ∀ k, n ≤ k → (S k).y.m.done.length = (S n).y.m.done.length := by
    intro k hk
    have h1 : ¬ (S n).y.m.done.length < (S k).y.m.done.length := fun h => hno ⟨k, hk, h⟩
    obtain ⟨e, rfl⟩ := Nat.exists_eq_add_of_le hk
    obtain ⟨l, l', _, h2⟩ := R.mono n e
    rw [h2, List.length_append] at h1 ⊢
    omega
  obtain ⟨j, h1, op, x, xs, rs, h2⟩ := R.beat hd hlt n (Nat.le_refl n)
  exact R.completes hU hd xs j op x rs h1 h2

/-- All operations called by instant `n` complete. -/
theorem all_done (hU : Unheld S sched) (n : Nat) : ∃ N, n ≤ N ∧ ∀ k, N ≤ k → (S n).y.m.epoch.length ≤ (S k).y.m.done.length := by
  have key : ∀ d, d ≤ (S n).y.m.epoch.length → ∃ N, n ≤ N ∧ d ≤ (S N).y.m.done.length := by
    intro d
    induction d with
    | zero => exact fun _ => ⟨n, Nat.le_refl n, Nat.zero_le _⟩
    | succ d ih =>
      intro hd
      obtain ⟨N, h1, h2⟩ := ih (by omega)
      by_cases h3 : d + 1 ≤ (S N).y.m.done.length
      · exact ⟨N, h1, h3⟩
      · obtain ⟨e, rfl⟩ := Nat.exists_eq_add_of_le h1
        obtain ⟨l, l', h4, _⟩ := R.mono n e
        obtain ⟨k, h5, h6⟩ := R.one_more hU (n := n + e) (by rw [h4, List.length_append]; omega)
        exact ⟨k, by omega, by omega⟩
  obtain ⟨N, h1, h2⟩ := key _ (Nat.le_refl _)
  refine ⟨N, h1, fun k hk => ?_⟩
  obtain ⟨e, rfl⟩ := Nat.exists_eq_add_of_le hk
  obtain ⟨l, l', _, h3⟩ := R.mono N e
  rw [h3, List.length_append]
  omega

/-! ## Calls that have not begun -/

/-- What becomes of a waiting `init_` call in one event. -/
theorem waiting_step {k i : Nat} {op : Op} (h : (S k).y.m.wrappers[i]? = some op) :
    (S (k + 1)).y.m.wrappers[i]? = some op ∨ op ∈ (S (k + 1)).y.m.epoch ∨
      (∃ j, i = j + 1 ∧ (S (k + 1)).y.m.wrappers[j]? = some op) := by
  have same : (S (k + 1)).y.m.wrappers = (S k).y.m.wrappers → _ := fun e => Or.inl (b := op ∈ (S (k + 1)).y.m.epoch ∨
      (∃ j, i = j + 1 ∧ (S (k + 1)).y.m.wrappers[j]? = some op)) (e ▸ h)
  have hr := R.noReset k
  rw [R.succ] at same ⊢
  generalize sched k = e at same hr ⊢
  cases e with
  | init o =>
    left
    simp only [step, side, Master.step]
    rw [List.getElem?_append_left (by exact (List.getElem?_eq_some_iff.1 h).1), h]
  | runInit j =>
    simp only [step, side, Master.step]
    split
    · rename_i o ho
      by_cases hij : j = i
      · subst hij
        rw [ho] at h
        cases h
        exact .inr (.inl (by simp [Master.call]))
      · by_cases hlt : i < j
        · left
          simp only [Master.call]
          rw [List.getElem?_eraseIdx_of_lt hlt, h]
        · right; right
          obtain ⟨d, rfl⟩ : ∃ d, i = d + 1 := ⟨i - 1, by omega⟩
          refine ⟨d, rfl, ?_⟩
          simp only [Master.call]
          rw [List.getElem?_eraseIdx_of_ge (by omega), h]
    · exact .inl h
  | reset v => exact absurd rfl (hr v)
  | tick => refine same ?_; simp only [step]; split <;> rfl
  | mrun =>
    refine same ?_
    simp only [step]
    split
    · exact edge_wrappers ..
    · rfl
  | srun => refine same ?_; simp only [step]; split <;> rfl
  | commit => refine same ?_; simp only [step]; split <;> rfl
  | resume => refine same ?_; simp only [step, side, Master.step, Master.resume]; split <;> rfl
  | _ => refine same ?_; rfl

/-- `init_` calls begin. -/
theorem begins {op : Op} : ∀ (i n : Nat), (S n).y.m.wrappers[i]? = some op → ∃ k, n ≤ k ∧ op ∈ (S k).y.m.epoch := by
  intro i
  induction i with
  | zero =>
    intro n h
    refine Classical.byContradiction fun hno => ?_
    have hall : ∀ d, (S (n + d)).y.m.wrappers[0]? = some op := by
      intro d
      induction d with
      | zero => exact h
      | succ d ih =>
        rcases R.waiting_step ih with h1 | h1 | ⟨j, h1, _⟩
        · exact h1
        · exact absurd ⟨n + d + 1, by omega, h1⟩ hno
        · omega
    obtain ⟨k, hk, h1⟩ := R.fair (.runInit 0) rfl n
    obtain ⟨d, rfl⟩ := Nat.exists_eq_add_of_le hk
    have h2 := hall d
    have h3 : op ∈ ((S (n + d)).step slverr f (.runInit 0)).y.m.epoch := by simp [step, side, Master.step, h2, Master.call]
    rcases h1 with h1 | h1
    · exact hno ⟨n + d + 1, by omega, by rw [R.succ, h1]; exact h3⟩
    · rw [h1] at h3
      exact hno ⟨n + d, by omega, h3⟩
  | succ i ih =>
    intro n h
    refine Classical.byContradiction fun hno => ?_
    have hall : ∀ d, (S (n + d)).y.m.wrappers[i + 1]? = some op := by
      intro d
      induction d with
      | zero => exact h
      | succ d ih' =>
        rcases R.waiting_step ih' with h1 | h1 | ⟨j, h1, h2⟩
        · exact h1
        · exact absurd ⟨n + d + 1, by omega, h1⟩ hno
        · have : i = j := by omega
          subst this
          obtain ⟨k, h3, h4⟩ := ih _ h2
          exact absurd ⟨k, by omega, h4⟩ hno
    obtain ⟨k, hk, h1⟩ := R.fair (.runInit 0) rfl n
    obtain ⟨d, rfl⟩ := Nat.exists_eq_add_of_le hk
    have h2 := hall d
    have h3 : ((S (n + d)).step slverr f (.runInit 0)).y.m.wrappers = (S (n + d)).y.m.wrappers.eraseIdx 0 := by
      cases hw : (S (n + d)).y.m.wrappers with
      | nil => rw [hw] at h2; cases h2
      | cons o l => simp [step, side, Master.step, hw, Master.call]
    rcases h1 with h1 | h1
    · have h4 : (S (n + d + 1)).y.m.wrappers[i]? = some op := by
        rw [R.succ, h1, h3, List.getElem?_eraseIdx_of_ge (by omega), h2]
      obtain ⟨k, h5, h6⟩ := ih _ h4
      exact hno ⟨k, by omega, h6⟩
    · rw [h1] at h3
      have := congrArg List.length h3
      have hlen := (List.getElem?_eq_some_iff.1 h2).1
      rw [List.length_eraseIdx_of_lt (by omega)] at this
      omega

end Run

end CSys
end Verif.Apb
