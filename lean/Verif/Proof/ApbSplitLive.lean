import Verif.Proof.ApbSplit

/-!
# Separate resets of an APB master and slave: progress
-/

namespace Verif.Apb

variable {σ : Type}

/-- What is left to do for an operation that has not begun. -/
def Op.load (op : Op) : Nat := 8 * op.xs.length + 3

def opsLoad : List Op → Nat
  | [] => 0
  | op :: l => op.load + opsLoad l

theorem opsLoad_append (l l' : List Op) : opsLoad (l ++ l') = opsLoad l + opsLoad l' := by
  induction l with
  | nil => simp [opsLoad]
  | cons a l ih => simp only [List.cons_append, opsLoad, ih]; omega

theorem opsLoad_erase {l : List Op} {i : Nat} {op : Op} (h : l[i]? = some op) :
    opsLoad l = op.load + opsLoad (l.eraseIdx i) := by
  induction l generalizing i with
  | nil => simp at h
  | cons a l ih =>
    cases i with
    | zero => simp at h; subst h; rfl
    | succ i =>
      simp only [List.getElem?_cons_succ] at h
      simp only [List.eraseIdx_cons_succ, opsLoad, ih h]
      omega

def MPc.load : MPc → Nat
  | .stopped | .get => 0
  | .init => 1
  | .got op => 8 * op.xs.length + 2
  | .pause _ _ xs _ => 8 * xs.length + 7
  | .setup _ _ xs _ => 8 * xs.length + 6
  | .access _ _ xs _ => 8 * xs.length + 5

def SPc.load : SPc → Nat
  | .stopped => 0
  | .idle => 3
  | .paused _ => 2
  | .busy => 1
  | .ready => 0

namespace Master

def load (m : Master) : Nat := opsLoad m.queue + m.pc.load

theorem enter_load (s : Master) (p : Bool) (op : Op) (x : Xfer) (xs : List Xfer) (rs : List Rsp) :
    (s.enter p op x xs rs).load ≤ opsLoad s.queue + (8 * xs.length + 7) ∧ (s.enter p op x xs rs).wrappers = s.wrappers := by
  unfold enter
  split <;> exact ⟨by simp only [load, MPc.load]; omega, rfl⟩

theorem next_load (p : Bool) : ∀ (q : List Op) (s : Master), (next p q s).load ≤ opsLoad q ∧ (next p q s).wrappers = s.wrappers ∧
    (next p q s).epoch = s.epoch
  | [], s => ⟨by simp [next, load, MPc.load, opsLoad], rfl, rfl⟩
  | op :: q, s => by
    unfold next
    split
    · rename_i h
      obtain ⟨h1, h2, h3⟩ := next_load p q (({ s with cur := some op } : Master).finish op [])
      exact ⟨by simp only [opsLoad]; omega, h2, h3⟩
    · rename_i x xs h
      obtain ⟨h1, h2⟩ := enter_load { s with queue := q, cur := some op } p op x xs []
      refine ⟨?_, h2, (enter_facts _ _ _ _ _ _).1⟩
      simp only [opsLoad, Op.load, h, List.length_cons]
      simp only at h1
      omega

theorem next_pc (p : Bool) : ∀ (q : List Op) (s : Master), (next p q s).pc ≠ .stopped ∧ (next p q s).pc ≠ .init ∧ ∀ op, (next p q s).pc ≠ .got op
  | [], s => by simp [next]
  | op :: q, s => by
    unfold next
    split
    · exact next_pc p q _
    · unfold enter; split <;> simp

end Master

namespace Sys

def load (y : Sys σ) : Nat := opsLoad y.m.wrappers + y.m.wrappers.length + y.m.load + y.s.pc.load

theorem _root_.Verif.Apb.Slave.perform_load (f : Access σ) (s : Slave σ) (slow : Bool) (b : Bus) : (s.perform f slow b).pc.load ≤ 1 := by
  cases slow <;> simp [Slave.perform, SPc.load]

/-- Except after `ready`, the slave has less to do or has done nothing. -/
theorem _root_.Verif.Apb.Slave.edge_load (f : Access σ) (s : Slave σ) (p slow : Bool) (b : Bus) (h : s.pc ≠ .ready) :
    s.edge f p slow b = s ∨ (s.edge f p slow b).pc.load < s.pc.load := by
  unfold Slave.edge
  cases hp : s.pc with
  | stopped => exact .inl rfl
  | ready => exact absurd hp h
  | idle =>
    simp only
    split
    · right
      split
      · simp [SPc.load]
      · have := Slave.perform_load f s slow b
        simp only [SPc.load] at this ⊢
        omega
    · exact .inl rfl
  | paused a =>
    simp only
    split
    · exact .inl rfl
    · right
      have := Slave.perform_load f s slow { b with paddr := a }
      simp only [SPc.load] at this ⊢
      omega
  | busy =>
    simp only
    split
    · exact .inl rfl
    · right; simp [SPc.load]

/-- The master has less to do after an edge or has done nothing; much less after a `pready`. -/
theorem _root_.Verif.Apb.Master.edge_load (s : Master) (slverr p r : Bool) (d : Nat) (er : Bool) :
    (s.edge slverr p r d er = s ∨ (s.edge slverr p r d er).load < s.load) ∧
    (s.edge slverr p r d er).wrappers = s.wrappers ∧
    (s.pc.isAccess = true → r = true → (s.edge slverr p r d er).load + 5 ≤ s.load) := by
  unfold Master.edge
  cases hp : s.pc with
  | stopped => exact ⟨.inl rfl, rfl, by simp [MPc.isAccess]⟩
  | get => exact ⟨.inl rfl, rfl, by simp [MPc.isAccess]⟩
  | init =>
    obtain ⟨h1, h2, _⟩ := Master.next_load p s.queue s
    refine ⟨.inr ?_, h2, by simp [MPc.isAccess]⟩
    simp only [Master.load, hp, MPc.load] at h1 ⊢
    omega
  | got op =>
    cases hx : op.xs with
    | nil =>
      obtain ⟨h1, h2, _⟩ := Master.next_load p s.queue (({ s with cur := some op } : Master).finish op [])
      simp only [Master.next, hx]
      refine ⟨.inr ?_, h2, by simp [MPc.isAccess]⟩
      simp only [Master.load, hp, MPc.load, hx] at h1 ⊢
      omega
    | cons x xs =>
      obtain ⟨h1, h2⟩ := Master.enter_load { s with queue := s.queue, cur := some op } p op x xs []
      simp only [Master.next, hx]
      refine ⟨.inr ?_, h2, by simp [MPc.isAccess]⟩
      simp only [Master.load, hp, MPc.load, hx, List.length_cons] at h1 ⊢
      omega
  | pause op x xs rs =>
    refine ⟨?_, (Master.enter_load s p op x xs rs).2, by simp [MPc.isAccess]⟩
    simp only [Master.enter]
    split
    · left; rw [← hp]
    · right; simp only [Master.load, hp, MPc.load]; omega
  | setup op x xs rs =>
    refine ⟨.inr ?_, rfl, by simp [MPc.isAccess]⟩
    simp only [Master.load, hp, MPc.load]; omega
  | access op x xs rs =>
    cases r with
    | false => exact ⟨.inl rfl, rfl, by simp⟩
    | true =>
      simp only [if_true]
      cases xs with
      | nil =>
        have key : ∀ s' : Master, s'.wrappers = s.wrappers →
            (Master.next p s.queue s').load + 5 ≤ s.load ∧ (Master.next p s.queue s').wrappers = s.wrappers := by
          intro s' hw
          obtain ⟨h1, h2, _⟩ := Master.next_load p s.queue s'
          refine ⟨?_, h2.trans hw⟩
          simp only [Master.load, hp, MPc.load, List.length_nil] at h1 ⊢
          omega
        dsimp only
        exact ⟨.inr (Nat.lt_of_lt_of_le (Nat.lt_add_of_pos_right (by decide : 0 < 5)) (key _ (by rfl)).1), (key _ (by rfl)).2, fun _ _ => (key _ (by rfl)).1⟩
      | cons x' xs =>
        have key : ∀ (s' : Master) rs, s'.wrappers = s.wrappers → s'.queue = s.queue →
            (s'.enter p op x' xs rs).load + 5 ≤ s.load ∧ (s'.enter p op x' xs rs).wrappers = s.wrappers := by
          intro s' rs hw hq
          obtain ⟨h1, h2⟩ := Master.enter_load s' p op x' xs rs
          rw [hq] at h1
          refine ⟨?_, h2.trans hw⟩
          simp only [Master.load, hp, MPc.load, List.length_cons] at h1 ⊢
          omega
        dsimp only
        exact ⟨.inr (Nat.lt_of_lt_of_le (Nat.lt_add_of_pos_right (by decide : 0 < 5)) (key _ _ (by rfl) (by rfl)).1), (key _ _ (by rfl) (by rfl)).2,
          fun _ _ => (key _ _ (by rfl) (by rfl)).1⟩

/-- Every turn of a coroutine that does anything leaves less to do. -/
theorem HInv.decreases {slverr : Bool} {f : Access σ} {y : Sys σ} (h : y.HInv slverr f) {e : Ev} (he : e.progress = true) :
    y.step slverr f e = y ∨ (y.step slverr f e).load < y.load := by
  cases e with
  | call op => simp [Ev.progress] at he
  | init op => simp [Ev.progress] at he
  | reset v => simp [Ev.progress] at he
  | runInit i =>
    simp only [Sys.step, Master.step]
    split
    · rename_i op ho
      right
      have hi := (List.getElem?_eq_some_iff.1 ho).1
      have h1 := opsLoad_erase ho
      simp only [load, Master.call, Master.load, opsLoad_append, opsLoad, List.length_eraseIdx, if_pos hi]
      omega
    · exact .inl rfl
  | resume =>
    simp only [Sys.step, Master.step, Master.resume]
    split
    · rename_i op rest hp hq
      right
      simp only [load, Master.load, hp, hq, MPc.load, opsLoad, Op.load]
      omega
    · exact .inl rfl
  | edge mp sp slow =>
    obtain ⟨m1, m2, m3⟩ := Master.edge_load y.m slverr mp y.s.pready y.s.prdata y.s.pslverr
    by_cases hs : y.s.pc = .ready
    · right
      have ha : y.m.pc.isAccess = true := by
        cases hx : y.m.pc.isAccess with
        | true => rfl
        | false => rcases h.nacc hx with h' | h' <;> rw [hs] at h' <;> cases h'
      have hr : y.s.pready = true := by rw [h.rdy]; simp [hs]
      have := m3 ha hr
      have h3 : (y.s.edge f sp slow y.m.bus).pc = .idle := by simp [Slave.edge, hs]
      simp only [Sys.step, Master.step, load, m2, h3, hs, SPc.load]
      omega
    · rcases m1 with m1 | m1 <;> rcases Slave.edge_load f y.s sp slow y.m.bus hs with s1 | s1
      · left; simp only [Sys.step, Master.step, m1, s1]
      all_goals
        right
        simp only [Sys.step, Master.step, load, m2]
        first | (rw [m1]; omega) | (rw [s1]; omega) | omega

/-- If nothing can happen, all operations have completed. -/
theorem HInv.rest {slverr : Bool} {f : Access σ} {y : Sys σ} (h : y.HInv slverr f) (hm : y.m.pc ≠ .stopped) (hs : y.s.pc ≠ .stopped)
    (q1 : y.step slverr f .resume = y) (q2 : y.step slverr f (.edge false false false) = y)
    (q3 : ∀ i, y.step slverr f (.runInit i) = y) :
    y.m.idle = true ∧ y.m.wrappers = [] ∧ y.m.epoch = y.m.done.map (·.1) := by
  have e1 : y.m.edge slverr false y.s.pready y.s.prdata y.s.pslverr = y.m := congrArg Sys.m q2
  have e2 : y.s.edge f false false y.m.bus = y.s := congrArg Sys.s q2
  have hpc : y.m.pc = .get := by
    cases hp : y.m.pc with
    | stopped => exact absurd hp hm
    | get => rfl
    | init =>
      have := (Master.next_pc false y.m.queue y.m).2.1
      simp only [Master.edge, hp] at e1
      rw [e1] at this; exact absurd hp this
    | got op =>
      have := (Master.next_pc false (op :: y.m.queue) y.m).2.2 op
      simp only [Master.edge, hp] at e1
      rw [e1] at this; exact absurd hp this
    | pause op x xs rs =>
      simp only [Master.edge, hp, Master.enter] at e1
      have := congrArg Master.pc e1
      simp [hp] at this
    | setup op x xs rs =>
      simp only [Master.edge, hp] at e1
      have := congrArg Master.pc e1
      simp [hp] at this
    | access op x xs rs =>
      have hsel : y.m.bus.psel = true := by rw [← (h.m.ctl.access _ _ _ _ hp).2]; exact Master.drive_sel _ _
      have h5 := congrArg (fun s : Slave σ => s.pc) e2
      rcases h.acc (by simp [hp, MPc.isAccess]) with h' | h' | h' | h' | h'
      · simp [Slave.edge, h', Slave.perform] at h5
      · simp [Slave.edge, h'] at h5
      · simp [Slave.edge, h'] at h5
      · simp [Slave.edge, h', hsel, Slave.perform] at h5
      · exact absurd h' hs
  have hq : y.m.queue = [] := by
    cases hx : y.m.queue with
    | nil => rfl
    | cons op rest =>
      have := congrArg (fun z : Sys σ => z.m.pc) q1
      simp [Sys.step, Master.step, Master.resume, hpc, hx] at this
  have hw : y.m.wrappers = [] := by
    cases hx : y.m.wrappers with
    | nil => rfl
    | cons op rest =>
      have := congrArg (fun z : Sys σ => z.m.wrappers.length) (q3 0)
      simp [Sys.step, Master.step, hx, Master.call] at this
  have ha : y.m.active ++ y.m.queue = [] := by simp [Master.active, hpc, hq]
  have hb := h.m.book
  rw [ha] at hb
  exact ⟨by simp [Master.idle, hb.flight], hw, by simpa using hb.epoch⟩

/-- What turns of coroutines preserve. -/
theorem keep {slverr : Bool} {f : Access σ} (y : Sys σ) {e : Ev} (he : e.progress = true) :
    (y.m.pc ≠ .stopped → (y.step slverr f e).m.pc ≠ .stopped) ∧ (y.s.pc ≠ .stopped → (y.step slverr f e).s.pc ≠ .stopped) ∧
    ∀ op ∈ y.m.epoch ++ y.m.wrappers, op ∈ (y.step slverr f e).m.epoch ++ (y.step slverr f e).m.wrappers := by
  cases e with
  | call op => simp [Ev.progress] at he
  | init op => simp [Ev.progress] at he
  | reset v => simp [Ev.progress] at he
  | runInit i =>
    simp only [Sys.step, Master.step]
    split
    · rename_i op ho
      refine ⟨id, id, ?_⟩
      intro o h
      simp only [Master.call, List.mem_append, List.mem_singleton] at h ⊢
      rcases h with h | h
      · exact .inl (.inl h)
      · by_cases heq : o = op
        · exact .inl (.inr heq)
        · right
          obtain ⟨j, hj⟩ := List.getElem?_of_mem h
          refine List.mem_eraseIdx_iff_getElem?.2 ⟨j, ?_, hj⟩
          intro hji
          subst hji
          rw [ho] at hj
          exact heq (Option.some.inj hj).symm
    · exact ⟨id, id, fun _ h => h⟩
  | resume =>
    simp only [Sys.step, Master.step, Master.resume]
    split
    · exact ⟨by simp, id, fun _ h => h⟩
    · exact ⟨id, id, fun _ h => h⟩
  | edge mp sp slow =>
    refine ⟨?_, ?_, ?_⟩
    · intro h hh
      exact h ((Master.edge_facts y.m slverr mp y.s.pready y.s.prdata y.s.pslverr).2.2.1 hh)
    · intro h
      simp only [Sys.step, Slave.edge]
      split
      · exact h
      · split
        · split
          · simp
          · cases slow <;> simp [Slave.perform]
        · exact h
      · split
        · exact h
        · cases slow <;> simp [Slave.perform]
      · split
        · exact h
        · simp
      · simp
    · intro op h
      simp only [Sys.step, Master.step]
      rw [(Master.edge_facts y.m slverr mp y.s.pready y.s.prdata y.s.pslverr).1,
        (Master.edge_load y.m slverr mp y.s.pready y.s.prdata y.s.pslverr).2.1]
      exact h

end Sys

end Verif.Apb
