import Verif.Proof.ApbSplitLive
import Verif.Props.ApbSplit
import Verif.Props.AxiSysProgress

/-!
# C133: operations complete after a reset of only one end of an APB connection
-/

namespace Verif.Apb

open AxiSys (stabilises)

variable {σ : Type}

/-- **C133, operations complete.** After any history `evs` in which the master or the slave is reset alone only while no access is in progress
(both together at any time), and at whose end both are out of reset: if no more calls are made and nothing is reset, then under any
fair schedule of turns and clock edges (with pauses and a target that takes time) there is an instant (`N`) from which on the
master is idle, and every operation called since the last reset of the master, also with `init_read()`/`init_write()`, has completed with the
result that it gets when these operations are executed one after the other. Missing (and false, `C133_violated`): a reset of one end during an
access. -/
theorem C133_completes_partial (slverr : Bool) (f : Access σ) (st : σ) (evs : List SplitEv) (hc : CalmAll slverr f st evs) (sched : Nat → Ev) :
    let S : Nat → Sys σ := fun n => Sys.splitExec slverr f st (evs ++ (List.range n).map (fun k => SplitEv.both (sched k)))
    (∀ n, (sched n).progress = true) → SplitFair slverr f S sched → (S 0).m.pc ≠ .stopped → (S 0).s.pc ≠ .stopped →
    ∃ N, ∀ n, N ≤ n →
      (S n).m.idle = true ∧
      serial slverr f (S n).m.epoch (S n).base = ((S n).m.done, ((S n).s.mem, (S n).s.prdata)) ∧
      ∀ op ∈ (S 0).m.epoch ++ (S 0).m.wrappers, ∃ rs, (op, rs) ∈ (S n).m.done ∧ (op, some rs) ∈ (S n).m.results := by
  intro S hs hf hm0 hs0
  have hcalm : ∀ n, CalmAll slverr f st (evs ++ (List.range n).map (fun k => SplitEv.both (sched k))) := by
    intro n k e hk
    by_cases hl : k < evs.length
    · rw [List.getElem?_append_left hl] at hk
      rw [List.take_append_of_le_length (by omega)]
      exact hc k e hk
    · rw [List.getElem?_append_right (by omega)] at hk
      obtain ⟨j, _, rfl⟩ := List.mem_map.1 (List.mem_of_getElem? hk)
      trivial
  have hinv : ∀ n, (S n).HInv slverr f := fun n => Sys.splitExec_inv slverr f st _ (hcalm n)
  have hsucc : ∀ n, S (n + 1) = (S n).step slverr f (sched n) := by
    intro n
    simp only [S]
    rw [List.range_succ, List.map_append, ← List.append_assoc]
    simp [Sys.splitExec, List.foldl_append, Sys.splitStep]
  obtain ⟨N, hN⟩ := stabilises S Sys.load (fun n => by rw [hsucc]; exact (hinv n).decreases (hs n))
  have hkeep : ∀ n, (S n).m.pc ≠ .stopped ∧ (S n).s.pc ≠ .stopped ∧
      ∀ op ∈ (S 0).m.epoch ++ (S 0).m.wrappers, op ∈ (S n).m.epoch ++ (S n).m.wrappers := by
    intro n
    induction n with
    | zero => exact ⟨hm0, hs0, fun _ h => h⟩
    | succ n ih =>
      rw [hsucc]
      obtain ⟨k1, k2, k3⟩ := Sys.keep (slverr := slverr) (f := f) (S n) (hs n)
      exact ⟨k1 ih.1, k2 ih.2.1, fun op h => k3 op (ih.2.2 op h)⟩
  have hquiet : ∀ e : Ev, (e = .resume ∨ e = .edge false false false ∨ ∃ i, e = .runInit i) → (S N).step slverr f e = S N := by
    intro e he
    obtain ⟨k, hk, h⟩ := hf e he N
    rcases h with h | h
    · have h1 := hsucc k
      rw [h, hN k hk, hN (k + 1) (by omega)] at h1
      exact h1.symm
    · rw [hN k hk] at h; exact h
  obtain ⟨k1, k2, k3⟩ := hkeep N
  obtain ⟨r1, r2, r3⟩ := (hinv N).rest k1 k2 (hquiet _ (.inl rfl)) (hquiet _ (.inr (.inl rfl))) fun i => hquiet _ (.inr (.inr ⟨i, rfl⟩))
  refine ⟨N, fun n hn => ?_⟩
  rw [hN n hn]
  refine ⟨r1, C133_idle_partial slverr f st _ (hcalm N) r1, fun op ho => ?_⟩
  have h1 := k3 op ho
  rw [r2, List.append_nil, r3] at h1
  obtain ⟨d, hd, rfl⟩ := List.mem_map.1 h1
  exact ⟨d.2, hd, (hinv N).m.book.doneRes d hd⟩

/-! ## A fair schedule, and an example -/

/-- In turn: a call begins (every index again and again), the master takes a command, a clock edge at which both are paused and the target takes
time, and one at which neither is and it returns. -/
def splitTurns (n : Nat) : Ev :=
  match n % 4 with
  | 0 => .runInit (n / 4 - 2 ^ (n / 4).log2)
  | 1 => .resume
  | 2 => .edge true true true
  | _ => .edge false false false

theorem splitTurns_progress (n : Nat) : (splitTurns n).progress = true := by
  unfold splitTurns
  split <;> rfl

theorem splitTurns_fair (slverr : Bool) (f : Access σ) (S : Nat → Sys σ) : SplitFair slverr f S splitTurns := by
  intro e he n
  rcases he with rfl | rfl | ⟨i, rfl⟩
  · exact ⟨4 * n + 1, by omega, .inl (by unfold splitTurns; rw [show (4 * n + 1) % 4 = 1 by omega]; rfl)⟩
  · exact ⟨4 * n + 3, by omega, .inl (by unfold splitTurns; rw [show (4 * n + 3) % 4 = 3 by omega]; rfl)⟩
  · have hlt : n + i < 2 ^ (n + i) := Nat.lt_two_pow_self
    have hlog : (2 ^ (n + i) + i).log2 = n + i := by
      refine (Nat.log2_eq_iff (by omega)).2 ⟨by omega, ?_⟩
      rw [Nat.pow_succ]; omega
    refine ⟨4 * (2 ^ (n + i) + i), by omega, .inl ?_⟩
    unfold splitTurns
    rw [show (4 * (2 ^ (n + i) + i)) % 4 = 0 by omega, show (4 * (2 ^ (n + i) + i)) / 4 = 2 ^ (n + i) + i by omega, hlog,
      Nat.add_sub_cancel_left]
    rfl

/-- The slave alone is reset while the master has a transfer in its setup phase, and comes back while the master waits in the access phase; a read is
called with `init_read()`. -/
def tlLater : List SplitEv :=
  [.both (.reset true), .both (.reset false), .both (.call tlW), .both (.edge false false false), .resetS true,
   .both (.edge false false false), .both (.edge false false false), .both (.init tlR), .resetS false]

example : ∃ N, ∀ n, N ≤ n →
    let y := Sys.splitExec true tally 0 (tlLater ++ (List.range n).map (fun k => SplitEv.both (splitTurns k)))
    y.m.idle = true ∧ (∃ rs, (tlW, rs) ∈ y.m.done) ∧ ∃ rs, (tlR, rs) ∈ y.m.done := by
  have hn : tlLater ++ (List.range 0).map (fun k => SplitEv.both (splitTurns k)) = tlLater := by simp
  have h1 : (Sys.splitExec true tally 0 tlLater).m.epoch = [tlW] := by decide +kernel
  have h2 : (Sys.splitExec true tally 0 tlLater).m.wrappers = [tlR] := by decide +kernel
  have := C133_completes_partial true tally 0 tlLater (calm_of_bool (by decide +kernel)) splitTurns splitTurns_progress
    (splitTurns_fair _ _ _) (by decide +kernel) (by decide +kernel)
  simp only [hn, h1, h2] at this
  obtain ⟨N, hN⟩ := this
  refine ⟨N, fun n hn => ?_⟩
  obtain ⟨h3, _, h4⟩ := hN n hn
  obtain ⟨r1, w1, _⟩ := h4 tlW (by simp)
  obtain ⟨r2, w2, _⟩ := h4 tlR (by simp)
  exact ⟨h3, ⟨r1, w1⟩, r2, w2⟩

end Verif.Apb
