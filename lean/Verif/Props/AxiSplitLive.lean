import Verif.Proof.AxiSplitLive
import Verif.Props.AxiSplit

/-!
# C136: operations complete after a reset of only one end of an AXI connection
-/

namespace Verif.AxiSys

open Verif.Axi Verif.AxiOps Verif.AxiOps.Master

section

variable {σ : Type} (c : Cfg) (hc : c.Std) (wa : Nat → WArgs) (ra : Nat → Req) (hi : IdsFit c wa ra) (t : Target σ) (st : σ)
  (evs : List SplitEv) (hcalm : Split.Calm c wa ra t st evs)

include hc hi hcalm

/-- **C136, operations complete.** After any history `evs` in which the master or the slave is reset alone only while `idle()` is true or
the master is in reset already (both together at any time), and at whose end both are out of reset: if no more calls are made and nothing is reset, then
under any fair schedule of the coroutines and handshakes there is an instant (`N`) from which on `idle()` is true on both sides, and every operation that
was called and had no result at the end of `evs` has completed with responses (never flushed). What the result is then follows from
`C136_writes_partial` and `C136_reads_partial`. Missing (and false, `C136_violated`): a reset of one end at another time. -/
theorem C136_completes_partial (sched : Nat → SplitEv) :
    let S : Nat → Split σ := fun n => Split.run c wa ra t st (evs ++ (List.range n).map sched)
    (∀ n, (sched n).progress = true) → Split.Fair c wa ra t S sched → (S 0).Up →
    ∃ N, ∀ n, N ≤ n →
      (S n).w.p.m.idle = true ∧ (S n).r.p.m.idle = true ∧
      (∀ op ∈ (S 0).w.p.m.issued ++ (S 0).w.p.m.wrappers, (∀ r, (op, r) ∉ (S 0).w.p.m.results) →
        ∃ got, (op, some got) ∈ (S n).w.p.m.results) ∧
      (∀ op ∈ (S 0).r.p.m.issued ++ (S 0).r.p.m.wrappers, (∀ r, (op, r) ∉ (S 0).r.p.m.results) →
        ∃ got, (op, some got) ∈ (S n).r.p.m.results) := by
  intro S hs hf hup
  have hcalm' : ∀ n, Split.Calm c wa ra t st (evs ++ (List.range n).map sched) := by
    intro n
    refine hcalm.append fun e he => ?_
    obtain ⟨k, _, rfl⟩ := List.mem_map.1 he
    exact hs k
  have hsucc : ∀ n, S (n + 1) = (S n).step c wa ra t (sched n) := by
    intro n
    simp only [S]
    rw [List.range_succ, List.map_append, ← List.append_assoc]
    simp [Split.run, List.foldl_append]
  obtain ⟨μ, hμ⟩ := C93_terminates c hc wa ra hi t st
  have hstep : ∀ n e, e.progress = true → (S n).step c wa ra t e = S n ∨
      2 * μ ((S n).step c wa ra t e).whole + ((S n).step c wa ra t e).near < 2 * μ (S n).whole + (S n).near := by
    intro n e he
    rcases Split.advance hc hi (hcalm' n) e he with h | ⟨h1, h2⟩ | ⟨e', h1, h2, h3, h4⟩
    · exact .inl h
    · right
      have h1 : ((S n).step c wa ra t e).whole = (S n).whole := h1
      have h2 : ((S n).step c wa ra t e).near < (S n).near := h2
      rw [h1]; omega
    · obtain ⟨evs', hr⟩ := Split.reach hc hi (hcalm' n)
      have hr : (S n).whole = _ := hr
      have h2 : ((S n).step c wa ra t e).whole = (S n).whole.step c wa ra t e' := h2
      have h3 : ((S n).step c wa ra t e).near ≤ (S n).near + 1 := h3
      rcases hμ evs' e' h1 with h | h
      · left
        refine h4 ?_
        show ((S n).step c wa ra t e).whole = (S n).whole
        rw [h2, hr, h]
      · right
        rw [← hr, ← h2] at h
        omega
  obtain ⟨N, hN⟩ := stabilises S (fun s => 2 * μ s.whole + s.near) (fun n => by rw [hsucc]; exact hstep n _ (hs n))
  have hlater : ∀ n, Later (S 0).w.p.m (S n).w.p.m ∧ Later (S 0).r.p.m (S n).r.p.m ∧ (S n).w.up = true ∧ (S n).r.up = true := by
    intro n
    induction n with
    | zero => exact ⟨Later.refl _, Later.refl _, hup.2.1, hup.2.2.2⟩
    | succ n ih =>
      obtain ⟨i1, i2, i3, i4⟩ := ih
      rw [hsucc]
      have hm : Later (S n).w.p.m ((S n).step c wa ra t (sched n)).w.p.m ∧
          Later (S n).r.p.m ((S n).step c wa ra t (sched n)).r.p.m := by
        rcases Split.advance hc hi (hcalm' n) (sched n) (hs n) with h | ⟨h1, _⟩ | ⟨e', h1, h2, _, _⟩
        · have h : (S n).step c wa ra t (sched n) = S n := h
          rw [h]; exact ⟨Later.refl _, Later.refl _⟩
        · have h1 : ((S n).step c wa ra t (sched n)).whole = (S n).whole := h1
          have g1 := congrArg (fun x : Sys σ => x.w.m) h1
          have g2 := congrArg (fun x : Sys σ => x.r.m) h1
          simp only [Split.whole, SplitW.whole, SplitR.whole] at g1 g2
          rw [g1, g2]; exact ⟨Later.refl _, Later.refl _⟩
        · have h2 : ((S n).step c wa ra t (sched n)).whole = (S n).whole.step c wa ra t e' := h2
          have := later_step c wa ra t (S n).whole e' h1
          rw [← h2] at this
          exact this
      have hu : ((S n).step c wa ra t (sched n)).w.up = true ∧ ((S n).step c wa ra t (sched n)).r.up = true := by
        have hp := hs n
        generalize sched n = e at hp ⊢
        cases e with
        | w e => exact ⟨by simp only [Split.step]; rw [SplitW.up_keep _ _ e hp]; exact i3, i4⟩
        | r e => exact ⟨i3, by simp only [Split.step]; rw [SplitR.up_keep _ _ e hp]; exact i4⟩
      exact ⟨i1.trans hm.1, i2.trans hm.2, hu.1, hu.2⟩
  have hquiet : ∀ e : SplitEv, e.progress = true → (S N).step c wa ra t e = S N := by
    intro e he
    obtain ⟨k, hk, h⟩ := hf e he N
    rcases h with h | h
    · have h1 := hsucc k
      rw [h, hN k hk, hN (k + 1) (by omega)] at h1
      exact h1.symm
    · rw [hN k hk] at h; exact h
  obtain ⟨l1, l2, l3, l4⟩ := hlater N
  have hq := Split.quiet hc hi (hcalm' N) ⟨l1.run hup.1, l3, l2.run hup.2.2.1, l4⟩ hquiet
  obtain ⟨evs', hr⟩ := Split.reach hc hi (hcalm' N)
  have hr : (S N).whole = Sys.run c wa ra t st evs' := hr
  have hdead := C93_no_deadlock c hc wa ra hi t st evs'
  simp only [← hr] at hdead
  obtain ⟨hdw, hdr⟩ := hdead hq
  obtain ⟨w1, w2, w3⟩ := hdw (l1.run hup.1)
  obtain ⟨r1, r2, r3⟩ := hdr (l2.run hup.2.2.1)
  refine ⟨N, fun n hn => ?_⟩
  rw [hN n hn]
  refine ⟨w1, r1, ?_, ?_⟩
  · intro op ho hno
    have h1 := l1.calls op ho
    have h2 : (S N).w.p.m.wrappers = [] := w2
    rw [h2, List.append_nil] at h1
    obtain ⟨r, hr⟩ := w3 op h1
    cases r with
    | none => exact absurd (l1.flush op hr) (hno none)
    | some got => exact ⟨got, hr⟩
  · intro op ho hno
    have h1 := l2.calls op ho
    have h2 : (S N).r.p.m.wrappers = [] := r2
    rw [h2, List.append_nil] at h1
    obtain ⟨r, hr⟩ := r3 op h1
    cases r with
    | none => exact absurd (l2.flush op hr) (hno none)
    | some got => exact ⟨got, hr⟩

end

/-! ## Fair schedules exist, and an example -/

/-- All pieces of coroutines and handshakes, with the index `i` where there is one. -/
def splitPieces (i : Nat) : List SplitEv :=
  [.w (.master (.runInit i)), .w (.master .take), .w .sendAW, .w .sendW, .w (.master .start), .w .moveAW, .w .moveW, .w .moveB, .w .slaveAW,
   .w .slaveW, .w .slaveB, .w (.master .deliver), .w (.master (.workTake i)), .w (.master (.workGet i)), .w (.master (.workDone i)),
   .r (.master (.runInit i)), .r (.master .take), .r .sendAR, .r (.master .start), .r .moveAR, .r .moveR, .r .slaveAR, .r .slaveR,
   .r (.master .deliver), .r (.master (.workTake i)), .r (.master (.workGet i)), .r (.master (.workDone i))]

/-- Goes through the pieces again and again, with every index again and again. -/
def splitRobin (n : Nat) : SplitEv := ((splitPieces (n / 27 - 2 ^ (n / 27).log2))[n % 27]?).getD (.w .sendAW)

theorem splitRobin_progress (n : Nat) : (splitRobin n).progress = true := by
  unfold splitRobin
  have h : ∀ i, ∀ e ∈ splitPieces i, e.progress = true := by
    intro i e he
    simp only [splitPieces, List.mem_cons, List.not_mem_nil, or_false] at he
    rcases he with h | h | h | h | h | h | h | h | h | h | h | h | h | h | h | h | h | h | h | h | h | h | h | h | h | h | h <;>
      (subst h; rfl)
  cases hx : (splitPieces (n / 27 - 2 ^ (n / 27).log2))[n % 27]? with
  | none => rfl
  | some e => exact h _ e (List.mem_of_getElem? hx)

theorem splitRobin_fair {σ : Type} (c : Cfg) (wa : Nat → WArgs) (ra : Nat → Req) (t : Target σ) (S : Nat → Split σ) :
    Split.Fair c wa ra t S splitRobin := by
  intro e he n
  have hit : ∀ i j, j < 27 → (splitPieces i)[j]? = some e → ∃ k, n ≤ k ∧ (splitRobin k = e ∨ (S k).step c wa ra t e = S k) := by
    intro i j hj hx
    have hlt : n + i < 2 ^ (n + i) := Nat.lt_two_pow_self
    have hlog : (2 ^ (n + i) + i).log2 = n + i := by
      refine (Nat.log2_eq_iff (by omega)).2 ⟨by omega, ?_⟩
      rw [Nat.pow_succ]; omega
    refine ⟨27 * (2 ^ (n + i) + i) + j, by omega, .inl ?_⟩
    unfold splitRobin
    have h1 : (27 * (2 ^ (n + i) + i) + j) / 27 = 2 ^ (n + i) + i := by omega
    have h2 : (27 * (2 ^ (n + i) + i) + j) % 27 = j := by omega
    rw [h1, h2, hlog, Nat.add_sub_cancel_left, hx]
    rfl
  have key : ∀ i, e ∈ splitPieces i → ∃ k, n ≤ k ∧ (splitRobin k = e ∨ (S k).step c wa ra t e = S k) := by
    intro i hm
    obtain ⟨j, hj, hx⟩ := List.getElem_of_mem hm
    exact hit i j hj (by rw [List.getElem?_eq_getElem hj, hx])
  have dull : (∀ k, (S k).step c wa ra t e = S k) → ∃ k, n ≤ k ∧ (splitRobin k = e ∨ (S k).step c wa ra t e = S k) :=
    fun h => ⟨n, Nat.le_refl n, .inr (h n)⟩
  cases e with
  | w e =>
    cases e with
    | master e =>
      cases e with
      | write => simp [SplitEv.progress, SplitWEv.progress, WEv.progress] at he
      | init => simp [SplitEv.progress, SplitWEv.progress, WEv.progress] at he
      | reset v => simp [SplitEv.progress, SplitWEv.progress, WEv.progress] at he
      | runInit i => exact key i (by simp [splitPieces])
      | workTake i => exact key i (by simp [splitPieces])
      | workGet i => exact key i (by simp [splitPieces])
      | workDone i => exact key i (by simp [splitPieces])
      | take => exact key 0 (by simp [splitPieces])
      | start => exact key 0 (by simp [splitPieces])
      | deliver => exact key 0 (by simp [splitPieces])
      | _ => exact dull fun k => rfl
    | resetM v => simp [SplitEv.progress, SplitWEv.progress] at he
    | resetS v => simp [SplitEv.progress, SplitWEv.progress] at he
    | resetBoth v => simp [SplitEv.progress, SplitWEv.progress] at he
    | _ => exact key 0 (by simp [splitPieces])
  | r e =>
    cases e with
    | master e =>
      cases e with
      | read => simp [SplitEv.progress, SplitREv.progress, REv.progress] at he
      | init => simp [SplitEv.progress, SplitREv.progress, REv.progress] at he
      | reset v => simp [SplitEv.progress, SplitREv.progress, REv.progress] at he
      | runInit i => exact key i (by simp [splitPieces])
      | workTake i => exact key i (by simp [splitPieces])
      | workGet i => exact key i (by simp [splitPieces])
      | workDone i => exact key i (by simp [splitPieces])
      | take => exact key 0 (by simp [splitPieces])
      | start => exact key 0 (by simp [splitPieces])
      | deliver => exact key 0 (by simp [splitPieces])
      | _ => exact dull fun k => rfl
    | resetM v => simp [SplitEv.progress, SplitREv.progress] at he
    | resetS v => simp [SplitEv.progress, SplitREv.progress] at he
    | resetBoth v => simp [SplitEv.progress, SplitREv.progress] at he
    | _ => exact key 0 (by simp [splitPieces])

/-- A write completes, the master alone and the slave alone are reset, and both come up again, while a write and a read are called:
those complete. -/
def spLater : List SplitEv :=
  spUp ++ spWrite ++ [.w (.resetM true), .w (.resetS true), .w (.master .write), .r (.resetS true), .w (.resetS false), .w (.resetM false),
    .r (.master .read), .r (.resetS false)]

theorem spLater_state : let s := Split.run exC spWa spRa ramTarget spM spLater
    calmUpTo spLater = true ∧ s.Up ∧ s.w.p.m.issued = [spW 0, spW 1] ∧ s.w.p.m.results = [(spW 0, some [⟨0, .okay, 0⟩])] ∧
      s.r.p.m.issued = [spR 0] ∧ s.r.p.m.results = [] := by
  refine ⟨by decide +kernel, ⟨by decide +kernel, by decide +kernel, by decide +kernel, by decide +kernel⟩, by decide +kernel, by decide +kernel, by decide +kernel, by decide +kernel⟩

example : ∃ N, ∀ n, N ≤ n →
    (∃ got, (spW 1, some got) ∈ (Split.run exC spWa spRa ramTarget spM (spLater ++ (List.range n).map splitRobin)).w.p.m.results) ∧
    ∃ got, (spR 0, some got) ∈ (Split.run exC spWa spRa ramTarget spM (spLater ++ (List.range n).map splitRobin)).r.p.m.results := by
  obtain ⟨h0, h1, h2, h3, h4, h5⟩ := spLater_state
  have hn : spLater ++ (List.range 0).map splitRobin = spLater := by simp
  have := C136_completes_partial exC exC_std spWa spRa spIds ramTarget spM spLater (calm_of spLater h0) splitRobin splitRobin_progress
    (splitRobin_fair _ _ _ _ _) (by simp only [hn]; exact h1)
  simp only [hn, h2, h3, h4, h5] at this
  obtain ⟨N, hN⟩ := this
  refine ⟨N, fun n hn => ?_⟩
  obtain ⟨_, _, hw, hr⟩ := hN n hn
  exact ⟨hw (spW 1) (by simp) (by simp [spW]), hr (spR 0) (by simp) (by simp)⟩

end Verif.AxiSys
