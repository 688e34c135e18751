import Verif.Proof.LiteSplitLive
import Verif.Props.LiteSplit

/-!
# C132: operations complete after a reset of only one end of an AXI-lite connection
-/

namespace Verif.LiteOps

open Verif.Word
open AxiSys (stabilises)

variable {χ α β ρ χ' ρ' σ : Type}

/-- **C132, operations complete.** After any history `evs` in which the master or the slave is reset alone only while `idle()` of the
master is true (both together at any time), and at whose end both are out of reset: if no more calls are made and nothing is reset, then
under any fair schedule of the coroutines and handshakes there is an instant (`N`) from which on `idle()` is true on both sides, and every
operation that was called and had no result at the end of `evs` has completed with responses (never flushed). What the result is then follows
from `C132_writes_partial` and `C132_reads_partial`. Missing (and false, `C132_violated`): a reset of one end at another time. -/
theorem C132_completes_partial (h : Halves χ α β) (hl : ∀ x, h.join (h.aw x) (h.w x) = x) (f : χ → σ → ρ × σ) (g : χ' → σ → ρ' × σ)
    (m0 : σ) (evs : List (SplitEv χ ρ χ' ρ')) (hw : Split.CalmW h f g m0 evs) (hc : Split.CalmR h f g m0 evs)
    (sched : Nat → SplitEv χ ρ χ' ρ') :
    let S : Nat → Split χ α β ρ χ' ρ' σ := fun n => Split.run h f g { mem := m0 } (evs ++ (List.range n).map sched)
    (∀ n, (sched n).progress = true) → Split.Fair h f g S sched → (S 0).Up →
    ∃ N, ∀ n, N ≤ n →
      (S n).w.m.idle = true ∧ (S n).r.m.idle = true ∧
      (∀ op ∈ (S 0).w.m.issued ++ (S 0).w.m.wrappers, (∀ r, (op, r) ∉ (S 0).w.m.results) →
        ∃ got, (op, some got) ∈ (S n).w.m.results) ∧
      (∀ op ∈ (S 0).r.m.issued ++ (S 0).r.m.wrappers, (∀ r, (op, r) ∉ (S 0).r.m.results) →
        ∃ got, (op, some got) ∈ (S n).r.m.results) := by
  intro S hs hf hup
  have hcalm : ∀ n, Split.CalmW h f g m0 (evs ++ (List.range n).map sched) ∧ Split.CalmR h f g m0 (evs ++ (List.range n).map sched) := by
    intro n
    refine Split.calm_append (fun e he => ?_) hw hc
    obtain ⟨k, _, rfl⟩ := List.mem_map.1 he
    exact hs k
  have hS : ∀ n, S n = Split.after h f g m0 (evs ++ (List.range n).map sched) (evs ++ (List.range n).map sched).length := by
    intro n; simp only [S, Split.after, List.take_length]
  have hinv : ∀ n, SplitW.SInv h (S n).w := by
    intro n; rw [hS]; exact Split.invW h f g m0 _ hl (hcalm n).1 _
  have hsucc : ∀ n, S (n + 1) = (S n).step h f g (sched n) := by
    intro n
    simp only [S]
    rw [List.range_succ, List.map_append, ← List.append_assoc]
    simp [Split.run, List.foldl_append]
  have hstep : ∀ n e, e.progress = true → (S n).step h f g e = S n ∨
      (6 * (((S n).step h f g e).w.view h).wt + ((S n).step h f g e).w.near) +
        (6 * ((S n).step h f g e).r.view.wt + ((S n).step h f g e).r.near) <
      (6 * ((S n).w.view h).wt + (S n).w.near) + (6 * (S n).r.view.wt + (S n).r.near) := by
    intro n e he
    cases e with
    | w e =>
      simp only [Split.step]
      rcases SplitW.decreases hl (f := f) (hinv n) (S n).mem e he with h1 | h1
      · left; rw [h1]
      · right; omega
    | r e =>
      simp only [Split.step]
      rcases SplitR.decreases (g := g) (S n).r (S n).mem e he with h1 | h1
      · left; rw [h1]
      · right; omega
  obtain ⟨N, hN⟩ := stabilises S (fun s => (6 * (s.w.view h).wt + s.w.near) + (6 * s.r.view.wt + s.r.near))
    (fun n => by rw [hsucc]; exact hstep n _ (hs n))
  have hlater : ∀ n, Later (S 0).w.m (S n).w.m ∧ Later (S 0).r.m (S n).r.m ∧ (S n).w.up = true ∧ (S n).r.up = true := by
    intro n
    induction n with
    | zero => exact ⟨Later.refl _, Later.refl _, hup.2.1, hup.2.2.2⟩
    | succ n ih =>
      obtain ⟨i1, i2, i3, i4⟩ := ih
      rw [hsucc]
      have hp := hs n
      generalize sched n = e at hp ⊢
      cases e with
      | w e =>
        obtain ⟨k1, k2⟩ := SplitW.keep (h := h) (f := f) (S n).w (S n).mem e hp
        exact ⟨i1.trans k2, i2, k1.trans i3, i4⟩
      | r e =>
        obtain ⟨k1, k2⟩ := SplitR.keep (g := g) (S n).r (S n).mem e hp
        exact ⟨i1, i2.trans k2, i3, k1.trans i4⟩
  have hquiet : ∀ e : SplitEv χ ρ χ' ρ', e.progress = true → (S N).step h f g e = S N := by
    intro e he
    obtain ⟨k, hk, h'⟩ := hf e he N
    rcases h' with h' | h'
    · have h1 := hsucc k
      rw [h', hN k hk, hN (k + 1) (by omega)] at h1
      exact h1.symm
    · rw [hN k hk] at h'; exact h'
  obtain ⟨l1, l2, l3, l4⟩ := hlater N
  have hdw := SplitW.still hl (f := f) (hinv N) (S N).mem (l1.run hup.1) l3
    fun e he => Prod.ext (congrArg Split.w (hquiet (.w e) he)) (congrArg Split.mem (hquiet (.w e) he))
  have hdr := SplitR.still (g := g) (S N).mem (l2.run hup.2.2.1) l4
    fun e he => Prod.ext (congrArg Split.r (hquiet (.r e) he)) (congrArg Split.mem (hquiet (.r e) he))
  have hdone : (S N).w.m.idle = true ∧ (S N).w.m.wrappers = [] ∧ ∀ op ∈ (S N).w.m.issued, ∃ r, (op, r) ∈ (S N).w.m.results := by
    have hT := Split.traceW h f g m0 _ hl (hcalm N).1
    obtain ⟨sv, hI⟩ := hT.inv (evs ++ (List.range N).map sched).length
    have hq := hI.quiet (by rw [← hS]; exact l1.run hup.1) (S N).mem (by rw [← hS]; exact hdw)
    rw [← hS] at hq
    have ha := Lite.Inv.all_done (hT.seq.inv (evs ++ (List.range N).map sched).length) (by rw [← hS]; exact hq.1)
    rw [← hS] at ha
    exact ⟨ha.1, hq.2, ha.2⟩
  have hdone' : (S N).r.m.idle = true ∧ (S N).r.m.wrappers = [] ∧ ∀ op ∈ (S N).r.m.issued, ∃ r, (op, r) ∈ (S N).r.m.results := by
    have hT := Split.traceR h f g m0 _ (hcalm N).2
    obtain ⟨sv, hI⟩ := hT.inv (evs ++ (List.range N).map sched).length
    have hq := hI.quiet (by rw [← hS]; exact l2.run hup.2.2.1) (S N).mem (by rw [← hS]; exact hdr)
    rw [← hS] at hq
    have ha := Lite.Inv.all_done (hT.seq.inv (evs ++ (List.range N).map sched).length) (by rw [← hS]; exact hq.1)
    rw [← hS] at ha
    exact ⟨ha.1, hq.2, ha.2⟩
  obtain ⟨w1, w2, w3⟩ := hdone
  obtain ⟨r1, r2, r3⟩ := hdone'
  refine ⟨N, fun n hn => ?_⟩
  rw [hN n hn]
  refine ⟨w1, r1, ?_, ?_⟩
  · intro op ho hno
    have h1 := l1.calls op ho
    rw [w2, List.append_nil] at h1
    obtain ⟨r, hr⟩ := w3 op h1
    cases r with
    | none => exact absurd (l1.flush op hr) (hno none)
    | some got => exact ⟨got, hr⟩
  · intro op ho hno
    have h1 := l2.calls op ho
    rw [r2, List.append_nil] at h1
    obtain ⟨r, hr⟩ := r3 op h1
    cases r with
    | none => exact absurd (l2.flush op hr) (hno none)
    | some got => exact ⟨got, hr⟩

/-! ## Fair schedules exist, and an example -/

/-- All pieces of coroutines and handshakes, with the index `i` where there is one. -/
def splitPieces (i : Nat) : List (SplitEv χ ρ χ' ρ') :=
  [.w (.master (.runInit i)), .w (.master .take), .w .sendAW, .w .sendW, .w .moveAW, .w .moveW, .w .moveB, .w .slaveAW,
   .w .slaveW, .w (.master .respTake), .w (.master .respGet), .w (.master .respDone),
   .r (.master (.runInit i)), .r (.master .take), .r .sendAR, .r .moveAR, .r .moveR, .r .slaveR,
   .r (.master .respTake), .r (.master .respGet), .r (.master .respDone)]

/-- Goes through the pieces again and again, with every index again and again. -/
def splitRobin (n : Nat) : SplitEv χ ρ χ' ρ' := ((splitPieces (n / 21 - 2 ^ (n / 21).log2))[n % 21]?).getD (.w .sendAW)

theorem splitRobin_progress (n : Nat) : (splitRobin n : SplitEv χ ρ χ' ρ').progress = true := by
  unfold splitRobin
  have h : ∀ i, ∀ e ∈ (splitPieces i : List (SplitEv χ ρ χ' ρ')), e.progress = true := by
    intro i e he
    simp only [splitPieces, List.mem_cons, List.not_mem_nil, or_false] at he
    rcases he with h | h | h | h | h | h | h | h | h | h | h | h | h | h | h | h | h | h | h | h | h <;> (subst h; rfl)
  cases hx : (splitPieces (n / 21 - 2 ^ (n / 21).log2) : List (SplitEv χ ρ χ' ρ'))[n % 21]? with
  | none => rfl
  | some e => exact h _ e (List.mem_of_getElem? hx)

theorem splitRobin_fair (h : Halves χ α β) (f : χ → σ → ρ × σ) (g : χ' → σ → ρ' × σ) (S : Nat → Split χ α β ρ χ' ρ' σ) :
    Split.Fair h f g S splitRobin := by
  intro e he n
  have hit : ∀ i j, j < 21 → (splitPieces i)[j]? = some e → ∃ k, n ≤ k ∧ (splitRobin k = e ∨ (S k).step h f g e = S k) := by
    intro i j hj hx
    have hlt : n + i < 2 ^ (n + i) := Nat.lt_two_pow_self
    have hlog : (2 ^ (n + i) + i).log2 = n + i := by
      refine (Nat.log2_eq_iff (by omega)).2 ⟨by omega, ?_⟩
      rw [Nat.pow_succ]; omega
    refine ⟨21 * (2 ^ (n + i) + i) + j, by omega, .inl ?_⟩
    unfold splitRobin
    have h1 : (21 * (2 ^ (n + i) + i) + j) / 21 = 2 ^ (n + i) + i := by omega
    have h2 : (21 * (2 ^ (n + i) + i) + j) % 21 = j := by omega
    rw [h1, h2, hlog, Nat.add_sub_cancel_left, hx]
    rfl
  have key : ∀ i, e ∈ splitPieces i → ∃ k, n ≤ k ∧ (splitRobin k = e ∨ (S k).step h f g e = S k) := by
    intro i hm
    obtain ⟨j, hj, hx⟩ := List.getElem_of_mem hm
    exact hit i j hj (by rw [List.getElem?_eq_getElem hj, hx])
  cases e with
  | w e =>
    cases e with
    | master e =>
      cases e with
      | runInit i => exact key i (by simp [splitPieces])
      | take => exact key 0 (by simp [splitPieces])
      | respTake => exact key 0 (by simp [splitPieces])
      | respGet => exact key 0 (by simp [splitPieces])
      | respDone => exact key 0 (by simp [splitPieces])
      | _ => simp [SplitEv.progress, SplitWEv.progress, own] at he
    | resetM v => simp [SplitEv.progress, SplitWEv.progress] at he
    | resetS v => simp [SplitEv.progress, SplitWEv.progress] at he
    | resetBoth v => simp [SplitEv.progress, SplitWEv.progress] at he
    | _ => exact key 0 (by simp [splitPieces])
  | r e =>
    cases e with
    | master e =>
      cases e with
      | runInit i => exact key i (by simp [splitPieces])
      | take => exact key 0 (by simp [splitPieces])
      | respTake => exact key 0 (by simp [splitPieces])
      | respGet => exact key 0 (by simp [splitPieces])
      | respDone => exact key 0 (by simp [splitPieces])
      | _ => simp [SplitEv.progress, SplitREv.progress, own] at he
    | resetM v => simp [SplitEv.progress, SplitREv.progress] at he
    | resetS v => simp [SplitEv.progress, SplitREv.progress] at he
    | resetBoth v => simp [SplitEv.progress, SplitREv.progress] at he
    | _ => exact key 0 (by simp [splitPieces])

/-- A write completes; the slave alone and the master alone are reset on the write side, and the slave alone on the read side; then a write and a
read are called: both complete. -/
def spLater : List SplitRamEv :=
  spUp ++ spWrite spW0 ++ [.w (.resetS true), .w (.resetM true), .w (.resetS false), .w (.resetM false), .r (.resetS true),
    .w (.master (.write spW1)), .w (.master .take), .r (.resetS false), .r (.master (.write spR0))]

theorem spLater_state : let s := splitRam spLater spLater.length
    calmUpTo spLater = true ∧ s.Up ∧ s.w.m.issued = [spW0, spW1] ∧ s.w.m.results = [(spW0, some [.ok .okay])] ∧
      s.r.m.issued = [spR0] ∧ s.r.m.results = [] := by
  refine ⟨by decide +kernel, ⟨by decide +kernel, by decide +kernel, by decide +kernel, by decide +kernel⟩, by decide +kernel, by decide +kernel,
    by decide +kernel, by decide +kernel⟩

example : ∃ N, ∀ n, N ≤ n →
    let s := splitRam (spLater ++ (List.range n).map splitRobin) (spLater.length + n)
    (∃ got, (spW1, some got) ∈ s.w.m.results) ∧ ∃ got, (spR0, some got) ∈ s.r.m.results := by
  obtain ⟨h0, h1, h2, h3, h4, h5⟩ := spLater_state
  have hn : spLater ++ (List.range 0).map splitRobin = spLater := by simp
  simp only [splitRam, Split.after, List.take_length] at h1 h2 h3 h4 h5
  have := C132_completes_partial xferHalves (fun _ => rfl) (slaveWrite ramTarget 4 true) (slaveRead ramTarget 4)
    ⟨8, .buf (List.replicate 8 0)⟩ spLater (calm_of spLater h0).1 (calm_of spLater h0).2 splitRobin splitRobin_progress
    (splitRobin_fair _ _ _ _) (by simp only [hn]; exact h1)
  simp only [hn, h2, h3, h4, h5] at this
  obtain ⟨N, hN⟩ := this
  refine ⟨N, fun n hn => ?_⟩
  obtain ⟨_, _, hw, hr⟩ := hN n hn
  simp only [splitRam, Split.after]
  rw [List.take_of_length_le (by simp)]
  exact ⟨hw spW1 (by simp) (by simp [spW0, spW1]), hr spR0 (by simp) (by simp)⟩

end Verif.LiteOps
