import Verif.Proof.AxiClockRest
import Verif.Props.AxiClock

/-!
# C95: operations of an AXI master connected to a slave complete, at clock-edge granularity

`CSys.run c wa ra t st evs` is a master and a slave (or RAM) connected by five channels with `valid`/`ready` handshakes and bounded
queues, after an arbitrary history `evs`. In C93 the channels were FIFOs that always have room and whose transactions can always be
received. Here a coroutine waits in `send()` while the queue of the source is full, a transaction takes clock edges to get to the queue
of the sink, and coroutines sleep until they are woken: could they all wait for one another?
-/

namespace Verif.AxiSys

open Verif.Axi Verif.AxiOps Verif.AxiOps.Master
open Verif.Stream (Net NetEv Src Snk Pc)

variable {σ : Type}

section

variable (c : Cfg) (wa : Nat → WArgs) (ra : Nat → Req) (t : Target σ) (st : σ)

theorem crun_inv (evs : List CEv) : CInv (CSys.run c wa ra t st evs) ∧ CFine (CSys.run c wa ra t st evs) := by
  suffices h : ∀ (evs : List CEv) (s : CSys σ), CInv s → CFine s →
      CInv (evs.foldl (CSys.step c wa ra t) s) ∧ CFine (evs.foldl (CSys.step c wa ra t) s) from
    h evs _ (cinit st) (.init st)
  intro evs
  induction evs with
  | nil => exact fun s h1 h2 => ⟨h1, h2⟩
  | cons e evs ih => exact fun s h1 h2 => ih _ (h1.step e).1 (h2.step e)

theorem crun_view (evs : List CEv) : ∃ evs', (CSys.run c wa ra t st evs).view = Sys.run c wa ra t st evs' := by
  obtain ⟨evs', hl, he⟩ := csim c wa ra t evs _ (cinit st)
  refine ⟨evs', ?_⟩
  have := (he evs.length).2
  rw [List.take_length, ← hl, List.take_length] at this
  exact this

theorem run_bal (hc : c.Std) (hi : IdsFit c wa ra) (evs : List Ev) : Bal (Sys.run c wa ra t st evs).w := by
  suffices h : ∀ n, Bal (Sys.run c wa ra t st (evs.take n)).w by
    have := h evs.length
    rwa [List.take_length] at this
  intro n
  induction n with
  | zero => exact .empty rfl
  | succ n ih =>
    by_cases hn : n < evs.length
    · rw [List.take_succ_eq_append_getElem hn, run_append]
      obtain ⟨w, hw⟩ := run_winv c hc wa ra hi t st (evs.take n)
      cases evs[n] with
      | w e => exact ih.step hc hw _ e
      | r e => exact ih
    · rw [List.take_of_length_le (by omega)] at ih ⊢
      exact ih

end

theorem CFair.on {c : Cfg} {wa : Nat → WArgs} {ra : Nat → Req} {t : Target σ} {S : Nat → CSys σ} {sched : Nat → CEv}
    (h : CFair c wa ra t S sched) (Q : CEv → Bool) : CFairOn Q c wa ra t S sched := fun e _ he hs => h e he hs

theorem CFairOn.shift {c : Cfg} {wa : Nat → WArgs} {ra : Nat → Req} {t : Target σ} {Q : CEv → Bool} {S : Nat → CSys σ} {sched : Nat → CEv}
    (h : CFairOn Q c wa ra t S sched) (m : Nat) : CFairOn Q c wa ra t (fun n => S (m + n)) (fun n => sched (m + n)) := by
  intro e hq he hs n
  obtain ⟨k, hk, h1⟩ := h e hq he hs (m + n)
  obtain ⟨d, rfl⟩ := Nat.exists_eq_add_of_le (show m ≤ k by omega)
  exact ⟨d, by omega, h1⟩

theorem CFair.shift {c : Cfg} {wa : Nat → WArgs} {ra : Nat → Req} {t : Target σ} {S : Nat → CSys σ} {sched : Nat → CEv}
    (h : CFair c wa ra t S sched) (m : Nat) : CFair c wa ra t (fun n => S (m + n)) (fun n => sched (m + n)) := by
  intro e he hs n
  exact (h.on fun _ => true).shift m e rfl he hs n

/-- The part of a fair schedule in which only the channels do anything. -/
structure Tail (c : Cfg) (wa : Nat → WArgs) (ra : Nat → Req) (t : Target σ) (S : Nat → CSys σ) (sched : Nat → CEv) : Prop where
  succ : ∀ n, S (n + 1) = (S n).step c wa ra t (sched n)
  prog : ∀ n, (sched n).quiet = true
  inv : ∀ n, CInv (S n)
  seen : ∀ n, (S n).seen = (S 0).seen

section

variable {c : Cfg} {wa : Nat → WArgs} {ra : Nat → Req} {t : Target σ} {S : Nat → CSys σ} {sched : Nat → CEv}

theorem Tail.same (h : Tail c wa ra t S sched) (n : Nat) : ((S n).step c wa ra t (sched n)).seen = (S n).seen := by
  rw [← h.succ, h.seen, h.seen n]

theorem Tail.view (h : Tail c wa ra t S sched) (n : Nat) : (S n).view = (S 0).view := congrArg Prod.fst (h.seen n)

theorem Tail.acc (h : Tail c wa ra t S sched) (n : Nat) : (S n).w.acc = (S 0).w.acc := congrArg (fun x => x.2.1) (h.seen n)

theorem Tail.got (h : Tail c wa ra t S sched) (n : Nat) : (S n).r.got = (S 0).r.got := congrArg (fun x => x.2.2) (h.seen n)

theorem Tail.shift (h : Tail c wa ra t S sched) (m : Nat) : Tail c wa ra t (fun n => S (m + n)) (fun n => sched (m + n)) := by
  exact ⟨fun n => h.succ _, fun n => h.prog _, fun n => h.inv _, fun n => (h.seen _).trans (h.seen _).symm⟩

theorem tick_ne {s : CSys σ} (h : AxiSys.ticks s = true) : s.all .tick ≠ s := by
  intro hh
  have h1 := congrArg (fun s : CSys σ => s.w.aw.settled) hh
  simp only [AxiSys.ticks, Bool.and_eq_true] at h
  have h2 := h.1.1.1.1
  simp only [CSys.all, Net.step] at h1
  rw [if_pos (by exact h2)] at h1
  simp only [canTick, Bool.and_eq_true] at h2
  rw [h2.1.1] at h1
  cases h1

/-- The clock does not stop while nobody changes `pause`. -/
theorem Tail.ticks (h : Tail c wa ra t S sched) (hfr : CFairOn CEv.clocked c wa ra t S sched) (hp : ∀ n, (sched n).progress = true) (n0 : Nat) : ∃ k, n0 ≤ k ∧
    Edge S sched k := by
  refine Classical.byContradiction fun hno => ?_
  have hno' : ∀ k, n0 ≤ k → sched k = .tick → AxiSys.ticks (S k) = true → S (k + 1) ≠ (S k).all .tick :=
    fun k hk h0 h1 h2 => hno ⟨k, hk, h0, by rw [h2]; exact tick_ne h1⟩
  obtain ⟨N, hN⟩ := stabilises (fun n => S (n0 + n)) calms (fun n => by
    show S (n0 + (n + 1)) = S (n0 + n) ∨ calms (S (n0 + (n + 1))) < calms (S (n0 + n))
    rw [← Nat.add_assoc, h.succ]
    rcases (h.inv (n0 + n)).calms _ (hp _) (h.same _) with h1 | ⟨h1, h2, h3⟩ | h1
    · exact .inl h1
    · exact absurd ((h.succ _).trans h3) (hno' _ (by omega) h1 h2)
    · exact .inr h1)
  have hN' : ∀ k, n0 + N ≤ k → S k = S (n0 + N) := by
    intro k hk
    have := hN (k - n0) (by omega)
    have e : n0 + (k - n0) = k := by omega
    rw [e] at this
    exact this
  have noop : ∀ e : CEv, e.clocked = true → e.progress = true → (∀ k, e ≠ .chan k .snkSpurious) → (S (n0 + N)).step c wa ra t e = S (n0 + N) := by
    intro e hq he hs
    obtain ⟨k, hk, h1⟩ := hfr e hq he hs (n0 + N)
    rcases h1 with h1 | h1
    · have := h.succ k
      rw [h1, hN' k hk, hN' (k + 1) (by omega)] at this
      exact this.symm
    · rwa [hN' k hk] at h1
  generalize hs : S (n0 + N) = s at noop
  have c1 : canCommit s.w.aw = true :=
    calm_rest (congrArg (fun s : CSys σ => s.w.aw) (noop (.chan .aw .srcRun) rfl rfl (by simp)))
      (congrArg (fun s : CSys σ => s.w.aw) (noop (.chan .aw .srcWake) rfl rfl (by simp)))
      (congrArg (fun s : CSys σ => s.w.aw) (noop (.chan .aw .snkRun) rfl rfl (by simp)))
      (congrArg (fun s : CSys σ => s.w.aw) (noop (.chan .aw .snkWake) rfl rfl (by simp)))
  have c2 : canCommit s.w.w = true :=
    calm_rest (congrArg (fun s : CSys σ => s.w.w) (noop (.chan .w .srcRun) rfl rfl (by simp)))
      (congrArg (fun s : CSys σ => s.w.w) (noop (.chan .w .srcWake) rfl rfl (by simp)))
      (congrArg (fun s : CSys σ => s.w.w) (noop (.chan .w .snkRun) rfl rfl (by simp)))
      (congrArg (fun s : CSys σ => s.w.w) (noop (.chan .w .snkWake) rfl rfl (by simp)))
  have c3 : canCommit s.w.b = true :=
    calm_rest (congrArg (fun s : CSys σ => s.w.b) (noop (.chan .b .srcRun) rfl rfl (by simp)))
      (congrArg (fun s : CSys σ => s.w.b) (noop (.chan .b .srcWake) rfl rfl (by simp)))
      (congrArg (fun s : CSys σ => s.w.b) (noop (.chan .b .snkRun) rfl rfl (by simp)))
      (congrArg (fun s : CSys σ => s.w.b) (noop (.chan .b .snkWake) rfl rfl (by simp)))
  have c4 : canCommit s.r.ar = true :=
    calm_rest (congrArg (fun s : CSys σ => s.r.ar) (noop (.chan .ar .srcRun) rfl rfl (by simp)))
      (congrArg (fun s : CSys σ => s.r.ar) (noop (.chan .ar .srcWake) rfl rfl (by simp)))
      (congrArg (fun s : CSys σ => s.r.ar) (noop (.chan .ar .snkRun) rfl rfl (by simp)))
      (congrArg (fun s : CSys σ => s.r.ar) (noop (.chan .ar .snkWake) rfl rfl (by simp)))
  have c5 : canCommit s.r.r = true :=
    calm_rest (congrArg (fun s : CSys σ => s.r.r) (noop (.chan .r .srcRun) rfl rfl (by simp)))
      (congrArg (fun s : CSys σ => s.r.r) (noop (.chan .r .srcWake) rfl rfl (by simp)))
      (congrArg (fun s : CSys σ => s.r.r) (noop (.chan .r .snkRun) rfl rfl (by simp)))
      (congrArg (fun s : CSys σ => s.r.r) (noop (.chan .r .snkWake) rfl rfl (by simp)))
  have hcm := noop .commit rfl rfl (by simp)
  simp only [CSys.step, c1, c2, c3, c4, c5, Bool.and_self, if_true] at hcm
  have settled : ∀ {α : Type} {n : Net α}, canCommit n = true → n.step chanCfg .commit = n → canTick n = true := by
    intro α n h1 h2
    have h3 := congrArg Net.settled h2
    rw [commit_step h1] at h3
    simp only [canCommit] at h1
    simp only [canTick, Bool.and_assoc, h1, ← h3, Bool.and_true]
  have tk : AxiSys.ticks s = true := by
    simp only [AxiSys.ticks, settled c1 (congrArg (fun s : CSys σ => s.w.aw) hcm), settled c2 (congrArg (fun s : CSys σ => s.w.w) hcm),
      settled c3 (congrArg (fun s : CSys σ => s.w.b) hcm), settled c4 (congrArg (fun s : CSys σ => s.r.ar) hcm),
      settled c5 (congrArg (fun s : CSys σ => s.r.r) hcm), Bool.and_self]
  have ht := noop .tick rfl rfl (by simp)
  simp only [CSys.step] at ht
  rw [if_pos (by exact tk)] at ht
  exact tick_ne tk ht

theorem all_tick (s : CSys σ) (h : AxiSys.ticks s = true) : canTick s.w.aw = true ∧ canTick s.w.w = true ∧ canTick s.w.b = true ∧
    canTick s.r.ar = true ∧ canTick s.r.r = true := by
  simp only [AxiSys.ticks, Bool.and_eq_true] at h
  obtain ⟨⟨⟨⟨h1, h2⟩, h3⟩, h4⟩, h5⟩ := h
  exact ⟨h1, h2, h3, h4, h5⟩

/-- Whatever is in the channel can be received, from some instant on. -/
theorem NetSeq.here {α : Type} {s : Nat → Net α} (h : NetSeq s) : ∃ N, ∀ n, N ≤ n → Here (s n) := by
  by_cases hne : AxiSys.content (s 0) = []
  · exact ⟨0, fun n _ _ => by rw [h.content n, hne]⟩
  · obtain ⟨N, hN⟩ := h.arrives hne
    refine ⟨N, fun n hn ha => ?_⟩
    exact absurd (List.head?_eq_none_iff.1 ha) (hN n hn)

/-- No channel is paused for ever. -/
structure AllOpen (edge : Nat → Prop) (S : Nat → CSys σ) : Prop where
  aw : Open edge (fun n => (S n).w.aw)
  w : Open edge (fun n => (S n).w.w)
  b : Open edge (fun n => (S n).w.b)
  ar : Open edge (fun n => (S n).r.ar)
  r : Open edge (fun n => (S n).r.r)

theorem Open.shift {α : Type} {edge : Nat → Prop} {s : Nat → Net α} (h : Open edge s) (N : Nat) :
    Open (fun n => edge (N + n)) (fun n => s (N + n)) := by
  constructor
  · intro n
    obtain ⟨k, hk, h1⟩ := h.src (N + n)
    obtain ⟨d, rfl⟩ := Nat.exists_eq_add_of_le (show N ≤ k by omega)
    exact ⟨d, by omega, h1⟩
  · intro n
    obtain ⟨k, hk, h1⟩ := h.snk (N + n)
    obtain ⟨d, rfl⟩ := Nat.exists_eq_add_of_le (show N ≤ k by omega)
    exact ⟨d, by omega, h1⟩

theorem Cycles.open {α : Type} {edge : Nat → Prop} {s : Nat → Net α} {N : Nat} (h : Cycles edge s) (hp : ∀ n, Phase (s n))
    (hq : ∀ n, Quiet (s (N + n)) (s (N + n + 1)))
    (ht : ∀ k, edge k → canTick (s k) = true ∧ s (k + 1) = (s k).step chanCfg .tick) : Open edge s := by
  have sh : ∀ {n i : Nat}, N + n ≤ i → ∃ d, i = N + d := fun hi => ⟨_, (Nat.add_sub_of_le (by omega)).symm⟩
  constructor
  · intro n
    obtain ⟨i, j, hi, hij, e1, e2, hu⟩ := h.1 (N + n)
    obtain ⟨di, rfl⟩ := sh hi
    obtain ⟨dj, rfl⟩ := sh (Nat.le_trans hi (Nat.le_of_lt hij))
    obtain ⟨k, hk, h1⟩ := src_cycle (s := fun n => s (N + n)) (fun n => (hp _).on) (i := di) (j := dj) (by omega)
      (ht _ e1).1 (ht _ e1).2 (ht _ e2).1 (fun m h1 h2 => hu _ (by omega) (by omega))
    exact ⟨N + k, by omega, h1⟩
  · intro n
    obtain ⟨i, j, hi, hij, e1, e2, hu⟩ := h.2 (N + n)
    obtain ⟨di, rfl⟩ := sh hi
    obtain ⟨dj, rfl⟩ := sh (Nat.le_trans hi (Nat.le_of_lt hij))
    exact ⟨N + dj, by omega, e2, snk_cycle (s := fun n => s (N + n)) hq (fun n => hp _) (i := di) (j := dj) (by omega)
      (ht _ e1).1 (ht _ e1).2 (ht _ e2).1 (fun m h1 h2 => hu _ (by omega) (by omega))⟩

theorem edge_ticks (hs : ∀ n, S (n + 1) = (S n).step c wa ra t (sched n)) {k : Nat} (h : Edge S sched k) :
    AxiSys.ticks (S k) = true ∧ S (k + 1) = (S k).all .tick := by
  obtain ⟨h1, h2⟩ := h
  rw [hs, h1] at h2
  rw [hs, h1]
  simp only [CSys.step] at h2 ⊢
  split
  · rename_i h3; exact ⟨h3, rfl⟩
  · rename_i h3; rw [if_neg h3] at h2; exact absurd rfl h2

theorem Tail.seq (h : Tail c wa ra t S sched) (hfr : CFair c wa ra t S sched) (hu : AllOpen (Edge S sched) S) (hf : CFine (S 0))
    (hw : (S 0).w.m.running = true) (hr : (S 0).r.m.running = true) :
    NetSeq (fun n => (S n).w.aw) ∧ NetSeq (fun n => (S n).w.w) ∧ NetSeq (fun n => (S n).w.b) ∧
    NetSeq (fun n => (S n).r.ar) ∧ NetSeq (fun n => (S n).r.r) := by
  have q : ∀ n, AllQuiet (S n) (S (n + 1)) := by
    intro n
    rw [h.succ]
    exact (h.inv n).quiet _ (h.prog n) (h.same n)
  have hi := h.inv 0
  have res : ∀ (k : Chan) (n : Nat), ∃ m, n ≤ m ∧ (S (m + 1) = (S m).inner k .resume ∨ (S m).inner k .resume = S m) := by
    intro k n
    obtain ⟨m, hm, h1⟩ := hfr (.chan k .resume) rfl (by simp) n
    refine ⟨m, hm, ?_⟩
    rcases h1 with h1 | h1
    · left; rw [h.succ, h1]; rfl
    · exact .inr h1
  refine ⟨⟨⟨hi.w.aw, hf.w.aw.live, hf.w.aw.on hw⟩, fun n => (q n).aw, hu.aw.src, ?_, ?_⟩,
    ⟨⟨hi.w.w, hf.w.w.live, hf.w.w.on hw⟩, fun n => (q n).w, hu.w.src, ?_, ?_⟩,
    ⟨⟨hi.w.b, hf.w.b.live, hf.w.b.on hw⟩, fun n => (q n).b, hu.b.src, ?_, ?_⟩,
    ⟨⟨hi.r.ar, hf.r.ar.live, hf.r.ar.on hr⟩, fun n => (q n).ar, hu.ar.src, ?_, ?_⟩,
    ⟨⟨hi.r.r, hf.r.r.live, hf.r.r.on hr⟩, fun n => (q n).r, hu.r.src, ?_, ?_⟩⟩
  · intro n; obtain ⟨k, hk, h1, h2⟩ := hu.aw.snk n; obtain ⟨h3, h4⟩ := edge_ticks h.succ h1
    exact ⟨k, hk, (all_tick _ h3).1, by rw [h4]; rfl, h2⟩
  · intro n; obtain ⟨k, hk, h1⟩ := res .aw n
    exact ⟨k, hk, h1.imp (congrArg (fun s : CSys σ => s.w.aw)) (congrArg (fun s : CSys σ => s.w.aw))⟩
  · intro n; obtain ⟨k, hk, h1, h2⟩ := hu.w.snk n; obtain ⟨h3, h4⟩ := edge_ticks h.succ h1
    exact ⟨k, hk, (all_tick _ h3).2.1, by rw [h4]; rfl, h2⟩
  · intro n; obtain ⟨k, hk, h1⟩ := res .w n
    exact ⟨k, hk, h1.imp (congrArg (fun s : CSys σ => s.w.w)) (congrArg (fun s : CSys σ => s.w.w))⟩
  · intro n; obtain ⟨k, hk, h1, h2⟩ := hu.b.snk n; obtain ⟨h3, h4⟩ := edge_ticks h.succ h1
    exact ⟨k, hk, (all_tick _ h3).2.2.1, by rw [h4]; rfl, h2⟩
  · intro n; obtain ⟨k, hk, h1⟩ := res .b n
    exact ⟨k, hk, h1.imp (congrArg (fun s : CSys σ => s.w.b)) (congrArg (fun s : CSys σ => s.w.b))⟩
  · intro n; obtain ⟨k, hk, h1, h2⟩ := hu.ar.snk n; obtain ⟨h3, h4⟩ := edge_ticks h.succ h1
    exact ⟨k, hk, (all_tick _ h3).2.2.2.1, by rw [h4]; rfl, h2⟩
  · intro n; obtain ⟨k, hk, h1⟩ := res .ar n
    exact ⟨k, hk, h1.imp (congrArg (fun s : CSys σ => s.r.ar)) (congrArg (fun s : CSys σ => s.r.ar))⟩
  · intro n; obtain ⟨k, hk, h1, h2⟩ := hu.r.snk n; obtain ⟨h3, h4⟩ := edge_ticks h.succ h1
    exact ⟨k, hk, (all_tick _ h3).2.2.2.2, by rw [h4]; rfl, h2⟩
  · intro n; obtain ⟨k, hk, h1⟩ := res .r n
    exact ⟨k, hk, h1.imp (congrArg (fun s : CSys σ => s.r.r)) (congrArg (fun s : CSys σ => s.r.r))⟩

/-- Whether a piece of a coroutine does anything does not depend on what is in the target. -/
theorem WPort.rest_any {p : WPort} {st : σ} {e : WEv} (h : (p.step c wa t st e).1 = p) (st' : σ) : p.step c wa t st' e = (p, st') := by
  cases e
  case slaveW =>
    revert h
    simp only [WPort.step, WPort.slaveW]
    split
    · rename_i s w rest hd hs hw
      intro h
      by_cases hl : s.n < s.aw.len + 1
      · exfalso
        simp only [if_pos hl] at h
        split at h
        · have := congrArg WPort.died h
          simp only [hd] at this
          cases this
        · split at h
          · have := congrArg WPort.died h
            simp only [hd] at this
            cases this
          · have := congrArg (fun p => p.w.length) h
            simp only [hw, List.length_cons] at this
            omega
      · simp only [if_neg hl]
    · exact fun _ => rfl
  all_goals exact Prod.ext h rfl

theorem RPort.rest_any {p : RPort} {st : σ} {e : REv} (h : (p.step c ra t st e).1 = p) (st' : σ) : p.step c ra t st' e = (p, st') := by
  cases e
  case slaveR =>
    revert h
    simp only [RPort.step, RPort.slaveR]
    split
    · intro h
      have := congrArg (fun p => p.r.length) h
      simp only [List.length_append, List.length_cons, List.length_nil] at this
      omega
    · exact fun _ => rfl
  all_goals exact Prod.ext h rfl

/-- The state of the write side with the channels as FIFOs, and how far the slave is with its access. -/
def CWPort.seen (p : CWPort) : WPort × Acc := (p.view, p.acc)

def CRPort.seen (p : CRPort) : RPort × Option RBeat := (p.view, p.got)

/-- If nothing changes on the write side but inside the channels, and every piece of a coroutine does nothing at some later instant, then no
piece could do anything even if the channels were FIFOs. -/
theorem restW (hc : c.Std) (s1 : NetSeq fun n => (S n).w.aw) (s2 : NetSeq fun n => (S n).w.w) (s3 : NetSeq fun n => (S n).w.b)
    (hx : ∀ n, (S n).w.seen = (S 0).w.seen)
    (noop : ∀ e : WEv, e.progress = true → ∀ N, ∃ k, N ≤ k ∧ ((S k).w.step c wa t (S k).mem e).1 = (S k).w)
    (inv : ∀ n, CWInv (S n).w) {w : WWit} (hi : WInv c wa (S 0).w.view w) (hb : Bal (S 0).w.view) (st : σ) (e : WEv)
    (he : e.progress = true) : (S 0).w.view.step c wa t st e = ((S 0).w.view, st) := by
  obtain ⟨N1, k1⟩ := s1.here
  obtain ⟨N2, k2⟩ := s2.here
  obtain ⟨N3, k3⟩ := s3.here
  have vw : ∀ n, (S n).w.view = (S 0).w.view := fun n => congrArg Prod.fst (hx n)
  have va : ∀ n, (S n).w.acc = (S 0).w.acc := fun n => congrArg Prod.snd (hx n)
  have noopW : ∀ {N : Nat} (e : WEv) (_ : e.progress = true)
      (_ : ∀ n, N ≤ n → ((S n).w.step c wa t (S n).mem e).1 = (S n).w → (S n).w.free e),
      (S 0).w.view.step c wa t st e = ((S 0).w.view, st) := by
    intro N e he hf
    obtain ⟨k, hk, h1⟩ := noop e he N
    have h2 := congrArg Prod.fst ((inv k).free (c := c) (args := wa) (t := t) (S k).mem e he (hf k hk h1))
    simp only [h1] at h2
    rw [vw k] at h2
    exact WPort.rest_any h2.symm st
  have d1 := noopW .deliver rfl (N := N3) (fun n hn _ => k3 n hn)
  have b0 := WPort.delivered d1
  have bf : ∀ n, blocked (S n).w.b = false := fun n => blocked_content ((congrArg WPort.b (vw n)).trans b0)
  have d2 := noopW .slaveAW rfl (N := N1) (fun n hn _ => ⟨bf n, k1 n hn⟩)
  have hdw : ∀ n, (S n).w.died = false := fun n => (congrArg WPort.died (vw n)).trans hi.died
  have np : ∀ n s, (S n).w.sl = some s → (S n).w.acc ≠ .performed := by
    intro n s hs hp
    obtain ⟨k, _, h1⟩ := noop .slaveW rfl 0
    have hs' : (S k).w.sl = some s := ((congrArg WPort.sl (vw k)).trans (congrArg WPort.sl (vw n)).symm).trans hs
    have hp' : (S k).w.acc = .performed := ((va k).trans (va n).symm).trans hp
    have := congrArg CWPort.acc h1
    simp only [CWPort.step, CWPort.slaveW, hdw k, hs', hp'] at this
    cases this
  have d3 := noopW .slaveW rfl (N := N2) (fun n hn h1 s hs hl => by
    cases ha : (S n).w.acc with
    | held w => exact .inl ⟨w, rfl⟩
    | performed => exact absurd ha (np n s hs)
    | none =>
      refine .inr ⟨k2 n hn ?_, rfl⟩
      cases hav : avail (S n).w.w with
      | none => rfl
      | some w =>
        have := congrArg CWPort.acc h1
        simp only [CWPort.step, CWPort.slaveW, hdw n, hs, ha, hav, if_pos hl] at this
        cases this)
  have d4 := noopW .slaveB rfl (N := 0) (fun n _ _ => ⟨bf n, np n⟩)
  obtain ⟨a0, w0⟩ := hi.drained hc hb d2 d3 d4
  have sf : ∀ n, (S n).w.stuck = false := fun n => by
    simp only [CWPort.stuck, blocked_content ((congrArg WPort.aw (vw n)).trans a0),
      blocked_content (List.append_eq_nil_iff.1 ((congrArg WPort.w (vw n)).trans w0)).2, Bool.or_self]
  cases e
  case write => cases he
  case init => cases he
  case reset v => cases he
  case deliver => exact d1
  case slaveAW => exact d2
  case slaveW => exact d3
  case slaveB => exact d4
  case sendAW => exact noopW .sendAW rfl (N := 0) (fun n _ _ => sf n)
  case sendW => exact noopW .sendW rfl (N := 0) (fun n _ _ => sf n)
  case start => exact noopW .start rfl (N := 0) (fun n _ _ => sf n)
  all_goals exact noopW _ he (N := 0) (fun n _ _ => trivial)

/-- The same for the read side. -/
theorem restR (s4 : NetSeq fun n => (S n).r.ar) (s5 : NetSeq fun n => (S n).r.r) (hx : ∀ n, (S n).r.seen = (S 0).r.seen)
    (noop : ∀ e : REv, e.progress = true → ∀ N, ∃ k, N ≤ k ∧ ((S k).r.step c ra t (S k).mem e).1 = (S k).r)
    (inv : ∀ n, CRInv (S n).r) (hd : (S 0).r.view.died = false) (st : σ) (e : REv) (he : e.progress = true) :
    (S 0).r.view.step c ra t st e = ((S 0).r.view, st) := by
  obtain ⟨N4, k4⟩ := s4.here
  obtain ⟨N5, k5⟩ := s5.here
  have vr : ∀ n, (S n).r.view = (S 0).r.view := fun n => congrArg Prod.fst (hx n)
  have vg : ∀ n, (S n).r.got = (S 0).r.got := fun n => congrArg Prod.snd (hx n)
  have noopR : ∀ {N : Nat} (e : REv) (_ : e.progress = true) (_ : ∀ n, N ≤ n → (S n).r.free e),
      (S 0).r.view.step c ra t st e = ((S 0).r.view, st) := by
    intro N e he hf
    obtain ⟨k, hk, h1⟩ := noop e he N
    have h2 := congrArg Prod.fst ((inv k).free (c := c) (args := ra) (t := t) (S k).mem e he (hf k hk))
    simp only [h1] at h2
    rw [vr k] at h2
    exact RPort.rest_any h2.symm st
  have hdr : ∀ n, (S n).r.died = false := fun n => (congrArg RPort.died (vr n)).trans hd
  have ng : ∀ n, AxiSys.content (S n).r.r = [] → (S n).r.got = none := by
    intro n hn
    obtain ⟨k, _, h1⟩ := noop .slaveR rfl 0
    have hb := blocked_content ((s5.content k).trans ((s5.content n).symm.trans hn))
    rw [vg n, ← vg k]
    cases hg : (S k).r.got with
    | none => rfl
    | some b =>
      have := congrArg CRPort.got h1
      simp only [CRPort.step, CRPort.slaveR, hdr k, hg, hb] at this
      cases this
  have d1 := noopR .deliver rfl (N := N5) (fun n hn => ⟨k5 n hn, ng n⟩)
  have b0 := RPort.delivered d1
  have c0 : ∀ n, AxiSys.content (S n).r.r = [] := fun n => (List.append_eq_nil_iff.1 ((congrArg RPort.r (vr n)).trans b0)).1
  have bf : ∀ n, blocked (S n).r.r = false := fun n => blocked_content (c0 n)
  have d2 := noopR .slaveAR rfl (N := N4) (fun n hn => ⟨bf n, ng n (c0 n), k4 n hn⟩)
  have d3 := noopR .slaveR rfl (N := 0) (fun n _ => ⟨bf n, ng n (c0 n)⟩)
  have a0 := RPort.drained hd d2 d3
  have sf : ∀ n, blocked (S n).r.ar = false := fun n => blocked_content ((congrArg RPort.ar (vr n)).trans a0)
  cases e
  case read => cases he
  case init => cases he
  case reset v => cases he
  case deliver => exact d1
  case slaveAR => exact d2
  case slaveR => exact d3
  case sendAR => exact noopR .sendAR rfl (N := 0) (fun n _ => sf n)
  case start => exact noopR .start rfl (N := 0) (fun n _ => sf n)
  all_goals exact noopR _ he (N := 0) (fun n _ => trivial)

/-- Every piece of a coroutine of a master or slave does nothing, at some later instant. -/
theorem Tail.still (h : Tail c wa ra t S sched) (hfr : CFair c wa ra t S sched) (N : Nat) (e : CEv) (he : e.progress = true)
    (hp : (∃ e', e = .w e') ∨ ∃ e', e = .r e') : ∃ k, N ≤ k ∧ (S k).step c wa ra t e = S k := by
  obtain ⟨k, hk, h1⟩ := hfr e he (by rcases hp with ⟨e, rfl⟩ | ⟨e, rfl⟩ <;> simp) N
  refine ⟨k, hk, ?_⟩
  rcases h1 with h1 | h1
  · have := h.same k
    rw [h1] at this
    exact (h.inv k).same e (CEv.quiet_of he) this hp
  · exact h1

/-- No coroutine of a master or slave could do anything even if the channels were FIFOs. -/
theorem Tail.quiet (h : Tail c wa ra t S sched) (hfr : CFair c wa ra t S sched) (hc : c.Std) (hu : AllOpen (Edge S sched) S)
    (hf : CFine (S 0)) (hw : (S 0).w.m.running = true) (hr : (S 0).r.m.running = true) {w : WWit} (hi : WInv c wa (S 0).view.w w)
    (hb : Bal (S 0).view.w) (hd : (S 0).view.r.died = false) (e : Ev) (he : e.progress = true) :
    (S 0).view.step c wa ra t e = (S 0).view := by
  obtain ⟨s1, s2, s3, s4, s5⟩ := h.seq hfr hu hf hw hr
  cases e with
  | w e =>
    have hh : (S 0).view.w.step c wa t (S 0).view.mem e = ((S 0).view.w, (S 0).view.mem) :=
      restW hc s1 s2 s3 (fun n => Prod.ext (congrArg Sys.w (h.view n)) (h.acc n))
        (fun e he N => by
          obtain ⟨k, hk, h1⟩ := h.still hfr N (.w e) he (.inl ⟨e, rfl⟩)
          exact ⟨k, hk, congrArg CSys.w h1⟩)
        (fun n => (h.inv n).w) hi hb _ e he
    simp only [Sys.step, hh]
  | r e =>
    have hh : (S 0).view.r.step c ra t (S 0).view.mem e = ((S 0).view.r, (S 0).view.mem) :=
      restR s4 s5 (fun n => Prod.ext (congrArg Sys.r (h.view n)) (h.got n))
        (fun e he N => by
          obtain ⟨k, hk, h1⟩ := h.still hfr N (.r e) he (.inr ⟨e, rfl⟩)
          exact ⟨k, hk, congrArg CSys.r h1⟩)
        (fun n => (h.inv n).r) hd _ e he
    simp only [Sys.step, hh]

end

/-- A schedule without calls and resets, from a state that a history of the system with FIFO channels leads to. -/
structure CFrom (c : Cfg) (wa : Nat → WArgs) (ra : Nat → Req) (t : Target σ) (st : σ) (S : Nat → CSys σ) (sched : Nat → CEv) : Prop where
  succ : ∀ n, S (n + 1) = (S n).step c wa ra t (sched n)
  quiet : ∀ n, (sched n).quiet = true
  inv0 : CInv (S 0)
  fine0 : CFine (S 0)
  view0 : ∃ evs', (S 0).view = Sys.run c wa ra t st evs'

section

variable {c : Cfg} (hc : c.Std) {wa : Nat → WArgs} {ra : Nat → Req} (hi : IdsFit c wa ra) {t : Target σ} {st : σ} {S : Nat → CSys σ}
  {sched : Nat → CEv}

theorem CFrom.inv (h : CFrom c wa ra t st S sched) (n : Nat) : CInv (S n) ∧ CFine (S n) := by
  induction n with
  | zero => exact ⟨h.inv0, h.fine0⟩
  | succ n ih => rw [h.succ]; exact ⟨(ih.1.step _).1, ih.2.step _⟩

theorem CFrom.view (h : CFrom c wa ra t st S sched) (n : Nat) : ∃ evs', (S n).view = Sys.run c wa ra t st evs' := by
  induction n with
  | zero => exact h.view0
  | succ n ih =>
    obtain ⟨evs', h1⟩ := ih
    obtain ⟨_, e', h2⟩ := (h.inv n).1.step (c := c) (wa := wa) (ra := ra) (t := t) (sched n)
    exact ⟨evs' ++ [e'], by rw [h.succ, h2, h1]; simp [Sys.run, List.foldl_append]⟩

/-- What the pieces of coroutines preserve. -/
theorem CFrom.later (h : CFrom c wa ra t st S sched) (n : Nat) :
    Later (S 0).view.w.m (S n).view.w.m ∧ Later (S 0).view.r.m (S n).view.r.m := by
  induction n with
  | zero => exact ⟨Later.refl _, Later.refl _⟩
  | succ n ih =>
    obtain ⟨e', he', h1⟩ := (h.inv n).1.progress (c := c) (wa := wa) (ra := ra) (t := t) (sched n) (h.quiet n)
    rw [show S (n + 1) = _ from h.succ n, h1]
    obtain ⟨h1, h2⟩ := later_step c wa ra t (S n).view e' he'
    exact ⟨ih.1.trans h1, ih.2.trans h2⟩

include hc hi

/-- From some instant on only the channels do anything. -/
theorem CFrom.tail (h : CFrom c wa ra t st S sched) : ∃ N, Tail c wa ra t (fun n => S (N + n)) (fun n => sched (N + n)) := by
  have hs := h.quiet
  have hsucc := h.succ
  have hinv := h.inv
  have hview := h.view
  obtain ⟨μ, hμ⟩ := C93_terminates c hc wa ra hi t st
  obtain ⟨N, hN⟩ := stabilises (fun n => (S n).seen) (fun x => 4 * μ x.1 + (x.2.1.rank + gotRank x.2.2)) (fun n => by
    obtain ⟨e', he', h1⟩ := (hinv n).1.progress (c := c) (wa := wa) (ra := ra) (t := t) (sched n) (hs n)
    obtain ⟨evs', h2⟩ := hview n
    have h3 := hμ evs' e' he'
    rw [← h2, ← h1] at h3
    simp only [hsucc]
    rcases h3 with h3 | h3
    · rcases CSys.seen_step (S n) (sched n) (hs n) h3 with h4 | h4
      · exact .inl h4
      · right
        simp only [CSys.seen, h3]
        omega
    · right
      have r1 := Acc.rank_le ((S n).step c wa ra t (sched n)).w.acc
      have r2 := gotRank_le ((S n).step c wa ra t (sched n)).r.got
      simp only [CSys.seen]
      omega)
  exact ⟨N, fun n => hsucc _, fun n => hs _, fun n => (hinv _).1,
    fun n => (hN (N + n) (by omega)).trans (hN (N + 0) (by omega)).symm⟩

theorem CFrom.completes (h : CFrom c wa ra t st S sched) (hf : CFair c wa ra t S sched) (o1 : Open (Edge S sched) (fun n => (S n).w.aw))
    (o2 : Open (Edge S sched) (fun n => (S n).w.w)) (o3 : Open (Edge S sched) (fun n => (S n).w.b))
    (o4 : Open (Edge S sched) (fun n => (S n).r.ar)) (o5 : Open (Edge S sched) (fun n => (S n).r.r))
    (hw0 : (S 0).w.m.running = true) (hr0 : (S 0).r.m.running = true) :
    ∃ N, ∀ n, N ≤ n →
      (S n).w.m.idle = true ∧ (S n).r.m.idle = true ∧
      (∀ op ∈ (S 0).w.m.issued ++ (S 0).w.m.wrappers, (∀ r, (op, r) ∉ (S 0).w.m.results) →
        ∃ got, (op, some got) ∈ (S n).w.m.results) ∧
      (∀ op ∈ (S 0).r.m.issued ++ (S 0).r.m.wrappers, (∀ r, (op, r) ∉ (S 0).r.m.results) →
        ∃ got, (op, some got) ∈ (S n).r.m.results) := by
  obtain ⟨N, htail⟩ := h.tail hc hi
  have hinv := h.inv
  have hlater := h.later
  obtain ⟨evs', hv⟩ := h.view N
  obtain ⟨w, hwi⟩ := run_winv c hc wa ra hi t st evs'
  obtain ⟨r, hri⟩ := run_rinv c hc wa ra hi t st evs'
  have hbal := run_bal c wa ra t st hc hi evs'
  rw [← hv] at hwi hri hbal
  have hrw : (S N).w.m.running = true := (hlater N).1.run hw0
  have hrr : (S N).r.m.running = true := (hlater N).2.run hr0
  have hquiet : ∀ e : Ev, e.progress = true → (S N).view.step c wa ra t e = (S N).view := fun e he =>
    htail.quiet (hf.shift N) hc ⟨o1.shift N, o2.shift N, o3.shift N, o4.shift N, o5.shift N⟩ (hinv N).2 hrw hrr hwi hbal hri.died e he
  rw [hv] at hquiet
  obtain ⟨hdw, hdr⟩ := C93_no_deadlock c hc wa ra hi t st evs' hquiet
  rw [← hv] at hdw hdr
  obtain ⟨w1, w2, w3⟩ := hdw hrw
  obtain ⟨r1, r2, r3⟩ := hdr hrr
  refine ⟨N, ?_⟩
  intro n hn
  have hnv : (S n).view = (S N).view := by
    obtain ⟨d, rfl⟩ := Nat.exists_eq_add_of_le hn
    exact htail.view d
  have ew : (S n).w.m = (S N).w.m := congrArg (fun s : Sys σ => s.w.m) hnv
  have er : (S n).r.m = (S N).r.m := congrArg (fun s : Sys σ => s.r.m) hnv
  rw [ew, er]
  refine ⟨w1, r1, ?_, ?_⟩
  · intro op ho hno
    have h1 := (hlater N).1.calls op ho
    rw [w2, List.append_nil] at h1
    obtain ⟨r, hr⟩ := w3 op h1
    cases r with
    | none => exact absurd ((hlater N).1.flush op hr) (hno none)
    | some got => exact ⟨got, hr⟩
  · intro op ho hno
    have h1 := (hlater N).2.calls op ho
    rw [r2, List.append_nil] at h1
    obtain ⟨r, hr⟩ := r3 op h1
    cases r with
    | none => exact absurd ((hlater N).2.flush op hr) (hno none)
    | some got => exact ⟨got, hr⟩

/-- The clock does not stop unless `pause` is changed for ever without a clock edge. -/
theorem CFrom.edges (h : CFrom c wa ra t st S sched) (hf : CFairOn CEv.clocked c wa ra t S sched)
    (hp : ∀ n, (∀ k, n ≤ k → ¬ Edge S sched k) → ∃ m, ∀ k, m ≤ k → (sched k).progress = true) (n : Nat) : ∃ k, n ≤ k ∧ Edge S sched k := by
  refine Classical.byContradiction fun hno => ?_
  obtain ⟨m, hm⟩ := hp n (fun k hk h1 => hno ⟨k, hk, h1⟩)
  obtain ⟨N, htail⟩ := h.tail hc hi
  obtain ⟨k, hk, h1⟩ := (htail.shift m).ticks ((hf.shift N).shift m) (fun k => hm _ (by omega)) n
  exact hno ⟨N + (m + k), by omega, h1⟩

theorem CFrom.completes_cycles (h : CFrom c wa ra t st S sched) (hf : CFair c wa ra t S sched)
    (o1 : Cycles (Edge S sched) (fun n => (S n).w.aw)) (o2 : Cycles (Edge S sched) (fun n => (S n).w.w))
    (o3 : Cycles (Edge S sched) (fun n => (S n).w.b)) (o4 : Cycles (Edge S sched) (fun n => (S n).r.ar))
    (o5 : Cycles (Edge S sched) (fun n => (S n).r.r)) (hw0 : (S 0).w.m.running = true) (hr0 : (S 0).r.m.running = true) :
    ∃ N, ∀ n, N ≤ n →
      (S n).w.m.idle = true ∧ (S n).r.m.idle = true ∧
      (∀ op ∈ (S 0).w.m.issued ++ (S 0).w.m.wrappers, (∀ r, (op, r) ∉ (S 0).w.m.results) →
        ∃ got, (op, some got) ∈ (S n).w.m.results) ∧
      (∀ op ∈ (S 0).r.m.issued ++ (S 0).r.m.wrappers, (∀ r, (op, r) ∉ (S 0).r.m.results) →
        ∃ got, (op, some got) ∈ (S n).r.m.results) := by
  obtain ⟨N, htail⟩ := h.tail hc hi
  have hs := h.quiet
  have hsucc := h.succ
  have hinv := h.inv
  have hlater := h.later
  have hrw : ∀ n, (S n).w.m.running = true := fun n => (hlater n).1.run hw0
  have hrr : ∀ n, (S n).r.m.running = true := fun n => (hlater n).2.run hr0
  have q : ∀ n, AllQuiet (S (N + n)) (S (N + n + 1)) := by
    intro n
    rw [show S (N + n + 1) = _ from hsucc (N + n)]
    exact (hinv _).1.quiet _ (hs _) (htail.same n)
  have tk := fun {k : Nat} (h : Edge S sched k) => edge_ticks hsucc h
  refine h.completes hc hi hf ?_ ?_ ?_ ?_ ?_ hw0 hr0
  · exact o1.open (N := N) (fun n => ⟨(hinv n).1.w.aw, (hinv n).2.w.aw.live, (hinv n).2.w.aw.on (hrw n)⟩) (fun n => (q n).aw)
      (fun k h => ⟨(all_tick _ (tk h).1).1, congrArg (fun s : CSys σ => s.w.aw) (tk h).2⟩)
  · exact o2.open (N := N) (fun n => ⟨(hinv n).1.w.w, (hinv n).2.w.w.live, (hinv n).2.w.w.on (hrw n)⟩) (fun n => (q n).w)
      (fun k h => ⟨(all_tick _ (tk h).1).2.1, congrArg (fun s : CSys σ => s.w.w) (tk h).2⟩)
  · exact o3.open (N := N) (fun n => ⟨(hinv n).1.w.b, (hinv n).2.w.b.live, (hinv n).2.w.b.on (hrw n)⟩) (fun n => (q n).b)
      (fun k h => ⟨(all_tick _ (tk h).1).2.2.1, congrArg (fun s : CSys σ => s.w.b) (tk h).2⟩)
  · exact o4.open (N := N) (fun n => ⟨(hinv n).1.r.ar, (hinv n).2.r.ar.live, (hinv n).2.r.ar.on (hrr n)⟩) (fun n => (q n).ar)
      (fun k h => ⟨(all_tick _ (tk h).1).2.2.2.1, congrArg (fun s : CSys σ => s.r.ar) (tk h).2⟩)
  · exact o5.open (N := N) (fun n => ⟨(hinv n).1.r.r, (hinv n).2.r.r.live, (hinv n).2.r.r.on (hrr n)⟩) (fun n => (q n).r)
      (fun k h => ⟨(all_tick _ (tk h).1).2.2.2.2, congrArg (fun s : CSys σ => s.r.r) (tk h).2⟩)

theorem CFrom.completes_unpaused (h : CFrom c wa ra t st S sched) (hs : ∀ n, (sched n).progress = true) (hf : CFair c wa ra t S sched)
    (hu : Unpaused (S 0)) (hw0 : (S 0).w.m.running = true) (hr0 : (S 0).r.m.running = true) :
    ∃ N, ∀ n, N ≤ n →
      (S n).w.m.idle = true ∧ (S n).r.m.idle = true ∧
      (∀ op ∈ (S 0).w.m.issued ++ (S 0).w.m.wrappers, (∀ r, (op, r) ∉ (S 0).w.m.results) →
        ∃ got, (op, some got) ∈ (S n).w.m.results) ∧
      (∀ op ∈ (S 0).r.m.issued ++ (S 0).r.m.wrappers, (∀ r, (op, r) ∉ (S 0).r.m.results) →
        ∃ got, (op, some got) ∈ (S n).r.m.results) := by
  have hsucc := h.succ
  have he := h.edges hc hi (hf.on _) (fun _ _ => ⟨0, fun k _ => hs k⟩)
  have hup : ∀ n, Unpaused (S n) := by
    intro n
    induction n with
    | zero => exact hu
    | succ n ih => rw [show S (n + 1) = _ from hsucc n]; exact ih.step _ (hs n)
  have cyc : ∀ P : Nat → Prop, (∀ m, P m) → ∀ n, ∃ i j, n ≤ i ∧ i < j ∧ Edge S sched i ∧ Edge S sched j ∧ ∀ m, i < m → m ≤ j → P m := by
    intro P hP n
    obtain ⟨i, h1, h2⟩ := he n
    obtain ⟨j, h3, h4⟩ := he (i + 1)
    exact ⟨i, j, h1, by omega, h2, h4, fun m _ _ => hP m⟩
  exact h.completes_cycles hc hi hf
    ⟨cyc _ fun m => (hup m).aw.1, cyc _ fun m => (hup m).aw.2⟩ ⟨cyc _ fun m => (hup m).w.1, cyc _ fun m => (hup m).w.2⟩
    ⟨cyc _ fun m => (hup m).b.1, cyc _ fun m => (hup m).b.2⟩ ⟨cyc _ fun m => (hup m).ar.1, cyc _ fun m => (hup m).ar.2⟩
    ⟨cyc _ fun m => (hup m).r.1, cyc _ fun m => (hup m).r.2⟩ hw0 hr0

end

section

variable (c : Cfg) (hc : c.Std) (wa : Nat → WArgs) (ra : Nat → Req) (hi : IdsFit c wa ra) (t : Target σ) (st : σ)

theorem cFrom (evs : List CEv) (sched : Nat → CEv) (hs : ∀ n, (sched n).quiet = true) :
    CFrom c wa ra t st (fun n => CSys.run c wa ra t st (evs ++ (List.range n).map sched)) sched where
  succ n := by
    rw [List.range_succ, List.map_append, ← List.append_assoc]
    exact crun_append c wa ra t st _ _
  quiet := hs
  inv0 := (crun_inv c wa ra t st _).1
  fine0 := (crun_inv c wa ra t st _).2
  view0 := crun_view c wa ra t st _

include hc hi

/-- From some instant on only the channels do anything. -/
theorem tail (evs : List CEv) (sched : Nat → CEv) :
    let S : Nat → CSys σ := fun n => CSys.run c wa ra t st (evs ++ (List.range n).map sched)
    (∀ n, (sched n).quiet = true) →
    (∀ n, S (n + 1) = (S n).step c wa ra t (sched n)) ∧ ∃ N, Tail c wa ra t (fun n => S (N + n)) (fun n => sched (N + n)) :=
  fun hs => ⟨(cFrom c wa ra t st evs sched hs).succ, (cFrom c wa ra t st evs sched hs).tail hc hi⟩

/-- **C95, with pauses.** After any history `evs` at whose end the reset is deasserted, if no more calls are made and the reset stays
deasserted, then under any fair schedule in which ends of the channels are paused and released at any instants but none is paused for
ever (`Open`), all operations complete (from `N` on): both masters are idle and every operation that was called and had no result at the
end of `evs` has completed with responses (never flushed). What the result is then follows from C94. -/
theorem C95_completes_with_pauses (evs : List CEv) (sched : Nat → CEv) :
    let S : Nat → CSys σ := fun n => CSys.run c wa ra t st (evs ++ (List.range n).map sched)
    (∀ n, (sched n).quiet = true) → CFair c wa ra t S sched →
    Open (Edge S sched) (fun n => (S n).w.aw) → Open (Edge S sched) (fun n => (S n).w.w) → Open (Edge S sched) (fun n => (S n).w.b) →
    Open (Edge S sched) (fun n => (S n).r.ar) → Open (Edge S sched) (fun n => (S n).r.r) →
    (S 0).w.m.running = true → (S 0).r.m.running = true →
    ∃ N, ∀ n, N ≤ n →
      (S n).w.m.idle = true ∧ (S n).r.m.idle = true ∧
      (∀ op ∈ (S 0).w.m.issued ++ (S 0).w.m.wrappers, (∀ r, (op, r) ∉ (S 0).w.m.results) →
        ∃ got, (op, some got) ∈ (S n).w.m.results) ∧
      (∀ op ∈ (S 0).r.m.issued ++ (S 0).r.m.wrappers, (∀ r, (op, r) ∉ (S 0).r.m.results) →
        ∃ got, (op, some got) ∈ (S n).r.m.results) :=
  fun hs => (cFrom c wa ra t st evs sched hs).completes hc hi

/-- The clock does not stop unless `pause` is changed for ever without a clock edge. -/
theorem edges (evs : List CEv) (sched : Nat → CEv) :
    let S : Nat → CSys σ := fun n => CSys.run c wa ra t st (evs ++ (List.range n).map sched)
    (∀ n, (sched n).quiet = true) → CFairOn CEv.clocked c wa ra t S sched →
    (∀ n, (∀ k, n ≤ k → ¬ Edge S sched k) → ∃ m, ∀ k, m ≤ k → (sched k).progress = true) → ∀ n, ∃ k, n ≤ k ∧ Edge S sched k :=
  fun hs => (cFrom c wa ra t st evs sched hs).edges hc hi

/-- **C95, with pauses in some cycles.** As before, where it is known that again and again there is a whole clock cycle in which the end is
not paused. -/
theorem C95_completes_cycles (evs : List CEv) (sched : Nat → CEv) :
    let S : Nat → CSys σ := fun n => CSys.run c wa ra t st (evs ++ (List.range n).map sched)
    (∀ n, (sched n).quiet = true) → CFair c wa ra t S sched →
    Cycles (Edge S sched) (fun n => (S n).w.aw) → Cycles (Edge S sched) (fun n => (S n).w.w) →
    Cycles (Edge S sched) (fun n => (S n).w.b) → Cycles (Edge S sched) (fun n => (S n).r.ar) →
    Cycles (Edge S sched) (fun n => (S n).r.r) →
    (S 0).w.m.running = true → (S 0).r.m.running = true →
    ∃ N, ∀ n, N ≤ n →
      (S n).w.m.idle = true ∧ (S n).r.m.idle = true ∧
      (∀ op ∈ (S 0).w.m.issued ++ (S 0).w.m.wrappers, (∀ r, (op, r) ∉ (S 0).w.m.results) →
        ∃ got, (op, some got) ∈ (S n).w.m.results) ∧
      (∀ op ∈ (S 0).r.m.issued ++ (S 0).r.m.wrappers, (∀ r, (op, r) ∉ (S 0).r.m.results) →
        ∃ got, (op, some got) ∈ (S n).r.m.results) :=
  fun hs => (cFrom c wa ra t st evs sched hs).completes_cycles hc hi

/-- **C95.** After any history `evs` at whose end the reset is deasserted and no source or sink is paused, if no more calls are made, the
reset stays deasserted and nothing is paused, then under any fair schedule all operations complete. -/
theorem C95_completes (evs : List CEv) (sched : Nat → CEv) :
    let S : Nat → CSys σ := fun n => CSys.run c wa ra t st (evs ++ (List.range n).map sched)
    (∀ n, (sched n).progress = true) → CFair c wa ra t S sched → Unpaused (S 0) →
    (S 0).w.m.running = true → (S 0).r.m.running = true →
    ∃ N, ∀ n, N ≤ n →
      (S n).w.m.idle = true ∧ (S n).r.m.idle = true ∧
      (∀ op ∈ (S 0).w.m.issued ++ (S 0).w.m.wrappers, (∀ r, (op, r) ∉ (S 0).w.m.results) →
        ∃ got, (op, some got) ∈ (S n).w.m.results) ∧
      (∀ op ∈ (S 0).r.m.issued ++ (S 0).r.m.wrappers, (∀ r, (op, r) ∉ (S 0).r.m.results) →
        ∃ got, (op, some got) ∈ (S n).r.m.results) :=
  fun hs => (cFrom c wa ra t st evs sched (fun n => CEv.quiet_of (hs n))).completes_unpaused hc hi hs

end

/-! ## Fair schedules exist, and an example -/

/-- Everything that can happen other than calls, with the index `i` where there is one. -/
def cpieces (i : Nat) : List CEv :=
  (pieces i).map (fun | .w e => .w e | .r e => .r e) ++
    [.chan .aw .srcRun, .chan .aw .srcWake, .chan .aw .snkRun, .chan .aw .snkWake, .chan .aw .resume,
     .chan .w .srcRun, .chan .w .srcWake, .chan .w .snkRun, .chan .w .snkWake, .chan .w .resume,
     .chan .b .srcRun, .chan .b .srcWake, .chan .b .snkRun, .chan .b .snkWake, .chan .b .resume,
     .chan .ar .srcRun, .chan .ar .srcWake, .chan .ar .snkRun, .chan .ar .snkWake, .chan .ar .resume,
     .chan .r .srcRun, .chan .r .srcWake, .chan .r .snkRun, .chan .r .snkWake, .chan .r .resume,
     .commit, .tick]

/-- Goes through all of them again and again, with every index again and again. -/
def croundRobin (n : Nat) : CEv := ((cpieces (n / 49 - 2 ^ (n / 49).log2))[n % 49]?).getD .commit

theorem cpieces_progress (i : Nat) : ∀ e ∈ cpieces i, e.progress = true := by
  simp only [cpieces, pieces, List.map_cons, List.map_nil, List.cons_append, List.nil_append, List.forall_mem_cons]
  repeat' constructor
  simp

theorem croundRobin_progress (n : Nat) : (croundRobin n).progress = true := by
  unfold croundRobin
  cases hx : (cpieces (n / 49 - 2 ^ (n / 49).log2))[n % 49]? with
  | none => rfl
  | some e => exact cpieces_progress _ e (List.mem_of_getElem? hx)

theorem croundRobin_all (e : CEv) (he : e.progress = true) (hs : ∀ k, e ≠ .chan k .snkSpurious) (n : Nat) :
    ∃ k, n ≤ k ∧ croundRobin k = e := by
  have h : ∃ i j, j < 49 ∧ (cpieces i)[j]? = some e := by
    have key : ∀ i, e ∈ cpieces i → ∃ i j, j < 49 ∧ (cpieces i)[j]? = some e := by
      intro i hm
      obtain ⟨j, hj, hx⟩ := List.getElem_of_mem hm
      exact ⟨i, j, hj, by rw [List.getElem?_eq_getElem hj, hx]⟩
    cases e with
    | w e =>
      cases e with
      | write => cases he
      | init => cases he
      | reset v => cases he
      | runInit i => exact key i (by simp [cpieces, pieces])
      | workTake i => exact key i (by simp [cpieces, pieces])
      | workGet i => exact key i (by simp [cpieces, pieces])
      | workDone i => exact key i (by simp [cpieces, pieces])
      | _ => exact key 0 (by simp [cpieces, pieces])
    | r e =>
      cases e with
      | read => cases he
      | init => cases he
      | reset v => cases he
      | runInit i => exact key i (by simp [cpieces, pieces])
      | workTake i => exact key i (by simp [cpieces, pieces])
      | workGet i => exact key i (by simp [cpieces, pieces])
      | workDone i => exact key i (by simp [cpieces, pieces])
      | _ => exact key 0 (by simp [cpieces, pieces])
    | chan k e =>
      cases e with
      | srcPause v => cases he
      | snkPause v => cases he
      | snkSpurious => exact absurd rfl (hs k)
      | _ => cases k <;> exact key 0 (by simp [cpieces])
    | tick => exact key 0 (by simp [cpieces])
    | commit => exact key 0 (by simp [cpieces])
  obtain ⟨i, j, hj, hx⟩ := h
  have hlt : n + i < 2 ^ (n + i) := Nat.lt_two_pow_self
  have hlog : (2 ^ (n + i) + i).log2 = n + i := by
    refine (Nat.log2_eq_iff (by omega)).2 ⟨by omega, ?_⟩
    rw [Nat.pow_succ]; omega
  refine ⟨49 * (2 ^ (n + i) + i) + j, by omega, ?_⟩
  unfold croundRobin
  have h1 : (49 * (2 ^ (n + i) + i) + j) / 49 = 2 ^ (n + i) + i := by omega
  have h2 : (49 * (2 ^ (n + i) + i) + j) % 49 = j := by omega
  rw [h1, h2, hlog, Nat.add_sub_cancel_left, hx]
  rfl

theorem croundRobin_fair (c : Cfg) (wa : Nat → WArgs) (ra : Nat → Req) (t : Target σ) (S : Nat → CSys σ) :
    CFair c wa ra t S croundRobin := by
  intro e he hs n
  obtain ⟨k, hk, h⟩ := croundRobin_all e he hs n
  exact ⟨k, hk, .inl h⟩

/-- The history `exStall`, in which the sink of the W channel was paused and the master is blocked in `send()`, and then a call of
`init_read` and the end of the pause: two writes are under way. They all complete. -/
def exBlocked : List CEv := exStall ++ [.r .init, .chan .w (.snkPause false)]

theorem exBlocked_state : let s := CSys.run exC exW exR ramTarget exM exBlocked
    s.w.m.running = true ∧ s.r.m.running = true ∧ s.w.m.issued = [exW0, exW1] ∧ s.w.m.results = [] ∧ blocked s.w.w = true ∧
      s.r.m.issued = [] ∧ s.r.m.results = [] ∧ s.r.m.wrappers = [exR0] := by
  decide +kernel

theorem exBlocked_unpaused : Unpaused (CSys.run exC exW exR ramTarget exM exBlocked) :=
  ⟨⟨by decide +kernel, by decide +kernel⟩, ⟨by decide +kernel, by decide +kernel⟩, ⟨by decide +kernel, by decide +kernel⟩,
    ⟨by decide +kernel, by decide +kernel⟩, ⟨by decide +kernel, by decide +kernel⟩⟩

example : ∃ N, ∀ n, N ≤ n → (∃ got, (exW0, some got) ∈
      (CSys.run exC exW exR ramTarget exM (exBlocked ++ (List.range n).map croundRobin)).w.m.results) ∧
    (∃ got, (exW1, some got) ∈ (CSys.run exC exW exR ramTarget exM (exBlocked ++ (List.range n).map croundRobin)).w.m.results) ∧
    ∃ got, (exR0, some got) ∈ (CSys.run exC exW exR ramTarget exM (exBlocked ++ (List.range n).map croundRobin)).r.m.results := by
  obtain ⟨h1, h2, h3, h4, _, h5, h6, h7⟩ := exBlocked_state
  have h0 : exBlocked ++ (List.range 0).map croundRobin = exBlocked := by simp
  have := C95_completes exC exC_std exW exR exIds ramTarget exM exBlocked croundRobin croundRobin_progress
    (croundRobin_fair _ _ _ _ _) (by simp only [h0]; exact exBlocked_unpaused) (by simp only [h0]; exact h1)
    (by simp only [h0]; exact h2)
  simp only [h0, h3, h4, h5, h6, h7] at this
  obtain ⟨N, hN⟩ := this
  refine ⟨N, fun n hn => ?_⟩
  obtain ⟨_, _, hw, hr⟩ := hN n hn
  exact ⟨hw exW0 (by simp) (by simp), hw exW1 (by simp) (by simp), hr exR0 (by simp) (by simp)⟩

end Verif.AxiSys
