import Verif.Props.AxiClockProgress

/-!
# C114: reads and writes of an AXI master do not wait for one another

In C95 the schedule is fair to everything. Here it need only be fair to the read side (or to the write side): whatever happens on the other
side, reads complete. A write access of the target may never return, the channels of writes may be paused for ever, writes may be called and
the write side may be reset at any time.
-/

namespace Verif.AxiSys

open Verif.Axi Verif.AxiOps Verif.AxiOps.Master
open Verif.Stream (Net NetEv Src Snk Pc)

variable {σ : Type}

section

variable {c : Cfg} {wa : Nat → WArgs} {ra : Nat → Req} {t : Target σ}

/-- One event, as seen by the read side: nothing changes, or something gets nearer to its end. -/
theorem CInv.read_dec (hc : c.Std) (hr : ∀ k, (ra k).id ≠ some (2 ^ c.idWidth)) {s : CSys σ} (hi : CInv s) {x : RWit}
    (hv : RInv c ra s.r.view x) (e : CEv) (he : e.reads = true → e.quiet = true) :
    (s.step c wa ra t e).r.seen = s.r.seen ∨
    4 * (s.step c wa ra t e).r.view.wt c ra + gotRank (s.step c wa ra t e).r.got < 4 * s.r.view.wt c ra + gotRank s.r.got := by
  cases e with
  | w e => exact .inl rfl
  | r e =>
    have hp : e.progress = true := he rfl
    obtain ⟨_, e', h2, h3⟩ := hi.r.step (c := c) (args := ra) (t := t) s.mem e
    have hb := gotRank_le (s.step c wa ra t (.r e)).r.got
    have h4 : (s.step c wa ra t (.r e)).r = (s.r.step c ra t s.mem e).1 := rfl
    rw [h4] at hb ⊢
    have h5 : (s.r.step c ra t s.mem e).1.view = (s.r.view.step c ra t s.mem e').1 := congrArg Prod.fst h3
    have h6 : e'.progress = true := by
      rcases h2 with h2 | h2
      · rw [h2]; exact hp
      · rw [h2]; rfl
    rcases hv.decreases (t := t) hc (rMk_id hc hr) s.mem e' h6 with h7 | h7
    · have h8 : (s.r.step c ra t s.mem e).1.view = s.r.view := by rw [h5, h7]
      rcases s.r.got_step (c := c) (args := ra) (t := t) s.mem e hp h8 with h9 | h9
      · exact .inl (Prod.ext h8 h9)
      · right; rw [h8]; omega
    · right; rw [h5]; omega
  | chan k e =>
    left
    refine Prod.ext (congrArg Sys.r (hi.inner k e).2) ?_
    cases k <;> rfl
  | tick =>
    left
    simp only [CSys.step]
    split
    · simp only [CSys.all, CRPort.seen, CRPort.view, hi.r.ar.tick.2, hi.r.r.tick.2]
    · rfl
  | commit =>
    left
    simp only [CSys.step]
    split
    · simp only [CSys.all, CRPort.seen, CRPort.view, hi.r.ar.commit.2, hi.r.r.commit.2]
    · rfl

theorem CInv.write_dec (hc : c.Std) (hw : ∀ k, (wa k).req.id ≠ some (2 ^ c.idWidth)) {s : CSys σ} (hi : CInv s) {x : WWit}
    (hv : WInv c wa s.w.view x) (e : CEv) (he : e.writes = true → e.quiet = true) :
    (s.step c wa ra t e).w.seen = s.w.seen ∨
    4 * (s.step c wa ra t e).w.view.wt c wa + (s.step c wa ra t e).w.acc.rank < 4 * s.w.view.wt c wa + s.w.acc.rank := by
  cases e with
  | r e => exact .inl rfl
  | w e =>
    have hp : e.progress = true := he rfl
    obtain ⟨_, e', h2, h3⟩ := hi.w.step (c := c) (args := wa) (t := t) s.mem e
    have hb := Acc.rank_le (s.step c wa ra t (.w e)).w.acc
    have h4 : (s.step c wa ra t (.w e)).w = (s.w.step c wa t s.mem e).1 := rfl
    rw [h4] at hb ⊢
    have h5 : (s.w.step c wa t s.mem e).1.view = (s.w.view.step c wa t s.mem e').1 := congrArg Prod.fst h3
    have h6 : e'.progress = true := by
      rcases h2 with h2 | h2
      · rw [h2]; exact hp
      · rw [h2]; rfl
    rcases hv.decreases (t := t) hc (wMk_id hc hw) s.mem e' h6 with h7 | h7
    · have h8 : (s.w.step c wa t s.mem e).1.view = s.w.view := by rw [h5, h7]
      rcases s.w.acc_step (c := c) (args := wa) (t := t) s.mem e hp h8 with h9 | h9
      · exact .inl (Prod.ext h8 h9)
      · right; rw [h8]; omega
    · right; rw [h5]; omega
  | chan k e =>
    left
    refine Prod.ext (congrArg Sys.w (hi.inner k e).2) ?_
    cases k <;> rfl
  | tick =>
    left
    simp only [CSys.step]
    split
    · simp only [CSys.all, CWPort.seen, CWPort.view, hi.w.aw.tick.2, hi.w.w.tick.2, hi.w.b.tick.2]
    · rfl
  | commit =>
    left
    simp only [CSys.step]
    split
    · simp only [CSys.all, CWPort.seen, CWPort.view, hi.w.aw.commit.2, hi.w.w.commit.2, hi.w.b.commit.2]
    · rfl

/-- While nothing changes that is seen, the channels of the read side are only changed from the inside. -/
theorem CInv.read_quiet {s : CSys σ} (hi : CInv s) (e : CEv) (he : e.reads = true → e.quiet = true)
    (hv : (s.step c wa ra t e).r.seen = s.r.seen) :
    Quiet s.r.ar (s.step c wa ra t e).r.ar ∧ Quiet s.r.r (s.step c wa ra t e).r.r := by
  cases e with
  | w e => exact ⟨.stay, .stay⟩
  | r e =>
    have h4 : (s.step c wa ra t (.r e)).r = (s.r.step c ra t s.mem e).1 := rfl
    rw [h4] at hv ⊢
    rw [hi.r.same s.mem e (he rfl) (congrArg Prod.fst hv) (congrArg Prod.snd hv)]
    exact ⟨.stay, .stay⟩
  | chan k e => exact ⟨(quiet_inner s k e).ar, (quiet_inner s k e).r⟩
  | tick =>
    simp only [CSys.step]
    split
    · rename_i h; exact ⟨(quiet_tick s h).ar, (quiet_tick s h).r⟩
    · exact ⟨.stay, .stay⟩
  | commit =>
    simp only [CSys.step]
    split
    · rename_i h; exact ⟨(quiet_commit s h).ar, (quiet_commit s h).r⟩
    · exact ⟨.stay, .stay⟩

theorem CInv.write_quiet {s : CSys σ} (hi : CInv s) (e : CEv) (he : e.writes = true → e.quiet = true)
    (hv : (s.step c wa ra t e).w.seen = s.w.seen) :
    Quiet s.w.aw (s.step c wa ra t e).w.aw ∧ Quiet s.w.w (s.step c wa ra t e).w.w ∧ Quiet s.w.b (s.step c wa ra t e).w.b := by
  cases e with
  | r e => exact ⟨.stay, .stay, .stay⟩
  | w e =>
    have h4 : (s.step c wa ra t (.w e)).w = (s.w.step c wa t s.mem e).1 := rfl
    rw [h4] at hv ⊢
    rw [hi.w.same s.mem e (he rfl) (congrArg Prod.fst hv) (congrArg Prod.snd hv)]
    exact ⟨.stay, .stay, .stay⟩
  | chan k e => exact ⟨(quiet_inner s k e).aw, (quiet_inner s k e).w, (quiet_inner s k e).b⟩
  | tick =>
    simp only [CSys.step]
    split
    · rename_i h; exact ⟨(quiet_tick s h).aw, (quiet_tick s h).w, (quiet_tick s h).b⟩
    · exact ⟨.stay, .stay, .stay⟩
  | commit =>
    simp only [CSys.step]
    split
    · rename_i h; exact ⟨(quiet_commit s h).aw, (quiet_commit s h).w, (quiet_commit s h).b⟩
    · exact ⟨.stay, .stay, .stay⟩

/-- An operation that is not pending has its result. -/
theorem Master.Inv.done {ρ : Type} {m : Master ρ} (hm : m.Inv) (hp : m.pend = []) :
    m.idle = true ∧ ∀ op ∈ m.issued, ∃ r, (op, r) ∈ m.results := by
  refine ⟨?_, ?_⟩
  · simp only [idle, decide_eq_true_eq, hm.flight, hp]; rfl
  · intro op hop
    have := hm.acct.mem_iff.1 hop
    rw [hp, List.append_nil, List.mem_map] at this
    obtain ⟨⟨o, r⟩, h1, h2⟩ := this
    exact ⟨r, by simp only at h2; rw [← h2]; exact h1⟩

end

section

variable (c : Cfg) (hc : c.Std) (wa : Nat → WArgs) (ra : Nat → Req) (t : Target σ) (st : σ)

include hc

theorem crun_rinv (hr : ∀ k, (ra k).id ≠ some (2 ^ c.idWidth)) (evs : List CEv) : ∃ x, RInv c ra (CSys.run c wa ra t st evs).r.view x := by
  obtain ⟨evs', hv⟩ := crun_view c wa ra t st evs
  obtain ⟨w, hw, _⟩ := (Sys.traceR (wa := wa) (ra := ra) (t := t) (st := st) (evs := evs') hc hr).inv evs'.length
  refine ⟨w, ?_⟩
  simp only [Sys.at, List.take_length] at hw
  rw [show (CSys.run c wa ra t st evs).r.view = _ from congrArg Sys.r hv]
  exact hw

theorem crun_winv (hw : ∀ k, (wa k).req.id ≠ some (2 ^ c.idWidth)) (evs : List CEv) :
    (∃ x, WInv c wa (CSys.run c wa ra t st evs).w.view x) ∧ Bal (CSys.run c wa ra t st evs).w.view := by
  have key : ∀ evs', ∃ x, WInv c wa (Sys.run c wa ra t st evs').w x := by
    intro evs'
    obtain ⟨w, hw, _⟩ := (Sys.traceW (wa := wa) (ra := ra) (t := t) (st := st) (evs := evs') hc hw).inv evs'.length
    refine ⟨w, ?_⟩
    simp only [Sys.at, List.take_length] at hw
    exact hw
  obtain ⟨evs', hv⟩ := crun_view c wa ra t st evs
  rw [show (CSys.run c wa ra t st evs).w.view = _ from congrArg Sys.w hv]
  refine ⟨key evs', ?_⟩
  suffices h : ∀ n, Bal (Sys.run c wa ra t st (evs'.take n)).w by
    have := h evs'.length
    rwa [List.take_length] at this
  intro n
  induction n with
  | zero => exact .empty rfl
  | succ n ih =>
    by_cases hn : n < evs'.length
    · rw [List.take_succ_eq_append_getElem hn, run_append]
      obtain ⟨w, hw⟩ := key (evs'.take n)
      cases evs'[n] with
      | w e => exact ih.step hc hw _ e
      | r e => exact ih
    · rw [List.take_of_length_le (by omega)] at ih ⊢
      exact ih

/-- From some instant on nothing changes on the read side but inside its channels. -/
theorem readTail (hr : ∀ k, (ra k).id ≠ some (2 ^ c.idWidth)) (evs : List CEv) (sched : Nat → CEv) :
    let S : Nat → CSys σ := fun n => CSys.run c wa ra t st (evs ++ (List.range n).map sched)
    (∀ n, (sched n).reads = true → (sched n).quiet = true) →
    (∀ n, S (n + 1) = (S n).step c wa ra t (sched n)) ∧ (∀ n, CInv (S n) ∧ CFine (S n)) ∧ (∀ n, Later (S 0).r.m (S n).r.m) ∧
    ∃ N, (∀ n, N ≤ n → (S n).r.seen = (S N).r.seen) ∧
      (∀ n, ((S (N + n)).step c wa ra t (sched (N + n))).r.seen = (S (N + n)).r.seen) ∧
      ∀ n, Quiet (S (N + n)).r.ar (S (N + n + 1)).r.ar ∧ Quiet (S (N + n)).r.r (S (N + n + 1)).r.r := by
  intro S hs
  have hsucc : ∀ n, S (n + 1) = (S n).step c wa ra t (sched n) := by
    intro n
    simp only [S]
    rw [List.range_succ, List.map_append, ← List.append_assoc]
    exact crun_append c wa ra t st _ _
  have hinv : ∀ n, CInv (S n) ∧ CFine (S n) := fun n => crun_inv c wa ra t st _
  obtain ⟨N, hN⟩ : ∃ N, ∀ n, N ≤ n → (S n).r.seen = (S N).r.seen :=
    stabilises (fun n => (S n).r.seen) (fun x => 4 * x.1.wt c ra + gotRank x.2) (fun n => by
      show (S (n + 1)).r.seen = (S n).r.seen ∨ 4 * (S (n + 1)).r.view.wt c ra + gotRank (S (n + 1)).r.got <
        4 * (S n).r.view.wt c ra + gotRank (S n).r.got
      rw [hsucc]
      obtain ⟨x, hx⟩ := (crun_rinv c hc wa ra t st hr _)
      exact (hinv n).1.read_dec hc hr hx (sched n) (hs n))
  have hlater : ∀ n, Later (S 0).r.m (S n).r.m := by
    intro n
    induction n with
    | zero => exact Later.refl _
    | succ n ih =>
      refine ih.trans ?_
      rw [hsucc]
      cases he : sched n with
      | w e => exact Later.refl _
      | r e =>
        have hp := hs n
        rw [he] at hp
        obtain ⟨_, e', h2, h3⟩ := (hinv n).1.r.step (c := c) (args := ra) (t := t) (S n).mem e
        have h5 : ((S n).r.step c ra t (S n).mem e).1.m = ((S n).r.view.step c ra t (S n).mem e').1.m := congrArg (fun x => x.1.m) h3
        have h6 : e'.progress = true := by
          rcases h2 with h2 | h2
          · rw [h2]; exact hp rfl
          · rw [h2]; rfl
        show Later (S n).r.m ((S n).r.step c ra t (S n).mem e).1.m
        rw [h5]
        rcases RPort.step_m c ra t (S n).r.view (S n).mem e' h6 with h | ⟨f, h1, _, h2⟩
        · rw [h]; exact Later.refl _
        · rw [h2]; exact Later.step _ _ _ h1
      | chan k e => cases k <;> exact Later.refl _
      | tick => simp only [CSys.step]; split <;> exact Later.refl _
      | commit => simp only [CSys.step]; split <;> exact Later.refl _
  have hx : ∀ n, (S (N + n)).r.seen = (S (N + 0)).r.seen := fun n => (hN (N + n) (by omega)).trans (hN (N + 0) (by omega)).symm
  have same : ∀ n, ((S (N + n)).step c wa ra t (sched (N + n))).r.seen = (S (N + n)).r.seen := by
    intro n
    rw [← hsucc]
    exact (hx (n + 1)).trans (hx n).symm
  refine ⟨hsucc, hinv, hlater, N, hN, same, fun n => ?_⟩
  rw [hsucc]
  exact (hinv _).1.read_quiet _ (hs _) (same n)

/-- **C114, reads.** After any history `evs` at whose end the reset of the read side is deasserted, if no more reads are called and the read
side is not reset, then under any schedule that is fair to the read side and does not pause an end of its channels for ever, all reads
complete. Nothing is assumed about the write side. -/
theorem C114_reads_complete (hr : ∀ k, (ra k).id ≠ some (2 ^ c.idWidth)) (evs : List CEv) (sched : Nat → CEv) :
    let S : Nat → CSys σ := fun n => CSys.run c wa ra t st (evs ++ (List.range n).map sched)
    (∀ n, (sched n).reads = true → (sched n).quiet = true) → CFairOn CEv.reads c wa ra t S sched →
    Open (Edge S sched) (fun n => (S n).r.ar) → Open (Edge S sched) (fun n => (S n).r.r) →
    (S 0).r.m.running = true →
    ∃ N, ∀ n, N ≤ n → (S n).r.m.idle = true ∧
      ∀ op ∈ (S 0).r.m.issued ++ (S 0).r.m.wrappers, (∀ r, (op, r) ∉ (S 0).r.m.results) →
        ∃ got, (op, some got) ∈ (S n).r.m.results := by
  intro S hs hf oar or hr0
  obtain ⟨hsucc, hinv, hlater, N, hN, same, q⟩ := readTail c hc wa ra t st hr evs sched hs
  have hrr : (S N).r.m.running = true := (hlater N).run hr0
  have hx : ∀ n, (S (N + n)).r.seen = (S (N + 0)).r.seen := fun n => (hN (N + n) (by omega)).trans (hN (N + 0) (by omega)).symm
  have res : ∀ (k : Chan), (CEv.chan k .resume).reads = true → ∀ n, ∃ m, n ≤ m ∧
      (S (N + m + 1) = (S (N + m)).inner k .resume ∨ (S (N + m)).inner k .resume = S (N + m)) := by
    intro k hk n
    obtain ⟨m, hm, h1⟩ := hf.shift N (.chan k .resume) hk rfl (by simp) n
    refine ⟨m, hm, ?_⟩
    rcases h1 with h1 | h1
    · left; rw [show S (N + m + 1) = _ from hsucc (N + m), show sched (N + m) = _ from h1]; rfl
    · exact .inr h1
  have sar : NetSeq fun n => (S (N + n)).r.ar := by
    refine ⟨⟨(hinv N).1.r.ar, (hinv N).2.r.ar.live, (hinv N).2.r.ar.on hrr⟩, fun n => (q n).1, (oar.shift N).src, ?_, ?_⟩
    · intro n; obtain ⟨k, hk, h1, h2⟩ := oar.snk (N + n); obtain ⟨h3, h4⟩ := edge_ticks hsucc h1
      obtain ⟨d, rfl⟩ := Nat.exists_eq_add_of_le (show N ≤ k by omega)
      exact ⟨d, by omega, (all_tick _ h3).2.2.2.1, congrArg (fun s : CSys σ => s.r.ar) h4, h2⟩
    · intro n; obtain ⟨k, hk, h1⟩ := res .ar rfl n
      exact ⟨k, hk, h1.imp (congrArg (fun s : CSys σ => s.r.ar)) (congrArg (fun s : CSys σ => s.r.ar))⟩
  have sr : NetSeq fun n => (S (N + n)).r.r := by
    refine ⟨⟨(hinv N).1.r.r, (hinv N).2.r.r.live, (hinv N).2.r.r.on hrr⟩, fun n => (q n).2, (or.shift N).src, ?_, ?_⟩
    · intro n; obtain ⟨k, hk, h1, h2⟩ := or.snk (N + n); obtain ⟨h3, h4⟩ := edge_ticks hsucc h1
      obtain ⟨d, rfl⟩ := Nat.exists_eq_add_of_le (show N ≤ k by omega)
      exact ⟨d, by omega, (all_tick _ h3).2.2.2.2, congrArg (fun s : CSys σ => s.r.r) h4, h2⟩
    · intro n; obtain ⟨k, hk, h1⟩ := res .r rfl n
      exact ⟨k, hk, h1.imp (congrArg (fun s : CSys σ => s.r.r)) (congrArg (fun s : CSys σ => s.r.r))⟩
  have noop : ∀ e : REv, e.progress = true → ∀ n, ∃ k, n ≤ k ∧
      ((S (N + k)).r.step c ra t (S (N + k)).mem e).1 = (S (N + k)).r := by
    intro e he n
    obtain ⟨k, hk, h1⟩ := hf.shift N (.r e) rfl he (by simp) n
    refine ⟨k, hk, ?_⟩
    rcases h1 with h1 | h1
    · have := same k
      rw [show sched (N + k) = _ from h1] at this
      exact (hinv _).1.r.same _ e he (congrArg Prod.fst this) (congrArg Prod.snd this)
    · exact congrArg CSys.r h1
  obtain ⟨x, hxi⟩ := crun_rinv c hc wa ra t st hr (evs ++ (List.range N).map sched)
  have hquiet : ∀ e : REv, e.progress = true → (S N).r.view.step c ra t (S N).mem e = ((S N).r.view, (S N).mem) := fun e he =>
    restR (S := fun n => S (N + n)) sar sr hx noop (fun n => (hinv _).1.r) hxi.died (S N).mem e he
  obtain ⟨p1, r2⟩ := hxi.quiet (t := t) hc hrr (S N).mem hquiet
  obtain ⟨r1, r3⟩ := Master.Inv.done hxi.m.inv p1
  refine ⟨N, fun n hn => ?_⟩
  have er : (S n).r.m = (S N).r.m := congrArg (fun x => x.1.m) (hN n hn)
  rw [er]
  refine ⟨r1, fun op ho hno => ?_⟩
  have h1 := (hlater N).calls op ho
  rw [show (S N).r.m.wrappers = [] from r2, List.append_nil] at h1
  obtain ⟨r, hr⟩ := r3 op h1
  cases r with
  | none => exact absurd ((hlater N).flush op hr) (hno none)
  | some got => exact ⟨got, hr⟩

/-- From some instant on nothing changes on the write side but inside its channels. -/
theorem writeTail (hw : ∀ k, (wa k).req.id ≠ some (2 ^ c.idWidth)) (evs : List CEv) (sched : Nat → CEv) :
    let S : Nat → CSys σ := fun n => CSys.run c wa ra t st (evs ++ (List.range n).map sched)
    (∀ n, (sched n).writes = true → (sched n).quiet = true) →
    (∀ n, S (n + 1) = (S n).step c wa ra t (sched n)) ∧ (∀ n, CInv (S n) ∧ CFine (S n)) ∧ (∀ n, Later (S 0).w.m (S n).w.m) ∧
    ∃ N, (∀ n, N ≤ n → (S n).w.seen = (S N).w.seen) ∧
      (∀ n, ((S (N + n)).step c wa ra t (sched (N + n))).w.seen = (S (N + n)).w.seen) ∧
      ∀ n, Quiet (S (N + n)).w.aw (S (N + n + 1)).w.aw ∧ Quiet (S (N + n)).w.w (S (N + n + 1)).w.w ∧ Quiet (S (N + n)).w.b (S (N + n + 1)).w.b := by
  intro S hs
  have hsucc : ∀ n, S (n + 1) = (S n).step c wa ra t (sched n) := by
    intro n
    simp only [S]
    rw [List.range_succ, List.map_append, ← List.append_assoc]
    exact crun_append c wa ra t st _ _
  have hinv : ∀ n, CInv (S n) ∧ CFine (S n) := fun n => crun_inv c wa ra t st _
  obtain ⟨N, hN⟩ : ∃ N, ∀ n, N ≤ n → (S n).w.seen = (S N).w.seen :=
    stabilises (fun n => (S n).w.seen) (fun x => 4 * x.1.wt c wa + x.2.rank) (fun n => by
      show (S (n + 1)).w.seen = (S n).w.seen ∨ 4 * (S (n + 1)).w.view.wt c wa + (S (n + 1)).w.acc.rank <
        4 * (S n).w.view.wt c wa + (S n).w.acc.rank
      rw [hsucc]
      obtain ⟨x, hx⟩ := (crun_winv c hc wa ra t st hw _).1
      exact (hinv n).1.write_dec hc hw hx (sched n) (hs n))
  have hlater : ∀ n, Later (S 0).w.m (S n).w.m := by
    intro n
    induction n with
    | zero => exact Later.refl _
    | succ n ih =>
      refine ih.trans ?_
      rw [hsucc]
      cases he : sched n with
      | r e => exact Later.refl _
      | w e =>
        have hp := hs n
        rw [he] at hp
        obtain ⟨_, e', h2, h3⟩ := (hinv n).1.w.step (c := c) (args := wa) (t := t) (S n).mem e
        have h5 : ((S n).w.step c wa t (S n).mem e).1.m = ((S n).w.view.step c wa t (S n).mem e').1.m := congrArg (fun x => x.1.m) h3
        have h6 : e'.progress = true := by
          rcases h2 with h2 | h2
          · rw [h2]; exact hp rfl
          · rw [h2]; rfl
        show Later (S n).w.m ((S n).w.step c wa t (S n).mem e).1.m
        rw [h5]
        rcases WPort.step_m c wa t (S n).w.view (S n).mem e' h6 with h | ⟨f, h1, _, h2⟩
        · rw [h]; exact Later.refl _
        · rw [h2]; exact Later.step _ _ _ h1
      | chan k e => cases k <;> exact Later.refl _
      | tick => simp only [CSys.step]; split <;> exact Later.refl _
      | commit => simp only [CSys.step]; split <;> exact Later.refl _
  have hx : ∀ n, (S (N + n)).w.seen = (S (N + 0)).w.seen := fun n => (hN (N + n) (by omega)).trans (hN (N + 0) (by omega)).symm
  have same : ∀ n, ((S (N + n)).step c wa ra t (sched (N + n))).w.seen = (S (N + n)).w.seen := by
    intro n
    rw [← hsucc]
    exact (hx (n + 1)).trans (hx n).symm
  refine ⟨hsucc, hinv, hlater, N, hN, same, fun n => ?_⟩
  rw [hsucc]
  exact (hinv _).1.write_quiet _ (hs _) (same n)

/-- **C114, writes.** The same for writes: nothing is assumed about the read side. -/
theorem C114_writes_complete (hw : ∀ k, (wa k).req.id ≠ some (2 ^ c.idWidth)) (evs : List CEv) (sched : Nat → CEv) :
    let S : Nat → CSys σ := fun n => CSys.run c wa ra t st (evs ++ (List.range n).map sched)
    (∀ n, (sched n).writes = true → (sched n).quiet = true) → CFairOn CEv.writes c wa ra t S sched →
    Open (Edge S sched) (fun n => (S n).w.aw) → Open (Edge S sched) (fun n => (S n).w.w) → Open (Edge S sched) (fun n => (S n).w.b) →
    (S 0).w.m.running = true →
    ∃ N, ∀ n, N ≤ n → (S n).w.m.idle = true ∧
      ∀ op ∈ (S 0).w.m.issued ++ (S 0).w.m.wrappers, (∀ r, (op, r) ∉ (S 0).w.m.results) →
        ∃ got, (op, some got) ∈ (S n).w.m.results := by
  intro S hs hf oaw ow ob hr0
  obtain ⟨hsucc, hinv, hlater, N, hN, same, q⟩ := writeTail c hc wa ra t st hw evs sched hs
  have hrr : (S N).w.m.running = true := (hlater N).run hr0
  have hx : ∀ n, (S (N + n)).w.seen = (S (N + 0)).w.seen := fun n => (hN (N + n) (by omega)).trans (hN (N + 0) (by omega)).symm
  have res : ∀ (k : Chan), (CEv.chan k .resume).writes = true → ∀ n, ∃ m, n ≤ m ∧
      (S (N + m + 1) = (S (N + m)).inner k .resume ∨ (S (N + m)).inner k .resume = S (N + m)) := by
    intro k hk n
    obtain ⟨m, hm, h1⟩ := hf.shift N (.chan k .resume) hk rfl (by simp) n
    refine ⟨m, hm, ?_⟩
    rcases h1 with h1 | h1
    · left; rw [show S (N + m + 1) = _ from hsucc (N + m), show sched (N + m) = _ from h1]; rfl
    · exact .inr h1
  have saw : NetSeq fun n => (S (N + n)).w.aw := by
    refine ⟨⟨(hinv N).1.w.aw, (hinv N).2.w.aw.live, (hinv N).2.w.aw.on hrr⟩, fun n => (q n).1, (oaw.shift N).src, ?_, ?_⟩
    · intro n; obtain ⟨k, hk, h1, h2⟩ := oaw.snk (N + n); obtain ⟨h3, h4⟩ := edge_ticks hsucc h1
      obtain ⟨d, rfl⟩ := Nat.exists_eq_add_of_le (show N ≤ k by omega)
      exact ⟨d, by omega, (all_tick _ h3).1, congrArg (fun s : CSys σ => s.w.aw) h4, h2⟩
    · intro n; obtain ⟨k, hk, h1⟩ := res .aw rfl n
      exact ⟨k, hk, h1.imp (congrArg (fun s : CSys σ => s.w.aw)) (congrArg (fun s : CSys σ => s.w.aw))⟩
  have sw : NetSeq fun n => (S (N + n)).w.w := by
    refine ⟨⟨(hinv N).1.w.w, (hinv N).2.w.w.live, (hinv N).2.w.w.on hrr⟩, fun n => (q n).2.1, (ow.shift N).src, ?_, ?_⟩
    · intro n; obtain ⟨k, hk, h1, h2⟩ := ow.snk (N + n); obtain ⟨h3, h4⟩ := edge_ticks hsucc h1
      obtain ⟨d, rfl⟩ := Nat.exists_eq_add_of_le (show N ≤ k by omega)
      exact ⟨d, by omega, (all_tick _ h3).2.1, congrArg (fun s : CSys σ => s.w.w) h4, h2⟩
    · intro n; obtain ⟨k, hk, h1⟩ := res .w rfl n
      exact ⟨k, hk, h1.imp (congrArg (fun s : CSys σ => s.w.w)) (congrArg (fun s : CSys σ => s.w.w))⟩
  have sb : NetSeq fun n => (S (N + n)).w.b := by
    refine ⟨⟨(hinv N).1.w.b, (hinv N).2.w.b.live, (hinv N).2.w.b.on hrr⟩, fun n => (q n).2.2, (ob.shift N).src, ?_, ?_⟩
    · intro n; obtain ⟨k, hk, h1, h2⟩ := ob.snk (N + n); obtain ⟨h3, h4⟩ := edge_ticks hsucc h1
      obtain ⟨d, rfl⟩ := Nat.exists_eq_add_of_le (show N ≤ k by omega)
      exact ⟨d, by omega, (all_tick _ h3).2.2.1, congrArg (fun s : CSys σ => s.w.b) h4, h2⟩
    · intro n; obtain ⟨k, hk, h1⟩ := res .b rfl n
      exact ⟨k, hk, h1.imp (congrArg (fun s : CSys σ => s.w.b)) (congrArg (fun s : CSys σ => s.w.b))⟩
  have noop : ∀ e : WEv, e.progress = true → ∀ n, ∃ k, n ≤ k ∧
      ((S (N + k)).w.step c wa t (S (N + k)).mem e).1 = (S (N + k)).w := by
    intro e he n
    obtain ⟨k, hk, h1⟩ := hf.shift N (.w e) rfl he (by simp) n
    refine ⟨k, hk, ?_⟩
    rcases h1 with h1 | h1
    · have := same k
      rw [show sched (N + k) = _ from h1] at this
      exact (hinv _).1.w.same _ e he (congrArg Prod.fst this) (congrArg Prod.snd this)
    · exact congrArg CSys.w h1
  obtain ⟨⟨x, hxi⟩, hbal⟩ := crun_winv c hc wa ra t st hw (evs ++ (List.range N).map sched)
  have hquiet : ∀ e : WEv, e.progress = true → (S N).w.view.step c wa t (S N).mem e = ((S N).w.view, (S N).mem) := fun e he =>
    restW (S := fun n => S (N + n)) hc saw sw sb hx noop (fun n => (hinv _).1.w) hxi hbal (S N).mem e he
  obtain ⟨p1, r2⟩ := hxi.quiet (t := t) hc hrr (S N).mem hquiet (wMk_id hc hw)
  obtain ⟨r1, r3⟩ := Master.Inv.done hxi.m.inv p1
  refine ⟨N, fun n hn => ?_⟩
  have er : (S n).w.m = (S N).w.m := congrArg (fun x => x.1.m) (hN n hn)
  rw [er]
  refine ⟨r1, fun op ho hno => ?_⟩
  have h1 := (hlater N).calls op ho
  rw [show (S N).w.m.wrappers = [] from r2, List.append_nil] at h1
  obtain ⟨r, hr⟩ := r3 op h1
  cases r with
  | none => exact absurd ((hlater N).flush op hr) (hno none)
  | some got => exact ⟨got, hr⟩

/-- **C114, reads, with pauses in some cycles.** As before, where it is known that again and again there is a whole clock cycle in which the
end is not paused. -/
theorem C114_reads_complete_cycles (hr : ∀ k, (ra k).id ≠ some (2 ^ c.idWidth)) (evs : List CEv) (sched : Nat → CEv) :
    let S : Nat → CSys σ := fun n => CSys.run c wa ra t st (evs ++ (List.range n).map sched)
    (∀ n, (sched n).reads = true → (sched n).quiet = true) → CFairOn CEv.reads c wa ra t S sched →
    Cycles (Edge S sched) (fun n => (S n).r.ar) → Cycles (Edge S sched) (fun n => (S n).r.r) →
    (S 0).r.m.running = true →
    ∃ N, ∀ n, N ≤ n → (S n).r.m.idle = true ∧
      ∀ op ∈ (S 0).r.m.issued ++ (S 0).r.m.wrappers, (∀ r, (op, r) ∉ (S 0).r.m.results) →
        ∃ got, (op, some got) ∈ (S n).r.m.results := by
  intro S hs hf oar or hr0
  obtain ⟨hsucc, hinv, hlater, N, hN, same, q⟩ := readTail c hc wa ra t st hr evs sched hs
  have hrr : ∀ n, (S n).r.m.running = true := fun n => (hlater n).run hr0
  have tk := fun {k : Nat} (h : Edge S sched k) => edge_ticks hsucc h
  exact C114_reads_complete c hc wa ra t st hr evs sched hs hf
    (oar.open (N := N) (fun n => ⟨(hinv n).1.r.ar, (hinv n).2.r.ar.live, (hinv n).2.r.ar.on (hrr n)⟩) (fun n => (q n).1)
      (fun k h => ⟨(all_tick _ (tk h).1).2.2.2.1, congrArg (fun s : CSys σ => s.r.ar) (tk h).2⟩))
    (or.open (N := N) (fun n => ⟨(hinv n).1.r.r, (hinv n).2.r.r.live, (hinv n).2.r.r.on (hrr n)⟩) (fun n => (q n).2)
      (fun k h => ⟨(all_tick _ (tk h).1).2.2.2.2, congrArg (fun s : CSys σ => s.r.r) (tk h).2⟩)) hr0

theorem C114_writes_complete_cycles (hw : ∀ k, (wa k).req.id ≠ some (2 ^ c.idWidth)) (evs : List CEv) (sched : Nat → CEv) :
    let S : Nat → CSys σ := fun n => CSys.run c wa ra t st (evs ++ (List.range n).map sched)
    (∀ n, (sched n).writes = true → (sched n).quiet = true) → CFairOn CEv.writes c wa ra t S sched →
    Cycles (Edge S sched) (fun n => (S n).w.aw) → Cycles (Edge S sched) (fun n => (S n).w.w) → Cycles (Edge S sched) (fun n => (S n).w.b) →
    (S 0).w.m.running = true →
    ∃ N, ∀ n, N ≤ n → (S n).w.m.idle = true ∧
      ∀ op ∈ (S 0).w.m.issued ++ (S 0).w.m.wrappers, (∀ r, (op, r) ∉ (S 0).w.m.results) →
        ∃ got, (op, some got) ∈ (S n).w.m.results := by
  intro S hs hf oaw ow ob hr0
  obtain ⟨hsucc, hinv, hlater, N, hN, same, q⟩ := writeTail c hc wa ra t st hw evs sched hs
  have hrr : ∀ n, (S n).w.m.running = true := fun n => (hlater n).run hr0
  have tk := fun {k : Nat} (h : Edge S sched k) => edge_ticks hsucc h
  exact C114_writes_complete c hc wa ra t st hw evs sched hs hf
    (oaw.open (N := N) (fun n => ⟨(hinv n).1.w.aw, (hinv n).2.w.aw.live, (hinv n).2.w.aw.on (hrr n)⟩) (fun n => (q n).1)
      (fun k h => ⟨(all_tick _ (tk h).1).1, congrArg (fun s : CSys σ => s.w.aw) (tk h).2⟩))
    (ow.open (N := N) (fun n => ⟨(hinv n).1.w.w, (hinv n).2.w.w.live, (hinv n).2.w.w.on (hrr n)⟩) (fun n => (q n).2.1)
      (fun k h => ⟨(all_tick _ (tk h).1).2.1, congrArg (fun s : CSys σ => s.w.w) (tk h).2⟩))
    (ob.open (N := N) (fun n => ⟨(hinv n).1.w.b, (hinv n).2.w.b.live, (hinv n).2.w.b.on (hrr n)⟩) (fun n => (q n).2.2)
      (fun k h => ⟨(all_tick _ (tk h).1).2.2.1, congrArg (fun s : CSys σ => s.w.b) (tk h).2⟩)) hr0

end

/-! ## An access of the target that never returns -/

/-- The schedule that never lets one event happen. -/
def cHang (x : CEv → Bool) (n : Nat) : CEv := if x (croundRobin n) then .commit else croundRobin n

theorem cHang_progress (x : CEv → Bool) (n : Nat) : (cHang x n).progress = true := by
  unfold cHang
  split
  · rfl
  · exact croundRobin_progress n

/-- It is fair to everything else. -/
theorem cHang_fair (x Q : CEv → Bool) (hQ : ∀ e, Q e = true → x e = false) (c : Cfg) (wa : Nat → WArgs) (ra : Nat → Req) (t : Target σ)
    (S : Nat → CSys σ) : CFairOn Q c wa ra t S (cHang x) := by
  intro e hq he hs n
  obtain ⟨k, hk, h⟩ := croundRobin_all e he hs n
  refine ⟨k, hk, .inl ?_⟩
  rw [cHang, h, hQ e hq]
  rfl

/-- The slave does something with a W transaction. -/
def hangW : CEv → Bool
  | .w .slaveW => true
  | _ => false

/-- The slave does something with a read access. -/
def hangR : CEv → Bool
  | .r .slaveR => true
  | _ => false

theorem cHang_not (x : CEv → Bool) (hx : x .commit = false) (n : Nat) : x (cHang x n) = false := by
  unfold cHang
  split
  · exact hx
  · rename_i h; simpa using h

/-- Without this event the slave goes on waiting. -/
theorem acc_stays (c : Cfg) (wa : Nat → WArgs) (ra : Nat → Req) (t : Target σ) (s : CSys σ) (e : CEv) (he : e.progress = true)
    (hn : hangW e = false) : (s.step c wa ra t e).w.acc = s.w.acc := by
  cases e with
  | w e =>
    simp only [CSys.step]
    cases e with
    | slaveW => cases hn
    | reset v => cases he
    | _ =>
      simp only [CWPort.step, CWPort.update, CWPort.sendAW, CWPort.sendW, CWPort.start, CWPort.slaveAW, CWPort.slaveB, CWPort.deliver]
      repeat' split
      all_goals rfl
  | r e => rfl
  | chan k e => cases k <;> rfl
  | tick => simp only [CSys.step]; split <;> rfl
  | commit => simp only [CSys.step]; split <;> rfl

theorem got_stays (c : Cfg) (wa : Nat → WArgs) (ra : Nat → Req) (t : Target σ) (s : CSys σ) (e : CEv) (he : e.progress = true)
    (hn : hangR e = false) : (s.step c wa ra t e).r.got = s.r.got := by
  cases e with
  | r e =>
    simp only [CSys.step]
    cases e with
    | slaveR => cases hn
    | reset v => cases he
    | _ =>
      simp only [CRPort.step, CRPort.update, CRPort.sendAR, CRPort.start, CRPort.slaveAR, CRPort.deliver]
      repeat' split
      all_goals rfl
  | w e => rfl
  | chan k e => cases k <;> rfl
  | tick => simp only [CSys.step]; split <;> rfl
  | commit => simp only [CSys.step]; split <;> rfl

/-- The slave has received the first W transaction of the first write and waits for the target; a read is called. -/
def exHangW : List CEv :=
  [.w (.reset false), .r (.reset false), .w .write] ++ (exCycles 4).filter (fun e => !hangW e) ++ [.w .slaveW, .r .init]

/-- The target has been read but the access has not returned; a write is called. -/
def exHangR : List CEv :=
  [.w (.reset false), .r (.reset false), .r .read] ++ (exCycles 4).filter (fun e => !hangR e) ++ [.r .slaveR, .w .init]

/-- The system after that and then `evs`. -/
abbrev exHung (evs : List CEv) : CSys Memory := CSys.run exC exW exR ramTarget exM evs

theorem exHangW_state : (exHung exHangW).r.m.running = true ∧ (exHung exHangW).w.acc.beat.map (fun b => (b.data, b.strb)) = [(0x02010000, 0xc)] ∧
    (exHung exHangW).w.m.issued = [exW0] ∧ (exHung exHangW).r.m.issued = [] ∧ (exHung exHangW).r.m.results = [] ∧
    (exHung exHangW).r.m.wrappers = [exR0] := by
  decide +kernel

theorem exHangR_state : (exHung exHangR).w.m.running = true ∧ (exHung exHangR).r.got.map (fun b => b.data) = some 0x07070707 ∧
    (exHung exHangR).r.m.issued = [exR0] ∧ (exHung exHangR).w.m.issued = [] ∧ (exHung exHangR).w.m.results = [] ∧
    (exHung exHangR).w.m.wrappers = [exW0] := by
  decide +kernel

theorem exHangW_unpaused : Unpaused (exHung exHangW) :=
  ⟨⟨by decide +kernel, by decide +kernel⟩, ⟨by decide +kernel, by decide +kernel⟩, ⟨by decide +kernel, by decide +kernel⟩,
    ⟨by decide +kernel, by decide +kernel⟩, ⟨by decide +kernel, by decide +kernel⟩⟩

theorem exHangR_unpaused : Unpaused (exHung exHangR) :=
  ⟨⟨by decide +kernel, by decide +kernel⟩, ⟨by decide +kernel, by decide +kernel⟩, ⟨by decide +kernel, by decide +kernel⟩,
    ⟨by decide +kernel, by decide +kernel⟩, ⟨by decide +kernel, by decide +kernel⟩⟩

/-- After any history after which nothing is paused, under this schedule nothing is ever paused and clock edges keep coming. -/
theorem cHang_cycles (x : CEv → Bool) (hx : ∀ e, e.clocked = true → x e = false) (evs : List CEv) (hu : Unpaused (exHung evs)) :
    let S : Nat → CSys Memory := fun n => exHung (evs ++ (List.range n).map (cHang x))
    (∀ n, S (n + 1) = (S n).step exC exW exR ramTarget (cHang x n)) ∧ (∀ n, Unpaused (S n)) ∧
    ∀ P : Nat → Prop, (∀ m, P m) → ∀ n, ∃ i j, n ≤ i ∧ i < j ∧ Edge S (cHang x) i ∧ Edge S (cHang x) j ∧ ∀ m, i < m → m ≤ j → P m := by
  intro S
  have hsucc : ∀ n, S (n + 1) = (S n).step exC exW exR ramTarget (cHang x n) := by
    intro n
    simp only [S, exHung]
    rw [List.range_succ, List.map_append, ← List.append_assoc]
    exact crun_append _ _ _ _ _ _ _
  have he := edges exC exC_std exW exR exIds ramTarget exM evs (cHang x) (fun n => CEv.quiet_of (cHang_progress x n))
    (cHang_fair x _ hx _ _ _ _ _) (fun _ _ => ⟨0, fun k _ => cHang_progress x k⟩)
  refine ⟨hsucc, fun n => ?_, fun P hP n => ?_⟩
  · induction n with
    | zero => simp only [S, List.range_zero, List.map_nil, List.append_nil]; exact hu
    | succ n ih => rw [hsucc]; exact ih.step _ (cHang_progress x n)
  · obtain ⟨i, h1, h2⟩ := he n
    obtain ⟨j, h3, h4⟩ := he (i + 1)
    exact ⟨i, j, h1, by omega, h2, h4, fun m _ _ => hP m⟩

/-- The write access never returns, and the read completes. -/
example : (∀ n, (exHung (exHangW ++ (List.range n).map (cHang hangW))).w.acc.beat.map (fun b => (b.data, b.strb)) = [(0x02010000, 0xc)]) ∧
    ∃ N, ∀ n, N ≤ n → ∃ got, (exR0, some got) ∈ (exHung (exHangW ++ (List.range n).map (cHang hangW))).r.m.results := by
  obtain ⟨h1, h2, h3, h4, h5, h6⟩ := exHangW_state
  have h0 : exHangW ++ (List.range 0).map (cHang hangW) = exHangW := by simp
  obtain ⟨hsucc, hup, cyc⟩ := cHang_cycles hangW (fun e he => by cases e <;> first | rfl | cases he) exHangW exHangW_unpaused
  constructor
  · intro n
    induction n with
    | zero => rw [h0]; exact h2
    | succ n ih =>
      rw [show exHung (exHangW ++ (List.range (n + 1)).map (cHang hangW)) = _ from hsucc n,
        acc_stays _ _ _ _ _ _ (cHang_progress _ n) (cHang_not _ rfl n)]
      exact ih
  · have := C114_reads_complete_cycles exC exC_std exW exR ramTarget exM exIds.r exHangW (cHang hangW)
      (fun n _ => CEv.quiet_of (cHang_progress _ n)) (cHang_fair _ _ (fun e he => by cases e <;> first | rfl | cases he) _ _ _ _ _)
      ⟨cyc _ fun m => (hup m).ar.1, cyc _ fun m => (hup m).ar.2⟩ ⟨cyc _ fun m => (hup m).r.1, cyc _ fun m => (hup m).r.2⟩
      (by simp only [h0]; exact h1)
    simp only [h0] at this
    rw [h4, h5, h6] at this
    obtain ⟨N, hN⟩ := this
    exact ⟨N, fun n hn => (hN n hn).2 exR0 (by simp) (by simp)⟩

/-- A read access never returns, and the write completes. -/
example : (∀ n, (exHung (exHangR ++ (List.range n).map (cHang hangR))).r.got.map (fun b => b.data) = some 0x07070707) ∧
    ∃ N, ∀ n, N ≤ n → ∃ got, (exW0, some got) ∈ (exHung (exHangR ++ (List.range n).map (cHang hangR))).w.m.results := by
  obtain ⟨h1, h2, h3, h4, h5, h6⟩ := exHangR_state
  have h0 : exHangR ++ (List.range 0).map (cHang hangR) = exHangR := by simp
  obtain ⟨hsucc, hup, cyc⟩ := cHang_cycles hangR (fun e he => by cases e <;> first | rfl | cases he) exHangR exHangR_unpaused
  constructor
  · intro n
    induction n with
    | zero => rw [h0]; exact h2
    | succ n ih =>
      rw [show exHung (exHangR ++ (List.range (n + 1)).map (cHang hangR)) = _ from hsucc n,
        got_stays _ _ _ _ _ _ (cHang_progress _ n) (cHang_not _ rfl n)]
      exact ih
  · have := C114_writes_complete_cycles exC exC_std exW exR ramTarget exM exIds.w exHangR (cHang hangR)
      (fun n _ => CEv.quiet_of (cHang_progress _ n)) (cHang_fair _ _ (fun e he => by cases e <;> first | rfl | cases he) _ _ _ _ _)
      ⟨cyc _ fun m => (hup m).aw.1, cyc _ fun m => (hup m).aw.2⟩ ⟨cyc _ fun m => (hup m).w.1, cyc _ fun m => (hup m).w.2⟩
      ⟨cyc _ fun m => (hup m).b.1, cyc _ fun m => (hup m).b.2⟩ (by simp only [h0]; exact h1)
    simp only [h0] at this
    rw [h4, h5, h6] at this
    obtain ⟨N, hN⟩ := this
    exact ⟨N, fun n hn => (hN n hn).2 exW0 (by simp) (by simp)⟩

end Verif.AxiSys
