import Verif.Props.LiteClockProgress

/-!
# C114: reads and writes of an AXI-lite master do not wait for one another

In C99 the schedule is fair to everything. Here it need only be fair to the read side (or to the write side): whatever happens on the other
side, reads complete. A write access of the target may never return, the channels of writes may be paused for ever, writes may be called and
the write side may be reset at any time.
-/

namespace Verif.LiteOps

open Verif.AxiSys (chanCfg Inner Chan blocked avail content resetNet startNet canTick canCommit ChanInv ChanFine NetSeq Here Phase Open
  Cycles stabilises)
open Verif.Stream (Net NetEv)

variable {χ α β ρ χ' ρ' σ : Type}

section

variable {sp : Halves χ α β} {f : χ → σ → ρ × σ} {g : χ' → σ → ρ' × σ} {S : Nat → Clk χ α β ρ χ' ρ' σ} {sched : Nat → ClkEv χ ρ χ' ρ'}

/-- What of a side is seen. -/
def ClkR.seen (p : ClkR χ' ρ') : Port χ' ρ' × Option χ' × Option ρ' := (p.view, p.ahead)

def ClkW.seen (sp : Halves χ α β) (p : ClkW χ α β ρ) : Port χ ρ × Bool × Option α × Option β × Option ρ := (p.view sp, p.ahead)

/-- One event, as seen by the read side: nothing changes, or something gets nearer to its end. -/
theorem ClkInv.read_dec {s : Clk χ α β ρ χ' ρ' σ} (hi : ClkInv sp s) (e : ClkEv χ ρ χ' ρ') (he : e.reads = true → e.quiet = true) :
    (s.step sp f g e).r.seen = s.r.seen ∨
    3 * (s.step sp f g e).r.view.wt + ClkR.lag (s.step sp f g e).r.ahead < 3 * s.r.view.wt + ClkR.lag s.r.ahead := by
  cases e with
  | w e => exact .inl rfl
  | r e =>
    have hp := he rfl
    obtain ⟨_, e', h2, h3⟩ := hi.r.step (f := g) s.mem e
    have hb := ClkR.lag_le (s.step sp f g (.r e)).r.ahead
    have h4 : (s.step sp f g (.r e)).r = (s.r.step g s.mem e).1 := rfl
    rw [h4] at hb ⊢
    have h5 : (s.r.step g s.mem e).1.view = (s.r.view.step g s.mem e').1 := congrArg Prod.fst h3
    rcases Port.decreases g s.r.view s.mem e' (h2 hp) with h6 | h6
    · have h7 : (s.r.step g s.mem e).1.view = s.r.view := by rw [h5, h6]
      rcases hi.r.small (f := g) s.mem e hp h7 with h8 | h8
      · left; rw [h8]
      · right; rw [h7]; omega
    · right; rw [h5]; omega
  | chan k e =>
    left
    have h1 := congrArg Duo.r (hi.inner k e).2
    exact Prod.ext h1 (ClkInv.inner_aw k e).2.1
  | tick =>
    left
    simp only [Clk.step]
    split
    · exact Prod.ext (congrArg Duo.r hi.tick.2) rfl
    · rfl
  | commit =>
    left
    simp only [Clk.step]
    split
    · exact Prod.ext (congrArg Duo.r hi.commit.2) rfl
    · rfl

theorem ClkInv.write_dec (hl : ∀ x, sp.join (sp.aw x) (sp.w x) = x) {s : Clk χ α β ρ χ' ρ' σ} (hi : ClkInv sp s) (e : ClkEv χ ρ χ' ρ')
    (he : e.writes = true → e.quiet = true) :
    (s.step sp f g e).w.seen sp = s.w.seen sp ∨
    5 * ((s.step sp f g e).w.view sp).wt + ClkW.lag (s.step sp f g e).w.ahead < 5 * (s.w.view sp).wt + ClkW.lag s.w.ahead := by
  cases e with
  | r e => exact .inl rfl
  | w e =>
    have hp := he rfl
    obtain ⟨_, e', h2, h3⟩ := hi.w.step hl (f := f) s.mem e
    have hb := ClkW.lag_le (s.step sp f g (.w e)).w.ahead
    have h4 : (s.step sp f g (.w e)).w = (s.w.step sp f s.mem e).1 := rfl
    rw [h4] at hb ⊢
    have h5 : (s.w.step sp f s.mem e).1.view sp = ((s.w.view sp).step f s.mem e').1 := congrArg Prod.fst h3
    rcases Port.decreases f (s.w.view sp) s.mem e' (h2 hp) with h6 | h6
    · have h7 : (s.w.step sp f s.mem e).1.view sp = s.w.view sp := by rw [h5, h6]
      rcases hi.w.small (f := f) s.mem e hp h7 with h8 | h8
      · left; rw [h8]
      · right; rw [h7]; omega
    · right; rw [h5]; omega
  | chan k e =>
    left
    have h1 := congrArg Duo.w (hi.inner k e).2
    exact Prod.ext h1 (ClkInv.inner_aw k e).1
  | tick =>
    left
    simp only [Clk.step]
    split
    · exact Prod.ext (congrArg Duo.w hi.tick.2) rfl
    · rfl
  | commit =>
    left
    simp only [Clk.step]
    split
    · exact Prod.ext (congrArg Duo.w hi.commit.2) rfl
    · rfl

/-- A piece of a coroutine of the read side that changes nothing that is seen changes nothing. -/
theorem ClkRInv.same {p : ClkR χ' ρ'} (hi : ClkRInv p) (mem : σ) (e : ClkREv χ' ρ') (he : e.progress = true)
    (hv : (p.step g mem e).1.seen = p.seen) : (p.step g mem e).1 = p := by
  rcases hi.small (f := g) mem e he (congrArg Prod.fst hv) with h | h
  · exact h
  · have : (p.step g mem e).1.ahead = p.ahead := congrArg Prod.snd hv
    rw [this] at h; omega

theorem ClkWInv.still {p : ClkW χ α β ρ} (hi : ClkWInv sp p) (mem : σ) (e : ClkWEv χ ρ) (he : e.progress = true)
    (hv : (p.step sp f mem e).1.seen sp = p.seen sp) : (p.step sp f mem e).1 = p := by
  rcases hi.small (f := f) mem e he (congrArg Prod.fst hv) with h | h
  · exact h
  · have : (p.step sp f mem e).1.ahead = p.ahead := congrArg Prod.snd hv
    rw [this] at h; omega

/-- While nothing changes that is seen, the channels of the read side are only changed from the inside. -/
theorem ClkInv.read_quiet {s : Clk χ α β ρ χ' ρ' σ} (hi : ClkInv sp s) (e : ClkEv χ ρ χ' ρ') (he : e.reads = true → e.quiet = true)
    (hv : (s.step sp f g e).r.seen = s.r.seen) :
    AxiSys.Quiet s.r.ar (s.step sp f g e).r.ar ∧ AxiSys.Quiet s.r.r (s.step sp f g e).r.r := by
  cases e with
  | w e => exact ⟨.stay, .stay⟩
  | r e =>
    have h4 : (s.step sp f g (.r e)).r = (s.r.step g s.mem e).1 := rfl
    rw [h4] at hv ⊢
    rw [hi.r.same s.mem e (he rfl) hv]
    exact ⟨.stay, .stay⟩
  | chan k e => exact ⟨(quiet_inner s k e).ar, (quiet_inner s k e).r⟩
  | tick =>
    simp only [Clk.step]
    split
    · rename_i h; exact ⟨(quiet_tick s h).ar, (quiet_tick s h).r⟩
    · exact ⟨.stay, .stay⟩
  | commit =>
    simp only [Clk.step]
    split
    · rename_i h; exact ⟨(quiet_commit s h).ar, (quiet_commit s h).r⟩
    · exact ⟨.stay, .stay⟩

theorem ClkInv.write_quiet {s : Clk χ α β ρ χ' ρ' σ} (hi : ClkInv sp s) (e : ClkEv χ ρ χ' ρ') (he : e.writes = true → e.quiet = true)
    (hv : (s.step sp f g e).w.seen sp = s.w.seen sp) :
    AxiSys.Quiet s.w.aw (s.step sp f g e).w.aw ∧ AxiSys.Quiet s.w.w (s.step sp f g e).w.w ∧ AxiSys.Quiet s.w.b (s.step sp f g e).w.b := by
  cases e with
  | r e => exact ⟨.stay, .stay, .stay⟩
  | w e =>
    have h4 : (s.step sp f g (.w e)).w = (s.w.step sp f s.mem e).1 := rfl
    rw [h4] at hv ⊢
    rw [hi.w.still s.mem e (he rfl) hv]
    exact ⟨.stay, .stay, .stay⟩
  | chan k e => exact ⟨(quiet_inner s k e).aw, (quiet_inner s k e).w, (quiet_inner s k e).b⟩
  | tick =>
    simp only [Clk.step]
    split
    · rename_i h; exact ⟨(quiet_tick s h).aw, (quiet_tick s h).w, (quiet_tick s h).b⟩
    · exact ⟨.stay, .stay, .stay⟩
  | commit =>
    simp only [Clk.step]
    split
    · rename_i h; exact ⟨(quiet_commit s h).aw, (quiet_commit s h).w, (quiet_commit s h).b⟩
    · exact ⟨.stay, .stay, .stay⟩

end

section

variable (sp : Halves χ α β) (f : χ → σ → ρ × σ) (g : χ' → σ → ρ' × σ) (m0 : σ) (hl : ∀ x, sp.join (sp.aw x) (sp.w x) = x)

include hl

/-- From some instant on nothing changes on the read side but inside its channels. -/
theorem readTail (evs : List (ClkEv χ ρ χ' ρ')) (sched : Nat → ClkEv χ ρ χ' ρ') :
    let S : Nat → Clk χ α β ρ χ' ρ' σ := fun n => Clk.run sp f g m0 (evs ++ (List.range n).map sched)
    (∀ n, (sched n).reads = true → (sched n).quiet = true) →
    (∀ n, S (n + 1) = (S n).step sp f g (sched n)) ∧ (∀ n, ClkInv sp (S n) ∧ ClkFine (S n)) ∧ (∀ n, Later (S 0).r.m (S n).r.m) ∧
    ∃ N, (∀ n, N ≤ n → (S n).r.seen = (S N).r.seen) ∧
      (∀ n, ((S (N + n)).step sp f g (sched (N + n))).r.seen = (S (N + n)).r.seen) ∧
      ∀ n, AxiSys.Quiet (S (N + n)).r.ar (S (N + n + 1)).r.ar ∧ AxiSys.Quiet (S (N + n)).r.r (S (N + n + 1)).r.r := by
  intro S hs
  have hsucc : ∀ n, S (n + 1) = (S n).step sp f g (sched n) := by
    intro n
    simp only [S]
    rw [List.range_succ, List.map_append, ← List.append_assoc]
    exact Clk.run_append sp f g m0 _ _
  have hinv : ∀ n, ClkInv sp (S n) ∧ ClkFine (S n) := fun n => clkRun_inv sp f g m0 hl _
  obtain ⟨N, hN⟩ : ∃ N, ∀ n, N ≤ n → (S n).r.seen = (S N).r.seen :=
    stabilises (fun n => (S n).r.seen) (fun x => 3 * x.1.wt + ClkR.lag x.2) (fun n => by
      show (S (n + 1)).r.seen = (S n).r.seen ∨ 3 * (S (n + 1)).r.view.wt + ClkR.lag (S (n + 1)).r.ahead <
        3 * (S n).r.view.wt + ClkR.lag (S n).r.ahead
      rw [hsucc]
      exact (hinv n).1.read_dec (sched n) (hs n))
  have hlater : ∀ n, Later (S 0).r.m (S n).r.m := by
    intro n
    induction n with
    | zero => exact Later.refl _
    | succ n ih =>
      refine ih.trans ?_
      rw [hsucc]
      cases he : sched n with
      | w e => exact Later.refl _
      | r e =>
        have hp := hs n
        rw [he] at hp
        obtain ⟨_, e', h2, h3⟩ := (hinv n).1.r.step (f := g) (S n).mem e
        have h5 : ((S n).r.step g (S n).mem e).1.m = ((S n).r.view.step g (S n).mem e').1.m := congrArg (fun x => x.1.m) h3
        show Later (S n).r.m ((S n).r.step g (S n).mem e).1.m
        rw [h5]
        exact Port.later g (S n).r.view (S n).mem e' (h2 (hp rfl))
      | chan k e => cases k <;> exact Later.refl _
      | tick => simp only [Clk.step]; split <;> exact Later.refl _
      | commit => simp only [Clk.step]; split <;> exact Later.refl _
  have hx : ∀ n, (S (N + n)).r.seen = (S (N + 0)).r.seen := fun n => (hN (N + n) (by omega)).trans (hN (N + 0) (by omega)).symm
  have same : ∀ n, ((S (N + n)).step sp f g (sched (N + n))).r.seen = (S (N + n)).r.seen := by
    intro n
    rw [← hsucc]
    exact (hx (n + 1)).trans (hx n).symm
  have q : ∀ n, AxiSys.Quiet (S (N + n)).r.ar (S (N + n + 1)).r.ar ∧ AxiSys.Quiet (S (N + n)).r.r (S (N + n + 1)).r.r := by
    intro n
    rw [hsucc]
    exact (hinv _).1.read_quiet _ (hs _) (same n)
  exact ⟨hsucc, hinv, hlater, N, hN, same, q⟩

/-- **C114, reads.** After any history `evs` at whose end the reset of the read side is deasserted, if no more reads are called and the read
side is not reset, then under any schedule that is fair to the read side and does not pause an end of its channels for ever, all reads
complete. Nothing is assumed about the write side. -/
theorem C114_reads_complete (evs : List (ClkEv χ ρ χ' ρ')) (sched : Nat → ClkEv χ ρ χ' ρ') :
    let S : Nat → Clk χ α β ρ χ' ρ' σ := fun n => Clk.run sp f g m0 (evs ++ (List.range n).map sched)
    (∀ n, (sched n).reads = true → (sched n).quiet = true) → ClkFairOn ClkEv.reads sp f g S sched →
    Open (Edge S sched) (fun n => (S n).r.ar) → Open (Edge S sched) (fun n => (S n).r.r) →
    (S 0).r.m.running = true →
    ∃ N, ∀ n, N ≤ n → (S n).r.m.idle = true ∧
      ∀ op ∈ (S 0).r.m.issued ++ (S 0).r.m.wrappers, (∀ r, (op, r) ∉ (S 0).r.m.results) →
        ∃ got, (op, some got) ∈ (S n).r.m.results := by
  intro S hs hf o4 o5 hr0
  obtain ⟨hsucc, hinv, hlater, N, hN, same, q⟩ := readTail sp f g m0 hl evs sched hs
  have hrr : (S N).r.m.running = true := (hlater N).run hr0
  have hx : ∀ n, (S (N + n)).r.seen = (S (N + 0)).r.seen := fun n => (hN (N + n) (by omega)).trans (hN (N + 0) (by omega)).symm
  have res : ∀ (k : Chan), (ClkEv.chan k .resume : ClkEv χ ρ χ' ρ').reads = true → ∀ n, ∃ m, n ≤ m ∧
      (S (N + m + 1) = (S (N + m)).inner k .resume ∨ (S (N + m)).inner k .resume = S (N + m)) := by
    intro k hk n
    obtain ⟨m, hm, h1⟩ := hf.shift N (.chan k .resume) hk rfl (by simp) n
    refine ⟨m, hm, ?_⟩
    rcases h1 with h1 | h1
    · left; rw [show S (N + m + 1) = _ from hsucc (N + m), show sched (N + m) = _ from h1]; rfl
    · exact .inr h1
  have s1 : NetSeq fun n => (S (N + n)).r.ar := by
    refine ⟨⟨(hinv N).1.r.ar, (hinv N).2.r.ar.live, (hinv N).2.r.ar.on hrr⟩, fun n => (q n).1, (o4.shift N).src, ?_, ?_⟩
    · intro n; obtain ⟨k, hk, h1, h2⟩ := o4.snk (N + n); obtain ⟨h3, h4⟩ := clk_edge_ticks hsucc h1
      obtain ⟨d, rfl⟩ := Nat.exists_eq_add_of_le (show N ≤ k by omega)
      exact ⟨d, by omega, (clk_all_tick _ h3).2.2.2.1, congrArg (fun s : Clk χ α β ρ χ' ρ' σ => s.r.ar) h4, h2⟩
    · intro n; obtain ⟨k, hk, h1⟩ := res .ar rfl n
      exact ⟨k, hk, h1.imp (congrArg (fun s : Clk χ α β ρ χ' ρ' σ => s.r.ar)) (congrArg (fun s : Clk χ α β ρ χ' ρ' σ => s.r.ar))⟩
  have s3 : NetSeq fun n => (S (N + n)).r.r := by
    refine ⟨⟨(hinv N).1.r.r, (hinv N).2.r.r.live, (hinv N).2.r.r.on hrr⟩, fun n => (q n).2, (o5.shift N).src, ?_, ?_⟩
    · intro n; obtain ⟨k, hk, h1, h2⟩ := o5.snk (N + n); obtain ⟨h3, h4⟩ := clk_edge_ticks hsucc h1
      obtain ⟨d, rfl⟩ := Nat.exists_eq_add_of_le (show N ≤ k by omega)
      exact ⟨d, by omega, (clk_all_tick _ h3).2.2.2.2, congrArg (fun s : Clk χ α β ρ χ' ρ' σ => s.r.r) h4, h2⟩
    · intro n; obtain ⟨k, hk, h1⟩ := res .r rfl n
      exact ⟨k, hk, h1.imp (congrArg (fun s : Clk χ α β ρ χ' ρ' σ => s.r.r)) (congrArg (fun s : Clk χ α β ρ χ' ρ' σ => s.r.r))⟩
  have noop : ∀ e : ClkREv χ' ρ', e.progress = true → ∀ n, ∃ k, n ≤ k ∧
      ((S (N + k)).r.step g (S (N + k)).mem e).1 = (S (N + k)).r := by
    intro e he n
    obtain ⟨k, hk, h1⟩ := hf.shift N (.r e) rfl he (by simp) n
    refine ⟨k, hk, ?_⟩
    rcases h1 with h1 | h1
    · refine (hinv _).1.r.same _ e he ?_
      have := same k
      rw [show sched (N + k) = _ from h1] at this
      exact this
    · exact congrArg Clk.r h1
  obtain ⟨evs', hv⟩ := clkRun_view sp f g m0 hl (evs ++ (List.range N).map sched)
  obtain ⟨_, nr⟩ := Duo.needs f g m0 evs'
  rw [← hv] at nr
  have hquiet : ∀ e : PortEv χ' ρ', e.progress = true → ((S N).view sp).r.step g ((S N).view sp).mem e =
      (((S N).view sp).r, ((S N).view sp).mem) := fun e he =>
    restR (S := fun n => S (N + n)) (g := g) s1 s3 hx noop (fun n => (hinv _).1.r) hrr
      (fun a b d e => nr hrr a b d (List.append_ne_nil_of_left_ne_nil e _)) (S N).mem e he
  rw [show (S N).view sp = _ from hv] at hquiet
  have hdr := (Duo.done f g m0 evs').2 hquiet
  rw [← hv] at hdr
  obtain ⟨r1, r2, r3⟩ := hdr hrr
  refine ⟨N, fun n hn => ?_⟩
  have er : (S n).r.m = (S N).r.m := congrArg (fun x => x.1.m) (hN n hn)
  rw [er]
  refine ⟨r1, fun op ho hno => ?_⟩
  have h1 := (hlater N).calls op ho
  rw [show (S N).r.m.wrappers = [] from r2, List.append_nil] at h1
  obtain ⟨r, hr⟩ := r3 op h1
  cases r with
  | none => exact absurd ((hlater N).flush op hr) (hno none)
  | some got => exact ⟨got, hr⟩

/-- From some instant on nothing changes on the write side but inside its channels. -/
theorem writeTail (evs : List (ClkEv χ ρ χ' ρ')) (sched : Nat → ClkEv χ ρ χ' ρ') :
    let S : Nat → Clk χ α β ρ χ' ρ' σ := fun n => Clk.run sp f g m0 (evs ++ (List.range n).map sched)
    (∀ n, (sched n).writes = true → (sched n).quiet = true) →
    (∀ n, S (n + 1) = (S n).step sp f g (sched n)) ∧ (∀ n, ClkInv sp (S n) ∧ ClkFine (S n)) ∧ (∀ n, Later (S 0).w.m (S n).w.m) ∧
    ∃ N, (∀ n, N ≤ n → (S n).w.seen sp = (S N).w.seen sp) ∧
      (∀ n, ((S (N + n)).step sp f g (sched (N + n))).w.seen sp = (S (N + n)).w.seen sp) ∧
      ∀ n, AxiSys.Quiet (S (N + n)).w.aw (S (N + n + 1)).w.aw ∧ AxiSys.Quiet (S (N + n)).w.w (S (N + n + 1)).w.w ∧
        AxiSys.Quiet (S (N + n)).w.b (S (N + n + 1)).w.b := by
  intro S hs
  have hsucc : ∀ n, S (n + 1) = (S n).step sp f g (sched n) := by
    intro n
    simp only [S]
    rw [List.range_succ, List.map_append, ← List.append_assoc]
    exact Clk.run_append sp f g m0 _ _
  have hinv : ∀ n, ClkInv sp (S n) ∧ ClkFine (S n) := fun n => clkRun_inv sp f g m0 hl _
  obtain ⟨N, hN⟩ : ∃ N, ∀ n, N ≤ n → (S n).w.seen sp = (S N).w.seen sp :=
    stabilises (fun n => (S n).w.seen sp) (fun x => 5 * x.1.wt + ClkW.lag x.2) (fun n => by
      show (S (n + 1)).w.seen sp = (S n).w.seen sp ∨ 5 * ((S (n + 1)).w.view sp).wt + ClkW.lag (S (n + 1)).w.ahead <
        5 * ((S n).w.view sp).wt + ClkW.lag (S n).w.ahead
      rw [hsucc]
      exact (hinv n).1.write_dec hl (sched n) (hs n))
  have hlater : ∀ n, Later (S 0).w.m (S n).w.m := by
    intro n
    induction n with
    | zero => exact Later.refl _
    | succ n ih =>
      refine ih.trans ?_
      rw [hsucc]
      cases he : sched n with
      | r e => exact Later.refl _
      | w e =>
        have hp := hs n
        rw [he] at hp
        obtain ⟨_, e', h2, h3⟩ := (hinv n).1.w.step hl (f := f) (S n).mem e
        have h5 : ((S n).w.step sp f (S n).mem e).1.m = (((S n).w.view sp).step f (S n).mem e').1.m := congrArg (fun x => x.1.m) h3
        show Later (S n).w.m ((S n).w.step sp f (S n).mem e).1.m
        rw [h5]
        exact Port.later f ((S n).w.view sp) (S n).mem e' (h2 (hp rfl))
      | chan k e => cases k <;> exact Later.refl _
      | tick => simp only [Clk.step]; split <;> exact Later.refl _
      | commit => simp only [Clk.step]; split <;> exact Later.refl _
  have hx : ∀ n, (S (N + n)).w.seen sp = (S (N + 0)).w.seen sp := fun n => (hN (N + n) (by omega)).trans (hN (N + 0) (by omega)).symm
  have same : ∀ n, ((S (N + n)).step sp f g (sched (N + n))).w.seen sp = (S (N + n)).w.seen sp := by
    intro n
    rw [← hsucc]
    exact (hx (n + 1)).trans (hx n).symm
  have q : ∀ n, AxiSys.Quiet (S (N + n)).w.aw (S (N + n + 1)).w.aw ∧ AxiSys.Quiet (S (N + n)).w.w (S (N + n + 1)).w.w ∧
      AxiSys.Quiet (S (N + n)).w.b (S (N + n + 1)).w.b := by
    intro n
    rw [hsucc]
    exact (hinv _).1.write_quiet _ (hs _) (same n)
  exact ⟨hsucc, hinv, hlater, N, hN, same, q⟩

/-- **C114, writes.** The same for writes: nothing is assumed about the read side. -/
theorem C114_writes_complete (evs : List (ClkEv χ ρ χ' ρ')) (sched : Nat → ClkEv χ ρ χ' ρ') :
    let S : Nat → Clk χ α β ρ χ' ρ' σ := fun n => Clk.run sp f g m0 (evs ++ (List.range n).map sched)
    (∀ n, (sched n).writes = true → (sched n).quiet = true) → ClkFairOn ClkEv.writes sp f g S sched →
    Open (Edge S sched) (fun n => (S n).w.aw) → Open (Edge S sched) (fun n => (S n).w.w) → Open (Edge S sched) (fun n => (S n).w.b) →
    (S 0).w.m.running = true →
    ∃ N, ∀ n, N ≤ n → (S n).w.m.idle = true ∧
      ∀ op ∈ (S 0).w.m.issued ++ (S 0).w.m.wrappers, (∀ r, (op, r) ∉ (S 0).w.m.results) →
        ∃ got, (op, some got) ∈ (S n).w.m.results := by
  intro S hs hf o1 o2 o3 hw0
  obtain ⟨hsucc, hinv, hlater, N, hN, same, q⟩ := writeTail sp f g m0 hl evs sched hs
  have hrw : (S N).w.m.running = true := (hlater N).run hw0
  have hx : ∀ n, (S (N + n)).w.seen sp = (S (N + 0)).w.seen sp := fun n => (hN (N + n) (by omega)).trans (hN (N + 0) (by omega)).symm
  have res : ∀ (k : Chan), (ClkEv.chan k .resume : ClkEv χ ρ χ' ρ').writes = true → ∀ n, ∃ m, n ≤ m ∧
      (S (N + m + 1) = (S (N + m)).inner k .resume ∨ (S (N + m)).inner k .resume = S (N + m)) := by
    intro k hk n
    obtain ⟨m, hm, h1⟩ := hf.shift N (.chan k .resume) hk rfl (by simp) n
    refine ⟨m, hm, ?_⟩
    rcases h1 with h1 | h1
    · left; rw [show S (N + m + 1) = _ from hsucc (N + m), show sched (N + m) = _ from h1]; rfl
    · exact .inr h1
  have s1 : NetSeq fun n => (S (N + n)).w.aw := by
    refine ⟨⟨(hinv N).1.w.aw, (hinv N).2.w.aw.live, (hinv N).2.w.aw.on hrw⟩, fun n => (q n).1, (o1.shift N).src, ?_, ?_⟩
    · intro n; obtain ⟨k, hk, h1, h2⟩ := o1.snk (N + n); obtain ⟨h3, h4⟩ := clk_edge_ticks hsucc h1
      obtain ⟨d, rfl⟩ := Nat.exists_eq_add_of_le (show N ≤ k by omega)
      exact ⟨d, by omega, (clk_all_tick _ h3).1, congrArg (fun s : Clk χ α β ρ χ' ρ' σ => s.w.aw) h4, h2⟩
    · intro n; obtain ⟨k, hk, h1⟩ := res .aw rfl n
      exact ⟨k, hk, h1.imp (congrArg (fun s : Clk χ α β ρ χ' ρ' σ => s.w.aw)) (congrArg (fun s : Clk χ α β ρ χ' ρ' σ => s.w.aw))⟩
  have s2 : NetSeq fun n => (S (N + n)).w.w := by
    refine ⟨⟨(hinv N).1.w.w, (hinv N).2.w.w.live, (hinv N).2.w.w.on hrw⟩, fun n => (q n).2.1, (o2.shift N).src, ?_, ?_⟩
    · intro n; obtain ⟨k, hk, h1, h2⟩ := o2.snk (N + n); obtain ⟨h3, h4⟩ := clk_edge_ticks hsucc h1
      obtain ⟨d, rfl⟩ := Nat.exists_eq_add_of_le (show N ≤ k by omega)
      exact ⟨d, by omega, (clk_all_tick _ h3).2.1, congrArg (fun s : Clk χ α β ρ χ' ρ' σ => s.w.w) h4, h2⟩
    · intro n; obtain ⟨k, hk, h1⟩ := res .w rfl n
      exact ⟨k, hk, h1.imp (congrArg (fun s : Clk χ α β ρ χ' ρ' σ => s.w.w)) (congrArg (fun s : Clk χ α β ρ χ' ρ' σ => s.w.w))⟩
  have s3 : NetSeq fun n => (S (N + n)).w.b := by
    refine ⟨⟨(hinv N).1.w.b, (hinv N).2.w.b.live, (hinv N).2.w.b.on hrw⟩, fun n => (q n).2.2, (o3.shift N).src, ?_, ?_⟩
    · intro n; obtain ⟨k, hk, h1, h2⟩ := o3.snk (N + n); obtain ⟨h3, h4⟩ := clk_edge_ticks hsucc h1
      obtain ⟨d, rfl⟩ := Nat.exists_eq_add_of_le (show N ≤ k by omega)
      exact ⟨d, by omega, (clk_all_tick _ h3).2.2.1, congrArg (fun s : Clk χ α β ρ χ' ρ' σ => s.w.b) h4, h2⟩
    · intro n; obtain ⟨k, hk, h1⟩ := res .b rfl n
      exact ⟨k, hk, h1.imp (congrArg (fun s : Clk χ α β ρ χ' ρ' σ => s.w.b)) (congrArg (fun s : Clk χ α β ρ χ' ρ' σ => s.w.b))⟩
  have noop : ∀ e : ClkWEv χ ρ, e.progress = true → ∀ n, ∃ k, n ≤ k ∧
      ((S (N + k)).w.step sp f (S (N + k)).mem e).1 = (S (N + k)).w := by
    intro e he n
    obtain ⟨k, hk, h1⟩ := hf.shift N (.w e) rfl he (by simp) n
    refine ⟨k, hk, ?_⟩
    rcases h1 with h1 | h1
    · refine (hinv _).1.w.still _ e he ?_
      have := same k
      rw [show sched (N + k) = _ from h1] at this
      exact this
    · exact congrArg Clk.w h1
  obtain ⟨evs', hv⟩ := clkRun_view sp f g m0 hl (evs ++ (List.range N).map sched)
  obtain ⟨nr, _⟩ := Duo.needs f g m0 evs'
  rw [← hv] at nr
  have hquiet : ∀ e : PortEv χ ρ, e.progress = true → ((S N).view sp).w.step f ((S N).view sp).mem e =
      (((S N).view sp).w, ((S N).view sp).mem) := fun e he =>
    restW (S := fun n => S (N + n)) (f := f) s1 s2 s3 hx noop (fun n => (hinv _).1.w) hrw
      (fun a b d e => nr hrw a b d (List.append_ne_nil_of_left_ne_nil e _)) (S N).mem e he
  rw [show (S N).view sp = _ from hv] at hquiet
  have hdr := (Duo.done f g m0 evs').1 hquiet
  rw [← hv] at hdr
  obtain ⟨r1, r2, r3⟩ := hdr hrw
  refine ⟨N, fun n hn => ?_⟩
  have er : (S n).w.m = (S N).w.m := congrArg (fun x => x.1.m) (hN n hn)
  rw [er]
  refine ⟨r1, fun op ho hno => ?_⟩
  have h1 := (hlater N).calls op ho
  rw [show (S N).w.m.wrappers = [] from r2, List.append_nil] at h1
  obtain ⟨r, hr⟩ := r3 op h1
  cases r with
  | none => exact absurd ((hlater N).flush op hr) (hno none)
  | some got => exact ⟨got, hr⟩

/-- **C114, reads, with pauses in some cycles.** As before, where it is known that again and again there is a whole clock cycle in which the
end is not paused. -/
theorem C114_reads_complete_cycles (evs : List (ClkEv χ ρ χ' ρ')) (sched : Nat → ClkEv χ ρ χ' ρ') :
    let S : Nat → Clk χ α β ρ χ' ρ' σ := fun n => Clk.run sp f g m0 (evs ++ (List.range n).map sched)
    (∀ n, (sched n).reads = true → (sched n).quiet = true) → ClkFairOn ClkEv.reads sp f g S sched →
    Cycles (Edge S sched) (fun n => (S n).r.ar) → Cycles (Edge S sched) (fun n => (S n).r.r) →
    (S 0).r.m.running = true →
    ∃ N, ∀ n, N ≤ n → (S n).r.m.idle = true ∧
      ∀ op ∈ (S 0).r.m.issued ++ (S 0).r.m.wrappers, (∀ r, (op, r) ∉ (S 0).r.m.results) →
        ∃ got, (op, some got) ∈ (S n).r.m.results := by
  intro S hs hf o4 o5 hr0
  obtain ⟨hsucc, hinv, hlater, N, hN, same, q⟩ := readTail sp f g m0 hl evs sched hs
  have hrr : ∀ n, (S n).r.m.running = true := fun n => (hlater n).run hr0
  have tk := fun {k : Nat} (h : Edge S sched k) => clk_edge_ticks hsucc h
  exact C114_reads_complete sp f g m0 hl evs sched hs hf
    (o4.open (N := N) (fun n => ⟨(hinv n).1.r.ar, (hinv n).2.r.ar.live, (hinv n).2.r.ar.on (hrr n)⟩) (fun n => (q n).1)
      (fun k h => ⟨(clk_all_tick _ (tk h).1).2.2.2.1, congrArg (fun s : Clk χ α β ρ χ' ρ' σ => s.r.ar) (tk h).2⟩))
    (o5.open (N := N) (fun n => ⟨(hinv n).1.r.r, (hinv n).2.r.r.live, (hinv n).2.r.r.on (hrr n)⟩) (fun n => (q n).2)
      (fun k h => ⟨(clk_all_tick _ (tk h).1).2.2.2.2, congrArg (fun s : Clk χ α β ρ χ' ρ' σ => s.r.r) (tk h).2⟩)) hr0

theorem C114_writes_complete_cycles (evs : List (ClkEv χ ρ χ' ρ')) (sched : Nat → ClkEv χ ρ χ' ρ') :
    let S : Nat → Clk χ α β ρ χ' ρ' σ := fun n => Clk.run sp f g m0 (evs ++ (List.range n).map sched)
    (∀ n, (sched n).writes = true → (sched n).quiet = true) → ClkFairOn ClkEv.writes sp f g S sched →
    Cycles (Edge S sched) (fun n => (S n).w.aw) → Cycles (Edge S sched) (fun n => (S n).w.w) →
    Cycles (Edge S sched) (fun n => (S n).w.b) → (S 0).w.m.running = true →
    ∃ N, ∀ n, N ≤ n → (S n).w.m.idle = true ∧
      ∀ op ∈ (S 0).w.m.issued ++ (S 0).w.m.wrappers, (∀ r, (op, r) ∉ (S 0).w.m.results) →
        ∃ got, (op, some got) ∈ (S n).w.m.results := by
  intro S hs hf o1 o2 o3 hw0
  obtain ⟨hsucc, hinv, hlater, N, hN, same, q⟩ := writeTail sp f g m0 hl evs sched hs
  have hrw : ∀ n, (S n).w.m.running = true := fun n => (hlater n).run hw0
  have tk := fun {k : Nat} (h : Edge S sched k) => clk_edge_ticks hsucc h
  exact C114_writes_complete sp f g m0 hl evs sched hs hf
    (o1.open (N := N) (fun n => ⟨(hinv n).1.w.aw, (hinv n).2.w.aw.live, (hinv n).2.w.aw.on (hrw n)⟩) (fun n => (q n).1)
      (fun k h => ⟨(clk_all_tick _ (tk h).1).1, congrArg (fun s : Clk χ α β ρ χ' ρ' σ => s.w.aw) (tk h).2⟩))
    (o2.open (N := N) (fun n => ⟨(hinv n).1.w.w, (hinv n).2.w.w.live, (hinv n).2.w.w.on (hrw n)⟩) (fun n => (q n).2.1)
      (fun k h => ⟨(clk_all_tick _ (tk h).1).2.1, congrArg (fun s : Clk χ α β ρ χ' ρ' σ => s.w.w) (tk h).2⟩))
    (o3.open (N := N) (fun n => ⟨(hinv n).1.w.b, (hinv n).2.w.b.live, (hinv n).2.w.b.on (hrw n)⟩) (fun n => (q n).2.2)
      (fun k h => ⟨(clk_all_tick _ (tk h).1).2.2.1, congrArg (fun s : Clk χ α β ρ χ' ρ' σ => s.w.b) (tk h).2⟩)) hw0

end

/-! ## A write access that never returns -/

/-- The schedule that lets the slave do nothing on the write side. -/
def clkHang (n : Nat) : ClkEv χ ρ χ' ρ' :=
  match clkRobin n with
  | .w .slaveW => .commit
  | e => e

theorem clkHang_eq (n : Nat) : clkHang n = (clkRobin n : ClkEv χ ρ χ' ρ') ∨ clkHang n = (.commit : ClkEv χ ρ χ' ρ') := by
  unfold clkHang
  split
  · exact .inr rfl
  · exact .inl rfl

theorem clkHang_progress (n : Nat) : (clkHang n : ClkEv χ ρ χ' ρ').progress = true := by
  rcases clkHang_eq (χ := χ) (ρ := ρ) (χ' := χ') (ρ' := ρ') n with h | h
  · rw [h]; exact clkRobin_progress n
  · rw [h]; rfl

/-- It is fair to everything else. -/
theorem clkHang_fair (Q : ClkEv χ ρ χ' ρ' → Bool) (hQ : Q (.w .slaveW) = false) (sp : Halves χ α β) (f : χ → σ → ρ × σ) (g : χ' → σ → ρ' × σ)
    (S : Nat → Clk χ α β ρ χ' ρ' σ) : ClkFairOn Q sp f g S clkHang := by
  intro e hq he hs n
  cases hn : e.never with
  | true => exact ⟨n, Nat.le_refl _, .inr (ClkEv.never_step sp f g _ e hn)⟩
  | false =>
    obtain ⟨k, hk, h⟩ := clkRobin_all e he hs hn n
    refine ⟨k, hk, .inl ?_⟩
    unfold clkHang
    split
    · rename_i h1; rw [h1] at h; rw [← h, hQ] at hq; cases hq
    · exact h

/-- Without this event the slave goes on waiting. -/
theorem held_step (sp : Halves χ α β) (f : χ → σ → ρ × σ) (g : χ' → σ → ρ' × σ) (s : Clk χ α β ρ χ' ρ' σ) (e : ClkEv χ ρ χ' ρ')
    (he : e.progress = true) (hn : e ≠ .w .slaveW) : (s.step sp f g e).w.held = s.w.held := by
  cases e with
  | w e =>
    simp only [Clk.step]
    cases e with
    | master e =>
      simp only [ClkW.step]
      rcases ClkW.master_eq s.w e with h0 | ⟨_, h0⟩ <;> rw [h0]
    | sendAW => simp only [ClkW.step, ClkW.sendAW]; split <;> rfl
    | sendW => simp only [ClkW.step, ClkW.sendW]; split <;> rfl
    | slaveAW => simp only [ClkW.step, ClkW.slaveAW]; split <;> rfl
    | slaveW => exact absurd rfl hn
    | deliver => simp only [ClkW.step, ClkW.deliver]; split <;> rfl
    | reset v => cases he
  | r e => rfl
  | chan k e => cases k <;> rfl
  | tick => simp only [Clk.step]; split <;> rfl
  | commit => simp only [Clk.step]; split <;> rfl

/-- Everything in four cycles except what the slave does with a W transaction. -/
def exNoSlave : List RamClkEv := (exCycles 4).filter fun e => match e with | .w .slaveW => false | _ => true

/-- The slave has received the W transaction of the first write and waits for the target; a read is called. -/
def exHang : List RamClkEv :=
  [.w (.reset false), .r (.reset false), .w (.master (.write exW0))] ++ exNoSlave ++ [.w .slaveW, .r (.master (.init exR0))]

/-- The system after that and then `evs`. -/
abbrev exHung (evs : List RamClkEv) : RamClk :=
  Clk.run xferHalves (Word.slaveWrite ramTarget exC.lanes true) (Word.slaveRead ramTarget exC.lanes) exM (exHang ++ evs)

theorem exHung_state :
    (exHung []).r.m.running = true ∧ (exHung []).w.held = some (0x02010000, 0xc) ∧ (exHung []).w.m.issued = [exW0] ∧
      (exHung []).r.m.issued = [] ∧ (exHung []).r.m.results = [] ∧ (exHung []).r.m.wrappers = [exR0] := by
  decide +kernel

theorem exHung_unpaused : Unpaused (exHung []) :=
  ⟨⟨by decide +kernel, by decide +kernel⟩, ⟨by decide +kernel, by decide +kernel⟩, ⟨by decide +kernel, by decide +kernel⟩,
    ⟨by decide +kernel, by decide +kernel⟩, ⟨by decide +kernel, by decide +kernel⟩⟩

/-- The write access never returns, and the read completes. -/
example : (∀ n, (exHung ((List.range n).map clkHang)).w.held = some (0x02010000, 0xc)) ∧
    ∃ N, ∀ n, N ≤ n → ∃ got, (exR0, some got) ∈ (exHung ((List.range n).map clkHang)).r.m.results := by
  obtain ⟨h1, h2, h3, h4, h5, h6⟩ := exHung_state
  have h0 : (List.range 0).map (clkHang : Nat → RamClkEv) = [] := by simp
  have hsucc : ∀ n, exHung ((List.range (n + 1)).map clkHang) = (exHung ((List.range n).map clkHang)).step xferHalves
      (Word.slaveWrite ramTarget exC.lanes true) (Word.slaveRead ramTarget exC.lanes) (clkHang n) := by
    intro n
    rw [exHung, List.range_succ, List.map_append, ← List.append_assoc]
    exact Clk.run_append _ _ _ _ _ _
  have hne : ∀ n, (clkHang n : RamClkEv) ≠ .w .slaveW := by
    intro n h
    unfold clkHang at h
    split at h
    · cases h
    · rename_i h1; exact h1 h
  constructor
  · intro n
    induction n with
    | zero => rw [h0]; exact h2
    | succ n ih => rw [hsucc, held_step _ _ _ _ _ (clkHang_progress n) (hne n)]; exact ih
  · have hup : ∀ n, Unpaused (exHung ((List.range n).map clkHang)) := by
      intro n
      induction n with
      | zero => rw [h0]; exact exHung_unpaused
      | succ n ih => rw [hsucc]; exact ih.step _ (clkHang_progress n)
    have he := clkEdges xferHalves (Word.slaveWrite ramTarget exC.lanes true) (Word.slaveRead ramTarget exC.lanes) exM xferHalves_join
      exHang clkHang (fun n => ClkEv.quiet_of (clkHang_progress n)) (clkHang_fair _ rfl _ _ _ _) (fun _ _ => ⟨0, fun k _ => clkHang_progress k⟩)
    have cyc : ∀ P : Nat → Prop, (∀ m, P m) → ∀ n, ∃ i j, n ≤ i ∧ i < j ∧ Edge (fun n => exHung ((List.range n).map clkHang)) clkHang i ∧
        Edge (fun n => exHung ((List.range n).map clkHang)) clkHang j ∧ ∀ m, i < m → m ≤ j → P m := by
      intro P hP n
      obtain ⟨i, h1, h2⟩ := he n
      obtain ⟨j, h3, h4⟩ := he (i + 1)
      exact ⟨i, j, h1, by omega, h2, h4, fun m _ _ => hP m⟩
    have := C114_reads_complete_cycles xferHalves (Word.slaveWrite ramTarget exC.lanes true) (Word.slaveRead ramTarget exC.lanes) exM
      xferHalves_join exHang clkHang (fun n _ => ClkEv.quiet_of (clkHang_progress n)) (clkHang_fair _ rfl _ _ _ _)
      ⟨cyc _ fun m => (hup m).ar.1, cyc _ fun m => (hup m).ar.2⟩ ⟨cyc _ fun m => (hup m).r.1, cyc _ fun m => (hup m).r.2⟩
      (by simp only [h0]; exact h1)
    simp only [h0, h4, h5, h6] at this
    obtain ⟨N, hN⟩ := this
    exact ⟨N, fun n hn => (hN n hn).2 exR0 (by simp) (by simp)⟩

end Verif.LiteOps
