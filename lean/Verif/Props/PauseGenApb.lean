import Verif.Proof.PauseGenApb
import Verif.Props.ApbClock
import Verif.Props.PauseGenBus

/-!
# C100 and C101 for APB: pause generators of a master and a slave

`GSys.run [false, true] b s evs` is the state after an arbitrary history `evs` of an APB master connected to a slave; `false` is the master, `true` the slave. A
history is a sequence of calls (of the operations, of the `pause` setters and of `set_pause_generator`), pieces of coroutines, resets, signal writes taking effect
and clock edges, in any order that the simulator allows.
-/

namespace Verif.PauseGen

open Verif.Apb (CSys CEv Access Sys CFair Unheld serial)

section

variable {σ : Type} (slverr : Bool) (f : Access σ) (st : σ)

theorem apb_setters : OnlySetters (apbBase slverr f) := fun k e he s => apb_keeps k e he s

/-- **C100, APB.** After `set_pause_generator(generator)` at the master or the slave, in any state, and until `pause` or the generator there are set anew, `pause`
has at every clock edge the next value of the generator; when the generator has ended, the last value remains. -/
theorem C100_apb (evs later : List (GEv Bool CEv)) (k : Bool) (vals : Nat → Option Bool) (e : GEv Bool CEv) :
    let b := apbBase slverr f
    let before := GSys.run [false, true] b { y := Sys.start st } evs
    let after := GSys.run [false, true] b { y := Sys.start st } (evs ++ .setGen k (some vals) :: later)
    (∀ x ∈ later, x.leaves b k) → after.edge [false, true] b e = true →
    b.pause after.s k = level vals (b.pause before.s k)
      (edgesIn [false, true] b (before.step [false, true] b (.setGen k (some vals))) later + 1) := by
  intro b before after hlt he
  have ha : after = _ := run_append (ends := [false, true]) (b := b) { y := Sys.start st } evs later _
  rw [ha] at he ⊢
  exact follows_gen apb_laws (apb_setters slverr f) before k vals later hlt e he

/-- **C100, APB, `clear_pause_generator`.** `pause` stays as it is. -/
theorem C100_apb_cleared (evs later : List (GEv Bool CEv)) (k : Bool) :
    let b := apbBase slverr f
    (∀ x ∈ later, x.leaves b k) →
    b.pause (GSys.run [false, true] b { y := Sys.start st } (evs ++ .setGen k none :: later)).s k =
      b.pause (GSys.run [false, true] b { y := Sys.start st } evs).s k := by
  intro b hlt
  rw [run_append]
  exact keeps_cleared apb_laws (apb_setters slverr f) _ k later hlt

/-! ## C101 -/

theorem apb_plays {e : GEv Bool CEv} (he : e.plays apbPiece) (k : Bool) : e.keeps (apbBase slverr f) k := by
  cases e with
  | ev e =>
    refine apb_keeps k e fun v hv => ?_
    cases k
    · exact he.2.1 v hv
    · exact he.2.2 v hv
  | gen j => trivial
  | setGen j v => exact he.elim

/-- The system without the generators, under the schedule that has the same effect on it. -/
theorem apb_alone (evs : List (GEv Bool CEv)) (sched : Nat → GEv Bool CEv) (hs : ∀ n, (sched n).plays apbPiece) :
    let b := apbBase slverr f
    let G : Nat → GSys Bool (CSys σ) := fun n => GSys.run [false, true] b { y := Sys.start st } (evs ++ (List.range n).map sched)
    Fair [false, true] b (fun e => e.progress = true) G sched →
    TurnReleased (fun n => (G n).s.mdue) (fun n => (G n).due false) ((G 0).levels b false) →
    TurnReleased (fun n => (G n).s.sdue) (fun n => (G n).due true) ((G 0).levels b true) →
    (G 0).s.y.m.pc ≠ .stopped →
    ∃ (evs' : List CEv) (sched' : Nat → CEv),
      (∀ n, CSys.exec slverr f st (evs' ++ (List.range n).map sched') = (G n).s) ∧
      (∀ n v, sched' n ≠ .reset v) ∧ CFair slverr f (fun n => (G n).s) sched' ∧ Unheld (fun n => (G n).s) sched' ∧
      ((∀ n op, sched n ≠ .ev (.call op) ∧ sched n ≠ .ev (.init op)) → ∀ n op, sched' n ≠ .call op ∧ sched' n ≠ .init op) := by
  intro b G hf hm hsl h0
  have hlaws : Laws [false, true] b (apbIdle (σ := σ)) := apb_laws
  have hsucc : ∀ n, G (n + 1) = (G n).step [false, true] b (sched n) := by
    intro n
    simp only [G, GSys.run]
    rw [List.range_succ, List.map_append, ← List.append_assoc, List.foldl_append]
    rfl
  have hgr : GRun [false, true] b apbIdle (fun e => e.progress = true) G sched :=
    ⟨hlaws, Sane.run _ _, hsucc, fun n k => apb_plays slverr f (hs n) k, hf⟩
  let sched' : Nat → CEv := fun n => proj [false, true] b apbIdle (G n) (sched n)
  let evs' := projs [false, true] b apbIdle { s := { y := Sys.start st } } evs
  have hGS : ∀ n, CSys.exec slverr f st (evs' ++ (List.range n).map sched') = (G n).s := by
    intro n
    induction n with
    | zero =>
      simp only [G, List.range_zero, List.map_nil, List.append_nil]
      exact (projs_run hlaws { s := { y := Sys.start st } } evs).symm
    | succ n ih =>
      rw [List.range_succ, List.map_append, ← List.append_assoc]
      have : CSys.exec slverr f st ((evs' ++ (List.range n).map sched') ++ [sched' n]) =
          (CSys.exec slverr f st (evs' ++ (List.range n).map sched')).step slverr f (sched' n) := by
        simp only [CSys.exec, List.foldl_append, List.foldl_cons, List.foldl_nil]
      rw [List.map_singleton, this, ih, hsucc]
      exact (proj_step hlaws (G n) (sched n)).symm
  have ht1 : ∀ e e', b.isTick e = true → b.isTick e' = true → e = e' := by
    intro e e' h1 h2
    cases e <;> simp only [b, apbBase, Bool.false_eq_true] at h1
    cases e' <;> simp only [b, apbBase, Bool.false_eq_true] at h2
    rfl
  have hfair : CFair slverr f (fun n => (G n).s) sched' := fun e he n => hgr.fairly ht1 e he n
  -- what the projection is
  have hproj : ∀ n, (∃ e, sched n = .ev e ∧ sched' n = e ∧ (b.isTick e = true → (G n).anyDue [false, true] = false)) ∨
      (∃ v, sched' n = .mpause v) ∨ ∃ v, sched' n = .spause v := by
    intro n
    have hid : (∃ v, (apbIdle (G n).s : CEv) = .mpause v) := ⟨_, rfl⟩
    cases he : sched n with
    | ev e =>
      simp only [sched', he, proj]
      split
      · exact .inr (.inl hid)
      · rename_i hn
        refine .inl ⟨e, rfl, rfl, fun h1 => ?_⟩
        rw [h1, Bool.true_and] at hn
        simpa using hn
    | gen j =>
      simp only [sched', he, proj]
      split
      · split
        · split
          · cases j
            · exact .inr (.inl ⟨_, rfl⟩)
            · exact .inr (.inr ⟨_, rfl⟩)
          · exact .inr (.inl hid)
        · exact .inr (.inl hid)
      · exact .inr (.inl hid)
    | setGen j v =>
      have := hs n
      rw [he] at this
      exact this.elim
  have hr : ∀ n v, sched' n ≠ .reset v := by
    intro n v hv
    rcases hproj n with ⟨e, h1, h2, _⟩ | ⟨w, h1⟩ | ⟨w, h1⟩
    · have := hs n
      rw [h1] at this
      exact this.1 v (h2 ▸ hv)
    · rw [h1] at hv; cases hv
    · rw [h1] at hv; cases hv
  have hstep : ∀ n, (G (n + 1)).s = (G n).s.step slverr f (sched' n) := by
    intro n
    rw [hsucc]
    exact proj_step hlaws (G n) (sched n)
  have R : CSys.Run slverr f st (fun n => (G n).s) sched' := by
    have := Apb.run_of slverr f st evs' sched' hr (by simp only [hGS]; exact hfair) (by
      have := hGS 0
      simp only [List.range_zero, List.map_nil, List.append_nil] at this
      rw [this]; exact h0)
    simp only [hGS] at this
    exact this
  have hE : ∀ k, sched' k = .tick → (G k).s.ticks = true → Edge [false, true] b G sched k := by
    intro k h1 h2
    rcases hproj k with ⟨e, h3, h4, h5⟩ | ⟨w, h3⟩ | ⟨w, h3⟩
    · rw [h4] at h1
      subst h1
      exact ⟨.tick, h3, rfl, h2, h5 rfl⟩
    · rw [h1] at h3; cases h3
    · rw [h1] at h3; cases h3
  have hinf : ∀ n, ∃ k, n ≤ k ∧ Edge [false, true] b G sched k := by
    intro n
    obtain ⟨k, hk, h1, h2⟩ := R.edges n
    exact ⟨k, hk, hE k h1 h2⟩
  have hedge : ∀ i, Edge [false, true] b G sched i → (G i).s.mdue = false ∧ (G i).s.sdue = false ∧
      (G (i + 1)).s.mdue = (G i).s.y.m.pc.awaits ∧ (G (i + 1)).s.sdue = (G i).s.y.s.pc.awaits := by
    rintro i ⟨e, h1, h2, h3, h4⟩
    have he : e = .tick := ht1 _ _ h2 rfl
    subst he
    have h3' : ((G i).s.settled && !(G i).s.mdue && !(G i).s.sdue) = true := h3
    have h5 := h3'
    simp only [Bool.and_eq_true, Bool.not_eq_true'] at h5
    have h6 : sched' i = .tick := by
      simp only [sched', h1, proj, h4, Bool.and_false, Bool.false_eq_true, if_false]
    rw [hstep, h6]
    simp only [CSys.step]
    rw [if_pos h3']
    exact ⟨h5.1.2, h5.2, rfl, rfl⟩
  have mheld : ∀ pc : Apb.MPc, pc.held = true → pc.awaits = true := by
    intro pc h
    cases pc <;> first | rfl | cases h
  have sheld : ∀ pc : Apb.SPc, pc.held = true → pc.awaits = true := by
    intro pc h
    cases pc <;> first | rfl | cases h
  refine ⟨evs', sched', hGS, hr, hfair, ⟨fun n => ?_, fun n => ?_⟩, fun hc n op => ?_⟩
  · obtain ⟨k, hk, h⟩ := turn_frees (w := fun n => (G n).s.y.m.pc.held) (hgr.drives false)
      (fun i hi => ⟨(hedge i hi).1, fun hw => by rw [(hedge i hi).2.2.1]; exact mheld _ hw⟩)
      (fun n => ⟨_, fun q hq => hgr.cycle hinf false n q hq⟩) hm n
    refine ⟨k, hk, h.imp id fun ⟨h1, h2, h3⟩ => ⟨?_, h1, h3⟩⟩
    rw [hstep] at h2
    exact (apb_turns (G k).s (sched' k)).1 h1 h2
  · obtain ⟨k, hk, h⟩ := turn_frees (w := fun n => (G n).s.y.s.pc.held) (hgr.drives true)
      (fun i hi => ⟨(hedge i hi).2.1, fun hw => by rw [(hedge i hi).2.2.2]; exact sheld _ hw⟩)
      (fun n => ⟨_, fun q hq => hgr.cycle hinf true n q hq⟩) hsl n
    refine ⟨k, hk, h.imp id fun ⟨h1, h2, h3⟩ => ⟨?_, h1, h3⟩⟩
    rw [hstep] at h2
    exact (apb_turns (G k).s (sched' k)).2 h1 h2
  · rcases hproj n with ⟨e, h1, h2, _⟩ | ⟨w, h1⟩ | ⟨w, h1⟩
    · rw [h2]
      have := hc n op
      rw [h1] at this
      exact ⟨fun h => this.1 (by rw [h]), fun h => this.2 (by rw [h])⟩
    · rw [h1]; exact ⟨by simp, by simp⟩
    · rw [h1]; exact ⟨by simp, by simp⟩

/-- **C101, APB.** After any history `evs` at whose end the reset is deasserted, with pause generators at the master and the slave, let things go on for ever
(`sched`): without reset and without assignments to `pause`, but with any further calls, in any fair order. If the generators release both sides again and
again (`TurnReleased`), then every operation called, also with `init_read()`/`init_write()`, at whatever instant, completes with a result. -/
theorem C101_apb_completes (evs : List (GEv Bool CEv)) (sched : Nat → GEv Bool CEv) :
    let b := apbBase slverr f
    let G : Nat → GSys Bool (CSys σ) := fun n => GSys.run [false, true] b { y := Sys.start st } (evs ++ (List.range n).map sched)
    (∀ n, (sched n).plays apbPiece) → Fair [false, true] b (fun e => e.progress = true) G sched →
    TurnReleased (fun n => (G n).s.mdue) (fun n => (G n).due false) ((G 0).levels b false) →
    TurnReleased (fun n => (G n).s.sdue) (fun n => (G n).due true) ((G 0).levels b true) →
    (G 0).s.y.m.pc ≠ .stopped →
    ∀ n, ∀ op ∈ (G n).s.y.m.epoch ++ (G n).s.y.m.wrappers, ∃ N, ∀ k, N ≤ k →
      ∃ rs, (op, rs) ∈ (G k).s.y.m.done ∧ (op, some rs) ∈ (G k).s.y.m.results ∧ rs.length = op.xs.length := by
  intro b G hs hf hm hsl h0
  obtain ⟨evs', sched', h1, h2, h3, h4, _⟩ := apb_alone slverr f st evs sched hs hf hm hsl h0
  have := Apb.C121_each slverr f st evs' sched'
  simp only [h1] at this
  exact this h2 h3 h4 h0

/-- **C101, APB, idle.** If there are no further calls, then from some instant on the master is idle, all operations called have completed, and the target is in the
state that the operations, executed one after the other, lead to. -/
theorem C101_apb_idle (evs : List (GEv Bool CEv)) (sched : Nat → GEv Bool CEv) :
    let b := apbBase slverr f
    let G : Nat → GSys Bool (CSys σ) := fun n => GSys.run [false, true] b { y := Sys.start st } (evs ++ (List.range n).map sched)
    (∀ n, (sched n).plays apbPiece) → Fair [false, true] b (fun e => e.progress = true) G sched →
    TurnReleased (fun n => (G n).s.mdue) (fun n => (G n).due false) ((G 0).levels b false) →
    TurnReleased (fun n => (G n).s.sdue) (fun n => (G n).due true) ((G 0).levels b true) →
    (G 0).s.y.m.pc ≠ .stopped →
    (∀ n op, sched n ≠ .ev (.call op) ∧ sched n ≠ .ev (.init op)) →
    ∃ N, ∀ k, N ≤ k → (G k).s.y.m.wrappers = [] ∧ (G k).s.y.m.idle = true ∧
      (G k).s.y.m.done.length = (G 0).s.y.m.epoch.length + (G 0).s.y.m.wrappers.length ∧
      serial slverr f (G k).s.y.m.epoch (G k).s.y.base = ((G k).s.y.m.done, ((G k).s.y.s.mem, (G k).s.y.s.prdata)) := by
  intro b G hs hf hm hsl h0 hc
  obtain ⟨evs', sched', h1, h2, h3, h4, h5⟩ := apb_alone slverr f st evs sched hs hf hm hsl h0
  have := Apb.C121_idle slverr f st evs' sched'
  simp only [h1] at this
  exact this h2 h3 h4 h0 (h5 hc)

end

/-! ## A fair schedule, and an example -/

/-- What goes on by itself; the wrappers of `init_read()`/`init_write()` begin in any order. -/
def apbRobin (n : Nat) : CEv :=
  match n % 7 with
  | 0 => .commit
  | 1 => .tick
  | 2 => .srun
  | 3 => .back
  | 4 => .mrun
  | 5 => .resume
  | _ => .runInit (n / 7 - 2 ^ (n / 7).log2)

theorem apbRobin_all (e : CEv) (he : e.progress = true) (n : Nat) : ∃ k, n ≤ k ∧ apbRobin k = e := by
  have pick : ∀ j, j < 7 → (∀ k, k % 7 = j → apbRobin k = e) → ∃ k, n ≤ k ∧ apbRobin k = e :=
    fun j hj h => ⟨7 * n + j, by omega, h _ (by omega)⟩
  cases e with
  | commit => exact pick 0 (by omega) fun k hk => by simp [apbRobin, hk]
  | tick => exact pick 1 (by omega) fun k hk => by simp [apbRobin, hk]
  | srun => exact pick 2 (by omega) fun k hk => by simp [apbRobin, hk]
  | back => exact pick 3 (by omega) fun k hk => by simp [apbRobin, hk]
  | mrun => exact pick 4 (by omega) fun k hk => by simp [apbRobin, hk]
  | resume => exact pick 5 (by omega) fun k hk => by simp [apbRobin, hk]
  | runInit i =>
    have hm : i < 2 ^ (n + i) := Nat.lt_of_lt_of_le Nat.lt_two_pow_self (Nat.pow_le_pow_right (by omega) (by omega))
    have hn : n < 2 ^ (n + i) := Nat.lt_of_lt_of_le Nat.lt_two_pow_self (Nat.pow_le_pow_right (by omega) (by omega))
    have hlog : (2 ^ (n + i) + i).log2 = n + i := by
      rw [Nat.log2_eq_iff (by omega)]
      exact ⟨by omega, by rw [Nat.pow_succ]; omega⟩
    refine ⟨7 * (2 ^ (n + i) + i) + 6, by omega, ?_⟩
    have h1 : (7 * (2 ^ (n + i) + i) + 6) % 7 = 6 := by omega
    have h2 : (7 * (2 ^ (n + i) + i) + 6) / 7 = 2 ^ (n + i) + i := by omega
    simp only [apbRobin, h1, h2, hlog]
    congr 1
    omega
  | _ => cases he

/-- The generators have their turns in between. -/
def apbMix (n : Nat) : GEv Bool CEv :=
  match n % 3 with
  | 0 => .ev (apbRobin (n / 3))
  | 1 => .gen false
  | _ => .gen true

/-- A write is under way, a read is queued, another write has been called with `init_write()`; then generators are set at both sides, and the slave is even paused
at the moment. -/
def exApbHist : List (GEv Bool CEv) :=
  Apb.exBegin.map .ev ++ [.ev (.spause true), .setGen false (some cyc3), .setGen true (some cyc3)]

def exApb (n : Nat) : GSys Bool (CSys Nat) :=
  GSys.run [false, true] (apbBase true Apb.register) { y := Sys.start 3 } (exApbHist ++ (List.range n).map apbMix)

theorem exApb_gens : (exApb 0).gen false = some { vals := cyc3 } ∧ (exApb 0).gen true = some { vals := cyc3 } := by
  have h0 : exApb 0 = ((GSys.run [false, true] (apbBase true Apb.register) { y := Sys.start 3 }
      (Apb.exBegin.map .ev ++ [.ev (.spause true)])).put false (some { vals := cyc3 })).put true (some { vals := cyc3 }) := by
    rw [show exApb 0 = GSys.run [false, true] (apbBase true Apb.register) { y := Sys.start 3 }
      ((Apb.exBegin.map .ev ++ [.ev (.spause true)]) ++ [.setGen false (some cyc3), .setGen true (some cyc3)]) by
        simp [exApb, exApbHist], run_append]
    rfl
  rw [h0]
  exact ⟨rfl, rfl⟩

theorem exApb_state : (exApb 0).s.y.m.pc ≠ .stopped ∧ (exApb 0).s.y.m.epoch.length + (exApb 0).s.y.m.wrappers.length = 3 ∧
    (exApb 0).s.y.m.done = [] ∧ (exApb 0).s.spause = true := by decide +kernel

/-- All three operations complete. -/
example : ∃ N, ∀ k, N ≤ k → (exApb k).s.y.m.idle = true ∧ (exApb k).s.y.m.done.length = 3 := by
  obtain ⟨h1, h2, _⟩ := exApb_state
  have hfair : Fair [false, true] (apbBase true Apb.register) (fun e => e.progress = true) exApb apbMix := by
    refine ⟨fun e he n => ?_, fun j n => ?_⟩
    · obtain ⟨k, hk, h⟩ := apbRobin_all e he n
      refine ⟨3 * k, by omega, .inl ?_⟩
      have a : 3 * k % 3 = 0 := by omega
      have c : 3 * k / 3 = k := by omega
      simp only [apbMix, a, c, h]
    · cases j
      · refine ⟨3 * n + 1, by omega, .inl ?_⟩
        have a : (3 * n + 1) % 3 = 1 := by omega
        simp only [apbMix, a]
      · refine ⟨3 * n + 2, by omega, .inl ?_⟩
        have a : (3 * n + 2) % 3 = 2 := by omega
        simp only [apbMix, a]
  have hev : ∀ n, (∀ v, apbRobin n ≠ .reset v) ∧ (∀ v, apbRobin n ≠ .mpause v) ∧ (∀ v, apbRobin n ≠ .spause v) ∧
      ∀ op, apbRobin n ≠ .call op ∧ apbRobin n ≠ .init op := by
    intro n
    unfold apbRobin
    split <;> simp
  obtain ⟨N, hN⟩ := C101_apb_idle true Apb.register 3 exApbHist apbMix
    (by
      intro n
      unfold apbMix
      split
      · exact ⟨(hev _).1, (hev _).2.1, (hev _).2.2.1⟩
      · trivial
      · trivial)
    hfair (.inl (frees_cyc3 exApb_gens.1)) (.inl (frees_cyc3 exApb_gens.2)) h1
    (by
      intro n op
      unfold apbMix
      split
      · have := (hev (n / 3)).2.2.2 op
        simp [this]
      · simp
      · simp)
  refine ⟨N, fun k hk => ⟨(hN k hk).2.1, ?_⟩⟩
  rw [show (exApb k).s.y.m.done.length = _ from (hN k hk).2.2.1]
  exact h2

/-- The hypotheses of `C100_apb`: the generator `[True, False, True]` at the slave; at the third clock edge its third value. -/
example :
    let b := apbBase true Apb.register
    let cycle : List (GEv Bool CEv) := [.gen true, .ev .mrun, .ev .srun, .ev .back, .ev .commit, .ev .tick]
    let later := cycle ++ [.gen true, .ev .srun, .ev (.call Apb.opW), .ev .mrun, .ev .commit, .ev .tick] ++
      [.gen true, .ev .mrun, .ev .srun, .ev .back, .ev .commit]
    let after := GSys.run [false, true] b { y := Sys.start 3 } ([.ev (.reset false)] ++ .setGen true (some exVals) :: later)
    (∀ x ∈ later, x.leaves b true) ∧ after.edge [false, true] b (.ev .tick) = true ∧
    edgesIn [false, true] b ((GSys.run [false, true] b { y := Sys.start 3 } [.ev (.reset false)]).step [false, true] b
      (.setGen true (some exVals))) later = 2 ∧
    b.pause after.s true = true ∧ level exVals false 2 = false := by
  refine ⟨?_, by decide +kernel, by decide +kernel, by decide +kernel, by decide +kernel⟩
  intro x hx
  simp only [List.cons_append, List.nil_append, List.mem_cons, List.not_mem_nil, or_false] at hx
  rcases hx with rfl | rfl | rfl | rfl | rfl | rfl | rfl | rfl | rfl | rfl | rfl | rfl | rfl | rfl | rfl | rfl | rfl <;>
    simp [GEv.leaves, apbBase]

end Verif.PauseGen
