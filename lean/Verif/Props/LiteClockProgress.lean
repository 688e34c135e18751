import Verif.Proof.LiteClockRest
import Verif.Props.AxiClockProgress
import Verif.Props.LiteClock
import Verif.Props.LiteProgress

/-!
# C99: operations of an AXI-lite master connected to a slave complete, at clock-edge granularity

`Clk.run sp f g m0 evs` is a master and a slave (or RAM) connected by five channels with `valid`/`ready` handshakes and bounded queues,
after an arbitrary history `evs`. In C97 the channels were FIFOs that always have room and whose transactions can always be received.
Here a coroutine waits in `send()` while the queue of the source is full, a transaction takes clock edges to get to the queue of the
sink, and coroutines sleep until they are woken: could they all wait for one another?
-/

namespace Verif.LiteOps

open Verif.AxiSys (chanCfg Inner Chan blocked avail content resetNet startNet canTick canCommit ChanInv ChanFine NetSeq Here Phase Open
  Cycles stabilises blocked_content calm_rest commit_step)
open Verif.Stream (Net NetEv)

variable {χ α β ρ χ' ρ' σ : Type}

section

variable (sp : Halves χ α β) (f : χ → σ → ρ × σ) (g : χ' → σ → ρ' × σ) (m0 : σ) (hl : ∀ x, sp.join (sp.aw x) (sp.w x) = x)

include hl

theorem clkRun_inv (evs : List (ClkEv χ ρ χ' ρ')) : ClkInv sp (Clk.run sp f g m0 evs) ∧ ClkFine (Clk.run sp f g m0 evs) := by
  suffices h : ∀ (evs : List (ClkEv χ ρ χ' ρ')) (s : Clk χ α β ρ χ' ρ' σ), ClkInv sp s → ClkFine s →
      ClkInv sp (evs.foldl (Clk.step sp f g) s) ∧ ClkFine (evs.foldl (Clk.step sp f g) s) from
    h evs _ (.init sp m0) (.init m0)
  intro evs
  induction evs with
  | nil => exact fun s h1 h2 => ⟨h1, h2⟩
  | cons e evs ih => exact fun s h1 h2 => ih _ (h1.step hl e).1 (h2.step e)

theorem clkRun_view (evs : List (ClkEv χ ρ χ' ρ')) :
    ∃ evs', (Clk.run sp f g m0 evs).view sp = Duo.run f g { mem := m0 } evs' := by
  obtain ⟨evs', hl, he⟩ := C98_refines sp f g m0 hl evs
  refine ⟨evs', ?_⟩
  have := he evs.length
  rw [List.take_length, ← hl, List.take_length] at this
  exact this

end

/-- The part of a fair schedule in which only the channels do anything. -/
structure ClkTail (sp : Halves χ α β) (f : χ → σ → ρ × σ) (g : χ' → σ → ρ' × σ) 
    (S : Nat → Clk χ α β ρ χ' ρ' σ) (sched : Nat → ClkEv χ ρ χ' ρ') : Prop where
  succ : ∀ n, S (n + 1) = (S n).step sp f g (sched n)
  prog : ∀ n, (sched n).quiet = true
  inv : ∀ n, ClkInv sp (S n)
  view : ∀ n, (S n).xview sp = (S 0).xview sp

section

variable {sp : Halves χ α β} {f : χ → σ → ρ × σ} {g : χ' → σ → ρ' × σ} {S : Nat → Clk χ α β ρ χ' ρ' σ} {sched : Nat → ClkEv χ ρ χ' ρ'}

theorem ClkTail.same (h : ClkTail sp f g S sched) (n : Nat) : ((S n).step sp f g (sched n)).xview sp = (S n).xview sp := by
  rw [← h.succ, h.view, h.view n]

theorem ClkTail.shift (h : ClkTail sp f g S sched) (m : Nat) : ClkTail sp f g (fun n => S (m + n)) (fun n => sched (m + n)) := by
  exact ⟨fun n => h.succ _, fun n => h.prog _, fun n => h.inv _, fun n => (h.view _).trans (h.view _).symm⟩

theorem ClkFairOn.shift {Q : ClkEv χ ρ χ' ρ' → Bool} (h : ClkFairOn Q sp f g S sched) (m : Nat) :
    ClkFairOn Q sp f g (fun n => S (m + n)) (fun n => sched (m + n)) := by
  intro e hq he hs n
  obtain ⟨k, hk, h1⟩ := h e hq he hs (m + n)
  obtain ⟨d, rfl⟩ := Nat.exists_eq_add_of_le (show m ≤ k by omega)
  exact ⟨d, by omega, h1⟩

theorem ClkFair.on (h : ClkFair sp f g S sched) (Q : ClkEv χ ρ χ' ρ' → Bool) : ClkFairOn Q sp f g S sched := fun e _ => h e

theorem ClkFair.shift (h : ClkFair sp f g S sched) (m : Nat) : ClkFair sp f g (fun n => S (m + n)) (fun n => sched (m + n)) :=
  fun e => (h.on fun _ => true).shift m e rfl

theorem clk_tick_ne {s : Clk χ α β ρ χ' ρ' σ} (h : LiteOps.ticks s = true) : s.all .tick ≠ s := by
  intro hh
  have h1 := congrArg (fun s : Clk χ α β ρ χ' ρ' σ => s.w.aw.settled) hh
  simp only [LiteOps.ticks, Bool.and_eq_true] at h
  have h2 := h.1.1.1.1
  simp only [Clk.all, Net.step] at h1
  rw [if_pos (by exact h2)] at h1
  simp only [canTick, Bool.and_eq_true] at h2
  rw [h2.1.1] at h1
  cases h1

/-- The clock does not stop while nobody changes `pause`. -/
theorem ClkTail.ticks (h : ClkTail sp f g S sched) (hf : ClkFairOn ClkEv.clocked sp f g S sched) (hp : ∀ n, (sched n).progress = true)
    (n0 : Nat) : ∃ k, n0 ≤ k ∧ Edge S sched k := by
  refine Classical.byContradiction fun hno => ?_
  have hno' : ∀ k, n0 ≤ k → sched k = .tick → LiteOps.ticks (S k) = true → S (k + 1) ≠ (S k).all .tick :=
    fun k hk h0 h1 h2 => hno ⟨k, hk, h0, by rw [h2]; exact clk_tick_ne h1⟩
  obtain ⟨N, hN⟩ := stabilises (fun n => S (n0 + n)) calms (fun n => by
    show S (n0 + (n + 1)) = S (n0 + n) ∨ calms (S (n0 + (n + 1))) < calms (S (n0 + n))
    rw [← Nat.add_assoc, h.succ]
    rcases (h.inv (n0 + n)).calms _ (hp _) (h.same _) with h1 | ⟨h1, h2, h3⟩ | h1
    · exact .inl h1
    · exact absurd ((h.succ _).trans h3) (hno' _ (by omega) h1 h2)
    · exact .inr h1)
  have hN' : ∀ k, n0 + N ≤ k → S k = S (n0 + N) := by
    intro k hk
    have := hN (k - n0) (by omega)
    have e : n0 + (k - n0) = k := by omega
    rw [e] at this
    exact this
  have noop : ∀ e : ClkEv χ ρ χ' ρ', e.clocked = true → e.progress = true → (∀ k, e ≠ .chan k .snkSpurious) →
      (S (n0 + N)).step sp f g e = S (n0 + N) := by
    intro e hq he hs
    obtain ⟨k, hk, h1⟩ := hf e hq he hs (n0 + N)
    rcases h1 with h1 | h1
    · have := h.succ k
      rw [h1, hN' k hk, hN' (k + 1) (by omega)] at this
      exact this.symm
    · rwa [hN' k hk] at h1
  generalize hs : S (n0 + N) = s at noop
  have c1 : canCommit s.w.aw = true :=
    calm_rest (congrArg (fun s : Clk χ α β ρ χ' ρ' σ => s.w.aw) (noop (.chan .aw .srcRun) rfl rfl (by simp)))
      (congrArg (fun s : Clk χ α β ρ χ' ρ' σ => s.w.aw) (noop (.chan .aw .srcWake) rfl rfl (by simp)))
      (congrArg (fun s : Clk χ α β ρ χ' ρ' σ => s.w.aw) (noop (.chan .aw .snkRun) rfl rfl (by simp)))
      (congrArg (fun s : Clk χ α β ρ χ' ρ' σ => s.w.aw) (noop (.chan .aw .snkWake) rfl rfl (by simp)))
  have c2 : canCommit s.w.w = true :=
    calm_rest (congrArg (fun s : Clk χ α β ρ χ' ρ' σ => s.w.w) (noop (.chan .w .srcRun) rfl rfl (by simp)))
      (congrArg (fun s : Clk χ α β ρ χ' ρ' σ => s.w.w) (noop (.chan .w .srcWake) rfl rfl (by simp)))
      (congrArg (fun s : Clk χ α β ρ χ' ρ' σ => s.w.w) (noop (.chan .w .snkRun) rfl rfl (by simp)))
      (congrArg (fun s : Clk χ α β ρ χ' ρ' σ => s.w.w) (noop (.chan .w .snkWake) rfl rfl (by simp)))
  have c3 : canCommit s.w.b = true :=
    calm_rest (congrArg (fun s : Clk χ α β ρ χ' ρ' σ => s.w.b) (noop (.chan .b .srcRun) rfl rfl (by simp)))
      (congrArg (fun s : Clk χ α β ρ χ' ρ' σ => s.w.b) (noop (.chan .b .srcWake) rfl rfl (by simp)))
      (congrArg (fun s : Clk χ α β ρ χ' ρ' σ => s.w.b) (noop (.chan .b .snkRun) rfl rfl (by simp)))
      (congrArg (fun s : Clk χ α β ρ χ' ρ' σ => s.w.b) (noop (.chan .b .snkWake) rfl rfl (by simp)))
  have c4 : canCommit s.r.ar = true :=
    calm_rest (congrArg (fun s : Clk χ α β ρ χ' ρ' σ => s.r.ar) (noop (.chan .ar .srcRun) rfl rfl (by simp)))
      (congrArg (fun s : Clk χ α β ρ χ' ρ' σ => s.r.ar) (noop (.chan .ar .srcWake) rfl rfl (by simp)))
      (congrArg (fun s : Clk χ α β ρ χ' ρ' σ => s.r.ar) (noop (.chan .ar .snkRun) rfl rfl (by simp)))
      (congrArg (fun s : Clk χ α β ρ χ' ρ' σ => s.r.ar) (noop (.chan .ar .snkWake) rfl rfl (by simp)))
  have c5 : canCommit s.r.r = true :=
    calm_rest (congrArg (fun s : Clk χ α β ρ χ' ρ' σ => s.r.r) (noop (.chan .r .srcRun) rfl rfl (by simp)))
      (congrArg (fun s : Clk χ α β ρ χ' ρ' σ => s.r.r) (noop (.chan .r .srcWake) rfl rfl (by simp)))
      (congrArg (fun s : Clk χ α β ρ χ' ρ' σ => s.r.r) (noop (.chan .r .snkRun) rfl rfl (by simp)))
      (congrArg (fun s : Clk χ α β ρ χ' ρ' σ => s.r.r) (noop (.chan .r .snkWake) rfl rfl (by simp)))
  have hcm := noop .commit rfl rfl (by simp)
  simp only [Clk.step, c1, c2, c3, c4, c5, Bool.and_self, if_true] at hcm
  have settled : ∀ {α : Type} {n : Net α}, canCommit n = true → n.step chanCfg .commit = n → canTick n = true := by
    intro α n h1 h2
    have h3 := congrArg Net.settled h2
    rw [commit_step h1] at h3
    simp only [canCommit] at h1
    simp only [canTick, Bool.and_assoc, h1, ← h3, Bool.and_true]
  have tk : LiteOps.ticks s = true := by
    simp only [LiteOps.ticks, settled c1 (congrArg (fun s : Clk χ α β ρ χ' ρ' σ => s.w.aw) hcm), settled c2 (congrArg (fun s : Clk χ α β ρ χ' ρ' σ => s.w.w) hcm),
      settled c3 (congrArg (fun s : Clk χ α β ρ χ' ρ' σ => s.w.b) hcm), settled c4 (congrArg (fun s : Clk χ α β ρ χ' ρ' σ => s.r.ar) hcm),
      settled c5 (congrArg (fun s : Clk χ α β ρ χ' ρ' σ => s.r.r) hcm), Bool.and_self]
  have ht := noop .tick rfl rfl (by simp)
  simp only [Clk.step] at ht
  rw [if_pos (by exact tk)] at ht
  exact clk_tick_ne tk ht

theorem clk_all_tick (s : Clk χ α β ρ χ' ρ' σ) (h : LiteOps.ticks s = true) : canTick s.w.aw = true ∧ canTick s.w.w = true ∧ canTick s.w.b = true ∧
    canTick s.r.ar = true ∧ canTick s.r.r = true := by
  simp only [LiteOps.ticks, Bool.and_eq_true] at h
  obtain ⟨⟨⟨⟨h1, h2⟩, h3⟩, h4⟩, h5⟩ := h
  exact ⟨h1, h2, h3, h4, h5⟩

/-- No channel is paused for ever. -/
structure ClkOpen (edge : Nat → Prop) (S : Nat → Clk χ α β ρ χ' ρ' σ) : Prop where
  aw : Open edge (fun n => (S n).w.aw)
  w : Open edge (fun n => (S n).w.w)
  b : Open edge (fun n => (S n).w.b)
  ar : Open edge (fun n => (S n).r.ar)
  r : Open edge (fun n => (S n).r.r)

theorem clk_edge_ticks (hs : ∀ n, S (n + 1) = (S n).step sp f g (sched n)) {k : Nat} (h : Edge S sched k) :
    LiteOps.ticks (S k) = true ∧ S (k + 1) = (S k).all .tick := by
  obtain ⟨h1, h2⟩ := h
  rw [hs, h1] at h2
  rw [hs, h1]
  simp only [Clk.step] at h2 ⊢
  split
  · rename_i h3; exact ⟨h3, rfl⟩
  · rename_i h3; rw [if_neg h3] at h2; exact absurd rfl h2

theorem ClkTail.seq (h : ClkTail sp f g S sched) (hfr : ClkFair sp f g S sched) (hu : ClkOpen (Edge S sched) S) (hf : ClkFine (S 0)) (hw : (S 0).w.m.running = true)
    (hr : (S 0).r.m.running = true) :
    NetSeq (fun n => (S n).w.aw) ∧ NetSeq (fun n => (S n).w.w) ∧ NetSeq (fun n => (S n).w.b) ∧
    NetSeq (fun n => (S n).r.ar) ∧ NetSeq (fun n => (S n).r.r) := by
  have q : ∀ n, AllQuiet (S n) (S (n + 1)) := by
    intro n
    rw [h.succ]
    exact (h.inv n).quiet _ (h.prog n) (h.same n)
  have hi := h.inv 0
  have res : ∀ (k : Chan) (n : Nat), ∃ m, n ≤ m ∧ (S (m + 1) = (S m).inner k .resume ∨ (S m).inner k .resume = S m) := by
    intro k n
    obtain ⟨m, hm, h1⟩ := hfr (.chan k .resume) rfl (by simp) n
    refine ⟨m, hm, ?_⟩
    rcases h1 with h1 | h1
    · left; rw [h.succ, h1]; rfl
    · exact .inr h1
  refine ⟨⟨⟨hi.w.aw, hf.w.aw.live, hf.w.aw.on hw⟩, fun n => (q n).aw, hu.aw.src, ?_, ?_⟩,
    ⟨⟨hi.w.w, hf.w.w.live, hf.w.w.on hw⟩, fun n => (q n).w, hu.w.src, ?_, ?_⟩,
    ⟨⟨hi.w.b, hf.w.b.live, hf.w.b.on hw⟩, fun n => (q n).b, hu.b.src, ?_, ?_⟩,
    ⟨⟨hi.r.ar, hf.r.ar.live, hf.r.ar.on hr⟩, fun n => (q n).ar, hu.ar.src, ?_, ?_⟩,
    ⟨⟨hi.r.r, hf.r.r.live, hf.r.r.on hr⟩, fun n => (q n).r, hu.r.src, ?_, ?_⟩⟩
  · intro n; obtain ⟨k, hk, h1, h2⟩ := hu.aw.snk n; obtain ⟨h3, h4⟩ := clk_edge_ticks h.succ h1
    exact ⟨k, hk, (clk_all_tick _ h3).1, by rw [h4]; rfl, h2⟩
  · intro n; obtain ⟨k, hk, h1⟩ := res .aw n
    exact ⟨k, hk, h1.imp (congrArg (fun s : Clk χ α β ρ χ' ρ' σ => s.w.aw)) (congrArg (fun s : Clk χ α β ρ χ' ρ' σ => s.w.aw))⟩
  · intro n; obtain ⟨k, hk, h1, h2⟩ := hu.w.snk n; obtain ⟨h3, h4⟩ := clk_edge_ticks h.succ h1
    exact ⟨k, hk, (clk_all_tick _ h3).2.1, by rw [h4]; rfl, h2⟩
  · intro n; obtain ⟨k, hk, h1⟩ := res .w n
    exact ⟨k, hk, h1.imp (congrArg (fun s : Clk χ α β ρ χ' ρ' σ => s.w.w)) (congrArg (fun s : Clk χ α β ρ χ' ρ' σ => s.w.w))⟩
  · intro n; obtain ⟨k, hk, h1, h2⟩ := hu.b.snk n; obtain ⟨h3, h4⟩ := clk_edge_ticks h.succ h1
    exact ⟨k, hk, (clk_all_tick _ h3).2.2.1, by rw [h4]; rfl, h2⟩
  · intro n; obtain ⟨k, hk, h1⟩ := res .b n
    exact ⟨k, hk, h1.imp (congrArg (fun s : Clk χ α β ρ χ' ρ' σ => s.w.b)) (congrArg (fun s : Clk χ α β ρ χ' ρ' σ => s.w.b))⟩
  · intro n; obtain ⟨k, hk, h1, h2⟩ := hu.ar.snk n; obtain ⟨h3, h4⟩ := clk_edge_ticks h.succ h1
    exact ⟨k, hk, (clk_all_tick _ h3).2.2.2.1, by rw [h4]; rfl, h2⟩
  · intro n; obtain ⟨k, hk, h1⟩ := res .ar n
    exact ⟨k, hk, h1.imp (congrArg (fun s : Clk χ α β ρ χ' ρ' σ => s.r.ar)) (congrArg (fun s : Clk χ α β ρ χ' ρ' σ => s.r.ar))⟩
  · intro n; obtain ⟨k, hk, h1, h2⟩ := hu.r.snk n; obtain ⟨h3, h4⟩ := clk_edge_ticks h.succ h1
    exact ⟨k, hk, (clk_all_tick _ h3).2.2.2.2, by rw [h4]; rfl, h2⟩
  · intro n; obtain ⟨k, hk, h1⟩ := res .r n
    exact ⟨k, hk, h1.imp (congrArg (fun s : Clk χ α β ρ χ' ρ' σ => s.r.r)) (congrArg (fun s : Clk χ α β ρ χ' ρ' σ => s.r.r))⟩

theorem ClkTail.noop (h : ClkTail sp f g S sched) (hfr : ClkFair sp f g S sched) (e : ClkEv χ ρ χ' ρ') (he : e.progress = true)
    (hp : (∃ e', e = .w e') ∨ ∃ e', e = .r e') (N : Nat) : ∃ k, N ≤ k ∧ (S k).step sp f g e = S k := by
  have hs : ∀ k, e ≠ .chan k .snkSpurious := by
    rintro k rfl
    rcases hp with ⟨_, h⟩ | ⟨_, h⟩ <;> cases h
  obtain ⟨k, hk, h1⟩ := hfr e he hs N
  refine ⟨k, hk, ?_⟩
  rcases h1 with h1 | h1
  · exact (h.inv k).same e (ClkEv.quiet_of he) (by rw [← h1]; exact h.same k) hp
  · exact h1

theorem ClkTail.noopW (h : ClkTail sp f g S sched) (hfr : ClkFair sp f g S sched) (e : ClkWEv χ ρ) (he : e.progress = true) (N : Nat) :
    ∃ k, N ≤ k ∧ ((S k).w.step sp f (S k).mem e).1 = (S k).w := by
  obtain ⟨k, hk, h1⟩ := h.noop hfr (.w e) he (.inl ⟨e, rfl⟩) N
  exact ⟨k, hk, congrArg Clk.w h1⟩

theorem ClkTail.noopR (h : ClkTail sp f g S sched) (hfr : ClkFair sp f g S sched) (e : ClkREv χ' ρ') (he : e.progress = true) (N : Nat) :
    ∃ k, N ≤ k ∧ ((S k).r.step g (S k).mem e).1 = (S k).r := by
  obtain ⟨k, hk, h1⟩ := h.noop hfr (.r e) he (.inr ⟨e, rfl⟩) N
  exact ⟨k, hk, congrArg Clk.r h1⟩

/-- Nothing is there if it can be received but `recv()` changes nothing. -/
theorem content_nil {α : Type} {n : Net α} (hi : ChanInv n) (hh : Here n) (hn : ∀ a, avail n = some a → n.step chanCfg .recv = n) :
    content n = [] := by
  cases ha : avail n with
  | none => exact hh ha
  | some a =>
    have h1 := (hi.recv ha).2
    rw [hn a ha] at h1
    exact absurd h1 (by simp)

/-- The write side is at rest if nothing changes but inside its channels. -/
theorem restW (s1 : NetSeq fun n => (S n).w.aw) (s2 : NetSeq fun n => (S n).w.w) (s3 : NetSeq fun n => (S n).w.b)
    (hx : ∀ n, ((S n).w.view sp, (S n).w.ahead) = ((S 0).w.view sp, (S 0).w.ahead))
    (noop : ∀ e : ClkWEv χ ρ, e.progress = true → ∀ N, ∃ k, N ≤ k ∧ ((S k).w.step sp f (S k).mem e).1 = (S k).w)
    (inv : ∀ n, ClkWInv sp (S n).w) (hw : (S 0).w.m.running = true)
    (need : (S 0).w.m.step .respTake = (S 0).w.m → (S 0).w.m.step .respGet = (S 0).w.m → (S 0).w.m.step .respDone = (S 0).w.m →
      content (S 0).w.b ≠ [] → (S 0).w.m.awaits = true) (mem : σ) (e : PortEv χ ρ) (he : e.progress = true) :
    ((S 0).w.view sp).step f mem e = ((S 0).w.view sp, mem) := by
  obtain ⟨N1, k1⟩ := s1.here
  obtain ⟨N2, k2⟩ := s2.here
  obtain ⟨N3, k3⟩ := s3.here
  have c1 : ∀ n, content (S n).w.aw = content (S 0).w.aw := s1.content
  have c2 : ∀ n, content (S n).w.w = content (S 0).w.w := s2.content
  have c3 : ∀ n, content (S n).w.b = content (S 0).w.b := s3.content
  have vm : ∀ n, (S n).w.m = (S 0).w.m := fun n => congrArg (fun x => x.1.m) (hx n)
  have va : ∀ n, (S n).w.awSent = (S 0).w.awSent := fun n => congrArg (fun x => x.2.1) (hx n)
  have vs : ∀ n, (S n).w.sl = (S 0).w.sl := fun n => congrArg (fun x => x.2.2.1) (hx n)
  have vh : ∀ n, (S n).w.held = (S 0).w.held := fun n => congrArg (fun x => x.2.2.2.1) (hx n)
  have vg : ∀ n, (S n).w.got = (S 0).w.got := fun n => congrArg (fun x => x.2.2.2.2) (hx n)
  have own_noop : ∀ e : Ev χ ρ, own e = true → e ≠ .take → (ClkWEv.master e).progress = true →
      (S 0).w.m.step e = (S 0).w.m := by
    intro e ho ht hp
    obtain ⟨k, _, h1⟩ := noop (.master e) hp 0
    have h2 := congrArg ClkW.m h1
    have h3 : ((S k).w.master e).m = (S k).w.m.step e := by
      cases e <;> simp_all [ClkW.master, own]
    rw [show ((S k).w.step sp f (S k).mem (.master e)).1.m = ((S k).w.master e).m from rfl, h3, vm k] at h2
    exact h2
  have n1 := own_noop .respTake rfl (by simp) rfl
  have n2 := own_noop .respGet rfl (by simp) rfl
  have n3 := own_noop .respDone rfl (by simp) rfl
  have b0 : content (S 0).w.b = [] := by
    refine Classical.byContradiction fun hne => ?_
    have hn := need n1 n2 n3 hne
    obtain ⟨k, hk, h1⟩ := noop .deliver rfl N3
    refine hne ((c3 k).symm.trans (content_nil (inv k).b (k3 k hk) fun r ha => ?_))
    have h2 := congrArg ClkW.b h1
    simp only [ClkW.step, ClkW.deliver, vm k, hn, ha] at h2
    exact h2
  have bf : ∀ n, blocked (S n).w.b = false := fun n => blocked_content ((c3 n).trans b0)
  have g0 : (S 0).w.got = none := by
    obtain ⟨k, _, h1⟩ := noop .slaveW rfl 0
    have h2 := congrArg ClkW.got h1
    cases hg : (S 0).w.got with
    | none => rfl
    | some r =>
      simp only [ClkW.step, ClkW.slaveW, vg k, hg, bf k] at h2
      cases h2
  have aw0 : (S 0).w.sl = none → content (S 0).w.aw = [] := by
    intro hs
    obtain ⟨k, hk, h1⟩ := noop .slaveAW rfl N1
    refine (c1 k).symm.trans (content_nil (inv k).aw (k1 k hk) fun r ha => ?_)
    have h2 := congrArg ClkW.aw h1
    simp only [ClkW.step, ClkW.slaveAW, vs k, hs, vg k, g0, bf k, ha] at h2
    exact h2
  have h0 : (S 0).w.sl ≠ none → (S 0).w.held = none := by
    intro hs
    obtain ⟨a, hs⟩ := Option.ne_none_iff_exists'.1 hs
    obtain ⟨k, _, h1⟩ := noop .slaveW rfl 0
    have h2 := congrArg ClkW.sl h1
    cases hh : (S 0).w.held with
    | none => rfl
    | some x =>
      simp only [ClkW.step, ClkW.slaveW, vs k, hs, vg k, g0, vh k, hh] at h2
      cases h2
  have w0 : (S 0).w.sl ≠ none → content (S 0).w.w = [] := by
    intro hs
    have hh := h0 hs
    obtain ⟨a, hs⟩ := Option.ne_none_iff_exists'.1 hs
    obtain ⟨k, hk, h1⟩ := noop .slaveW rfl N2
    refine (c2 k).symm.trans (content_nil (inv k).w (k2 k hk) fun r ha => ?_)
    have h2 := congrArg ClkW.w h1
    simp only [ClkW.step, ClkW.slaveW, vs k, hs, vg k, g0, vh k, hh, ha] at h2
    exact h2
  have empty : content (S 0).w.aw = [] ∧ content (S 0).w.w = [] ∧ (S 0).w.held = none := by
    obtain ⟨req, q1, q2⟩ := (inv 0).pairs
    cases hs : (S 0).w.sl with
    | none =>
      have ha := aw0 hs
      refine ⟨ha, ?_⟩
      rw [hs, ha] at q2
      have : req = [] := by
        rcases q2 with ⟨_, q2⟩ | ⟨_, _, _, _, _, q2⟩
        · simpa using q2
        · simp at q2
      rw [this] at q1
      have q3 := List.append_eq_nil_iff.1 (show _ = [] from q1)
      exact ⟨q3.2, by simpa using q3.1⟩
    | some a =>
      have hb := w0 (by rw [hs]; simp)
      have hh := h0 (by rw [hs]; simp)
      refine ⟨?_, hb, hh⟩
      rw [hb, hh] at q1
      have : req = [] := by simpa using q1.symm
      subst this
      rw [hs] at q2
      rcases q2 with ⟨_, q2⟩ | ⟨_, _, _, _, _, q2⟩
      · simp at q2
      · simp at q2; exact q2.2
  obtain ⟨a0, w0, h0⟩ := empty
  have sf : ∀ n, (S n).w.stuck = false := fun n => by
    simp only [ClkW.stuck, blocked_content ((c1 n).trans a0), blocked_content ((c2 n).trans w0), Bool.or_self]
  have send0 : ∀ op x rem, (S 0).w.m.cur ≠ some (op, x :: rem) := by
    intro op x rem hc
    cases hA : (S 0).w.awSent with
    | false =>
      obtain ⟨k, _, h1⟩ := noop .sendAW rfl 0
      have h2 := congrArg ClkW.awSent h1
      simp [ClkW.step, ClkW.sendAW, vm k, hw, hc, va k, hA, sf k] at h2
    | true =>
      obtain ⟨k, _, h1⟩ := noop .sendW rfl 0
      have h2 := congrArg ClkW.awSent h1
      simp [ClkW.step, ClkW.sendW, vm k, hw, hc, va k, hA, sf k] at h2
  have take0 : (S 0).w.m.step .take = (S 0).w.m := by
    obtain ⟨k, _, h1⟩ := noop (.master .take) rfl 0
    have h2 := congrArg ClkW.m h1
    simp only [ClkW.step, ClkW.master, sf k, own, if_true, vm k] at h2
    exact h2
  cases e with
  | master e =>
    by_cases ho : own e = true
    · have : (S 0).w.m.step e = (S 0).w.m := by
        cases e with
        | write => simp [PortEv.progress] at he
        | init => simp [PortEv.progress] at he
        | take => exact take0
        | _ => first | exact own_noop _ ho (by simp) rfl | simp [own] at ho
      simp only [Port.step, ClkW.view, ho, if_true, this]
    · simp only [Port.step, ho]; rfl
  | send =>
    simp only [Port.step, ClkW.view, hw]
    split
    · rename_i op x rem _ hc; exact absurd hc (send0 _ _ _)
    · rfl
  | serve =>
    simp only [Port.step, ClkW.view, w0, h0, Option.toList_none, List.append_nil, List.zipWith_nil_right]
  | deliver => simp only [Port.step, ClkW.view, b0, g0, Option.toList_none, List.append_nil]
  | reset v => simp [PortEv.progress] at he

/-- The read side is at rest if nothing changes but inside its channels. -/
theorem restR (s1 : NetSeq fun n => (S n).r.ar) (s3 : NetSeq fun n => (S n).r.r)
    (hx : ∀ n, ((S n).r.view, (S n).r.ahead) = ((S 0).r.view, (S 0).r.ahead))
    (noop : ∀ e : ClkREv χ' ρ', e.progress = true → ∀ N, ∃ k, N ≤ k ∧ ((S k).r.step g (S k).mem e).1 = (S k).r)
    (inv : ∀ n, ClkRInv (S n).r) (hr : (S 0).r.m.running = true)
    (need : (S 0).r.m.step .respTake = (S 0).r.m → (S 0).r.m.step .respGet = (S 0).r.m → (S 0).r.m.step .respDone = (S 0).r.m →
      content (S 0).r.r ≠ [] → (S 0).r.m.awaits = true) (mem : σ) (e : PortEv χ' ρ') (he : e.progress = true) :
    (S 0).r.view.step g mem e = ((S 0).r.view, mem) := by
  obtain ⟨N1, k1⟩ := s1.here
  obtain ⟨N3, k3⟩ := s3.here
  have c1 : ∀ n, content (S n).r.ar = content (S 0).r.ar := s1.content
  have c3 : ∀ n, content (S n).r.r = content (S 0).r.r := s3.content
  have vm : ∀ n, (S n).r.m = (S 0).r.m := fun n => congrArg (fun x => x.1.m) (hx n)
  have vh : ∀ n, (S n).r.held = (S 0).r.held := fun n => congrArg (fun x => x.2.1) (hx n)
  have vg : ∀ n, (S n).r.got = (S 0).r.got := fun n => congrArg (fun x => x.2.2) (hx n)
  have own_noop : ∀ e : Ev χ' ρ', own e = true → e ≠ .take → (ClkREv.master e).progress = true →
      (S 0).r.m.step e = (S 0).r.m := by
    intro e ho ht hp
    obtain ⟨k, _, h1⟩ := noop (.master e) hp 0
    have h2 := congrArg ClkR.m h1
    have h3 : ((S k).r.master e).m = (S k).r.m.step e := by
      cases e <;> simp_all [ClkR.master, own]
    rw [show ((S k).r.step g (S k).mem (.master e)).1.m = ((S k).r.master e).m from rfl, h3, vm k] at h2
    exact h2
  have n1 := own_noop .respTake rfl (by simp) rfl
  have n2 := own_noop .respGet rfl (by simp) rfl
  have n3 := own_noop .respDone rfl (by simp) rfl
  have b0 : content (S 0).r.r = [] := by
    refine Classical.byContradiction fun hne => ?_
    have hn := need n1 n2 n3 hne
    obtain ⟨k, hk, h1⟩ := noop .deliver rfl N3
    refine hne ((c3 k).symm.trans (content_nil (inv k).r (k3 k hk) fun r ha => ?_))
    have h2 := congrArg ClkR.r h1
    simp only [ClkR.step, ClkR.deliver, vm k, hn, ha] at h2
    exact h2
  have bf : ∀ n, blocked (S n).r.r = false := fun n => blocked_content ((c3 n).trans b0)
  have g0 : (S 0).r.got = none := by
    obtain ⟨k, _, h1⟩ := noop .slaveR rfl 0
    have h2 := congrArg ClkR.got h1
    cases hg : (S 0).r.got with
    | none => rfl
    | some r =>
      simp only [ClkR.step, ClkR.slaveR, vg k, hg, bf k] at h2
      cases h2
  have h0 : (S 0).r.held = none := by
    obtain ⟨k, _, h1⟩ := noop .slaveR rfl 0
    have h2 := congrArg ClkR.held h1
    cases hh : (S 0).r.held with
    | none => rfl
    | some x =>
      simp only [ClkR.step, ClkR.slaveR, vg k, g0, vh k, hh] at h2
      cases h2
  have a0 : content (S 0).r.ar = [] := by
    obtain ⟨k, hk, h1⟩ := noop .slaveR rfl N1
    refine (c1 k).symm.trans (content_nil (inv k).ar (k1 k hk) fun r ha => ?_)
    have h2 := congrArg ClkR.ar h1
    simp only [ClkR.step, ClkR.slaveR, vg k, g0, vh k, h0, bf k, ha] at h2
    exact h2
  have sf : ∀ n, blocked (S n).r.ar = false := fun n => blocked_content ((c1 n).trans a0)
  have send0 : ∀ op x rem, (S 0).r.m.cur ≠ some (op, x :: rem) := by
    intro op x rem hc
    obtain ⟨k, _, h1⟩ := noop .sendAR rfl 0
    have h2 := congrArg (fun p => p.m.sent.length) h1
    simp [ClkR.step, ClkR.sendAR, vm k, hr, hc, sf k, Lite.step, Lite.send] at h2
  have take0 : (S 0).r.m.step .take = (S 0).r.m := by
    obtain ⟨k, _, h1⟩ := noop (.master .take) rfl 0
    have h2 := congrArg ClkR.m h1
    simp only [ClkR.step, ClkR.master, sf k, own, if_true, vm k] at h2
    exact h2
  cases e with
  | master e =>
    by_cases ho : own e = true
    · have : (S 0).r.m.step e = (S 0).r.m := by
        cases e with
        | write => simp [PortEv.progress] at he
        | init => simp [PortEv.progress] at he
        | take => exact take0
        | _ => first | exact own_noop _ ho (by simp) rfl | simp [own] at ho
      simp only [Port.step, ClkR.view, ho, if_true, this]
    · simp only [Port.step, ho]; rfl
  | send =>
    simp only [Port.step, ClkR.view, hr]
    split
    · rename_i op x rem _ hc; exact absurd hc (send0 _ _ _)
    · rfl
  | serve => simp only [Port.step, ClkR.view, a0, h0, Option.toList_none, List.append_nil]
  | deliver => simp only [Port.step, ClkR.view, b0, g0, Option.toList_none, List.append_nil]
  | reset v => simp [PortEv.progress] at he

theorem ClkTail.restW (h : ClkTail sp f g S sched) (hfr : ClkFair sp f g S sched) (hu : ClkOpen (Edge S sched) S) (hf : ClkFine (S 0))
    (hw : (S 0).w.m.running = true) (hr : (S 0).r.m.running = true)
    (need : (S 0).w.m.step .respTake = (S 0).w.m → (S 0).w.m.step .respGet = (S 0).w.m → (S 0).w.m.step .respDone = (S 0).w.m →
      content (S 0).w.b ≠ [] → (S 0).w.m.awaits = true) (mem : σ) (e : PortEv χ ρ) (he : e.progress = true) :
    ((S 0).w.view sp).step f mem e = ((S 0).w.view sp, mem) := by
  obtain ⟨s1, s2, s3, _, _⟩ := h.seq hfr hu hf hw hr
  exact LiteOps.restW s1 s2 s3 (fun n => congrArg (fun x => (x.1.w, x.2.1)) (h.view n)) (h.noopW hfr) (fun n => (h.inv n).w) hw need mem e he

theorem ClkTail.restR (h : ClkTail sp f g S sched) (hfr : ClkFair sp f g S sched) (hu : ClkOpen (Edge S sched) S) (hf : ClkFine (S 0))
    (hw : (S 0).w.m.running = true) (hr : (S 0).r.m.running = true)
    (need : (S 0).r.m.step .respTake = (S 0).r.m → (S 0).r.m.step .respGet = (S 0).r.m → (S 0).r.m.step .respDone = (S 0).r.m →
      content (S 0).r.r ≠ [] → (S 0).r.m.awaits = true) (mem : σ) (e : PortEv χ' ρ') (he : e.progress = true) :
    (S 0).r.view.step g mem e = ((S 0).r.view, mem) := by
  obtain ⟨_, _, _, s1, s3⟩ := h.seq hfr hu hf hw hr
  exact LiteOps.restR s1 s3 (fun n => congrArg (fun x => (x.1.r, x.2.2)) (h.view n)) (h.noopR hfr) (fun n => (h.inv n).r) hr need mem e he

end

/-- A response on its way is awaited, or the master can do something else. -/
theorem Duo.needs (f : χ → σ → ρ × σ) (g : χ' → σ → ρ' × σ) (m0 : σ) (evs : List (DuoEv χ ρ χ' ρ')) :
    let s := Duo.run f g { mem := m0 } evs
    (s.w.m.running = true → s.w.m.step .respTake = s.w.m → s.w.m.step .respGet = s.w.m → s.w.m.step .respDone = s.w.m →
      s.w.rsp ≠ [] → s.w.m.awaits = true) ∧
    (s.r.m.running = true → s.r.m.step .respTake = s.r.m → s.r.m.step .respGet = s.r.m → s.r.m.step .respDone = s.r.m →
      s.r.rsp ≠ [] → s.r.m.awaits = true) := by
  intro s
  have hat : Duo.at f g { mem := m0 } evs evs.length = s := by simp only [Duo.at, List.take_length]; rfl
  constructor
  · obtain ⟨sv, hi⟩ := (Duo.traceW f g m0 evs).inv evs.length
    have := hi.needs
    rwa [show (Duo.at f g { mem := m0 } evs evs.length).w = s.w from congrArg Duo.w hat] at this
  · obtain ⟨sv, hi⟩ := (Duo.traceR f g m0 evs).inv evs.length
    have := hi.needs
    rwa [show (Duo.at f g { mem := m0 } evs evs.length).r = s.r from congrArg Duo.r hat] at this

/-- A schedule without calls and resets, from a state that a history of the system with FIFO channels leads to. -/
structure ClkFrom (sp : Halves χ α β) (f : χ → σ → ρ × σ) (g : χ' → σ → ρ' × σ) (m0 : σ) (S : Nat → Clk χ α β ρ χ' ρ' σ)
    (sched : Nat → ClkEv χ ρ χ' ρ') : Prop where
  succ : ∀ n, S (n + 1) = (S n).step sp f g (sched n)
  quiet : ∀ n, (sched n).quiet = true
  inv0 : ClkInv sp (S 0)
  fine0 : ClkFine (S 0)
  view0 : ∃ evs', (S 0).view sp = Duo.run f g { mem := m0 } evs'

section

variable {sp : Halves χ α β} {f : χ → σ → ρ × σ} {g : χ' → σ → ρ' × σ} {m0 : σ} (hl : ∀ x, sp.join (sp.aw x) (sp.w x) = x)
  {S : Nat → Clk χ α β ρ χ' ρ' σ} {sched : Nat → ClkEv χ ρ χ' ρ'}

include hl

theorem ClkFrom.inv (hs : ClkFrom sp f g m0 S sched) (n : Nat) : ClkInv sp (S n) ∧ ClkFine (S n) := by
  induction n with
  | zero => exact ⟨hs.inv0, hs.fine0⟩
  | succ n ih => rw [hs.succ]; exact ⟨(ih.1.step hl _).1, ih.2.step _⟩

theorem ClkFrom.view (hs : ClkFrom sp f g m0 S sched) (n : Nat) : ∃ evs', (S n).view sp = Duo.run f g { mem := m0 } evs' := by
  induction n with
  | zero => exact hs.view0
  | succ n ih =>
    obtain ⟨evs', h1⟩ := ih
    obtain ⟨_, e', _, h2⟩ := (hs.inv hl n).1.step hl (f := f) (g := g) (sched n)
    exact ⟨evs' ++ [e'], by rw [hs.succ, h2, h1]; simp [Duo.run, List.foldl_append]⟩

/-- From some instant on only the channels do anything. -/
theorem ClkFrom.tail (hs : ClkFrom sp f g m0 S sched) : ∃ N, ClkTail sp f g (fun n => S (N + n)) (fun n => sched (N + n)) := by
  have hinv : ∀ n, ClkInv sp (S n) ∧ ClkFine (S n) := hs.inv hl
  obtain ⟨μ, hμ⟩ := C97_terminates (χ := χ) (ρ := ρ) (χ' := χ') (ρ' := ρ') f g
  have hdec : ∀ n, (S (n + 1)).xview sp = (S n).xview sp ∨
      7 * μ ((S (n + 1)).view sp) + (S (n + 1)).lag < 7 * μ ((S n).view sp) + (S n).lag := by
    intro n
    obtain ⟨_, e', he', h1⟩ := (hinv n).1.step hl (f := f) (g := g) (sched n)
    have hb := Clk.lag_le (S (n + 1))
    rw [show S (n + 1) = _ from hs.succ n] at hb ⊢
    rcases hμ ((S n).view sp) e' (he' (hs.quiet n)) with h2 | h2
    · rcases (hinv n).1.small (f := f) (g := g) (sched n) (hs.quiet n) (h1.trans h2) with h3 | h3
      · exact .inl h3
      · right; rw [h1, h2]; omega
    · right; rw [h1]; omega
  have key : ∃ N, ∀ n, N ≤ n → (S n).xview sp = (S N).xview sp := by
    refine stabilises (fun n => (S n).xview sp)
      (fun x => 7 * μ x.1 + (ClkW.lag x.2.1 + ClkR.lag x.2.2)) hdec
  obtain ⟨N, hN⟩ := key
  refine ⟨N, fun n => hs.succ _, fun n => hs.quiet _, fun n => (hinv _).1, fun n => ?_⟩
  · exact (hN (N + n) (by omega)).trans (hN (N + 0) (by omega)).symm

/-- What the pieces of coroutines preserve. -/
theorem ClkFrom.later (hs : ClkFrom sp f g m0 S sched) (n : Nat) : Later (S 0).w.m (S n).w.m ∧ Later (S 0).r.m (S n).r.m := by
  induction n with
  | zero => exact ⟨Later.refl _, Later.refl _⟩
  | succ n ih =>
    obtain ⟨_, e', he', h1⟩ := (hs.inv hl n).1.step hl (f := f) (g := g) (sched n)
    have hp := he' (hs.quiet n)
    have h2 : Later (S n).w.m (S (n + 1)).w.m ∧ Later (S n).r.m (S (n + 1)).r.m := by
      have ew : (S (n + 1)).w.m = (((S n).view sp).step f g e').w.m := by rw [← h1, hs.succ]; rfl
      have er : (S (n + 1)).r.m = (((S n).view sp).step f g e').r.m := by rw [← h1, hs.succ]; rfl
      rw [ew, er]
      revert hp
      cases e' with
      | w e => exact fun hp => ⟨Port.later f ((S n).view sp).w ((S n).view sp).mem e hp, Later.refl _⟩
      | r e => exact fun hp => ⟨Later.refl _, Port.later g ((S n).view sp).r ((S n).view sp).mem e hp⟩
    exact ⟨ih.1.trans h2.1, ih.2.trans h2.2⟩

theorem ClkFrom.completes (hs : ClkFrom sp f g m0 S sched) (hf : ClkFair sp f g S sched) (o1 : Open (Edge S sched) (fun n => (S n).w.aw))
    (o2 : Open (Edge S sched) (fun n => (S n).w.w)) (o3 : Open (Edge S sched) (fun n => (S n).w.b))
    (o4 : Open (Edge S sched) (fun n => (S n).r.ar)) (o5 : Open (Edge S sched) (fun n => (S n).r.r))
    (hw0 : (S 0).w.m.running = true) (hr0 : (S 0).r.m.running = true) :
    ∃ N, ∀ n, N ≤ n →
      (S n).w.m.idle = true ∧ (S n).r.m.idle = true ∧
      (∀ op ∈ (S 0).w.m.issued ++ (S 0).w.m.wrappers, (∀ r, (op, r) ∉ (S 0).w.m.results) →
        ∃ got, (op, some got) ∈ (S n).w.m.results) ∧
      (∀ op ∈ (S 0).r.m.issued ++ (S 0).r.m.wrappers, (∀ r, (op, r) ∉ (S 0).r.m.results) →
        ∃ got, (op, some got) ∈ (S n).r.m.results) := by
  obtain ⟨N, htail⟩ := hs.tail hl
  have hinv : ∀ n, ClkInv sp (S n) ∧ ClkFine (S n) := hs.inv hl
  have hlater := hs.later hl
  obtain ⟨evs', hv⟩ := hs.view hl N
  have hrw : (S N).w.m.running = true := (hlater N).1.run hw0
  have hrr : (S N).r.m.running = true := (hlater N).2.run hr0
  obtain ⟨nw, nr⟩ := Duo.needs f g m0 evs'
  rw [← hv] at nw nr
  have op : ClkOpen (Edge (fun n => S (N + n)) (fun n => sched (N + n))) (fun n => S (N + n)) :=
    ⟨o1.shift N, o2.shift N, o3.shift N, o4.shift N, o5.shift N⟩
  have hquiet : ∀ e : DuoEv χ ρ χ' ρ', e.progress = true → ((S N).view sp).step f g e = (S N).view sp := by
    intro e he
    cases e with
    | w e =>
      have : ((S N).view sp).w.step f ((S N).view sp).mem e = (((S N).view sp).w, ((S N).view sp).mem) :=
        htail.restW (hf.shift N) op (hinv N).2 hrw hrr (fun a b d e => nw hrw a b d (List.append_ne_nil_of_left_ne_nil e _)) (S N).mem e he
      simp only [Duo.step, this]
    | r e =>
      have : ((S N).view sp).r.step g ((S N).view sp).mem e = (((S N).view sp).r, ((S N).view sp).mem) :=
        htail.restR (hf.shift N) op (hinv N).2 hrw hrr (fun a b d e => nr hrr a b d (List.append_ne_nil_of_left_ne_nil e _)) (S N).mem e he
      simp only [Duo.step, this]
  rw [show (S N).view sp = _ from hv] at hquiet
  obtain ⟨hdw, hdr⟩ := C97_no_deadlock f g m0 evs' hquiet
  rw [← hv] at hdw hdr
  obtain ⟨w1, w2, w3⟩ := hdw hrw
  obtain ⟨r1, r2, r3⟩ := hdr hrr
  refine ⟨N, ?_⟩
  intro n hn
  have hnv : (S n).xview sp = (S N).xview sp := by
    obtain ⟨d, rfl⟩ := Nat.exists_eq_add_of_le hn
    exact htail.view d
  have ew : (S n).w.m = (S N).w.m := congrArg (fun x => x.1.w.m) hnv
  have er : (S n).r.m = (S N).r.m := congrArg (fun x => x.1.r.m) hnv
  rw [ew, er]
  refine ⟨w1, r1, ?_, ?_⟩
  · intro op ho hno
    have h1 := (hlater N).1.calls op ho
    rw [show (S N).w.m.wrappers = [] from w2, List.append_nil] at h1
    obtain ⟨r, hr⟩ := w3 op h1
    cases r with
    | none => exact absurd ((hlater N).1.flush op hr) (hno none)
    | some got => exact ⟨got, hr⟩
  · intro op ho hno
    have h1 := (hlater N).2.calls op ho
    rw [show (S N).r.m.wrappers = [] from r2, List.append_nil] at h1
    obtain ⟨r, hr⟩ := r3 op h1
    cases r with
    | none => exact absurd ((hlater N).2.flush op hr) (hno none)
    | some got => exact ⟨got, hr⟩

/-- The clock does not stop unless `pause` is changed for ever without a clock edge. -/
theorem ClkFrom.edges (hs : ClkFrom sp f g m0 S sched) (hf : ClkFairOn ClkEv.clocked sp f g S sched)
    (hp : ∀ n, (∀ k, n ≤ k → ¬ Edge S sched k) → ∃ m, ∀ k, m ≤ k → (sched k).progress = true) (n : Nat) :
    ∃ k, n ≤ k ∧ Edge S sched k := by
  refine Classical.byContradiction fun hno => ?_
  obtain ⟨m, hm⟩ := hp n (fun k hk h1 => hno ⟨k, hk, h1⟩)
  obtain ⟨N, htail⟩ := hs.tail hl
  obtain ⟨k, hk, h1⟩ := (htail.shift m).ticks ((hf.shift N).shift m) (fun k => hm _ (by omega)) n
  exact hno ⟨N + (m + k), by omega, h1⟩

theorem ClkFrom.completes_cycles (hs : ClkFrom sp f g m0 S sched) (hf : ClkFair sp f g S sched)
    (o1 : Cycles (Edge S sched) (fun n => (S n).w.aw)) (o2 : Cycles (Edge S sched) (fun n => (S n).w.w))
    (o3 : Cycles (Edge S sched) (fun n => (S n).w.b)) (o4 : Cycles (Edge S sched) (fun n => (S n).r.ar))
    (o5 : Cycles (Edge S sched) (fun n => (S n).r.r)) (hw0 : (S 0).w.m.running = true) (hr0 : (S 0).r.m.running = true) :
    ∃ N, ∀ n, N ≤ n →
      (S n).w.m.idle = true ∧ (S n).r.m.idle = true ∧
      (∀ op ∈ (S 0).w.m.issued ++ (S 0).w.m.wrappers, (∀ r, (op, r) ∉ (S 0).w.m.results) →
        ∃ got, (op, some got) ∈ (S n).w.m.results) ∧
      (∀ op ∈ (S 0).r.m.issued ++ (S 0).r.m.wrappers, (∀ r, (op, r) ∉ (S 0).r.m.results) →
        ∃ got, (op, some got) ∈ (S n).r.m.results) := by
  obtain ⟨N, htail⟩ := hs.tail hl
  have hinv : ∀ n, ClkInv sp (S n) ∧ ClkFine (S n) := hs.inv hl
  have hlater := hs.later hl
  have hrw : ∀ n, (S n).w.m.running = true := fun n => (hlater n).1.run hw0
  have hrr : ∀ n, (S n).r.m.running = true := fun n => (hlater n).2.run hr0
  have q : ∀ n, AllQuiet (S (N + n)) (S (N + n + 1)) := by
    intro n
    rw [show S (N + n + 1) = _ from hs.succ (N + n)]
    exact (hinv _).1.quiet _ (hs.quiet _) (htail.same n)
  have tk := fun {k : Nat} (h : Edge S sched k) => clk_edge_ticks hs.succ h
  refine hs.completes hl hf ?_ ?_ ?_ ?_ ?_ hw0 hr0
  · exact o1.open (N := N) (fun n => ⟨(hinv n).1.w.aw, (hinv n).2.w.aw.live, (hinv n).2.w.aw.on (hrw n)⟩) (fun n => (q n).aw)
      (fun k h => ⟨(clk_all_tick _ (tk h).1).1, congrArg (fun s : Clk χ α β ρ χ' ρ' σ => s.w.aw) (tk h).2⟩)
  · exact o2.open (N := N) (fun n => ⟨(hinv n).1.w.w, (hinv n).2.w.w.live, (hinv n).2.w.w.on (hrw n)⟩) (fun n => (q n).w)
      (fun k h => ⟨(clk_all_tick _ (tk h).1).2.1, congrArg (fun s : Clk χ α β ρ χ' ρ' σ => s.w.w) (tk h).2⟩)
  · exact o3.open (N := N) (fun n => ⟨(hinv n).1.w.b, (hinv n).2.w.b.live, (hinv n).2.w.b.on (hrw n)⟩) (fun n => (q n).b)
      (fun k h => ⟨(clk_all_tick _ (tk h).1).2.2.1, congrArg (fun s : Clk χ α β ρ χ' ρ' σ => s.w.b) (tk h).2⟩)
  · exact o4.open (N := N) (fun n => ⟨(hinv n).1.r.ar, (hinv n).2.r.ar.live, (hinv n).2.r.ar.on (hrr n)⟩) (fun n => (q n).ar)
      (fun k h => ⟨(clk_all_tick _ (tk h).1).2.2.2.1, congrArg (fun s : Clk χ α β ρ χ' ρ' σ => s.r.ar) (tk h).2⟩)
  · exact o5.open (N := N) (fun n => ⟨(hinv n).1.r.r, (hinv n).2.r.r.live, (hinv n).2.r.r.on (hrr n)⟩) (fun n => (q n).r)
      (fun k h => ⟨(clk_all_tick _ (tk h).1).2.2.2.2, congrArg (fun s : Clk χ α β ρ χ' ρ' σ => s.r.r) (tk h).2⟩)

theorem ClkFrom.completes_unpaused (hs : ClkFrom sp f g m0 S sched) (hp : ∀ n, (sched n).progress = true)
    (hf : ClkFair sp f g S sched) (hu : Unpaused (S 0)) (hw0 : (S 0).w.m.running = true) (hr0 : (S 0).r.m.running = true) :
    ∃ N, ∀ n, N ≤ n →
      (S n).w.m.idle = true ∧ (S n).r.m.idle = true ∧
      (∀ op ∈ (S 0).w.m.issued ++ (S 0).w.m.wrappers, (∀ r, (op, r) ∉ (S 0).w.m.results) →
        ∃ got, (op, some got) ∈ (S n).w.m.results) ∧
      (∀ op ∈ (S 0).r.m.issued ++ (S 0).r.m.wrappers, (∀ r, (op, r) ∉ (S 0).r.m.results) →
        ∃ got, (op, some got) ∈ (S n).r.m.results) := by
  have he := hs.edges hl (hf.on _) (fun _ _ => ⟨0, fun k _ => hp k⟩)
  have hup : ∀ n, Unpaused (S n) := by
    intro n
    induction n with
    | zero => exact hu
    | succ n ih => rw [show S (n + 1) = _ from hs.succ n]; exact ih.step _ (hp n)
  have cyc : ∀ P : Nat → Prop, (∀ m, P m) → ∀ n, ∃ i j, n ≤ i ∧ i < j ∧ Edge S sched i ∧ Edge S sched j ∧ ∀ m, i < m → m ≤ j → P m := by
    intro P hP n
    obtain ⟨i, h1, h2⟩ := he n
    obtain ⟨j, h3, h4⟩ := he (i + 1)
    exact ⟨i, j, h1, by omega, h2, h4, fun m _ _ => hP m⟩
  exact hs.completes_cycles hl hf
    ⟨cyc _ fun m => (hup m).aw.1, cyc _ fun m => (hup m).aw.2⟩ ⟨cyc _ fun m => (hup m).w.1, cyc _ fun m => (hup m).w.2⟩
    ⟨cyc _ fun m => (hup m).b.1, cyc _ fun m => (hup m).b.2⟩ ⟨cyc _ fun m => (hup m).ar.1, cyc _ fun m => (hup m).ar.2⟩
    ⟨cyc _ fun m => (hup m).r.1, cyc _ fun m => (hup m).r.2⟩ hw0 hr0

end

section

variable (sp : Halves χ α β) (f : χ → σ → ρ × σ) (g : χ' → σ → ρ' × σ) (m0 : σ) (hl : ∀ x, sp.join (sp.aw x) (sp.w x) = x)

include hl

theorem clkFrom (evs : List (ClkEv χ ρ χ' ρ')) (sched : Nat → ClkEv χ ρ χ' ρ') (hs : ∀ n, (sched n).quiet = true) :
    ClkFrom sp f g m0 (fun n => Clk.run sp f g m0 (evs ++ (List.range n).map sched)) sched where
  succ n := by
    rw [List.range_succ, List.map_append, ← List.append_assoc]
    exact Clk.run_append sp f g m0 _ _
  quiet := hs
  inv0 := (clkRun_inv sp f g m0 hl _).1
  fine0 := (clkRun_inv sp f g m0 hl _).2
  view0 := clkRun_view sp f g m0 hl _

/-- From some instant on only the channels do anything. -/
theorem clkTail (evs : List (ClkEv χ ρ χ' ρ')) (sched : Nat → ClkEv χ ρ χ' ρ') :
    let S : Nat → Clk χ α β ρ χ' ρ' σ := fun n => Clk.run sp f g m0 (evs ++ (List.range n).map sched)
    (∀ n, (sched n).quiet = true) →
    (∀ n, S (n + 1) = (S n).step sp f g (sched n)) ∧ ∃ N, ClkTail sp f g (fun n => S (N + n)) (fun n => sched (N + n)) :=
  fun hs => ⟨(clkFrom sp f g m0 hl evs sched hs).succ, (clkFrom sp f g m0 hl evs sched hs).tail hl⟩

/-- What the pieces of coroutines preserve. -/
theorem clkLater (evs : List (ClkEv χ ρ χ' ρ')) (sched : Nat → ClkEv χ ρ χ' ρ') :
    let S : Nat → Clk χ α β ρ χ' ρ' σ := fun n => Clk.run sp f g m0 (evs ++ (List.range n).map sched)
    (∀ n, (sched n).quiet = true) → ∀ n, Later (S 0).w.m (S n).w.m ∧ Later (S 0).r.m (S n).r.m :=
  fun hs => (clkFrom sp f g m0 hl evs sched hs).later hl

/-- **C99, with pauses.** After any history `evs` at whose end the reset is deasserted, if no more calls are made and the reset stays
deasserted, then under any fair schedule in which ends of the channels are paused and released at any instants but none is paused for
ever (`Open`), all operations complete (from `N` on): both masters are idle and every operation that was called and had no result at the
end of `evs` has completed with responses (never flushed). What the result is then follows from C75 - C77, C96 and C98. -/
theorem C99_completes_with_pauses (evs : List (ClkEv χ ρ χ' ρ')) (sched : Nat → ClkEv χ ρ χ' ρ') :
    let S : Nat → Clk χ α β ρ χ' ρ' σ := fun n => Clk.run sp f g m0 (evs ++ (List.range n).map sched)
    (∀ n, (sched n).quiet = true) → ClkFair sp f g S sched →
    Open (Edge S sched) (fun n => (S n).w.aw) → Open (Edge S sched) (fun n => (S n).w.w) → Open (Edge S sched) (fun n => (S n).w.b) →
    Open (Edge S sched) (fun n => (S n).r.ar) → Open (Edge S sched) (fun n => (S n).r.r) →
    (S 0).w.m.running = true → (S 0).r.m.running = true →
    ∃ N, ∀ n, N ≤ n →
      (S n).w.m.idle = true ∧ (S n).r.m.idle = true ∧
      (∀ op ∈ (S 0).w.m.issued ++ (S 0).w.m.wrappers, (∀ r, (op, r) ∉ (S 0).w.m.results) →
        ∃ got, (op, some got) ∈ (S n).w.m.results) ∧
      (∀ op ∈ (S 0).r.m.issued ++ (S 0).r.m.wrappers, (∀ r, (op, r) ∉ (S 0).r.m.results) →
        ∃ got, (op, some got) ∈ (S n).r.m.results) :=
  fun hs hf o1 o2 o3 o4 o5 hw0 hr0 => (clkFrom sp f g m0 hl evs sched hs).completes hl hf o1 o2 o3 o4 o5 hw0 hr0

/-- The clock does not stop unless `pause` is changed for ever without a clock edge. -/
theorem clkEdges (evs : List (ClkEv χ ρ χ' ρ')) (sched : Nat → ClkEv χ ρ χ' ρ') :
    let S : Nat → Clk χ α β ρ χ' ρ' σ := fun n => Clk.run sp f g m0 (evs ++ (List.range n).map sched)
    (∀ n, (sched n).quiet = true) → ClkFairOn ClkEv.clocked sp f g S sched →
    (∀ n, (∀ k, n ≤ k → ¬ Edge S sched k) → ∃ m, ∀ k, m ≤ k → (sched k).progress = true) → ∀ n, ∃ k, n ≤ k ∧ Edge S sched k :=
  fun hs hf hp => (clkFrom sp f g m0 hl evs sched hs).edges hl hf hp

/-- **C99, with pauses in some cycles.** As before, where it is known that again and again there is a whole clock cycle in which the end is
not paused. -/
theorem C99_completes_cycles (evs : List (ClkEv χ ρ χ' ρ')) (sched : Nat → ClkEv χ ρ χ' ρ') :
    let S : Nat → Clk χ α β ρ χ' ρ' σ := fun n => Clk.run sp f g m0 (evs ++ (List.range n).map sched)
    (∀ n, (sched n).quiet = true) → ClkFair sp f g S sched →
    Cycles (Edge S sched) (fun n => (S n).w.aw) → Cycles (Edge S sched) (fun n => (S n).w.w) →
    Cycles (Edge S sched) (fun n => (S n).w.b) → Cycles (Edge S sched) (fun n => (S n).r.ar) →
    Cycles (Edge S sched) (fun n => (S n).r.r) →
    (S 0).w.m.running = true → (S 0).r.m.running = true →
    ∃ N, ∀ n, N ≤ n →
      (S n).w.m.idle = true ∧ (S n).r.m.idle = true ∧
      (∀ op ∈ (S 0).w.m.issued ++ (S 0).w.m.wrappers, (∀ r, (op, r) ∉ (S 0).w.m.results) →
        ∃ got, (op, some got) ∈ (S n).w.m.results) ∧
      (∀ op ∈ (S 0).r.m.issued ++ (S 0).r.m.wrappers, (∀ r, (op, r) ∉ (S 0).r.m.results) →
        ∃ got, (op, some got) ∈ (S n).r.m.results) :=
  fun hs hf o1 o2 o3 o4 o5 hw0 hr0 => (clkFrom sp f g m0 hl evs sched hs).completes_cycles hl hf o1 o2 o3 o4 o5 hw0 hr0

/-- **C99.** After any history `evs` at whose end the reset is deasserted and no source or sink is paused, if no more calls are made, the
reset stays deasserted and nothing is paused, then under any fair schedule all operations complete. -/
theorem C99_completes (evs : List (ClkEv χ ρ χ' ρ')) (sched : Nat → ClkEv χ ρ χ' ρ') :
    let S : Nat → Clk χ α β ρ χ' ρ' σ := fun n => Clk.run sp f g m0 (evs ++ (List.range n).map sched)
    (∀ n, (sched n).progress = true) → ClkFair sp f g S sched → Unpaused (S 0) →
    (S 0).w.m.running = true → (S 0).r.m.running = true →
    ∃ N, ∀ n, N ≤ n →
      (S n).w.m.idle = true ∧ (S n).r.m.idle = true ∧
      (∀ op ∈ (S 0).w.m.issued ++ (S 0).w.m.wrappers, (∀ r, (op, r) ∉ (S 0).w.m.results) →
        ∃ got, (op, some got) ∈ (S n).w.m.results) ∧
      (∀ op ∈ (S 0).r.m.issued ++ (S 0).r.m.wrappers, (∀ r, (op, r) ∉ (S 0).r.m.results) →
        ∃ got, (op, some got) ∈ (S n).r.m.results) := by
  intro S hs hf hu hw0 hr0
  exact (clkFrom sp f g m0 hl evs sched (fun n => ClkEv.quiet_of (hs n))).completes_unpaused hl hs hf hu hw0 hr0

end

/-! ## Fair schedules exist, and an example -/

/-- Everything that can happen other than calls, with the index `i` where there is one. -/
def clkPieces (i : Nat) : List (ClkEv χ ρ χ' ρ') :=
  [.w (.master (.runInit i)), .w (.master .take), .w .sendAW, .w .sendW, .w .slaveAW, .w .slaveW, .w .deliver,
   .w (.master .respTake), .w (.master .respGet), .w (.master .respDone),
   .r (.master (.runInit i)), .r (.master .take), .r .sendAR, .r .slaveR, .r .deliver, .r (.master .respTake),
   .r (.master .respGet), .r (.master .respDone),
   .chan .aw .srcRun, .chan .aw .srcWake, .chan .aw .snkRun, .chan .aw .snkWake, .chan .aw .resume,
   .chan .w .srcRun, .chan .w .srcWake, .chan .w .snkRun, .chan .w .snkWake, .chan .w .resume,
   .chan .b .srcRun, .chan .b .srcWake, .chan .b .snkRun, .chan .b .snkWake, .chan .b .resume,
   .chan .ar .srcRun, .chan .ar .srcWake, .chan .ar .snkRun, .chan .ar .snkWake, .chan .ar .resume,
   .chan .r .srcRun, .chan .r .srcWake, .chan .r .snkRun, .chan .r .snkWake, .chan .r .resume,
   .commit, .tick]

/-- Goes through all of them again and again, with every index again and again. -/
def clkRobin (n : Nat) : ClkEv χ ρ χ' ρ' := ((clkPieces (n / 45 - 2 ^ (n / 45).log2))[n % 45]?).getD .commit

theorem clkPieces_progress (i : Nat) : ∀ e ∈ (clkPieces i : List (ClkEv χ ρ χ' ρ')), e.progress = true := by
  simp only [clkPieces, List.forall_mem_cons]
  repeat' constructor
  simp

theorem clkRobin_progress (n : Nat) : (clkRobin n : ClkEv χ ρ χ' ρ').progress = true := by
  unfold clkRobin
  cases hx : (clkPieces (n / 45 - 2 ^ (n / 45).log2) : List (ClkEv χ ρ χ' ρ'))[n % 45]? with
  | none => rfl
  | some e => exact clkPieces_progress _ e (List.mem_of_getElem? hx)

/-- Steps of a master that never happen by themselves: they belong to the channels or to the reset. -/
def ClkEv.never : ClkEv χ ρ χ' ρ' → Bool
  | .w (.master e) => !own e
  | .r (.master e) => !own e
  | _ => false

theorem ClkEv.never_step (sp : Halves χ α β) (f : χ → σ → ρ × σ) (g : χ' → σ → ρ' × σ) (s : Clk χ α β ρ χ' ρ' σ)
    (e : ClkEv χ ρ χ' ρ') (h : e.never = true) : s.step sp f g e = s := by
  cases e with
  | w e =>
    cases e with
    | master e =>
      simp only [ClkEv.never, Bool.not_eq_true'] at h
      rcases ClkW.master_eq s.w e with h0 | ⟨ho, _⟩
      · simp only [Clk.step, ClkW.step, h0]
      · rw [h] at ho; cases ho
    | _ => cases h
  | r e =>
    cases e with
    | master e =>
      simp only [ClkEv.never, Bool.not_eq_true'] at h
      rcases ClkR.master_eq s.r e with h0 | ⟨ho, _⟩
      · simp only [Clk.step, ClkR.step, h0]
      · rw [h] at ho; cases ho
    | _ => cases h
  | _ => cases h

theorem clkRobin_all (e : ClkEv χ ρ χ' ρ') (he : e.progress = true) (hs : ∀ k, e ≠ .chan k .snkSpurious)
    (hn : e.never = false) (n : Nat) : ∃ k, n ≤ k ∧ clkRobin k = e := by
  have h : ∃ i j, j < 45 ∧ (clkPieces i)[j]? = some e := by
    have key : ∀ i, e ∈ clkPieces i → ∃ i j, j < 45 ∧ (clkPieces i)[j]? = some e := by
      intro i hm
      obtain ⟨j, hj, hx⟩ := List.getElem_of_mem hm
      exact ⟨i, j, hj, by rw [List.getElem?_eq_getElem hj, hx]⟩
    cases e with
    | w e =>
      cases e with
      | master e =>
        cases e with
        | write => cases he
        | init => cases he
        | send => cases hn
        | resp => cases hn
        | reset v => cases hn
        | runInit i => exact key i (by simp [clkPieces])
        | _ => exact key 0 (by simp [clkPieces])
      | reset v => cases he
      | _ => exact key 0 (by simp [clkPieces])
    | r e =>
      cases e with
      | master e =>
        cases e with
        | write => cases he
        | init => cases he
        | send => cases hn
        | resp => cases hn
        | reset v => cases hn
        | runInit i => exact key i (by simp [clkPieces])
        | _ => exact key 0 (by simp [clkPieces])
      | reset v => cases he
      | _ => exact key 0 (by simp [clkPieces])
    | chan k e =>
      cases e with
      | srcPause v => cases he
      | snkPause v => cases he
      | snkSpurious => exact absurd rfl (hs k)
      | _ => cases k <;> exact key 0 (by simp [clkPieces])
    | tick => exact key 0 (by simp [clkPieces])
    | commit => exact key 0 (by simp [clkPieces])
  obtain ⟨i, j, hj, hx⟩ := h
  have hlt : n + i < 2 ^ (n + i) := Nat.lt_two_pow_self
  have hlog : (2 ^ (n + i) + i).log2 = n + i := by
    refine (Nat.log2_eq_iff (by omega)).2 ⟨by omega, ?_⟩
    rw [Nat.pow_succ]; omega
  refine ⟨45 * (2 ^ (n + i) + i) + j, by omega, ?_⟩
  unfold clkRobin
  have h1 : (45 * (2 ^ (n + i) + i) + j) / 45 = 2 ^ (n + i) + i := by omega
  have h2 : (45 * (2 ^ (n + i) + i) + j) % 45 = j := by omega
  rw [h1, h2, hlog, Nat.add_sub_cancel_left, hx]
  rfl

theorem clkRobin_fair (sp : Halves χ α β) (f : χ → σ → ρ × σ) (g : χ' → σ → ρ' × σ) (S : Nat → Clk χ α β ρ χ' ρ' σ) :
    ClkFair sp f g S clkRobin := by
  intro e he hs n
  cases hn : e.never with
  | true => exact ⟨n, Nat.le_refl _, .inr (ClkEv.never_step sp f g _ e hn)⟩
  | false =>
    obtain ⟨k, hk, h⟩ := clkRobin_all e he hs hn n
    exact ⟨k, hk, .inl h⟩

/-- The history `exStall`, in which the sink of the W channel was paused and the master is blocked in `send()`, and then a call of
`init_read` and the end of the pause: three writes are under way. They all complete. -/
def exBlocked : List RamClkEv := exStall ++ [.r (.master (.init exR0)), .chan .w (.snkPause false)]

/-- The system after `exBlocked` and then `evs`. -/
abbrev exAfter (evs : List RamClkEv) : RamClk :=
  Clk.run xferHalves (Word.slaveWrite ramTarget exC.lanes true) (Word.slaveRead ramTarget exC.lanes) exM (exBlocked ++ evs)

theorem exBlocked_state :
    (exAfter []).w.m.running = true ∧ (exAfter []).r.m.running = true ∧ (exAfter []).w.m.issued = [exW0, exW1, exW2] ∧
      (exAfter []).w.m.results = [] ∧ (exAfter []).r.m.issued = [] ∧ (exAfter []).r.m.results = [] ∧
      (exAfter []).r.m.wrappers = [exR0] ∧ blocked (exAfter []).w.w = true := by
  decide +kernel

theorem exBlocked_unpaused : Unpaused (exAfter []) :=
  ⟨⟨by decide +kernel, by decide +kernel⟩, ⟨by decide +kernel, by decide +kernel⟩, ⟨by decide +kernel, by decide +kernel⟩,
    ⟨by decide +kernel, by decide +kernel⟩, ⟨by decide +kernel, by decide +kernel⟩⟩

example : ∃ N, ∀ n, N ≤ n →
    (∃ got, (exW0, some got) ∈ (exAfter ((List.range n).map clkRobin)).w.m.results) ∧
    (∃ got, (exW1, some got) ∈ (exAfter ((List.range n).map clkRobin)).w.m.results) ∧
    (∃ got, (exW2, some got) ∈ (exAfter ((List.range n).map clkRobin)).w.m.results) ∧
    ∃ got, (exR0, some got) ∈ (exAfter ((List.range n).map clkRobin)).r.m.results := by
  obtain ⟨h1, h2, h3, h4, h5, h6, h7, _⟩ := exBlocked_state
  have h0 : (List.range 0).map (clkRobin : Nat → RamClkEv) = [] := by simp
  have := C99_completes xferHalves (Word.slaveWrite ramTarget exC.lanes true) (Word.slaveRead ramTarget exC.lanes) exM xferHalves_join
    exBlocked clkRobin clkRobin_progress (clkRobin_fair _ _ _ _) (by simp only [h0]; exact exBlocked_unpaused)
    (by simp only [h0]; exact h1) (by simp only [h0]; exact h2)
  simp only [h0, h3, h4, h5, h6, h7] at this
  obtain ⟨N, hN⟩ := this
  refine ⟨N, fun n hn => ?_⟩
  obtain ⟨_, _, hw, hr⟩ := hN n hn
  exact ⟨hw exW0 (by simp) (by simp), hw exW1 (by simp) (by simp), hw exW2 (by simp) (by simp), hr exR0 (by simp) (by simp)⟩

end Verif.LiteOps
