import Verif.Proof.AxiClockLive
import Verif.Proof.PauseGenSeq

/-!
# A channel whose ends are paused once per clock cycle
-/

namespace Verif.AxiSys

open Verif.Stream (Net NetCfg NetEv Src Snk Pc)
open Verif.PauseGen (Drives Cyc GenFirst SrcFirst Released Frees FreesTwice)

section

variable {α : Type}

/-- Signal writes are going to raise `valid`. -/
def Rise (s : Net α) : Prop := s.src.pc ≠ .due ∧ s.src.nvalid = true ∧ s.src.valid = false

/-- A sleeping sink wakes up only because `pause` changes, or `valid` or its own `ready` rises. -/
def Lull (s t : Net α) : Prop :=
  s.snk.pc = .asleep → t.snk.pc = .asleep ∨ t.snk.pause ≠ s.snk.pause ∨ Rise s ∨ s.snk.nready = true

theorem lull_inner (s : Net α) (e : Inner) (he : e ≠ .snkSpurious) : Lull s (e.step s) := by
  intro hs
  cases e <;> simp only [Inner.step, Net.step]
  case snkSpurious => exact absurd rfl he
  case snkRun => rw [if_neg (by rw [hs]; simp)]; exact .inl hs
  case snkWake => rw [if_neg (by rw [hs]; simp)]; exact .inl hs
  case snkPause v =>
    by_cases hv : s.snk.pause = v
    · left
      simp only [Snk.setPause, hv, ne_eq, not_true, if_false]
      exact hs
    · right; left
      simp only [Snk.setPause]
      exact fun hh => hv hh.symm
  all_goals first | exact .inl hs | (split <;> exact .inl hs)

theorem lull_commit (s : Net α) (hc : canCommit s = true) : Lull s (s.step chanCfg .commit) := by
  intro hs
  have h' := hc
  simp only [canCommit, Bool.and_eq_true, Stream.still_iff] at h'
  by_cases hr : ((s.src.nvalid && !s.src.valid) || (s.snk.nready && !s.snk.ready)) = true
  · right; right
    simp only [Bool.or_eq_true, Bool.and_eq_true, Bool.not_eq_true'] at hr
    rcases hr with hr | hr
    · exact .inl ⟨h'.1.1, hr.1, hr.2⟩
    · exact .inr hr.1
  · left
    simp only [Net.step]
    rw [if_pos (by exact hc), if_neg hr]
    exact hs

theorem lull_tick (s : Net α) : Lull s (s.step chanCfg .tick) := by
  intro hs
  left
  simp only [Net.step]
  split
  · simp only [hs, Pc.tick]
  · exact hs

theorem Lull.refl (s : Net α) : Lull s s := fun h => .inl h

/-- The sink has seen that it is paused, and is about to run after an edge or sleeps. -/
def Doze (s : Net α) : Prop := (s.snk.pc = .due ∨ s.snk.pc = .asleep ∧ s.snk.nready = false) ∧ s.snk.pauseSample = true

/-- The sink is about to look at `pause`, or knows that it is not paused. -/
def Alert (s : Net α) : Prop := s.snk.pc = .due ∨ s.snk.pc = .woken ∨ s.snk.pauseSample = false

theorem quiet_alert {s t : Net α} (q : Quiet s t) (h : Alert s) (hp : t.snk.pause = false) : Alert t := by
  have key : ∀ {t : Net α}, (s.snk.pc = .due → t.snk.pc = .due) → (s.snk.pc = .woken → t.snk.pc = .woken) →
      t.snk.pauseSample = s.snk.pauseSample → Alert t :=
    fun h1 h2 h3 => h.imp h1 (fun hh => hh.imp h2 (fun hh => by rw [h3, hh]))
  cases q with
  | stay => exact h
  | inner e =>
    cases e <;> simp only [Inner.step] at hp ⊢
    case snkRun =>
      by_cases hd : s.snk.pc = .due
      · have f := Phase.snkRun hd
        right; right
        rw [f.2.2.2, ← f.2.2.1, hp]
      · simp only [Net.step, if_neg hd]; exact h
    case snkWake =>
      simp only [Net.step] at hp ⊢
      split
      · rename_i hw
        rw [if_pos hw] at hp
        exact .inr (.inr hp)
      · exact h
    case snkSpurious =>
      simp only [Net.step] at hp ⊢
      split
      · rename_i hw
        rw [if_pos hw] at hp
        exact .inr (.inr hp)
      · exact h
    case snkPause v =>
      simp only [Net.step]
      unfold Snk.setPause
      simp only
      split
      · exact key (fun hh => by simp [Snk.setWake, hh, Pc.wakeUp]) (fun hh => by simp [Snk.setWake, hh, Pc.wakeUp]) rfl
      · exact key id id rfl
    case resume => split <;> exact h
    all_goals
      simp only [Net.step]
      first | exact h | (split <;> exact h)
  | commit _ =>
    simp only [Net.step]
    split
    · split
      · exact key (fun hh => by simp [Snk.setWake, hh, Pc.wakeUp]) (fun hh => by simp [Snk.setWake, hh, Pc.wakeUp]) rfl
      · exact h
    · exact h
  | tick hc =>
    simp only [Net.step]
    split
    · simp only [canTick, Bool.and_eq_true, Stream.still_iff] at hc
      rcases h with h | h | h
      · exact absurd h hc.2.1
      · exact absurd h hc.2.2
      · exact .inr (.inr h)
    · exact h

theorem quiet_doze {s t : Net α} (q : Quiet s t) (l : Lull s t) (hr : ¬ Rise s) (h : Doze s) (hp : s.snk.pause = true) :
    (t.snk.pause = true → Doze t) ∧ (t.snk.pause = false → Alert t) := by
  have same : ∀ {t : Net α}, t.snk = s.snk → (t.snk.pause = true → Doze t) ∧ (t.snk.pause = false → Alert t) := by
    intro t ht
    refine ⟨fun _ => ?_, fun hh => ?_⟩
    · unfold Doze; rw [ht]; exact h
    · rw [ht, hp] at hh; cases hh
  have nw : s.snk.pc ≠ .woken := by rcases h.1 with h1 | ⟨h1, _⟩ <;> rw [h1] <;> simp
  cases q with
  | stay => exact same rfl
  | inner e =>
    cases e <;> simp only [Inner.step] at l ⊢
    case snkRun =>
      by_cases hd : s.snk.pc = .due
      · have f := Phase.snkRun hd
        refine ⟨fun _ => ⟨.inr ?_, by rw [f.2.2.2, hp]⟩, fun hh => by rw [f.2.2.1, hp] at hh; cases hh⟩
        simp only [Net.step, if_pos hd]
        have hcap : (s.snk.capture chanCfg.snk s.src.valid s.src.data).pauseSample = true ∧
            (s.snk.capture chanCfg.snk s.src.valid s.src.data).pause = true := by
          unfold Snk.capture
          simp only
          split <;> exact ⟨h.2, hp⟩
        unfold Snk.run Snk.finish
        have hhr : chanCfg.snk.hasReady = true := rfl
        simp only [hhr, if_true, hcap.1, hcap.2, Bool.or_true, decide_true, Bool.and_self]
        exact ⟨trivial, rfl⟩
      · simp only [Net.step, if_neg hd]; exact same rfl
    case snkWake => simp only [Net.step, if_neg nw]; exact same rfl
    case snkSpurious =>
      by_cases ha : s.snk.pc = .asleep
      · exfalso
        have h1 := l ha
        simp only [Net.step, if_pos ha, Snk.top] at h1
        rcases h1 with h1 | h1 | h1
        · cases h1
        · exact h1 rfl
        · rcases h1 with h1 | h1
          · exact hr h1
          · rcases h.1 with h2 | ⟨_, h2⟩
            · rw [ha] at h2; cases h2
            · rw [h1] at h2; cases h2
      · simp only [Net.step, if_neg ha]; exact same rfl
    case snkPause v =>
      simp only [Net.step]
      cases v with
      | true =>
        refine ⟨fun _ => ?_, fun hh => by simp [Snk.setPause] at hh⟩
        unfold Doze
        simp only [Snk.setPause, hp, ne_eq, not_true, if_false]
        exact h
      | false =>
        refine ⟨fun hh => by simp [Snk.setPause] at hh, fun _ => ?_⟩
        unfold Alert
        simp only [Snk.setPause, hp, ne_eq, Bool.true_eq_false, not_false_eq_true, if_true, Snk.setWake]
        rcases h.1 with h1 | ⟨h1, _⟩
        · left; rw [h1]; rfl
        · right; left; rw [h1]; rfl
    case resume => split <;> exact same rfl
    all_goals
      simp only [Net.step]
      first | exact same rfl | (split <;> exact same rfl)
  | commit hc =>
    have h' := hc
    simp only [canCommit, Bool.and_eq_true, Stream.still_iff] at h'
    have hn : ¬ ((s.src.nvalid && !s.src.valid) || (s.snk.nready && !s.snk.ready)) = true := by
      intro hh
      simp only [Bool.or_eq_true, Bool.and_eq_true, Bool.not_eq_true'] at hh
      rcases hh with hh | hh
      · exact hr ⟨h'.1.1, hh.1, hh.2⟩
      · rcases h.1 with h2 | ⟨_, h2⟩
        · exact h'.2.1 h2
        · rw [h2] at hh; cases hh.1
    simp only [Net.step]
    rw [if_pos (by exact hc), if_neg hn]
    refine ⟨fun _ => h, fun hh => by simp only [hp] at hh; cases hh⟩
  | tick hc =>
    simp only [Net.step]
    rw [if_pos (by exact hc)]
    simp only [canTick, Bool.and_eq_true, Stream.still_iff] at hc
    refine ⟨fun _ => ⟨?_, h.2⟩, fun hh => by simp only [hp] at hh; cases hh⟩
    rcases h.1 with h1 | ⟨h1, h2⟩
    · exact absurd h1 hc.2.1
    · right; simp only [h1, Pc.tick]; exact ⟨trivial, h2⟩

/-- Signal writes taking effect are the only thing that changes `valid`. -/
theorem quiet_valid {s t : Net α} (q : Quiet s t) :
    t.src.valid = s.src.valid ∨ (s.src.pc ≠ .due ∧ t.src.valid = s.src.nvalid) := by
  cases q with
  | stay => exact .inl rfl
  | inner e =>
    left
    cases e <;> simp only [Inner.step, Net.step]
    case srcRun =>
      split
      · exact (Stream.run_signals (c := chanCfg.src) s.src s.snk.ready).1
      · rfl
    case resume =>
      split
      · simp only [Src.resume]
        repeat' split
        all_goals rfl
      · rfl
    all_goals first | rfl | (split <;> rfl)
  | commit hc =>
    have h' := hc
    simp only [canCommit, Bool.and_eq_true, Stream.still_iff] at h'
    right
    refine ⟨h'.1.1, ?_⟩
    simp only [Net.step]
    rw [if_pos (by exact hc)]
  | tick hc =>
    left
    simp only [Net.step]
    split <;> rfl

theorem canTick_still {s : Net α} (h : canTick s = true) (hon : ChanOn s) :
    (s.src.pc = .edge ∨ s.src.pc = .asleep) ∧ (s.snk.pc = .edge ∨ s.snk.pc = .asleep) := by
  simp only [canTick, Bool.and_eq_true, Stream.still_iff] at h
  obtain ⟨⟨_, h1, h2⟩, h3, h4⟩ := h
  obtain ⟨h5, h6⟩ := hon
  constructor
  · cases hp : s.src.pc <;> simp_all
  · cases hp : s.snk.pc <;> simp_all

theorem tick_pcs {s : Net α} (h : canTick s = true) :
    (s.step chanCfg .tick).src.pc = s.src.pc.tick ∧ (s.step chanCfg .tick).snk.pc = s.snk.pc.tick ∧
    (s.step chanCfg .tick).snk.pauseSample = s.snk.pauseSample := by
  simp only [Net.step]
  rw [if_pos (by exact h)]
  exact ⟨rfl, rfl, rfl⟩

/-- A sink whose `pause` changes at most once per clock cycle, and is not set again and again at clock edges, notices it. -/
theorem snk_frees {edge : Nat → Prop} {s : Nat → Net α} {d : Nat → Bool} {N : Nat} (hph : ∀ n, Phase (s n))
    (hq : ∀ n, N ≤ n → Quiet (s n) (s (n + 1))) (hl : ∀ n, N ≤ n → Lull (s n) (s (n + 1)))
    (ht : ∀ k, edge k → canTick (s k) = true ∧ s (k + 1) = (s k).step chanCfg .tick)
    (hd : Drives edge d (fun n => (s n).snk.pause))
    (hf : ∀ n, ∃ i j, n ≤ i ∧ Cyc edge i j ∧ (s j).snk.pause = false) (n0 : Nat) :
    ∃ k, n0 ≤ k ∧ edge k ∧ (s k).snk.pauseSample = false := by
  /- the transactions do not move any more -/
  obtain ⟨M, hM⟩ := settles (fun n => far (s (N + n))) (fun n => by
    rcases (hph _).rank (hq (N + n) (by omega)) with h1 | h1
    · exact Nat.le_of_lt h1
    · exact Nat.le_of_eq h1.far)
  have hstill : ∀ n, N + M ≤ n → (s (n + 1)).onBus chanCfg = (s n).onBus chanCfg := by
    intro n hn
    rcases (hph n).rank (hq n (by omega)) with h1 | h1
    · have e1 := hM (n - N) (by omega)
      have e2 := hM (n + 1 - N) (by omega)
      rw [show N + (n - N) = n by omega] at e1
      rw [show N + (n + 1 - N) = n + 1 by omega] at e2
      omega
    · exact h1.bus
  obtain ⟨i, j, hi, hc, hj⟩ := hf (max (N + M) n0)
  by_cases hs : (s i).snk.pauseSample = false
  · exact ⟨i, by omega, hc.start, hs⟩
  refine ⟨j, by have := hc.lt; omega, hc.stop, ?_⟩
  have hs' : (s i).snk.pauseSample = true := by simpa using hs
  obtain ⟨c1, c2⟩ := ht i hc.start
  obtain ⟨p1, p2, p3⟩ := tick_pcs c1
  rw [← c2] at p1 p2 p3
  have hst := canTick_still c1 (hph i).on
  have hstj := canTick_still (ht j hc.stop).1 (hph j).on
  /- `valid` does not rise in this cycle -/
  have bus : ∀ e, (s (i + e)).onBus chanCfg = (s i).onBus chanCfg := by
    intro e
    induction e with
    | zero => rfl
    | succ e ih => rw [← Nat.add_assoc, hstill (i + e) (by omega), ih]
  have hnv : ∀ e, (s (i + e)).src.pc ≠ .due → ((s (i + e)).src.nvalid = true ↔ (s i).onBus chanCfg ≠ []) := by
    intro e he
    have h1 := Stream.net_bus_not_due chanCfg (s (i + e)) he
    rw [bus] at h1
    rw [h1]
    constructor
    · intro hv
      obtain ⟨x, hx⟩ := (hph (i + e)).inv.net.src.data hv
      rw [hv, hx]
      simp
    · intro hne
      cases hv : (s (i + e)).src.nvalid with
      | true => rfl
      | false => rw [hv] at hne; simp at hne
  have hsrc : (s i).src.pc ≠ .due := by rcases hst.1 with h1 | h1 <;> rw [h1] <;> simp
  have hset : (s i).settled = true := by
    simp only [canTick, Bool.and_eq_true] at c1
    exact c1.1.1
  have hval : (s i).onBus chanCfg ≠ [] → ∀ e, (s (i + e)).src.valid = true := by
    intro hne e
    induction e with
    | zero =>
      rw [show s (i + 0) = s i from rfl, ((hph i).inv.net.set hset).1]
      exact (hnv 0 hsrc).2 hne
    | succ e ih =>
      rcases quiet_valid (hq (i + e) (by omega)) with h1 | ⟨h1, h2⟩
      · rw [← Nat.add_assoc, h1, ih]
      · rw [← Nat.add_assoc, h2]
        exact (hnv e h1).2 hne
  have norise : ∀ e, ¬ Rise (s (i + e)) := by
    rintro e ⟨h1, h2, h3⟩
    have := hval ((hnv e h1).1 h2) e
    rw [this] at h3
    cases h3
  /- the state of the sink in this cycle -/
  have main : ∀ e, i + 1 + e ≤ j →
      ((s (i + 1 + e)).snk.pause = true ∧ Doze (s (i + 1 + e))) ∨ ((s (i + 1 + e)).snk.pause = false ∧ Alert (s (i + 1 + e))) := by
    intro e
    induction e with
    | zero =>
      intro _
      show ((s (i + 1)).snk.pause = true ∧ Doze (s (i + 1))) ∨ ((s (i + 1)).snk.pause = false ∧ Alert (s (i + 1)))
      have hsame := hd.same i (hd.idle i hc.start)
      rcases hst.2 with h1 | h1
      · rw [h1] at p2
        cases hp : (s (i + 1)).snk.pause with
        | true => exact .inl ⟨rfl, .inl p2, by rw [p3, hs']⟩
        | false => exact .inr ⟨rfl, .inl p2⟩
      · rw [h1] at p2
        have h2 := (hph i).live.sample h1
        rw [hs'] at h2
        have h3 : (s (i + 1)).snk.pause = true := by rw [hsame, ← h2]
        refine .inl ⟨h3, .inr ⟨p2, ?_⟩, by rw [p3, hs']⟩
        rw [(hph (i + 1)).live.live p2 rfl, h3]
        simp
    | succ e ih =>
      intro he
      rcases ih (by omega) with ⟨h1, h2⟩ | ⟨h1, h2⟩
      · have q := quiet_doze (hq (i + 1 + e) (by omega)) (hl (i + 1 + e) (by omega))
          (by rw [Nat.add_assoc]; exact norise (1 + e)) h2 h1
        cases hp : (s (i + 1 + (e + 1))).snk.pause with
        | true => exact .inl ⟨rfl, q.1 hp⟩
        | false => exact .inr ⟨rfl, q.2 hp⟩
      · have hp : (s (i + 1 + (e + 1))).snk.pause = false := by
          cases hde : d (i + 1 + e) with
          | false => exact (hd.same _ hde).trans h1
          | true =>
            rcases hd.either hc (n := i + 1 + (e + 1)) (by omega) he with h3 | h3
            · have h4 := hd.before hc (n := i + 1 + e) (by omega) (by omega) hde
              rw [h3, ← h4, h1]
            · rw [h3, hj]
        exact .inr ⟨hp, quiet_alert (hq (i + 1 + e) (by omega)) h2 hp⟩
  have h5 := main (j - (i + 1)) (by have := hc.lt; omega)
  have e : i + 1 + (j - (i + 1)) = j := by have := hc.lt; omega
  rw [e] at h5
  rcases h5 with ⟨h5, _⟩ | ⟨_, h5⟩
  · rw [hj] at h5; cases h5
  · rcases h5 with h5 | h5 | h5
    · rcases hstj.2 with h6 | h6 <;> rw [h6] at h5 <;> cases h5
    · rcases hstj.2 with h6 | h6 <;> rw [h6] at h5 <;> cases h5
    · exact h5

/-- In a clock cycle the source has its turn, unless it sleeps. -/
theorem src_runs {edge : Nat → Prop} {s : Nat → Net α} (hon : ∀ n, ChanOn (s n))
    (ht : ∀ k, edge k → canTick (s k) = true ∧ s (k + 1) = (s k).step chanCfg .tick) {i j : Nat} (hc : Cyc edge i j) :
    (s i).src.pc = .asleep ∨ ∃ r, i < r ∧ r < j ∧ (s (r + 1)).src.pc ≠ .due ∧ ∀ m, i < m → m ≤ r → (s m).src.pc = .due := by
  obtain ⟨c1, c2⟩ := ht i hc.start
  have hst := canTick_still c1 (hon i)
  have hstj := canTick_still (ht j hc.stop).1 (hon j)
  rcases hst.1 with h1 | h1
  · right
    have p1 := (tick_pcs c1).1
    rw [← c2, h1] at p1
    refine Classical.byContradiction fun hno => ?_
    have hdue : ∀ e, i + 1 + e ≤ j → ∀ m, i < m → m ≤ i + 1 + e → (s m).src.pc = .due := by
      intro e
      induction e with
      | zero =>
        intro _ m h2 h3
        have : m = i + 1 := by omega
        rw [this]
        exact p1
      | succ e ih =>
        intro he m h2 h3
        by_cases hm : m ≤ i + 1 + e
        · exact ih (by omega) m h2 hm
        · have : m = i + 1 + e + 1 := by omega
          rw [this]
          refine Classical.byContradiction fun hnd => hno ⟨i + 1 + e, by omega, by omega, hnd, fun m a c => ih (by omega) m a c⟩
    have := hdue (j - (i + 1)) (by have := hc.lt; omega) j hc.lt (by omega)
    rcases hstj.1 with h6 | h6 <;> rw [h6] at this <;> cases this
  · exact .inl h1

theorem src_frees_gen {edge : Nat → Prop} {s : Nat → Net α} {d : Nat → Bool} {N : Nat} (hon : ∀ n, ChanOn (s n))
    (ht : ∀ k, edge k → canTick (s k) = true ∧ s (k + 1) = (s k).step chanCfg .tick)
    (hd : Drives edge d (fun n => (s n).src.pause)) (hg : GenFirst s d N)
    (hf : ∀ n, ∃ i j, n ≤ i ∧ Cyc edge i j ∧ (s j).src.pause = false) (n0 : Nat) :
    ∃ k, n0 ≤ k ∧ SrcTurn (s k) (s (k + 1)) := by
  obtain ⟨i, j, hi, hc, hj⟩ := hf (max N n0)
  rcases src_runs hon ht hc with h1 | ⟨r, h1, h2, h3, h4⟩
  · exact ⟨i, by omega, .inl h1⟩
  · have h5 := h4 r h1 (Nat.le_refl r)
    refine ⟨r, by omega, .inr ⟨h5, h3, ?_⟩⟩
    have := hd.after hc h1 (Nat.le_of_lt h2) (hg r (by omega) h5 h3)
    rw [this, hj]

theorem src_frees_src {edge : Nat → Prop} {s : Nat → Net α} {d : Nat → Bool} {N : Nat} (hon : ∀ n, ChanOn (s n))
    (ht : ∀ k, edge k → canTick (s k) = true ∧ s (k + 1) = (s k).step chanCfg .tick)
    (hd : Drives edge d (fun n => (s n).src.pause)) (hg : SrcFirst s d N)
    (hf : ∀ n, ∃ i j, n ≤ i ∧ Cyc edge i j ∧ (s i).src.pause = false) (n0 : Nat) :
    ∃ k, n0 ≤ k ∧ SrcTurn (s k) (s (k + 1)) := by
  obtain ⟨i, j, hi, hc, hj⟩ := hf (max N n0)
  rcases src_runs hon ht hc with h1 | ⟨r, h1, h2, h3, h4⟩
  · exact ⟨i, by omega, .inl h1⟩
  · refine ⟨r, by omega, .inr ⟨h4 r h1 (Nat.le_refl r), h3, ?_⟩⟩
    have key : ∀ e, i + e ≤ r → (s (i + e)).src.pause = false := by
      intro e
      induction e with
      | zero => exact fun _ => hj
      | succ e ih =>
        intro he
        have hprev := ih (by omega)
        have step : (s (i + e + 1)).src.pause = (s (i + e)).src.pause := by
          cases hde : d (i + e) with
          | false => exact hd.same _ hde
          | true =>
            cases hde' : d (i + e + 1) with
            | true => exact hd.keep _ hde'
            | false =>
              have h5 := hg (i + e) (by omega) hde hde'
              by_cases he0 : e = 0
              · subst he0
                have := hd.idle i hc.start
                rw [show i + 0 = i from rfl] at hde
                rw [this] at hde
                cases hde
              · exact absurd (h4 (i + e) (by omega) (by omega)) h5
        rw [← Nat.add_assoc, step, hprev]
    have := key (r - i) (by omega)
    rw [show i + (r - i) = r by omega] at this
    exact this

theorem src_frees_twice {edge : Nat → Prop} {s : Nat → Net α} {d : Nat → Bool} (hon : ∀ n, ChanOn (s n))
    (ht : ∀ k, edge k → canTick (s k) = true ∧ s (k + 1) = (s k).step chanCfg .tick)
    (hd : Drives edge d (fun n => (s n).src.pause))
    (hf : ∀ n, ∃ i j, n ≤ i ∧ Cyc edge i j ∧ (s i).src.pause = false ∧ (s j).src.pause = false) (n0 : Nat) :
    ∃ k, n0 ≤ k ∧ SrcTurn (s k) (s (k + 1)) := by
  obtain ⟨i, j, hi, hc, hj, hj'⟩ := hf n0
  rcases src_runs hon ht hc with h1 | ⟨r, h1, h2, h3, h4⟩
  · exact ⟨i, by omega, .inl h1⟩
  · refine ⟨r, by omega, .inr ⟨h4 r h1 (Nat.le_refl r), h3, ?_⟩⟩
    rcases hd.either hc h1 (Nat.le_of_lt h2) with h5 | h5
    · exact h5.trans hj
    · exact h5.trans hj'

/-- Every value of a generator comes up at an edge. -/
def Shows (edge : Nat → Prop) (p : Nat → Bool) (l : Nat → Bool) : Prop :=
  ∀ n, ∃ Q, ∀ q, Q ≤ q → ∃ i j, n ≤ i ∧ Cyc edge i j ∧ p i = l q ∧ p j = l (q + 1)

/-- A channel whose ends are released again and again by the generators is not blocked for ever. -/
theorem open_of {edge : Nat → Prop} {s : Nat → Net α} {d d' : Nat → Bool} {l l' : Nat → Bool} {N : Nat} (hph : ∀ n, Phase (s n))
    (hq : ∀ n, N ≤ n → Quiet (s n) (s (n + 1))) (hl : ∀ n, N ≤ n → Lull (s n) (s (n + 1)))
    (ht : ∀ k, edge k → canTick (s k) = true ∧ s (k + 1) = (s k).step chanCfg .tick)
    (hd : Drives edge d (fun n => (s n).src.pause)) (hd' : Drives edge d' (fun n => (s n).snk.pause))
    (hs : Shows edge (fun n => (s n).src.pause) l) (hs' : Shows edge (fun n => (s n).snk.pause) l')
    (hr : Released s d l l') : Open edge s := by
  have last : ∀ {p l : Nat → Bool}, Shows edge p l → Frees l → ∀ n, ∃ i j, n ≤ i ∧ Cyc edge i j ∧ p j = false := by
    intro p l hs hf n
    obtain ⟨Q, hQ⟩ := hs n
    obtain ⟨q, h1, h2⟩ := hf (Q + 1)
    obtain ⟨i, j, h3, h4, _, h5⟩ := hQ (q - 1) (by omega)
    rw [show q - 1 + 1 = q by omega, h2] at h5
    exact ⟨i, j, h3, h4, h5⟩
  have hon : ∀ n, ChanOn (s n) := fun n => (hph n).on
  refine ⟨?_, snk_frees hph hq hl ht hd' (last hs' hr.snk)⟩
  rcases hr.src with h1 | ⟨h1, M, h2 | h2⟩
  · refine src_frees_twice hon ht hd (fun n => ?_)
    obtain ⟨Q, hQ⟩ := hs n
    obtain ⟨q, h2, h3, h4⟩ := h1 Q
    obtain ⟨i, j, h5, h6, h7, h8⟩ := hQ q h2
    exact ⟨i, j, h5, h6, h7.trans h3, h8.trans h4⟩
  · exact src_frees_gen hon ht hd h2 (last hs h1)
  · refine src_frees_src hon ht hd h2 (fun n => ?_)
    obtain ⟨Q, hQ⟩ := hs n
    obtain ⟨q, h3, h4⟩ := h1 Q
    obtain ⟨i, j, h5, h6, h7, _⟩ := hQ q h3
    exact ⟨i, j, h5, h6, h7.trans h4⟩

end

end Verif.AxiSys
