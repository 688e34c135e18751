import Verif.Proof.PauseGenAxis
import Verif.Props.PauseGenBus

/-!
# C100 and C101 for AXI stream: pause generators of a source and a sink

`GSys.run [false, true] b {} evs` is the state after an arbitrary history `evs` of an AXI stream source connected to a sink; `false` is the source, `true` the sink. A
history is a sequence of calls (of the operations, of the `pause` setters and of `set_pause_generator`), pieces of coroutines, resets, signal writes taking effect
and clock edges, in any order that the simulator allows.
-/

namespace Verif.PauseGen

open Verif.Stream (Pc still_iff)
open Verif.Axis

theorem axis_setters (c : NetCfg) : OnlySetters (axisBase c) := fun k e he s => axis_keeps c k e he s

/-- **C100, AXI stream.** After `set_pause_generator(generator)` at the source or the sink, in any state, and until `pause` or the generator there are set anew,
`pause` has at every clock edge the next value of the generator; when the generator has ended, the last value remains. -/
theorem C100_axis (c : NetCfg) (evs later : List (GEv Bool NetEv)) (k : Bool) (vals : Nat → Option Bool) (e : GEv Bool NetEv) :
    let b := axisBase c
    let before := GSys.run [false, true] b {} evs
    let after := GSys.run [false, true] b {} (evs ++ .setGen k (some vals) :: later)
    (∀ x ∈ later, x.leaves b k) → after.edge [false, true] b e = true →
    b.pause after.s k = level vals (b.pause before.s k)
      (edgesIn [false, true] b (before.step [false, true] b (.setGen k (some vals))) later + 1) := by
  intro b before after hlt he
  have ha : after = _ := run_append (ends := [false, true]) (b := b) {} evs later _
  rw [ha] at he ⊢
  exact follows_gen (axis_laws c) (axis_setters c) before k vals later hlt e he

/-- **C100, AXI stream, `clear_pause_generator`.** `pause` stays as it is. -/
theorem C100_axis_cleared (c : NetCfg) (evs later : List (GEv Bool NetEv)) (k : Bool) :
    let b := axisBase c
    (∀ x ∈ later, x.leaves b k) →
    b.pause (GSys.run [false, true] b {} (evs ++ .setGen k none :: later)).s k = b.pause (GSys.run [false, true] b {} evs).s k := by
  intro b hlt
  rw [run_append]
  exact keeps_cleared (axis_laws c) (axis_setters c) _ k later hlt

/-! ## C101 -/

/-- What the projection of an event is. -/
theorem axis_proj (c : NetCfg) (g : GSys Bool Net) (e : GEv Bool NetEv) :
    (∃ x, e = .ev x ∧ proj [false, true] (axisBase c) axisIdle g e = x ∧ (x = .tick → g.anyDue [false, true] = false)) ∨
    (∃ v, proj [false, true] (axisBase c) axisIdle g e = .srcPause v) ∨ (∃ v, proj [false, true] (axisBase c) axisIdle g e = .snkPause v) ∨
    proj [false, true] (axisBase c) axisIdle g e = .srcWake ∨ (proj [false, true] (axisBase c) axisIdle g e = .srcRun ∧ g.s.src.pc ≠ .due) := by
  have hid : axisIdle g.s = .srcWake ∨ (axisIdle g.s = .srcRun ∧ g.s.src.pc ≠ .due) := by
    unfold axisIdle
    split
    · exact .inl rfl
    · rename_i h; exact .inr ⟨rfl, h⟩
  cases e with
  | ev e =>
    simp only [proj]
    split
    · exact .inr (.inr (.inr hid))
    · rename_i hn
      refine .inl ⟨e, rfl, rfl, fun h1 => ?_⟩
      subst h1
      have : (axisBase c).isTick .tick = true := rfl
      rw [this, Bool.true_and] at hn
      simpa using hn
  | gen j =>
    simp only [proj]
    split
    · split
      · split
        · cases j
          · exact .inr (.inl ⟨_, rfl⟩)
          · exact .inr (.inr (.inl ⟨_, rfl⟩))
        · exact .inr (.inr (.inr hid))
      · exact .inr (.inr (.inr hid))
    · exact .inr (.inr (.inr hid))
  | setGen j v =>
    simp only [proj]
    exact .inr (.inr (.inr hid))

theorem axis_clean (c : NetCfg) (g : GSys Bool Net) {e : GEv Bool NetEv} (he : axisPast e) :
    (proj [false, true] (axisBase c) axisIdle g e).clean = true := by
  rcases axis_proj c g e with ⟨x, rfl, h2, _⟩ | ⟨v, h⟩ | ⟨v, h⟩ | h | ⟨h, _⟩
  · rw [h2]; exact he
  all_goals rw [h]; rfl

theorem axis_cleans (c : NetCfg) (evs : List (GEv Bool NetEv)) (hev : ∀ e ∈ evs, axisPast e) (g : GSys Bool Net) :
    ∀ e ∈ projs [false, true] (axisBase c) axisIdle g evs, e.clean = true := by
  induction evs generalizing g with
  | nil => intro e he; cases he
  | cons x evs ih =>
    intro e he
    simp only [projs, List.mem_cons] at he
    rcases he with rfl | he
    · exact axis_clean c g (hev x (by simp))
    · exact ih (fun y hy => hev y (by simp [hy])) _ e he

theorem axis_plays (c : NetCfg) {e : GEv Bool NetEv} (he : e.plays axisPiece) (k : Bool) : e.keeps (axisBase c) k := by
  cases e with
  | ev e =>
    refine axis_keeps c k e fun v hv => ?_
    cases k
    · exact he.2.1 v hv
    · exact he.2.2.1 v hv
  | gen j => trivial
  | setGen j v => exact he.elim

/-- A source that was about to run and is not any more has run. -/
theorem src_turn {c : NetCfg} {s : Net} {e : NetEv} (he : e.clean = true) (h1 : s.src.pc = .due) (h2 : (s.step c e).src.pc ≠ .due) : e = .srcRun := by
  rcases step_src c s e he with ⟨h, _⟩ | k
  · exact h
  · exact absurd (k.due h1) h2

/-- The system without the generators, under the schedule that has the same effect on it. -/
theorem axis_live (c : NetCfg) (hl : 0 < c.bus.lanes) (hv : c.bus.hasValid = true) (evs : List (GEv Bool NetEv)) (hev : ∀ e ∈ evs, axisPast e)
    (sched : Nat → GEv Bool NetEv) (hs : ∀ n, (sched n).plays axisPiece) (G : Nat → GSys Bool Net)
    (hG : ∀ n, G n = GSys.run [false, true] (axisBase c) {} (.ev (.snkReset false) :: evs ++ (List.range n).map sched))
    (hpr : ∀ n, ∀ f ∈ (G n).s.src.sent, f.proper) (hson : (G 0).s.src.pc ≠ .off) (hkon : (G 0).s.snk.pc ≠ .off) :
    (∀ n, G (n + 1) = (G n).step [false, true] (axisBase c) (sched n)) ∧
    (∀ n, (proj [false, true] (axisBase c) axisIdle (G n) (sched n)).clean = true) ∧
    (∃ evs' : List NetEv, (∀ e ∈ evs', e.clean = true) ∧ ∀ n, (G n).s =
      Net.exec c (.snkReset false :: evs' ++ (List.range n).map fun n => proj [false, true] (axisBase c) axisIdle (G n) (sched n))) ∧
    NetLive c (fun n => (G n).s) (fun n => proj [false, true] (axisBase c) axisIdle (G n) (sched n)) := by
  have hlaws := axis_laws c
  have hsucc : ∀ n, G (n + 1) = (G n).step [false, true] (axisBase c) (sched n) := by
    intro n
    rw [hG, hG]
    simp only [GSys.run]
    rw [List.range_succ, List.map_append, ← List.append_assoc, List.foldl_append]
    rfl
  let sched' : Nat → NetEv := fun n => proj [false, true] (axisBase c) axisIdle (G n) (sched n)
  let evs' := projs [false, true] (axisBase c) axisIdle { s := ({} : Net).step c (.snkReset false) } evs
  have hev' : ∀ e ∈ evs', e.clean = true := axis_cleans c evs hev _
  have hsc' : ∀ n, (sched' n).clean = true := by
    intro n
    refine axis_clean c (G n) ?_
    have := hs n
    revert this
    cases sched n with
    | ev e => exact fun h => h.1
    | gen j => exact fun _ => trivial
    | setGen j v => exact fun _ => trivial
  have hbase : ∀ n, (G n).s = (evs' ++ (List.range n).map sched').foldl (axisBase c).step (({} : Net).step c (.snkReset false)) := by
    intro n
    induction n with
    | zero =>
      rw [hG]
      simp only [List.range_zero, List.map_nil, List.append_nil]
      exact projs_run hlaws { s := ({} : Net).step c (.snkReset false) } evs
    | succ n ih =>
      rw [List.range_succ, List.map_append, ← List.append_assoc, List.foldl_append, ← ih, hsucc]
      exact proj_step hlaws (G n) (sched n)
  have hboth : ∀ n, (G n).s = Net.exec c (.snkReset false :: evs' ++ (List.range n).map sched') ∧ (G n).s.src.crashed = false := by
    intro n
    have hcl : ∀ e ∈ evs' ++ (List.range n).map sched', e.clean = true := by
      intro e he
      rcases List.mem_append.1 he with he | he
      · exact hev' e he
      · obtain ⟨k, _, rfl⟩ := List.mem_map.1 he
        exact hsc' k
    have := axis_exec hl hv (evs' ++ (List.range n).map sched') hcl (by rw [← hbase]; exact hpr n)
    rw [← hbase] at this
    rw [List.cons_append, this.1]
    exact ⟨rfl, this.2⟩
  have hlive := netLive_of hl hv hev' hsc' (S := fun n => (G n).s) (fun n => (hboth n).1) hpr hson hkon
  exact ⟨hsucc, hsc', ⟨evs', hev', fun n => (hboth n).1⟩, hlive⟩

/-- That schedule withholds nothing for ever. -/
theorem axis_alone (c : NetCfg) (hl : 0 < c.bus.lanes) (hv : c.bus.hasValid = true) (evs : List (GEv Bool NetEv)) (hev : ∀ e ∈ evs, axisPast e)
    (sched : Nat → GEv Bool NetEv) (hs : ∀ n, (sched n).plays axisPiece) (G : Nat → GSys Bool Net)
    (hG : ∀ n, G n = GSys.run [false, true] (axisBase c) {} (.ev (.snkReset false) :: evs ++ (List.range n).map sched))
    (hpr : ∀ n, ∀ f ∈ (G n).s.src.sent, f.proper) (hson : (G 0).s.src.pc ≠ .off) (hkon : (G 0).s.snk.pc ≠ .off) (hr : AxisReleased c G sched) :
    ∃ (evs' : List NetEv) (sched' : Nat → NetEv),
      (∀ e ∈ evs', e.clean = true) ∧ (∀ n, (sched' n).clean = true) ∧
      (∀ n, (G n).s = Net.exec c (.snkReset false :: evs' ++ (List.range n).map sched')) ∧ NetFlows c (fun n => (G n).s) sched' ∧
      (∀ n, (∃ x, sched n = .ev x ∧ sched' n = x) ∨ (sched' n).sends = false) ∧ (∀ n i, sched n = .ev (.resume i) → sched' n = .resume i) := by
  have hlaws := axis_laws c
  obtain ⟨hsucc, hsc', ⟨evs', hev', hexec⟩, hlive⟩ := axis_live c hl hv evs hev sched hs G hG hpr hson hkon
  have hfair : Fair [false, true] (axisBase c) (fun _ => False) G sched := by
    refine ⟨fun e he => he.elim, fun j n => ?_⟩
    obtain ⟨k, hk, _, _, _, _, h⟩ := hr.edges n
    exact ⟨k, hk, .inr (anyDue_false hlaws h j)⟩
  have hgr : GRun [false, true] (axisBase c) axisIdle (fun _ => False) G sched :=
    ⟨hlaws, by rw [hG]; exact Sane.run _ _, hsucc, fun n k => axis_plays c (hs n) k, hfair⟩
  let sched' : Nat → NetEv := fun n => proj [false, true] (axisBase c) axisIdle (G n) (sched n)
  have hboth : ∀ n, (G n).s = Net.exec c (.snkReset false :: evs' ++ (List.range n).map sched') ∧ (G n).s.src.crashed = false :=
    fun n => ⟨hexec n, (hlive.running n).1⟩
  have hproj := fun n => axis_proj c (G n) (sched n)
  have hedge : ∀ k, Edge [false, true] (axisBase c) G sched k ↔ NetEdge (fun n => (G n).s) sched' k := by
    intro k
    constructor
    · rintro ⟨e, h1, h2, h3, h4⟩
      have he : e = .tick := by
        cases e <;> simp only [axisBase, Bool.false_eq_true] at h2
        rfl
      subst he
      have h5 : ((G k).s.settled && (G k).s.src.pc.still && (G k).s.snk.pc.still) = true := h3
      simp only [Bool.and_eq_true] at h5
      refine ⟨?_, h5.1.1, h5.1.2, h5.2⟩
      simp only [sched', h1, proj, h4, Bool.and_false, Bool.false_eq_true, if_false]
    · rintro ⟨h1, h2, h3, h4⟩
      rcases hproj k with ⟨x, h5, h6, h7⟩ | ⟨v, h⟩ | ⟨v, h⟩ | h | ⟨h, _⟩
      · have hx : x = .tick := h6.symm.trans h1
        subst hx
        refine ⟨.tick, h5, rfl, ?_, h7 rfl⟩
        show ((G k).s.settled && (G k).s.src.pc.still && (G k).s.snk.pc.still) = true
        rw [h2, h3, h4]
        rfl
      all_goals have h' := h1.symm.trans h; cases h'
  have hedges : Edge [false, true] (axisBase c) G sched = NetEdge (fun n => (G n).s) sched' := funext fun k => propext (hedge k)
  refine ⟨evs', sched', hev', hsc', fun n => (hboth n).1, ⟨?_, ?_, ?_, hr.room⟩, ?_, ?_⟩
  · intro n
    obtain ⟨k, hk, h⟩ := hr.edges n
    exact ⟨k, hk, (hedge k).1 h⟩
  · intro n
    obtain ⟨k, hk, h⟩ := turn_frees (w := fun n => decide ((G n).s.src.pc ≠ .asleep)) (hgr.drives false)
      (fun i hi => by
        obtain ⟨h1, h2, h3, h4⟩ := (hedge i).1 hi
        refine ⟨by simp [(still_iff.1 h3).1], fun hw => ?_⟩
        simp only [decide_eq_true_eq] at hw ⊢
        rw [hlive.step i, show proj [false, true] (axisBase c) axisIdle (G i) (sched i) = .tick from h1]
        unfold Net.step
        rw [if_neg (by rw [(hboth i).2]; simp)]
        simp only
        rw [if_pos (by rw [h2, h3, h4]; rfl)]
        have hoff := (hlive.running i).2.1
        have hst := still_iff.1 h3
        simp only at hoff hst ⊢
        revert hoff hst hw
        cases (G i).s.src.pc <;> simp [Pc.tick])
      (fun n => ⟨_, fun q hq => hgr.cycle hr.edges false n q hq⟩) hr.src n
    refine ⟨k, hk, h.imp (fun h1 => by simpa using h1) fun ⟨h1, h2, h3⟩ => ?_⟩
    simp only [decide_eq_true_eq, decide_eq_false_iff_not] at h1 h2
    rw [hlive.step k] at h2
    exact ⟨src_turn (hsc' k) h1 h2, h1, h3⟩
  · intro hready n
    refine hlive.snk_frees hready ?_ (d := fun n => (G n).due true) ?_ ?_ n
    · intro n hn
      rcases hproj n with ⟨x, h5, h6, h7⟩ | ⟨v, h⟩ | ⟨v, h⟩ | h | ⟨h, _⟩
      · have := hs n
        rw [h5] at this
        exact this.2.2.2 (h6.symm.trans hn)
      all_goals have h' := hn.symm.trans h; cases h'
    · rw [← hedges]; exact hgr.drives true
    · intro n
      rw [← hedges]
      obtain ⟨q, hq, hqf⟩ := hr.snk hready (edgesBefore [false, true] (axisBase c) G sched n + (G 0).dueN true + 1)
      obtain ⟨i, j, h1, h2, _, h4⟩ := hgr.cycle hr.edges true n (q - 1) (by omega)
      rw [show q - 1 + 1 = q by omega, hqf] at h4
      exact ⟨i, j, h1, h2, h4⟩
  · intro n
    rcases hproj n with ⟨x, h5, h6, h7⟩ | ⟨v, h⟩ | ⟨v, h⟩ | h | ⟨h, _⟩
    · exact .inl ⟨x, h5, h6⟩
    all_goals exact .inr (by simp only [sched', h]; rfl)
  · intro n i h
    simp only [sched', h, proj]
    rfl

/-- **C101, AXI stream.** After any history `evs` at whose end both sides run, with pause generators at the source and the sink, let things go on for ever (`sched`):
without reset, `clear()` and assignments to `pause`, but with any further calls, in any order of the coroutines. If clock edges keep coming, the generators release
both sides again and again and the sink's queue is not over its limit for ever (`AxisReleased`), then every non-empty frame sent, at whatever instant, arrives. -/
theorem C101_axis_delivered (c : NetCfg) (hl : 0 < c.bus.lanes) (hv : c.bus.hasValid = true) (hla : c.bus.hasLast = true)
    (evs : List (GEv Bool NetEv)) (hev : ∀ e ∈ evs, axisPast e) (sched : Nat → GEv Bool NetEv) (hs : ∀ n, (sched n).plays axisPiece)
    (G : Nat → GSys Bool Net)
    (hG : ∀ n, G n = GSys.run [false, true] (axisBase c) {} (.ev (.snkReset false) :: evs ++ (List.range n).map sched))
    (hpr : ∀ n, ∀ f ∈ (G n).s.src.sent, f.proper) (hson : (G 0).s.src.pc ≠ .off) (hkon : (G 0).s.snk.pc ≠ .off) (hr : AxisReleased c G sched) (n : Nat) :
    ∃ N, ∀ k, N ≤ k → (nonEmpty (G n).s.src.sent).map (fun f => frameOf c.bus (beats c.bus f)) <+:
      (G k).s.snk.taken.map (·.2) ++ (G k).s.snk.queue := by
  obtain ⟨evs', sched', h1, h2, h3, h4, _⟩ := axis_alone c hl hv evs hev sched hs G hG hpr hson hkon hr
  exact C123_delivered c hl hv hla evs' h1 sched' h2 (fun n => (G n).s) h3 hpr hson hkon h4 n

/-- **C101, AXI stream, beats.** The same without `tlast`: every beat of every frame sent is captured, in order. -/
theorem C101_axis_captured (c : NetCfg) (hl : 0 < c.bus.lanes) (hv : c.bus.hasValid = true)
    (evs : List (GEv Bool NetEv)) (hev : ∀ e ∈ evs, axisPast e) (sched : Nat → GEv Bool NetEv) (hs : ∀ n, (sched n).plays axisPiece)
    (G : Nat → GSys Bool Net)
    (hG : ∀ n, G n = GSys.run [false, true] (axisBase c) {} (.ev (.snkReset false) :: evs ++ (List.range n).map sched))
    (hpr : ∀ n, ∀ f ∈ (G n).s.src.sent, f.proper) (hson : (G 0).s.src.pc ≠ .off) (hkon : (G 0).s.snk.pc ≠ .off) (hr : AxisReleased c G sched) (n : Nat) :
    ∃ N, ∀ k, N ≤ k → (G n).s.src.sent.flatMap (beats c.bus) <+: (G k).s.snk.captured := by
  obtain ⟨evs', sched', h1, h2, h3, h4, _⟩ := axis_alone c hl hv evs hev sched hs G hG hpr hson hkon hr
  exact C123_captured c hl hv evs' h1 sched' h2 (fun n => (G n).s) h3 hpr hson hkon h4 n

/-- **C101, AXI stream, the end.** If nothing more is sent, and blocked calls of `send` whose event was set get their turn, then from some instant on no call of
`send` is blocked, the source is idle and its `wait()` returns, and the sink has captured exactly the beats of all frames. -/
theorem C101_axis_idle (c : NetCfg) (hl : 0 < c.bus.lanes) (hv : c.bus.hasValid = true)
    (evs : List (GEv Bool NetEv)) (hev : ∀ e ∈ evs, axisPast e) (sched : Nat → GEv Bool NetEv) (hs : ∀ n, (sched n).plays axisPiece)
    (G : Nat → GSys Bool Net)
    (hG : ∀ n, G n = GSys.run [false, true] (axisBase c) {} (.ev (.snkReset false) :: evs ++ (List.range n).map sched))
    (hpr : ∀ n, ∀ f ∈ (G n).s.src.sent, f.proper) (hson : (G 0).s.src.pc ≠ .off) (hkon : (G 0).s.snk.pc ≠ .off) (hr : AxisReleased c G sched)
    (hq : ∀ n x, sched n = .ev x → x.sends = false)
    (hres : ∀ n, ∃ k, n ≤ k ∧ ((∀ w ∈ (G k).s.src.waiters, w.2 = false) ∨
      ∃ i f, sched k = .ev (.resume i) ∧ (G k).s.src.waiters[i]? = some (f, true))) :
    ∃ N, ∀ k, N ≤ k → (G k).s.src.waiters = [] ∧ List.Perm (G k).s.src.sent ((G 0).s.src.sent ++ (G 0).s.src.blocked) ∧
      (G k).s.src.idle = true ∧ (G k).s.src.idleEv = true ∧ (G k).s.snk.captured = (G k).s.src.sent.flatMap (beats c.bus) := by
  obtain ⟨evs', sched', h1, h2, h3, h4, h5, h6⟩ := axis_alone c hl hv evs hev sched hs G hG hpr hson hkon hr
  obtain ⟨N, hN⟩ := C123_idle c hl hv evs' h1 sched' h2 (fun n => (G n).s) h3 hpr hson hkon h4
    (fun k => by
      rcases h5 k with ⟨x, hx, hx'⟩ | h
      · rw [hx']; exact hq k x hx
      · exact h)
    (fun n => by
      obtain ⟨k, hk, h | ⟨i, f, h7, h8⟩⟩ := hres n
      · exact ⟨k, hk, .inl h⟩
      · exact ⟨k, hk, .inr ⟨i, f, h6 k i h7, h8⟩⟩)
  exact ⟨N, fun k hk => ⟨(hN k hk).1, (hN k hk).2.1, (hN k hk).2.2.1, (hN k hk).2.2.2.1, (hN k hk).2.2.2.2.2⟩⟩

/-! ## A schedule, and an example -/

/-- Generators, coroutines, signal writes taking effect and clock edges by turns; a reader takes frames out of the sink. -/
def axisMix (n : Nat) : GEv Bool NetEv :=
  match n % 11 with
  | 0 => .gen false
  | 1 => .gen true
  | 2 => .ev .srcRun
  | 3 => .ev .srcWake
  | 4 => .ev (.recv false)
  | 5 => .ev .snkRun
  | 6 => .ev .snkWake
  | 7 => .ev .commit
  | 8 => .ev .snkWake
  | 9 => .ev .commit
  | _ => .ev .tick

theorem axisMix_plays (n : Nat) : (axisMix n).plays axisPiece ∧ ∀ x, axisMix n = .ev x → x.sends = false := by
  unfold axisMix
  split <;> refine ⟨?_, fun x hx => ?_⟩ <;> first | trivial | (cases hx; rfl) | (cases hx) |
    exact ⟨rfl, fun v hv => by cases hv, fun v hv => by cases hv, fun hv => by cases hv⟩

/-- With this schedule clock edges keep coming. -/
theorem axisMix_edges (c : NetCfg) (G : Nat → GSys Bool Net) (hsucc : ∀ n, G (n + 1) = (G n).step [false, true] (axisBase c) (axisMix n))
    (hcr : ∀ n, (G n).s.src.crashed = false) (n : Nat) : ∃ k, n ≤ k ∧ Edge [false, true] (axisBase c) G axisMix k := by
  have hmix : ∀ r, r < 11 → axisMix (11 * n + r) = axisMix r := by
    intro r hr
    have h1 : (11 * n + r) % 11 = r % 11 := by omega
    unfold axisMix
    rw [h1]
  have hst : ∀ r e, r < 11 → axisMix r = .ev e → (axisBase c).isTick e = false → (∀ v, e ≠ .srcPause v) → (∀ v, e ≠ .snkPause v) →
      (G (11 * n + r + 1)).gen = (G (11 * n + r)).gen ∧ (G (11 * n + r + 1)).s = (G (11 * n + r)).s.step c e := by
    intro r e hr he ht h1 h2
    rw [hsucc, hmix r hr, he]
    simp only [GSys.step, ht, Bool.false_eq_true, if_false]
    exact ⟨by trivial, axis_step c (hcr _) e⟩
  -- the generators have had their turns
  have d1 : (G (11 * n + 1)).due false = false := by
    rw [hsucc, show 11 * n = 11 * n + 0 from rfl, hmix 0 (by omega)]
    exact turn_due _ _
  have d2 : (G (11 * n + 1 + 1)).due false = false ∧ (G (11 * n + 1 + 1)).due true = false := by
    rw [hsucc, hmix 1 (by omega)]
    refine ⟨?_, turn_due _ _⟩
    show ((G (11 * n + 1)).turn (axisBase c) true).due false = false
    rw [due_congr (turn_other (b := axisBase c) (g := G (11 * n + 1)) (axis_laws c) (j := true) (k := false) (by simp)).1]
    exact d1
  obtain ⟨g2, s2⟩ := hst 2 .srcRun (by omega) rfl rfl (by simp) (by simp)
  obtain ⟨g3, s3⟩ := hst 3 .srcWake (by omega) rfl rfl (by simp) (by simp)
  obtain ⟨g4, s4⟩ := hst 4 (.recv false) (by omega) rfl rfl (by simp) (by simp)
  obtain ⟨g5, s5⟩ := hst 5 .snkRun (by omega) rfl rfl (by simp) (by simp)
  obtain ⟨g6, s6⟩ := hst 6 .snkWake (by omega) rfl rfl (by simp) (by simp)
  obtain ⟨g7, s7⟩ := hst 7 .commit (by omega) rfl rfl (by simp) (by simp)
  obtain ⟨g8, s8⟩ := hst 8 .snkWake (by omega) rfl rfl (by simp) (by simp)
  obtain ⟨g9, s9⟩ := hst 9 .commit (by omega) rfl rfl (by simp) (by simp)
  simp only [Nat.add_assoc, Nat.reduceAdd] at d2 g2 g3 g4 g5 g6 g7 g8 g9 s2 s3 s4 s5 s6 s7 s8 s9
  have hg : (G (11 * n + 10)).gen = (G (11 * n + 2)).gen := by rw [g9, g8, g7, g6, g5, g4, g3, g2]
  have p2 : (G (11 * n + 3)).s.src.pc ≠ .due ∨ (G (11 * n + 3)).s.src.crashed = true := by
    rw [s2]
    unfold Net.step
    rw [if_neg (by rw [hcr]; simp)]
    simp only
    split
    · exact (run_not_due _ _ _).1
    · rename_i h; exact .inl h
  have p2 : (G (11 * n + 3)).s.src.pc ≠ .due := by
    rcases p2 with h | h
    · exact h
    · rw [hcr] at h; cases h
  have p3 : (G (11 * n + 4)).s.src.pc.still = true := by
    rw [still_iff, s3]
    unfold Net.step
    rw [if_neg (by rw [hcr]; simp)]
    simp only
    split
    · exact ⟨by simp, by simp⟩
    · rename_i h; exact ⟨p2, h⟩
  have e4 : (G (11 * n + 5)).s.src = (G (11 * n + 4)).s.src := by
    rw [s4]
    unfold Net.step
    rw [if_neg (by rw [hcr]; simp)]
  have e5 : (G (11 * n + 6)).s.src = (G (11 * n + 5)).s.src ∧ (G (11 * n + 6)).s.snk.pc ≠ .due := by
    rw [s5]
    unfold Net.step
    rw [if_neg (by rw [hcr]; simp)]
    simp only
    split
    · exact ⟨by trivial, (finish_same c.snk _ _).2.2.2.2.2.2.2.2.1⟩
    · rename_i h; exact ⟨by trivial, h⟩
  have wake : ∀ s : Net, s.src.crashed = false → s.snk.pc ≠ .due →
      (s.step c .snkWake).src = s.src ∧ (s.step c .snkWake).snk.pc.still = true ∧
      (s.step c .snkWake).snk.ready = s.snk.ready ∧ (s.step c .snkWake).snk.nready = s.snk.nready := by
    intro s hc hp
    unfold Net.step
    rw [if_neg (by rw [hc]; simp)]
    simp only
    split
    · exact ⟨by trivial, rfl, rfl, rfl⟩
    · rename_i h; exact ⟨by trivial, still_iff.2 ⟨hp, h⟩, by trivial, by trivial⟩
  have e6 := wake _ (hcr _) e5.2
  rw [← s6] at e6
  have hs7 : (G (11 * n + 7)).s.src.pc.still = true := by rw [e6.1, e5.1, e4, p3]
  have e7 : (G (11 * n + 8)).s.src.pc.still = true ∧ (G (11 * n + 8)).s.snk.pc ≠ .due ∧ (G (11 * n + 8)).s.src.valid = (G (11 * n + 8)).s.src.nvalid ∧
      (G (11 * n + 8)).s.snk.ready = (G (11 * n + 8)).s.snk.nready := by
    rw [s7]
    unfold Net.step
    rw [if_neg (by rw [hcr]; simp)]
    simp only [hs7, e6.2.1, Bool.and_self, if_true]
    have := (still_iff.1 e6.2.1).1
    refine ⟨trivial, ?_, trivial, by split <;> rfl⟩
    split
    · simp only [Rx.setWake]
      intro h
      exact this (Stream.wakeUp_due.1 h)
    · exact this
  have e8 := wake _ (hcr _) e7.2.1
  rw [← s8] at e8
  have hs9 : (G (11 * n + 9)).s.src.pc.still = true := by rw [e8.1]; exact e7.1
  have e9 : (G (11 * n + 10)).s.settled = true ∧ (G (11 * n + 10)).s.src.pc.still = true ∧ (G (11 * n + 10)).s.snk.pc.still = true := by
    rw [s9]
    unfold Net.step
    rw [if_neg (by rw [hcr]; simp)]
    simp only [hs9, e8.2.1, Bool.and_self, if_true]
    refine ⟨trivial, trivial, ?_⟩
    rw [if_neg (by rw [e8.1, e7.2.2.1, e8.2.2.1, e8.2.2.2, e7.2.2.2]; simp)]
    exact e8.2.1
  refine ⟨11 * n + 10, by omega, .tick, hmix 10 (by omega), rfl, ?_, ?_⟩
  · show ((G _).s.settled && (G _).s.src.pc.still && (G _).s.snk.pc.still) = true
    rw [e9.1, e9.2.1, e9.2.2]
    rfl
  · refine anyDue_of _ fun j => ?_
    rw [due_congr (congrFun hg j)]
    cases j
    · exact d2.1
    · exact d2.2

/-- Three frames, one of them empty, are queued; then generators are set at both sides, and both are even paused at the moment. -/
def exAxisHist : List (GEv Bool NetEv) :=
  [.ev (.srcReset false), .ev .srcWake, .ev .snkWake, .ev .commit, .ev (.sendNowait exFrame), .ev (.sendNowait exEmpty), .ev (.sendNowait exByte),
   .ev (.snkPause true), .ev (.srcPause true), .setGen false (some cyc3), .setGen true (some cyc4)]

def exAxisCfg : NetCfg := { bus := exCfg }

def exAxis (n : Nat) : GSys Bool Net :=
  GSys.run [false, true] (axisBase exAxisCfg) {} (.ev (.snkReset false) :: exAxisHist ++ (List.range n).map axisMix)

theorem exAxis_gens : (exAxis 0).gen false = some { vals := cyc3 } ∧ (exAxis 0).gen true = some { vals := cyc4 } := ⟨rfl, rfl⟩

theorem exAxis_state : (exAxis 0).s.src.pc ≠ .off ∧ (exAxis 0).s.snk.pc ≠ .off ∧ (exAxis 0).s.src.sent = [exFrame, exEmpty, exByte] ∧
    (exAxis 0).s.src.waiters = [] ∧ (exAxis 0).s.snk.captured = [] ∧ (exAxis 0).s.snk.pause = true ∧ (exAxis 0).s.src.pause = true := by decide +kernel

theorem exAxis_succ (n : Nat) : exAxis (n + 1) = (exAxis n).step [false, true] (axisBase exAxisCfg) (axisMix n) := by
  simp only [exAxis, GSys.run]
  rw [List.range_succ, List.map_append, ← List.append_assoc, List.foldl_append]
  rfl

theorem axisMix_resume (n i : Nat) : axisMix n ≠ .ev (.resume i) := by
  unfold axisMix
  split <;> simp

theorem exAxis_sent (n : Nat) : (exAxis n).s.src.sent = [exFrame, exEmpty, exByte] := by
  induction n with
  | zero => exact exAxis_state.2.2.1
  | succ n ih =>
    rw [exAxis_succ, proj_step (axis_laws exAxisCfg), axis_sent, ih]
    · rcases axis_proj exAxisCfg (exAxis n) (axisMix n) with ⟨x, h1, h2, _⟩ | ⟨v, h⟩ | ⟨v, h⟩ | h | ⟨h, _⟩
      · rw [h2]; exact (axisMix_plays n).2 x h1
      all_goals rw [h]; rfl
    · intro i hi
      rcases axis_proj exAxisCfg (exAxis n) (axisMix n) with ⟨x, h1, h2, _⟩ | ⟨v, h⟩ | ⟨v, h⟩ | h | ⟨h, _⟩
      · rw [h2] at hi; subst hi; exact axisMix_resume n i h1
      all_goals rw [h] at hi; cases hi

/-- All three frames have arrived at the end. -/
example : ∃ N, ∀ k, N ≤ k → (exAxis k).s.src.idle = true ∧ (exAxis k).s.snk.captured = [exFrame, exEmpty, exByte].flatMap (beats exCfg) := by
  obtain ⟨h1, h2, h3, h4, _⟩ := exAxis_state
  have hpr : ∀ n, ∀ f ∈ (exAxis n).s.src.sent, f.proper := by
    intro n
    rw [exAxis_sent]
    decide +kernel
  have hev : ∀ e ∈ exAxisHist, axisPast e := by
    intro e he
    simp only [exAxisHist, List.mem_cons, List.not_mem_nil, or_false] at he
    rcases he with rfl | rfl | rfl | rfl | rfl | rfl | rfl | rfl | rfl | rfl | rfl <;> first | rfl | trivial
  have hpl := fun n => (axisMix_plays n).1
  obtain ⟨_, _, ⟨evs', _, _⟩, hlive⟩ := axis_live exAxisCfg (by decide) rfl exAxisHist hev axisMix hpl exAxis (fun _ => rfl) hpr h1 h2
  have hw : ∀ n, (exAxis n).s.src.waiters = [] := by
    intro n
    have hm := hlive.waiters_mono (fun k => by
      rcases axis_proj exAxisCfg (exAxis k) (axisMix k) with ⟨x, h1, h2, _⟩ | ⟨v, h⟩ | ⟨v, h⟩ | h | ⟨h, _⟩
      · rw [h2]; exact (axisMix_plays k).2 x h1
      all_goals rw [h]; rfl) 0 n
    simp only [Nat.zero_add, h4, List.length_nil] at hm
    exact List.length_eq_zero_iff.1 (by omega)
  have hr : AxisReleased exAxisCfg exAxis axisMix :=
    ⟨axisMix_edges exAxisCfg exAxis exAxis_succ (fun n => (hlive.running n).1), .inl (frees_cyc3 exAxis_gens.1), fun _ => frees_cyc4 exAxis_gens.2,
      fun _ n => ⟨n, Nat.le_refl n, by constructor <;> intro h <;> exact absurd h (by decide)⟩⟩
  obtain ⟨N, hN⟩ := C101_axis_idle exAxisCfg (by decide) rfl exAxisHist hev axisMix hpl exAxis (fun _ => rfl) hpr h1 h2 hr
    (fun n => (axisMix_plays n).2) (fun n => ⟨n, Nat.le_refl n, .inl (by rw [hw]; simp)⟩)
  refine ⟨N, fun k hk => ⟨(hN k hk).2.2.1, ?_⟩⟩
  rw [(hN k hk).2.2.2.2, exAxis_sent]
  rfl

/-- The hypotheses of `C100_axis`: the generator `[True, False, True]` at the sink; at the third clock edge its third value. -/
example :
    let b := axisBase exAxisCfg
    let start : List (GEv Bool NetEv) := [.ev (.snkReset false), .ev (.srcReset false), .ev .srcWake, .ev .snkWake]
    let later : List (GEv Bool NetEv) := [.gen true, .ev .commit, .ev .tick, .ev .snkRun, .gen true, .ev (.sendNowait exByte), .ev .srcRun, .ev .snkWake, .ev .commit,
      .ev .snkWake, .ev .commit, .ev .tick, .ev .srcRun, .ev .snkRun, .gen true, .ev .snkWake, .ev .commit]
    let after := GSys.run [false, true] b {} (start ++ .setGen true (some exVals) :: later)
    (∀ x ∈ later, x.leaves b true) ∧ after.edge [false, true] b (.ev .tick) = true ∧
    edgesIn [false, true] b ((GSys.run [false, true] b {} start).step [false, true] b (.setGen true (some exVals))) later = 2 ∧
    b.pause after.s true = true ∧ level exVals false 2 = false := by
  refine ⟨?_, by decide +kernel, by decide +kernel, by decide +kernel, by decide +kernel⟩
  intro x hx
  simp only [List.mem_cons, List.not_mem_nil, or_false] at hx
  rcases hx with rfl | rfl | rfl | rfl | rfl | rfl | rfl | rfl | rfl | rfl | rfl | rfl | rfl | rfl | rfl | rfl | rfl <;>
    simp [GEv.leaves, axisBase]

end Verif.PauseGen
