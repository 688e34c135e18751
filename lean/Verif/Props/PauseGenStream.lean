import Verif.Spec.PauseGenStream
import Verif.Proof.StreamFrees
import Verif.Props.StreamLive
import Verif.Props.PauseGenBus

/-!
# C101 for streams: delivery with pause generators at a stream source and a stream sink

`GSys.run [false, true] (netBase c) {} evs` is the state after an arbitrary history `evs` of a stream source connected to a sink; `false` is the source, `true` the
sink.
-/

namespace Verif.PauseGen

open Verif.Stream

variable {α : Type}

/-- What the projection of an event is. -/
theorem stream_proj (c : NetCfg) (g : GSys Bool (Net α)) (e : GEv Bool (NetEv α)) :
    (∃ x, e = .ev x ∧ proj [false, true] (netBase c) netIdle g e = x ∧ (x = .tick → g.anyDue [false, true] = false)) ∨
    (∃ v, proj [false, true] (netBase c) netIdle g e = .srcPause v) ∨ (∃ v, proj [false, true] (netBase c) netIdle g e = .snkPause v) ∨
    (proj [false, true] (netBase c) netIdle g e = .tick ∧ g.s.src.pc = .due) ∨
    (proj [false, true] (netBase c) netIdle g e = .srcRun ∧ g.s.src.pc ≠ .due) := by
  have hid : (netIdle g.s = .tick ∧ g.s.src.pc = .due) ∨ (netIdle g.s = .srcRun ∧ g.s.src.pc ≠ .due) := by
    unfold netIdle
    split
    · rename_i h; exact .inl ⟨rfl, h⟩
    · rename_i h; exact .inr ⟨rfl, h⟩
  cases e with
  | ev e =>
    simp only [proj]
    split
    · exact .inr (.inr (.inr hid))
    · rename_i hn
      refine .inl ⟨e, rfl, rfl, fun h1 => ?_⟩
      subst h1
      have : (netBase (α := α) c).isTick .tick = true := rfl
      rw [this, Bool.true_and] at hn
      simpa using hn
  | gen j =>
    simp only [proj]
    split
    · split
      · split
        · cases j
          · exact .inr (.inl ⟨_, rfl⟩)
          · exact .inr (.inr (.inl ⟨_, rfl⟩))
        · exact .inr (.inr (.inr hid))
      · exact .inr (.inr (.inr hid))
    · exact .inr (.inr (.inr hid))
  | setGen j v =>
    simp only [proj]
    exact .inr (.inr (.inr hid))

theorem stream_clean (c : NetCfg) (g : GSys Bool (Net α)) {e : GEv Bool (NetEv α)} (he : streamPast e) :
    (proj [false, true] (netBase c) netIdle g e).clean = true := by
  rcases stream_proj c g e with ⟨x, rfl, h2, _⟩ | ⟨v, h⟩ | ⟨v, h⟩ | ⟨h, _⟩ | ⟨h, _⟩
  · rw [h2]; exact he
  all_goals rw [h]; rfl

theorem stream_cleans (c : NetCfg) (evs : List (GEv Bool (NetEv α))) (hev : ∀ e ∈ evs, streamPast e) (g : GSys Bool (Net α)) :
    ∀ e ∈ projs [false, true] (netBase c) netIdle g evs, e.clean = true := by
  induction evs generalizing g with
  | nil => intro e he; cases he
  | cons x evs ih =>
    intro e he
    simp only [projs, List.mem_cons] at he
    rcases he with rfl | he
    · exact stream_clean c g (hev x (by simp))
    · exact ih (fun y hy => hev y (by simp [hy])) _ e he

theorem stream_plays (c : NetCfg) {e : GEv Bool (NetEv α)} (he : e.plays streamPiece) (k : Bool) : e.keeps (netBase c) k := by
  cases e with
  | ev e =>
    refine net_keeps c k e fun v hv => ?_
    cases k
    · exact he.2.1 v hv
    · exact he.2.2.1 v hv
  | gen j => trivial
  | setGen j v => exact he.elim

/-- A source that was about to run and is not any more has run. -/
theorem stream_src_turn {c : NetCfg} {s : Net α} {e : NetEv α} (he : e.clean = true) (h1 : s.src.pc = .due)
    (h2 : (s.step c e).src.pc ≠ .due) : e = .srcRun := by
  rcases step_src c s e he with ⟨h, _⟩ | k
  · exact h
  · exact absurd (k.due h1) h2

/-- The pair without the generators, under a schedule that has the same effect on it and withholds nothing for ever. -/
theorem stream_alone (c : NetCfg) (evs : List (GEv Bool (NetEv α))) (hev : ∀ e ∈ evs, streamPast e)
    (sched : Nat → GEv Bool (NetEv α)) (hs : ∀ n, (sched n).plays streamPiece) (G : Nat → GSys Bool (Net α))
    (hG : ∀ n, G n = GSys.run [false, true] (netBase c) {} (.ev (.snkReset false) :: evs ++ (List.range n).map sched))
    (hson : (G 0).s.src.pc ≠ .off) (hkon : (G 0).s.snk.pc ≠ .off)
    (hedges : ∀ n, ∃ k, n ≤ k ∧ Edge [false, true] (netBase c) G sched k)
    (hrs : TurnReleased (fun n => decide ((G n).s.src.pc = .due)) (fun n => (G n).due false) ((G 0).levels (netBase c) false))
    (hrk : c.hasReady = true → Frees ((G 0).levels (netBase c) true)) :
    ∃ (evs' : List (NetEv α)) (sched' : Nat → NetEv α),
      (∀ e ∈ evs', e.clean = true) ∧ (∀ n, (sched' n).clean = true) ∧
      (∀ n, (G n).s = Net.exec c (.snkReset false :: evs' ++ (List.range n).map sched')) ∧
      (∀ n, ∃ k, n ≤ k ∧ NetEdge (fun n => (G n).s) sched' k) ∧ (∀ n, ∃ k, n ≤ k ∧ NetTurn (fun n => (G n).s) sched' k) ∧
      (c.hasReady = true → ∀ n, ∃ k, n ≤ k ∧ NetEdge (fun n => (G n).s) sched' k ∧ (G k).s.snk.pauseSample = false) ∧
      (∀ n, (∃ x, sched n = .ev x ∧ sched' n = x) ∨ (sched' n).sends = false) ∧
      (∀ n x, sched n = .ev x → x ≠ .tick → sched' n = x) := by
  have hlaws := net_laws (α := α) c
  have hsucc : ∀ n, G (n + 1) = (G n).step [false, true] (netBase c) (sched n) := by
    intro n
    rw [hG, hG]
    simp only [GSys.run]
    rw [List.range_succ, List.map_append, ← List.append_assoc, List.foldl_append]
    rfl
  let sched' : Nat → NetEv α := fun n => proj [false, true] (netBase c) netIdle (G n) (sched n)
  let evs' := projs [false, true] (netBase c) netIdle { s := ({} : Net α).step c (.snkReset false) } evs
  have hev' : ∀ e ∈ evs', e.clean = true := stream_cleans c evs hev _
  have hsc' : ∀ n, (sched' n).clean = true := by
    intro n
    refine stream_clean c (G n) ?_
    have := hs n
    revert this
    cases sched n with
    | ev e => exact fun h => h.1
    | gen j => exact fun _ => trivial
    | setGen j v => exact fun _ => trivial
  have hexec : ∀ n, (G n).s = Net.exec c (.snkReset false :: evs' ++ (List.range n).map sched') := by
    intro n
    induction n with
    | zero =>
      rw [hG]
      simp only [List.range_zero, List.map_nil, List.append_nil]
      exact projs_run hlaws { s := ({} : Net α).step c (.snkReset false) } evs
    | succ n ih =>
      have : Net.exec c (.snkReset false :: evs' ++ (List.range (n + 1)).map sched') =
          (Net.exec c (.snkReset false :: evs' ++ (List.range n).map sched')).step c (sched' n) := by
        simp only [Net.exec, List.range_succ, List.map_append, ← List.append_assoc, List.foldl_append, List.map_cons, List.map_nil,
          List.foldl_cons, List.foldl_nil]
      rw [this, ← ih, hsucc]
      exact proj_step hlaws (G n) (sched n)
  have hlive := netLive_of hev' hsc' (S := fun n => (G n).s) hexec hson hkon
  have hfair : Fair [false, true] (netBase c) (fun _ => False) G sched := by
    refine ⟨fun e he => he.elim, fun j n => ?_⟩
    obtain ⟨k, hk, _, _, _, _, h⟩ := hedges n
    exact ⟨k, hk, .inr (anyDue_false hlaws h j)⟩
  have hgr : GRun [false, true] (netBase c) netIdle (fun _ => False) G sched :=
    ⟨hlaws, by rw [hG]; exact Sane.run _ _, hsucc, fun n k => stream_plays c (hs n) k, hfair⟩
  have hproj := fun n => stream_proj c (G n) (sched n)
  have hedge : ∀ k, Edge [false, true] (netBase c) G sched k ↔ NetEdge (fun n => (G n).s) sched' k := by
    intro k
    constructor
    · rintro ⟨e, h1, h2, h3, h4⟩
      have he : e = .tick := by
        cases e <;> simp only [netBase, Bool.false_eq_true] at h2
        rfl
      subst he
      have h5 : ((G k).s.settled && (G k).s.src.pc.still && (G k).s.snk.pc.still) = true := h3
      simp only [Bool.and_eq_true] at h5
      refine ⟨?_, h5.1.1, h5.1.2, h5.2⟩
      simp only [sched', h1, proj, h4, Bool.and_false, Bool.false_eq_true, if_false]
    · rintro ⟨h1, h2, h3, h4⟩
      rcases hproj k with ⟨x, h5, h6, h7⟩ | ⟨v, h⟩ | ⟨v, h⟩ | ⟨_, h⟩ | ⟨h, _⟩
      · have hx : x = .tick := h6.symm.trans h1
        subst hx
        refine ⟨.tick, h5, rfl, ?_, h7 rfl⟩
        show ((G k).s.settled && (G k).s.src.pc.still && (G k).s.snk.pc.still) = true
        rw [h2, h3, h4]
        rfl
      · have h' := h1.symm.trans h; cases h'
      · have h' := h1.symm.trans h; cases h'
      · exact absurd h (still_iff.1 h3).1
      · have h' := h1.symm.trans h; cases h'
  have hedgeEq : Edge [false, true] (netBase c) G sched = NetEdge (fun n => (G n).s) sched' := funext fun k => propext (hedge k)
  refine ⟨evs', sched', hev', hsc', hexec, ?_, ?_, ?_, ?_, ?_⟩
  · intro n
    obtain ⟨k, hk, h⟩ := hedges n
    exact ⟨k, hk, (hedge k).1 h⟩
  · intro n
    obtain ⟨k, hk, h⟩ := turn_frees (w := fun n => decide ((G n).s.src.pc ≠ .asleep)) (hgr.drives false)
      (fun i hi => by
        have he := (hedge i).1 hi
        refine ⟨by simp [(still_iff.1 he.2.2.1).1], fun hw => ?_⟩
        simp only [decide_eq_true_eq] at hw ⊢
        exact hlive.src_due_after he hw)
      (fun n => ⟨_, fun q hq => hgr.cycle hedges false n q hq⟩) hrs n
    refine ⟨k, hk, h.imp (fun h1 => by simpa using h1) fun ⟨h1, h2, h3⟩ => ?_⟩
    simp only [decide_eq_true_eq, decide_eq_false_iff_not] at h1 h2
    rw [hlive.step k] at h2
    exact ⟨stream_src_turn (hsc' k) h1 h2, h1, h3⟩
  · intro hready n
    refine hlive.snk_frees hready ?_ (d := fun n => (G n).due true) ?_ ?_ n
    · intro n hn
      rcases hproj n with ⟨x, h5, h6, h7⟩ | ⟨v, h⟩ | ⟨v, h⟩ | ⟨h, _⟩ | ⟨h, _⟩
      · have := hs n
        rw [h5] at this
        exact this.2.2.2 (h6.symm.trans hn)
      all_goals have h' := hn.symm.trans h; cases h'
    · rw [← hedgeEq]; exact hgr.drives true
    · intro n
      rw [← hedgeEq]
      obtain ⟨q, hq, hqf⟩ := hrk hready (edgesBefore [false, true] (netBase c) G sched n + (G 0).dueN true + 1)
      obtain ⟨i, j, h1, h2, _, h4⟩ := hgr.cycle hedges true n (q - 1) (by omega)
      rw [show q - 1 + 1 = q by omega, hqf] at h4
      exact ⟨i, j, h1, h2, h4⟩
  · intro n
    rcases hproj n with ⟨x, h5, h6, h7⟩ | ⟨v, h⟩ | ⟨v, h⟩ | ⟨h, _⟩ | ⟨h, _⟩
    · exact .inl ⟨x, h5, h6⟩
    all_goals exact .inr (by simp only [sched', h]; rfl)
  · intro n x h hx
    have ht : (netBase (α := α) c).isTick x = false := by
      cases x <;> first | rfl | exact absurd rfl hx
    simp only [sched', h, proj, ht, Bool.false_and, Bool.false_eq_true, if_false]

/-- **C101, stream.** After any history `evs` at whose end both sides run, with pause generators at the source and the sink, let things go on for ever (`sched`):
without reset, `clear()` and assignments to `pause`, but with any further calls, in any order of the coroutines. If clock edges keep coming, the generators release
both sides again and again and the sink's queue is not at its limit for ever (`StreamReleased`), then every item sent, at whatever instant, arrives, in order. -/
theorem C101_stream_delivered (c : NetCfg) (evs : List (GEv Bool (NetEv α))) (hev : ∀ e ∈ evs, streamPast e)
    (sched : Nat → GEv Bool (NetEv α)) (hs : ∀ n, (sched n).plays streamPiece) (G : Nat → GSys Bool (Net α))
    (hG : ∀ n, G n = GSys.run [false, true] (netBase c) {} (.ev (.snkReset false) :: evs ++ (List.range n).map sched))
    (hson : (G 0).s.src.pc ≠ .off) (hkon : (G 0).s.snk.pc ≠ .off) (hr : StreamReleased c G sched) (n : Nat) :
    ∃ N, ∀ k, N ≤ k → (G n).s.src.sent <+: (G k).s.snk.got ++ (G k).s.snk.queue := by
  obtain ⟨evs', sched', h1, h2, h3, h4, h5, h6, _⟩ := stream_alone c evs hev sched hs G hG hson hkon hr.edges hr.src hr.snk
  exact C124_delivered c evs' h1 sched' h2 (fun n => (G n).s) h3 hson hkon ⟨h4, h5, h6, hr.room⟩ n

/-- **C101, stream, reader.** If a reader calls `recv()` again and again, it receives every item sent, whatever the limits. -/
theorem C101_stream_received (c : NetCfg) (evs : List (GEv Bool (NetEv α))) (hev : ∀ e ∈ evs, streamPast e)
    (sched : Nat → GEv Bool (NetEv α)) (hs : ∀ n, (sched n).plays streamPiece) (G : Nat → GSys Bool (Net α))
    (hG : ∀ n, G n = GSys.run [false, true] (netBase c) {} (.ev (.snkReset false) :: evs ++ (List.range n).map sched))
    (hson : (G 0).s.src.pc ≠ .off) (hkon : (G 0).s.snk.pc ≠ .off)
    (hedges : ∀ n, ∃ k, n ≤ k ∧ Edge [false, true] (netBase c) G sched k)
    (hsrc : TurnReleased (fun n => decide ((G n).s.src.pc = .due)) (fun n => (G n).due false) ((G 0).levels (netBase c) false))
    (hsnk : c.hasReady = true → Frees ((G 0).levels (netBase c) true))
    (hrecv : ∀ n, ∃ k, n ≤ k ∧ sched k = .ev .recv) (n : Nat) :
    ∃ N, ∀ k, N ≤ k → (G n).s.src.sent <+: (G k).s.snk.got := by
  obtain ⟨evs', sched', h1, h2, h3, h4, h5, h6, _, h8⟩ := stream_alone c evs hev sched hs G hG hson hkon hedges hsrc hsnk
  exact C124_received c evs' h1 sched' h2 (fun n => (G n).s) h3 hson hkon h4 h5 h6
    (fun m => let ⟨k, hk, he⟩ := hrecv m; ⟨k, hk, h8 k _ he (by simp)⟩) n

/-- **C101, stream, the end.** If nothing more is sent, and blocked calls of `send` whose event was set get their turn, then from some instant on no call of
`send` is blocked, the source is idle and its `wait()` returns, and the items received and those waiting in the sink are exactly the items sent. -/
theorem C101_stream_idle (c : NetCfg) (evs : List (GEv Bool (NetEv α))) (hev : ∀ e ∈ evs, streamPast e)
    (sched : Nat → GEv Bool (NetEv α)) (hs : ∀ n, (sched n).plays streamPiece) (G : Nat → GSys Bool (Net α))
    (hG : ∀ n, G n = GSys.run [false, true] (netBase c) {} (.ev (.snkReset false) :: evs ++ (List.range n).map sched))
    (hson : (G 0).s.src.pc ≠ .off) (hkon : (G 0).s.snk.pc ≠ .off) (hr : StreamReleased c G sched)
    (hq : ∀ n x, sched n = .ev x → x.sends = false)
    (hres : ∀ n, ∃ k, n ≤ k ∧ ((∀ w ∈ (G k).s.src.waiters, w.2 = false) ∨
      ∃ i x, sched k = .ev (.resume i) ∧ (G k).s.src.waiters[i]? = some (x, true))) :
    ∃ N, ∀ k, N ≤ k → (G k).s.src.waiters = [] ∧ List.Perm (G k).s.src.sent ((G 0).s.src.sent ++ (G 0).s.src.blocked) ∧
      (G k).s.src.idle = true ∧ (G k).s.src.idleEv = true ∧ (G k).s.snk.got ++ (G k).s.snk.queue = (G k).s.src.sent := by
  obtain ⟨evs', sched', h1, h2, h3, h4, h5, h6, h7, h8⟩ := stream_alone c evs hev sched hs G hG hson hkon hr.edges hr.src hr.snk
  exact C124_idle c evs' h1 sched' h2 (fun n => (G n).s) h3 hson hkon ⟨h4, h5, h6, hr.room⟩
    (fun k => by
      rcases h7 k with ⟨x, hx, hx'⟩ | h
      · rw [hx']; exact hq k x hx
      · exact h)
    (fun n => by
      obtain ⟨k, hk, h | ⟨i, f, h9, h10⟩⟩ := hres n
      · exact ⟨k, hk, .inl h⟩
      · exact ⟨k, hk, .inr ⟨i, f, h8 k _ h9 (by simp), h10⟩⟩)

/-! ## A schedule, and an example -/

/-- Generators, coroutines, signal writes taking effect and clock edges by turns; a reader takes items out of the sink. -/
def streamMix (n : Nat) : GEv Bool (NetEv Nat) :=
  match n % 12 with
  | 0 => .gen false
  | 1 => .gen true
  | 2 => .ev .srcRun
  | 3 => .ev (.resume 0)
  | 4 => .ev .srcWake
  | 5 => .ev .recv
  | 6 => .ev .snkRun
  | 7 => .ev .snkWake
  | 8 => .ev .commit
  | 9 => .ev .snkWake
  | 10 => .ev .commit
  | _ => .ev .tick

theorem streamMix_plays (n : Nat) : (streamMix n).plays streamPiece ∧ ∀ x, streamMix n = .ev x → x.sends = false := by
  unfold streamMix
  split <;> refine ⟨?_, fun x hx => ?_⟩ <;> first | trivial | (cases hx; rfl) | (cases hx) |
    exact ⟨rfl, fun v hv => by cases hv, fun v hv => by cases hv, fun hv => by cases hv⟩

theorem streamMix_recv (n : Nat) : streamMix (12 * n + 5) = .ev .recv := by
  have h : (12 * n + 5) % 12 = 5 := by omega
  simp only [streamMix, h]

/-- With this schedule clock edges keep coming. -/
theorem streamMix_edges (c : NetCfg) (G : Nat → GSys Bool (Net Nat))
    (hsucc : ∀ n, G (n + 1) = (G n).step [false, true] (netBase c) (streamMix n)) (n : Nat) :
    ∃ k, n ≤ k ∧ Edge [false, true] (netBase c) G streamMix k := by
  have hmix : ∀ r, r < 12 → streamMix (12 * n + r) = streamMix r := by
    intro r hr
    have h1 : (12 * n + r) % 12 = r % 12 := by omega
    unfold streamMix
    rw [h1]
  have hst : ∀ r e, r < 12 → streamMix r = .ev e → (netBase c).isTick e = false →
      (G (12 * n + r + 1)).gen = (G (12 * n + r)).gen ∧ (G (12 * n + r + 1)).s = (G (12 * n + r)).s.step c e := by
    intro r e hr he ht
    rw [hsucc, hmix r hr, he]
    simp only [GSys.step, ht, Bool.false_eq_true, if_false]
    exact ⟨by trivial, by trivial⟩
  -- the generators have had their turns
  have d1 : (G (12 * n + 1)).due false = false := by
    rw [hsucc, show 12 * n = 12 * n + 0 from rfl, hmix 0 (by omega)]
    exact turn_due _ _
  have d2 : (G (12 * n + 1 + 1)).due false = false ∧ (G (12 * n + 1 + 1)).due true = false := by
    rw [hsucc, hmix 1 (by omega)]
    refine ⟨?_, turn_due _ _⟩
    show ((G (12 * n + 1)).turn (netBase c) true).due false = false
    rw [due_congr (turn_other (b := netBase c) (g := G (12 * n + 1)) (net_laws c) (j := true) (k := false) (by simp)).1]
    exact d1
  obtain ⟨g2, s2⟩ := hst 2 .srcRun (by omega) rfl rfl
  obtain ⟨g3, s3⟩ := hst 3 (.resume 0) (by omega) rfl rfl
  obtain ⟨g4, s4⟩ := hst 4 .srcWake (by omega) rfl rfl
  obtain ⟨g5, s5⟩ := hst 5 .recv (by omega) rfl rfl
  obtain ⟨g6, s6⟩ := hst 6 .snkRun (by omega) rfl rfl
  obtain ⟨g7, s7⟩ := hst 7 .snkWake (by omega) rfl rfl
  obtain ⟨g8, s8⟩ := hst 8 .commit (by omega) rfl rfl
  obtain ⟨g9, s9⟩ := hst 9 .snkWake (by omega) rfl rfl
  obtain ⟨g10, s10⟩ := hst 10 .commit (by omega) rfl rfl
  simp only [Nat.add_assoc, Nat.reduceAdd] at d2 g2 g3 g4 g5 g6 g7 g8 g9 g10 s2 s3 s4 s5 s6 s7 s8 s9 s10
  have hg : (G (12 * n + 11)).gen = (G (12 * n + 2)).gen := by rw [g10, g9, g8, g7, g6, g5, g4, g3, g2]
  have p2 : (G (12 * n + 3)).s.src.pc ≠ .due := by
    rw [s2]
    simp only [Net.step]
    split
    · rcases (srun_facts (c := c.src) (G (12 * n + 2)).s.src (G (12 * n + 2)).s.snk.ready).2.2 with h | h
      · show (Src.run _ _ _).pc ≠ _
        rw [h]; simp
      · show (Src.run _ _ _).pc ≠ _
        rw [h]; simp
    · rename_i h; exact h
  have p3 : (G (12 * n + 4)).s.src.pc ≠ .due := by
    intro h
    have := step_due c (G (12 * n + 3)).s (.resume 0) (.inl ⟨p2, by rw [← s3]; exact h⟩)
    cases this.1
  have p4 : (G (12 * n + 5)).s.src.pc.still = true := by
    rw [still_iff, s4]
    simp only [Net.step]
    split
    · exact ⟨by simp, by simp⟩
    · rename_i h; exact ⟨p3, h⟩
  have e5 : (G (12 * n + 6)).s.src = (G (12 * n + 5)).s.src := by rw [s5]; rfl
  have e6 : (G (12 * n + 7)).s.src = (G (12 * n + 6)).s.src ∧ (G (12 * n + 7)).s.snk.pc ≠ .due := by
    rw [s6]
    simp only [Net.step]
    split
    · exact ⟨by trivial, finish_due⟩
    · rename_i h; exact ⟨by trivial, h⟩
  have wake : ∀ s : Net Nat, s.snk.pc ≠ .due → (s.step c .snkWake).src = s.src ∧ (s.step c .snkWake).snk.pc.still = true ∧
      (s.step c .snkWake).snk.ready = s.snk.ready ∧ (s.step c .snkWake).snk.nready = s.snk.nready := by
    intro s hp
    simp only [Net.step]
    split
    · exact ⟨by trivial, rfl, rfl, rfl⟩
    · rename_i h; exact ⟨by trivial, still_iff.2 ⟨hp, h⟩, by trivial, by trivial⟩
  have e7 := wake _ e6.2
  rw [← s7] at e7
  have hs8 : (G (12 * n + 8)).s.src.pc.still = true := by rw [e7.1, e6.1, e5, p4]
  have e8 : (G (12 * n + 9)).s.src.pc.still = true ∧ (G (12 * n + 9)).s.snk.pc ≠ .due ∧ (G (12 * n + 9)).s.src.valid = (G (12 * n + 9)).s.src.nvalid ∧
      (G (12 * n + 9)).s.snk.ready = (G (12 * n + 9)).s.snk.nready := by
    rw [s8]
    simp only [Net.step, hs8, e7.2.1, Bool.and_self, if_true]
    have := (still_iff.1 e7.2.1).1
    refine ⟨trivial, ?_, trivial, by split <;> rfl⟩
    split
    · simp only [Snk.setWake]
      intro h
      exact this (wakeUp_due.1 h)
    · exact this
  have e9 := wake _ e8.2.1
  rw [← s9] at e9
  have hs10 : (G (12 * n + 10)).s.src.pc.still = true := by rw [e9.1]; exact e8.1
  have e10 : (G (12 * n + 11)).s.settled = true ∧ (G (12 * n + 11)).s.src.pc.still = true ∧ (G (12 * n + 11)).s.snk.pc.still = true := by
    rw [s10]
    simp only [Net.step, hs10, e9.2.1, Bool.and_self, if_true]
    refine ⟨trivial, trivial, ?_⟩
    rw [if_neg (by rw [e9.1, e8.2.2.1, e9.2.2.1, e9.2.2.2, e8.2.2.2]; simp)]
    exact e9.2.1
  refine ⟨12 * n + 11, by omega, .tick, hmix 11 (by omega), rfl, ?_, ?_⟩
  · show ((G _).s.settled && (G _).s.src.pc.still && (G _).s.snk.pc.still) = true
    rw [e10.1, e10.2.1, e10.2.2]
    rfl
  · refine anyDue_of _ fun j => ?_
    rw [due_congr (congrFun hg j)]
    cases j
    · exact d2.1
    · exact d2.2

/-- Limits of one item on both sides: one item is queued, two calls of `send` are blocked; then generators are set at both sides, and both are paused. -/
def exStreamHist : List (GEv Bool (NetEv Nat)) :=
  [.ev (.srcReset false), .ev .srcWake, .ev .snkWake, .ev .commit, .ev (.send 5), .ev (.send 6), .ev (.send 7),
   .ev (.snkPause true), .ev (.srcPause true), .setGen false (some cyc3), .setGen true (some cyc4)]

def exStreamCfg : NetCfg := { srcLimit := 1, snkLimit := 1 }

def exStream (n : Nat) : GSys Bool (Net Nat) :=
  GSys.run [false, true] (netBase exStreamCfg) {} (.ev (.snkReset false) :: exStreamHist ++ (List.range n).map streamMix)

theorem exStream_gens : (exStream 0).gen false = some { vals := cyc3 } ∧ (exStream 0).gen true = some { vals := cyc4 } := ⟨rfl, rfl⟩

theorem exStream_state : (exStream 0).s.src.pc ≠ .off ∧ (exStream 0).s.snk.pc ≠ .off ∧ (exStream 0).s.src.sent = [5] ∧
    (exStream 0).s.src.blocked = [6, 7] ∧ (exStream 0).s.snk.captured = [] ∧ (exStream 0).s.snk.pause = true ∧ (exStream 0).s.src.pause = true := by
  decide +kernel

theorem exStream_succ (n : Nat) : exStream (n + 1) = (exStream n).step [false, true] (netBase exStreamCfg) (streamMix n) := by
  simp only [exStream, GSys.run]
  rw [List.range_succ, List.map_append, ← List.append_assoc, List.foldl_append]
  rfl

theorem exStream_edges : ∀ n, ∃ k, n ≤ k ∧ Edge [false, true] (netBase exStreamCfg) exStream streamMix k :=
  streamMix_edges exStreamCfg exStream exStream_succ

theorem exStream_past : ∀ e ∈ exStreamHist, streamPast e := by
  intro e he
  simp only [exStreamHist, List.mem_cons, List.not_mem_nil, or_false] at he
  rcases he with rfl | rfl | rfl | rfl | rfl | rfl | rfl | rfl | rfl | rfl | rfl <;> first | rfl | trivial

/-- After 200 events all three items have been sent; the reader receives them all. -/
example : (exStream 200).s.src.sent = [5, 6, 7] ∧ ∃ N, ∀ k, N ≤ k → [5, 6, 7] <+: (exStream k).s.snk.got := by
  obtain ⟨h1, h2, _⟩ := exStream_state
  have hs : (exStream 200).s.src.sent = [5, 6, 7] := by decide +kernel
  refine ⟨hs, ?_⟩
  rw [← hs]
  exact C101_stream_received exStreamCfg exStreamHist exStream_past streamMix (fun n => (streamMix_plays n).1) exStream (fun _ => rfl) h1 h2
    exStream_edges (.inl (frees_cyc3 exStream_gens.1)) (fun _ => frees_cyc4 exStream_gens.2)
    (fun n => ⟨12 * n + 5, by omega, streamMix_recv n⟩) 200

/-- The hypotheses of the other theorems: again and again there is room in the sink, and no call stays blocked. -/
example : StreamReleased exStreamCfg exStream streamMix ∧ ∃ N, ∀ k, N ≤ k → (exStream k).s.src.waiters = [] ∧
    List.Perm (exStream k).s.src.sent [5, 6, 7] ∧ (exStream k).s.src.idle = true ∧
    (exStream k).s.snk.got ++ (exStream k).s.snk.queue = (exStream k).s.src.sent := by
  obtain ⟨h1, h2, h3, h4, _⟩ := exStream_state
  have hpl := fun n => (streamMix_plays n).1
  obtain ⟨evs', sched', a1, a2, a3, _, _, _, a7, a8⟩ := stream_alone exStreamCfg exStreamHist exStream_past streamMix hpl exStream (fun _ => rfl)
    h1 h2 exStream_edges (.inl (frees_cyc3 exStream_gens.1)) (fun _ => frees_cyc4 exStream_gens.2)
  have hlive := netLive_of a1 a2 (S := fun n => (exStream n).s) a3 h1 h2
  have hw : ∀ k, 200 ≤ k → (exStream k).s.src.waiters = [] := by
    intro k hk
    have hm := hlive.waiters_mono (fun k => by
      rcases a7 k with ⟨x, hx, hx'⟩ | h
      · rw [hx']; exact (streamMix_plays k).2 x hx
      · exact h) 200 (k - 200)
    rw [show 200 + (k - 200) = k by omega, show (exStream 200).s.src.waiters = [] by decide +kernel] at hm
    exact List.length_eq_zero_iff.1 (Nat.le_zero.1 hm)
  have hr : StreamReleased exStreamCfg exStream streamMix := by
    refine ⟨exStream_edges, .inl (frees_cyc3 exStream_gens.1), fun _ => frees_cyc4 exStream_gens.2, fun _ n => ⟨12 * n + 5 + 1, by omega, fun _ => ?_⟩⟩
    have hlim := (hlive.known (12 * n + 5)).inv.snk.lim rfl (by decide)
    have hst := hlive.step (12 * n + 5)
    rw [a8 _ _ (streamMix_recv n) (by simp)] at hst
    show ((exStream (12 * n + 5 + 1)).s.snk.queue.length : Int) < 1
    have hlim' : ((exStream (12 * n + 5)).s.snk.queue.length : Int) ≤ 1 := hlim
    rw [show (exStream (12 * n + 5 + 1)).s = _ from hst]
    show (((exStream (12 * n + 5)).s.snk.recv.2).queue.length : Int) < 1
    unfold Snk.recv
    split
    · rename_i hq; rw [hq]; decide
    · rename_i x rest hq
      rw [hq, List.length_cons] at hlim'
      show (rest.length : Int) < 1
      omega
  refine ⟨hr, ?_⟩
  obtain ⟨N, hN⟩ := C101_stream_idle exStreamCfg exStreamHist exStream_past streamMix hpl exStream (fun _ => rfl) h1 h2 hr
    (fun n => (streamMix_plays n).2) (fun n => ⟨n + 200, by omega, .inl (by rw [hw _ (by omega)]; simp)⟩)
  refine ⟨N, fun k hk => ?_⟩
  obtain ⟨q1, q2, q3, _, q5⟩ := hN k hk
  rw [h3, h4] at q2
  exact ⟨q1, q2, q3, q5⟩

end Verif.PauseGen
