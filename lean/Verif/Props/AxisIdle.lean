import Verif.Props.AxisMore

/-!
# C122: `idle()` of AXI stream sinks and monitors

`packets c (xfers c trace)` cuts the beats transferred into packets; its second component is the packet that has begun and not ended.
-/

namespace Verif.Axis

open Verif.Stream (Pc wakeUp_ne wakeUp_off wakeUp_woken wakeUp_due wakeUp_edge tick_due tick_off tick_asleep tick_woken tick_edge
  still_iff foldl_inv foldl_inv')

/-! ## Proofs -/

/-- A non-empty partial frame. -/
def Rx.mid (s : Rx) : Bool := s.part.elim false Frame.truthy

/-- What happens to the frame under construction and `active` in one event. -/
inductive Move (c : Cfg) (s t : Rx) : Prop
  | keep (h1 : t.part = s.part) (h2 : t.captured = s.captured) (h3 : t.active = s.active)
  | collect (b : Beat) (h1 : t.part = (s.collect c b).part) (h2 : t.captured = (s.collect c b).captured)
      (h3 : t.active = (s.collect c b).active)
  | gap (h1 : t.part = s.part) (h2 : t.captured = s.captured) (h3 : t.active = s.mid)
  | reset (h1 : t.part = none) (h2 : t.captured = s.captured) (h3 : t.active = false)

theorem finish_frame (c : Cfg) (s : Rx) (v : Bool) : (s.finish c v).part = s.part ∧ (s.finish c v).captured = s.captured ∧
    (s.finish c v).active = s.active := by
  unfold Rx.finish Rx.top
  dsimp only
  repeat' split
  all_goals exact ⟨rfl, rfl, rfl⟩

theorem popped_same (sink : Bool) (s : Rx) (r : Bool) (f : Frame) (rest : List Frame) :
    (s.popped sink r f rest).part = s.part ∧ (s.popped sink r f rest).captured = s.captured ∧
    (s.popped sink r f rest).active = s.active := by
  unfold Rx.popped Rx.dequeue
  cases sink <;> exact ⟨rfl, rfl, rfl⟩

theorem recv_move (c : Cfg) (sink : Bool) (s : Rx) (k : Bool) : Move c s (s.recv sink k).2 := by
  have := recv_ind sink (fun t => t.part = s.part ∧ t.captured = s.captured ∧ t.active = s.active)
    (fun t f rest _ h => by
      obtain ⟨a, b, d⟩ := popped_same sink t false f rest
      exact ⟨a.trans h.1, b.trans h.2.1, d.trans h.2.2⟩) s k ⟨rfl, rfl, rfl⟩
  exact .keep this.1 this.2.1 this.2.2

theorem read_move (c : Cfg) (sink : Bool) (s : Rx) (n : Int) : Move c s (s.readNowait sink n).2 := by
  have := read_ind sink (fun t => t.part = s.part ∧ t.captured = s.captured ∧ t.active = s.active)
    (fun t f rest _ h => by
      obtain ⟨a, b, d⟩ := popped_same sink t true f rest
      exact ⟨a.trans h.1, b.trans h.2.1, d.trans h.2.2⟩) (fun _ _ h => h) (fun _ _ h => h) s n ⟨rfl, rfl, rfl⟩
  exact .keep this.1 this.2.1 this.2.2

theorem snk_move (c : Cfg) (s : SnkSys) (e : SnkEv) : Move c s.snk (s.step c e).snk := by
  cases e with
  | run =>
    simp only [SnkSys.step]
    split
    · obtain ⟨f1, f2, f3⟩ := finish_frame c (s.snk.capture c s.valid s.beat) s.valid
      by_cases h : ((!c.hasReady || s.snk.ready) && (!c.hasValid || s.valid)) = true
      · refine .collect s.beat ?_ ?_ ?_
        · rw [Rx.runSnk, f1, Rx.capture, if_pos h]
        · rw [Rx.runSnk, f2, Rx.capture, if_pos h]
        · rw [Rx.runSnk, f3, Rx.capture, if_pos h]
      · refine .gap ?_ ?_ ?_
        · rw [Rx.runSnk, f1, Rx.capture, if_neg h]
        · rw [Rx.runSnk, f2, Rx.capture, if_neg h]
        · rw [Rx.runSnk, f3, Rx.capture, if_neg h]; rfl
    · exact .keep rfl rfl rfl
  | recv k => exact recv_move ..
  | readNowait n => exact read_move ..
  | reset v =>
    simp only [SnkSys.step, Rx.reset]
    cases v with
    | true => exact .reset rfl rfl rfl
    | false => simp only [Bool.false_eq_true, if_false]; split <;> exact .keep rfl rfl rfl
  | pause v => simp only [SnkSys.step, Rx.setPause]; split <;> exact .keep rfl rfl rfl
  | env v b =>
    simp only [SnkSys.step]
    split
    · exact .keep rfl rfl rfl
    · dsimp only; split <;> exact .keep rfl rfl rfl
  | clear => exact .keep rfl rfl rfl
  | commit =>
    simp only [SnkSys.step]
    split
    · dsimp only; split <;> exact .keep rfl rfl rfl
    · exact .keep rfl rfl rfl
  | _ => simp only [SnkSys.step]; split <;> exact .keep rfl rfl rfl

theorem mon_move (c : Cfg) (s : MonSys) (e : MonEv) : Move c s.mon (s.step c e).mon := by
  cases e with
  | run =>
    simp only [MonSys.step]
    split
    · dsimp only [Rx.runMon]
      split
      · exact .collect s.beat rfl rfl rfl
      · exact .gap rfl rfl rfl
    · exact .keep rfl rfl rfl
  | recv k => exact recv_move ..
  | readNowait n => exact read_move ..
  | reset v =>
    simp only [MonSys.step, Rx.reset]
    cases v with
    | true => exact .reset rfl rfl rfl
    | false => simp only [Bool.false_eq_true, if_false]; split <;> exact .keep rfl rfl rfl
  | env v r b =>
    simp only [MonSys.step]
    split
    · exact .keep rfl rfl rfl
    · dsimp only; split <;> exact .keep rfl rfl rfl
  | clear => exact .keep rfl rfl rfl
  | _ => simp only [MonSys.step]; split <;> exact .keep rfl rfl rfl

/-- While a frame is under construction the receiver is active. -/
def Busy (s : Rx) : Prop := s.mid = true → s.active = true

theorem collect_active (c : Cfg) (s : Rx) (b : Beat) (h : Busy s) : (s.collect c b).active = true := by
  have : (s.collect c b).active = if !s.mid then true else s.active := by
    unfold Rx.collect
    dsimp only [Rx.mid]
    split <;> rfl
  rw [this]
  cases hm : s.mid with
  | false => rfl
  | true => exact h hm

theorem Move.busy {c : Cfg} {s t : Rx} (m : Move c s t) (h : Busy s) : Busy t := by
  cases m with
  | keep h1 h2 h3 => unfold Busy Rx.mid; rw [h1, h3]; exact h
  | collect b h1 h2 h3 => intro _; rw [h3]; exact collect_active c s b h
  | gap h1 h2 h3 => unfold Busy; rw [h3]; intro hm; rw [← hm]; simp only [Rx.mid, h1]
  | reset h1 h2 h3 => intro hm; simp [Rx.mid, h1] at hm

/-- The frame under construction is the unfinished packet. -/
def Open (c : Cfg) (s : Rx) : Prop :=
  s.part = if (packets c s.captured).2 = [] then none else some (frameOf c (packets c s.captured).2)

theorem Open.same {c : Cfg} {s t : Rx} (h : Open c s) (h1 : t.part = s.part) (h2 : t.captured = s.captured) : Open c t := by
  unfold Open
  rw [h1, h2]
  exact h

theorem Open.collect {c : Cfg} (hl : 0 < c.lanes) {s : Rx} (h : Open c s) (b : Beat) : Open c (s.collect c b) := by
  have := (PackInv.collect hl (s := { s with taken := (packets c s.captured).1.map fun p => (true, frameOf c p), queue := [] })
    ⟨by simp, h⟩ b).part
  have h1 : ∀ t, (Rx.collect c { s with taken := t, queue := [] } b).part = (s.collect c b).part ∧
      (Rx.collect c { s with taken := t, queue := [] } b).captured = (s.collect c b).captured := by
    intro t
    unfold Rx.collect
    dsimp only
    split <;> exact ⟨rfl, rfl⟩
  rw [(h1 _).1, (h1 _).2] at this
  exact this

theorem Open.mid {c : Cfg} (hl : 0 < c.lanes) {s : Rx} (h : Open c s) : s.mid = !(packets c s.captured).2.isEmpty := by
  rw [Rx.mid, h]
  cases hp : (packets c s.captured).2 with
  | nil => rfl
  | cons b l =>
    simp only [reduceCtorEq, if_false, Option.elim_some, Frame.truthy, List.isEmpty_cons, Bool.not_false, Bool.not_eq_true',
      List.isEmpty_eq_false_iff, ne_eq]
    intro h0
    have := congrArg List.length h0
    simp [frameOf, List.length_flatMap] at this
    omega

theorem snk_open {c : Cfg} (hl : 0 < c.lanes) (evs : List SnkEv) (hcl : ∀ e ∈ evs, e.noReset = true) : Open c (SnkSys.exec c evs).snk := by
  refine foldl_inv' _ (fun s : SnkSys => Open c s.snk) (fun e => e.noReset = true) (fun s e hq h => ?_) evs _ hcl rfl
  cases e with
  | reset v =>
    cases v with
    | true => cases hq
    | false =>
      simp only [SnkSys.step, Rx.reset, Bool.false_eq_true, if_false]
      split <;> exact h
  | run =>
    simp only [SnkSys.step]
    split
    · obtain ⟨f1, f2, _⟩ := finish_frame c (s.snk.capture c s.valid s.beat) s.valid
      unfold Open
      rw [Rx.runSnk, f1, f2]
      unfold Rx.capture
      split
      · exact h.collect hl _
      · exact h
    · exact h
  | recv k => exact h.same (recv_kept _ _ k).part (recv_kept _ _ k).captured
  | readNowait n => exact h.same (read_kept _ _ n).part (read_kept _ _ n).captured
  | pause v => simp only [SnkSys.step, Rx.setPause]; split <;> exact h
  | env v b =>
    simp only [SnkSys.step]
    split
    · exact h
    · dsimp only; split <;> exact h
  | clear => exact h
  | commit =>
    simp only [SnkSys.step]
    split
    · dsimp only; split <;> exact h
    · exact h
  | _ => simp only [SnkSys.step]; split <;> exact h

theorem mon_open {c : Cfg} (hl : 0 < c.lanes) (evs : List MonEv) (hcl : ∀ e ∈ evs, e.noReset = true) : Open c (MonSys.exec c evs).mon := by
  refine foldl_inv' _ (fun s : MonSys => Open c s.mon) (fun e => e.noReset = true) (fun s e hq h => ?_) evs _ hcl rfl
  cases e with
  | reset v =>
    cases v with
    | true => cases hq
    | false =>
      simp only [MonSys.step, Rx.reset, Bool.false_eq_true, if_false]
      split <;> exact h
  | run =>
    simp only [MonSys.step]
    split
    · dsimp only [Rx.runMon]
      split
      · exact h.collect hl _
      · exact h
    · exact h
  | recv k => exact h.same (recv_kept _ _ k).part (recv_kept _ _ k).captured
  | readNowait n => exact h.same (read_kept _ _ n).part (read_kept _ _ n).captured
  | env v r b =>
    simp only [MonSys.step]
    split
    · exact h
    · dsimp only; split <;> exact h
  | clear => exact h
  | _ => simp only [MonSys.step]; split <;> exact h

/-- Nothing has been captured since there were `n` beats, and then the receiver is idle. -/
def Fallow (n : Nat) (s : Rx) : Prop := n ≤ s.captured.length ∧ (s.captured.length = n → s.mid = false ∧ s.active = false)

theorem Move.fallow {c : Cfg} {s t : Rx} {n : Nat} (m : Move c s t) (h : Fallow n s) : Fallow n t := by
  cases m with
  | keep h1 h2 h3 => unfold Fallow Rx.mid; rw [h1, h2, h3]; exact h
  | collect b h1 h2 h3 =>
    have : (s.collect c b).captured = s.captured ++ [b] := by
      unfold Rx.collect
      dsimp only
      split <;> rfl
    have hn := h.1
    refine ⟨by rw [h2, this, List.length_append]; omega, fun h0 => ?_⟩
    rw [h2, this, List.length_append, List.length_singleton] at h0
    omega
  | gap h1 h2 h3 =>
    refine ⟨by rw [h2]; exact h.1, fun h0 => ?_⟩
    rw [h2] at h0
    exact ⟨by simp only [Rx.mid, h1]; exact (h.2 h0).1, by rw [h3]; exact (h.2 h0).1⟩
  | reset h1 h2 h3 => exact ⟨by rw [h2]; exact h.1, fun _ => ⟨by simp only [Rx.mid, h1]; rfl, h3⟩⟩

/-! ## The claims -/

/-- **C122, sink.** Without reset, whatever drives the bus: while a packet has begun and not ended, `idle()` is false. -/
theorem C122_sink_busy (c : Cfg) (hl : 0 < c.lanes) (evs : List SnkEv) (hcl : ∀ e ∈ evs, e.noReset = true) :
    let s := SnkSys.exec c (.reset false :: evs)
    s.snk.pc ≠ .due → (packets c (xfers c s.trace)).2 ≠ [] → s.snk.idle = false := by
  intro s hnd hp
  have ho : Open c s.snk := snk_open hl (.reset false :: evs) (by simpa [SnkEv.noReset] using hcl)
  have hb : Busy s.snk := foldl_inv (SnkSys.step c) (fun s : SnkSys => Busy s.snk) (fun s e h => (snk_move c s e).busy h)
    (.reset false :: evs) {} (by simp [Busy, Rx.mid])
  have hx := C80_sink_beats c hl evs hcl hnd
  have hm := ho.mid hl
  rw [show s.snk.captured = _ from hx] at hm
  rw [Rx.idle, hb (by rw [hm]; simpa using hp)]
  rfl

/-- **C122, monitor.** The same. -/
theorem C122_monitor_busy (c : Cfg) (hl : 0 < c.lanes) (evs : List MonEv) (hcl : ∀ e ∈ evs, e.noReset = true) :
    let s := MonSys.exec c (.reset false :: evs)
    s.mon.pc ≠ .due → (packets c (xfers c s.trace)).2 ≠ [] → s.mon.idle = false := by
  intro s hnd hp
  have ho : Open c s.mon := mon_open hl (.reset false :: evs) (by simpa [MonEv.noReset] using hcl)
  have hb : Busy s.mon := foldl_inv (MonSys.step c) (fun s : MonSys => Busy s.mon) (fun s e h => (mon_move c s e).busy h)
    (.reset false :: evs) {} (by simp [Busy, Rx.mid])
  have hx := C80_monitor_beats c evs hcl hnd
  have hm := ho.mid hl
  rw [show s.mon.captured = _ from hx] at hm
  rw [Rx.idle, hb (by rw [hm]; simpa using hp)]
  rfl

/-- What makes `active` of a monitor exact: it is asleep, or the last clock edge was not a transfer. -/
structure Exact (c : Cfg) (s : MonSys) : Prop where
  quiet : s.mon.pc = .asleep ∨ s.mon.pc = .woken ∨ s.mon.pc = .off → s.mon.active = s.mon.mid
  last : ∀ l a, s.trace = l ++ [some a] → xfers c [some a] = [] → s.mon.pc ≠ .due → s.mon.active = s.mon.mid
  due : s.mon.pc = .due → ∃ l, s.trace = l ++ [some ⟨s.valid, s.ready, s.beat⟩]

theorem Exact.same {c : Cfg} {s t : MonSys} (h : Exact c s) (h1 : t.mon.part = s.mon.part) (h2 : t.mon.active = s.mon.active)
    (h3 : t.trace = s.trace) (h4 : t.mon.pc = .due ↔ s.mon.pc = .due)
    (h5 : t.mon.pc = .asleep ∨ t.mon.pc = .woken ∨ t.mon.pc = .off → s.mon.pc = .asleep ∨ s.mon.pc = .woken ∨ s.mon.pc = .off)
    (h6 : s.mon.pc = .due → t.valid = s.valid ∧ t.ready = s.ready ∧ t.beat = s.beat) : Exact c t where
  quiet hq := by simp only [Rx.mid, h1, h2]; exact h.quiet (h5 hq)
  last l a hl hx hd := by simp only [Rx.mid, h1, h2]; exact h.last l a (h3 ▸ hl) hx (fun hh => hd (h4.2 hh))
  due hd := by
    obtain ⟨l, hl⟩ := h.due (h4.1 hd)
    obtain ⟨a1, a2, a3⟩ := h6 (h4.1 hd)
    exact ⟨l, by rw [h3, hl, a1, a2, a3]⟩

theorem wake_quiet {p : Pc} : p.wakeUp = .asleep ∨ p.wakeUp = .woken ∨ p.wakeUp = .off → p = .asleep ∨ p = .woken ∨ p = .off := by
  cases p <;> simp [Pc.wakeUp]

theorem Exact.step {c : Cfg} {s : MonSys} (h : Exact c s) (e : MonEv) : Exact c (s.step c e) := by
  cases e with
  | tick =>
    simp only [MonSys.step]
    split
    · rename_i hst
      by_cases he : s.mon.pc = .edge
      · exact ⟨fun hq => by simp [he, Pc.tick] at hq, fun _ _ _ _ hd => by simp [he, Pc.tick] at hd, fun _ => ⟨_, rfl⟩⟩
      · have hq : s.mon.pc = .asleep ∨ s.mon.pc = .woken ∨ s.mon.pc = .off := by
          cases hpc : s.mon.pc <;> simp_all [Pc.still]
        exact ⟨fun _ => h.quiet hq, fun _ _ _ _ _ => h.quiet hq, fun hd => by rcases hq with hq | hq | hq <;> simp [hq, Pc.tick] at hd⟩
    · exact h
  | run =>
    simp only [MonSys.step]
    split
    · rename_i hd
      obtain ⟨l, hl⟩ := h.due hd
      dsimp only [Rx.runMon]
      split
      · rename_i hx
        refine ⟨by simp, ?_, by simp⟩
        intro l' a h1 h2
        dsimp only at h1
        rw [hl] at h1
        have := (List.append_inj' h1 rfl).2
        simp only [List.cons.injEq, Option.some.injEq, and_true] at this
        subst this
        rw [Bool.and_comm] at hx
        rw [xfers, List.flatMap_singleton] at h2
        dsimp only at h2
        rw [if_pos hx] at h2
        cases h2
      · exact ⟨fun _ => rfl, fun _ _ _ _ _ => rfl, by simp⟩
    · exact h
  | wake =>
    simp only [MonSys.step]
    split
    · rename_i hw
      exact ⟨by simp, fun l a h1 h2 _ => h.last l a h1 h2 (by simp [hw]), by simp⟩
    · exact h
  | spurious =>
    simp only [MonSys.step]
    split
    · rename_i hw
      exact ⟨by simp, fun l a h1 h2 _ => h.last l a h1 h2 (by simp [hw]), by simp⟩
    · exact h
  | env v r b =>
    simp only [MonSys.step]
    split
    · exact h
    · rename_i hd
      split
      · exact h.same rfl rfl rfl wakeUp_due wake_quiet (fun hh => absurd hh hd)
      · exact h.same rfl rfl rfl Iff.rfl (fun hh => hh) (fun hh => absurd hh hd)
  | recv k =>
    have hm := recv_kept false s.mon k
    have : (s.mon.recv false k).2.pc = s.mon.pc ∧ (s.mon.recv false k).2.active = s.mon.active := by
      unfold Rx.recv
      split <;> exact ⟨rfl, rfl⟩
    exact h.same hm.part this.2 rfl (by simp only [MonSys.step, this.1]) (by simp only [MonSys.step, this.1]; exact id) (fun _ => ⟨rfl, rfl, rfl⟩)
  | readNowait n =>
    have hm := read_kept false s.mon n
    have := read_ind false (fun t => t.pc = s.mon.pc ∧ t.active = s.mon.active) (fun t f rest _ h => h) (fun _ _ h => h) (fun _ _ h => h)
      s.mon n ⟨rfl, rfl⟩
    exact h.same hm.part this.2 rfl (by simp only [MonSys.step, this.1]) (by simp only [MonSys.step, this.1]; exact id) (fun _ => ⟨rfl, rfl, rfl⟩)
  | clear => exact h.same rfl rfl rfl Iff.rfl id (fun _ => ⟨rfl, rfl, rfl⟩)
  | reset v =>
    cases v with
    | true =>
      simp only [MonSys.step, Rx.reset, if_true]
      exact ⟨fun _ => rfl, fun _ _ _ _ _ => rfl, by simp⟩
    | false =>
      simp only [MonSys.step, Rx.reset, Bool.false_eq_true, if_false]
      split
      · rename_i hoff
        exact ⟨fun _ => h.quiet (by simp [hoff]), fun _ _ _ _ _ => h.quiet (by simp [hoff]), by simp⟩
      · exact h.same rfl rfl rfl Iff.rfl id (fun _ => ⟨rfl, rfl, rfl⟩)

/-- **C122, monitor, exactly.** Without reset: if no beat was transferred at the last clock edge, `idle()` of a monitor is true if and only if no
packet has begun and not ended. -/
theorem C122_monitor_exact (c : Cfg) (hl : 0 < c.lanes) (evs : List MonEv) (hcl : ∀ e ∈ evs, e.noReset = true)
    (tr : List (Option Sample)) (a : Sample) :
    let s := MonSys.exec c (.reset false :: evs)
    s.mon.pc ≠ .due → s.trace = tr ++ [some a] → xfers c [some a] = [] →
    (s.mon.idle = true ↔ (packets c (xfers c s.trace)).2 = []) := by
  intro s hnd htr hx
  have ho : Open c s.mon := mon_open hl (.reset false :: evs) (by simpa [MonEv.noReset] using hcl)
  have he : Exact c s := foldl_inv (MonSys.step c) (fun s : MonSys => Exact c s) (fun s e h => h.step e) (.reset false :: evs) {}
    ⟨fun _ => rfl, fun _ _ h => by simp at h, by simp⟩
  have hb := C80_monitor_beats c evs hcl hnd
  have hm := ho.mid hl
  rw [show s.mon.captured = _ from hb] at hm
  rw [Rx.idle, he.last tr a htr hx hnd, hm]
  simp [s]

/-- **C122, sink, when it looks.** Without reset: when a sink that awaits the clock edge sees no transfer, `idle()` becomes true if and only if no packet has
begun and not ended. What is missing: a sink that is paused or full does not await the clock edge. -/
theorem C122_sink_exact_partial (c : Cfg) (hl : 0 < c.lanes) (evs : List SnkEv) (hcl : ∀ e ∈ evs, e.noReset = true) :
    let s := SnkSys.exec c (.reset false :: evs)
    s.snk.pc = .due → xfers c [some ⟨s.valid, s.snk.ready, s.beat⟩] = [] →
    ((s.step c .run).snk.idle = true ↔ (packets c (xfers c s.trace)).2 = []) := by
  intro s hd hx
  have ho : Open c s.snk := snk_open hl (.reset false :: evs) (by simpa [SnkEv.noReset] using hcl)
  have hm := ho.mid hl
  have hnx : ¬ (((!c.hasValid || s.valid) && (!c.hasReady || s.snk.ready)) = true) := by
    intro h
    rw [xfers, List.flatMap_singleton] at hx
    dsimp only at hx
    rw [if_pos h] at hx
    cases hx
  have ha := (SnkSys.exec_acc hl true evs (fun _ => hcl)).acc
  have hpend : s.pend c = [] := by
    unfold SnkSys.pend
    rw [if_neg (fun h => hnx h.2)]
  rw [show SnkSys.exec c (.reset false :: evs) = s from rfl, hpend, List.append_nil] at ha
  have ha : s.snk.captured = xfers c s.trace := ha.symm
  rw [ha] at hm
  simp only [SnkSys.step, if_pos hd, Rx.idle]
  rw [Rx.runSnk, (finish_frame ..).2.2, Rx.capture, if_neg (by rw [Bool.and_comm]; exact hnx)]
  show (!s.snk.mid) = true ↔ _
  rw [hm]
  simp

/-- **C122, reset.** After an assertion of reset, `idle()` of a sink is true as long as it has captured no beat, whatever else happens. -/
theorem C122_sink_reset (c : Cfg) (evs more : List SnkEv) :
    let s := SnkSys.exec c evs
    let t := SnkSys.exec c (evs ++ .reset true :: more)
    t.snk.captured = s.snk.captured → t.snk.idle = true := by
  intro s t h
  have h0 : Fallow s.snk.captured.length (s.step c (.reset true)).snk := ⟨Nat.le_refl _, fun _ => ⟨rfl, rfl⟩⟩
  have h1 : Fallow s.snk.captured.length t.snk := by
    have : t = more.foldl (SnkSys.step c) (s.step c (.reset true)) := by
      simp only [t, s, SnkSys.exec, List.foldl_append, List.foldl_cons]
    rw [this]
    exact foldl_inv (SnkSys.step c) (fun u : SnkSys => Fallow s.snk.captured.length u.snk) (fun u e hu => (snk_move c u e).fallow hu) more _ h0
  rw [Rx.idle, (h1.2 (by rw [h])).2]
  rfl

/-- **C122, reset.** The same for a monitor. -/
theorem C122_monitor_reset (c : Cfg) (evs more : List MonEv) :
    let s := MonSys.exec c evs
    let t := MonSys.exec c (evs ++ .reset true :: more)
    t.mon.captured = s.mon.captured → t.mon.idle = true := by
  intro s t h
  have h0 : Fallow s.mon.captured.length (s.step c (.reset true)).mon := ⟨Nat.le_refl _, fun _ => ⟨rfl, rfl⟩⟩
  have h1 : Fallow s.mon.captured.length t.mon := by
    have : t = more.foldl (MonSys.step c) (s.step c (.reset true)) := by
      simp only [t, s, MonSys.exec, List.foldl_append, List.foldl_cons]
    rw [this]
    exact foldl_inv (MonSys.step c) (fun u : MonSys => Fallow s.mon.captured.length u.mon) (fun u e hu => (mon_move c u e).fallow hu) more _ h0
  rw [Rx.idle, (h1.2 (by rw [h])).2]
  rfl

/-- A sink takes a frame of one beat and goes to sleep, because it is paused by then; nothing more is offered. -/
def exPausedEnd : List SnkEv :=
  [.reset false, .wake, .commit, .tick, .pause true, .run, .commit, .env true { tdata := 5, tkeep := 1, tlast := true }, .commit,
   .tick, .run, .commit, .env false {}, .commit, .tick, .run, .commit]

/-- **C122** is false of the code for sinks: the only packet has ended, nothing is offered, and `idle()` is false however many clock cycles pass,
because the sink sleeps until `pause` changes. -/
theorem C122_sink_violated (n : Nat) :
    let s := Nat.repeat (fun s => s.cycle exCfg false {}) n (SnkSys.exec exCfg exPausedEnd)
    (packets exCfg (xfers exCfg (SnkSys.exec exCfg exPausedEnd).trace)).2 = [] ∧ s.snk.captured.length = 1 ∧ s.snk.idle = false := by
  have key : ∀ t : SnkSys, t.snk.pc = .asleep → t.valid = false → t.snk.ready = t.snk.nready →
      (t.cycle exCfg false {}).snk = t.snk ∧ (t.cycle exCfg false {}).valid = false := by
    intro t h1 h2 h3
    simp only [SnkSys.cycle, List.foldl_cons, List.foldl_nil, SnkSys.step, h1, h2, Stream.Pc.still, Stream.Pc.tick, reduceCtorEq, if_false,
      if_true, Bool.and_self, Bool.not_false, Bool.and_true, Bool.false_eq_true, ← h3, Bool.and_not_self]
    refine ⟨?_, trivial⟩
    cases t with
    | mk snk v d st tr => cases snk; simp_all
  have h0 : let s := SnkSys.exec exCfg exPausedEnd
      s.snk.pc = .asleep ∧ s.valid = false ∧ s.snk.ready = s.snk.nready ∧ s.snk.captured.length = 1 ∧ s.snk.idle = false := by decide +kernel
  have : ∀ n, (Nat.repeat (fun s => s.cycle exCfg false {}) n (SnkSys.exec exCfg exPausedEnd)).snk = (SnkSys.exec exCfg exPausedEnd).snk ∧
      (Nat.repeat (fun s => s.cycle exCfg false {}) n (SnkSys.exec exCfg exPausedEnd)).valid = false := by
    intro n
    induction n with
    | zero => exact ⟨rfl, h0.2.1⟩
    | succ n ih =>
      simp only [Nat.repeat]
      obtain ⟨h1, h2⟩ := key _ (by rw [ih.1]; exact h0.1) ih.2 (by rw [ih.1]; exact h0.2.2.1)
      exact ⟨h1.trans ih.1, h2⟩
  intro s
  refine ⟨by decide +kernel, ?_, ?_⟩
  · rw [show s.snk = _ from (this n).1]; exact h0.2.2.2.1
  · rw [show s.snk = _ from (this n).1]; exact h0.2.2.2.2

/-- The premises of the theorems: in the middle of a packet; at an edge without transfer in the middle of a packet and behind one. -/
example : let s := SnkSys.exec exCfg (.reset false :: exPackets)
    s.snk.pc ≠ .due ∧ (packets exCfg (xfers exCfg s.trace)).2.length = 1 ∧ s.snk.idle = false := by decide +kernel

example : let s := SnkSys.exec exCfg (.reset false :: (exPackets ++ [.env false {}, .commit, .tick]))
    s.snk.pc = .due ∧ xfers exCfg [some ⟨s.valid, s.snk.ready, s.beat⟩] = [] ∧ (s.step exCfg .run).snk.idle = false := by decide +kernel

example : let s := SnkSys.exec exCfg (.reset false :: (exPackets ++ [.env true { tlast := true }, .commit, .tick, .run, .env false {},
      .commit, .tick]))
    s.snk.pc = .due ∧ xfers exCfg [some ⟨s.valid, s.snk.ready, s.beat⟩] = [] ∧ s.snk.idle = false ∧ (s.step exCfg .run).snk.idle = true := by
  decide +kernel

example : let s := MonSys.exec exCfg (.reset false :: exMonitor)
    let t := MonSys.exec exCfg (.reset false :: (exMonitor ++ [.env true false {}, .tick, .run]))
    s.mon.idle = false ∧ t.mon.pc ≠ .due ∧ t.trace.getLast? = some (some ⟨true, false, {}⟩) ∧ t.mon.idle = true := by decide +kernel

/-- A reset in the middle of a packet. -/
example : let s := SnkSys.exec exCfg (.reset false :: exPackets)
    let t := SnkSys.exec exCfg (.reset false :: (exPackets ++ .reset true :: [.env false {}, .reset false, .wake, .commit, .tick, .run]))
    s.snk.idle = false ∧ t.snk.captured = s.snk.captured ∧ t.snk.idle = true := by decide +kernel

end Verif.Axis
