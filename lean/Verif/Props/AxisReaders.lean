import Verif.Model.AxisReaders
import Verif.Props.Readers
import Verif.Props.Axis

/-!
# C145: several readers of an AXI stream sink

`C145_axis_sink`: with suspended calls, the sink goes through the states that it has in `Model/Axis.lean`, so that the theorems about it there still hold.
`C145_axis_readers`: the calls are served as in `Model/Readers.lean`.
-/

namespace Verif.AxisReaders

open Axis

variable {c : Cfg}

/-- The loop of `read(count)` takes the frames of `read_nowait(0)` if the call is suspended, and those of `read_nowait(count)` otherwise. -/
theorem readLoop_eq (n : Int) : ∀ (k : Nat) (s : Rx), s.queue.length = k →
    ((readLoop n k s).1 = none → (readLoop n k s).2 = (s.readNowait true 0).2) ∧
    (∀ d, (readLoop n k s).1 = some d → (readLoop n k s).2 = (s.readNowait true n).2 ∧ d = (s.readNowait true n).1) := by
  intro k
  induction k with
  | zero =>
    intro s hk
    refine ⟨fun _ => ?_, fun d h => by cases h⟩
    simp [readLoop, Rx.readNowait, hk, Rx.drain]
  | succ k ih =>
    intro s hk
    cases hq : s.queue with
    | nil => rw [hq] at hk; cases hk
    | cons f rest =>
      have hr : rest.length = k := by rw [hq] at hk; simpa using hk
      have hp := (popped_queue true s true f rest).1
      cases hc : f.compact with
      | error e =>
        have e1 : readLoop n (k + 1) s = (some (.error e), s.popped true true f rest) := by
          simp only [readLoop, hq, hc]
        have e2 : ∀ m, s.readNowait true m = (.error e, s.popped true true f rest) := by
          intro m
          unfold Rx.readNowait
          rw [hk]
          simp only [Rx.drain, hq, hc]
        rw [e1, e2, e2]
        exact ⟨(fun h => by cases h), fun d h => ⟨rfl, by injection h with h; exact h.symm⟩⟩
      | ok g =>
        let t : Rx := { s.popped true true f rest with readQueue := (s.popped true true f rest).readQueue ++ g.tdata }
        have htq : t.queue.length = k := by show (s.popped true true f rest).queue.length = k; rw [hp, hr]
        have e2 : ∀ m, s.readNowait true m = t.readNowait true m := by
          intro m
          unfold Rx.readNowait
          rw [hk, htq]
          simp only [Rx.drain, hq, hc]
          rfl
        have e1 : readLoop n (k + 1) s = if t.readQueue = [] then readLoop n k t else (some (t.readNowait true n).1, (t.readNowait true n).2) := by
          simp only [readLoop, hq, hc]
          rfl
        rw [e1, e2, e2]
        by_cases he : t.readQueue = []
        · rw [if_pos he]; exact ih t htq
        · rw [if_neg he]
          exact ⟨(fun h => by cases h), fun d h => ⟨rfl, by injection h with h; exact h.symm⟩⟩

/-- The events of a history that are not calls. -/
def busEvents (evs : List Ev) : List SnkEv := evs.filterMap fun
  | .bus e => if isCall e then none else some e
  | _ => none

theorem wakeFirst_sys (s : Sys) : s.wakeFirst.sys = s.sys := by
  unfold Sys.wakeFirst
  split <;> rfl

theorem recv_sys (s : Sys) (id : Nat) (k : Bool) : (s.recv c id k).sys = s.sys ∨ (s.recv c id k).sys = s.sys.step c (.recv k) := by
  unfold Sys.recv
  split
  · exact .inl rfl
  · exact .inr rfl

theorem finishRead_sys (s : Sys) (id : Nat) (n : Int) (r : Option (Py (List Int)) × Rx) :
    (s.finishRead id n r).sys = { s.sys with snk := r.2, settled := false } := by
  unfold Sys.finishRead
  simp only
  split <;> rfl

/-- An event, in terms of `Model/Axis.lean`. -/
theorem step_sys (s : Sys) (e : Ev) : ∃ l : List SnkEv, (s.step c e).sys = l.foldl (SnkSys.step c) s.sys ∧
    l.filter (fun x => !isCall x) = busEvents [e] := by
  have loop : ∀ (t : Sys) (id : Nat) (n : Int), t.sys = s.sys → ∃ m,
      (t.finishRead id n (readLoop n t.sys.snk.queue.length t.sys.snk)).sys = s.sys.step c (.readNowait m) := by
    intro t id n ht
    rw [finishRead_sys, ht]
    obtain ⟨h1, h2⟩ := readLoop_eq n s.sys.snk.queue.length s.sys.snk rfl
    cases h : (readLoop n s.sys.snk.queue.length s.sys.snk).1 with
    | none => exact ⟨0, by rw [h1 h]; rfl⟩
    | some d => exact ⟨n, by rw [(h2 d h).1]; rfl⟩
  have rcv : ∀ (t : Sys) (id : Nat) (k : Bool), t.sys = s.sys → ∃ l : List SnkEv, (t.recv c id k).sys = l.foldl (SnkSys.step c) s.sys ∧
      l.filter (fun x => !isCall x) = [] := by
    intro t id k ht
    rcases recv_sys (c := c) t id k with h | h
    · exact ⟨[], by rw [h, ht]; rfl, rfl⟩
    · exact ⟨[.recv k], by rw [h, ht]; rfl, rfl⟩
  cases e with
  | bus e =>
    simp only [Sys.step]
    by_cases hc : isCall e = true
    · exact ⟨[], by simp [hc], by simp [busEvents, hc]⟩
    · refine ⟨[e], ?_, by simp [busEvents, hc]⟩
      rw [if_neg hc]
      split
      · rw [wakeFirst_sys]; rfl
      · rfl
  | recv id k => exact rcv s id k rfl
  | recvNowait id k =>
    simp only [Sys.step]
    split
    · exact ⟨[], rfl, rfl⟩
    · exact rcv s id k rfl
  | read id n =>
    simp only [Sys.step, readCall]
    split
    · obtain ⟨m, h⟩ := loop s id n rfl
      exact ⟨[.readNowait m], h, rfl⟩
    · exact ⟨[.readNowait n], by rw [finishRead_sys]; rfl, rfl⟩
  | readNowait id n => exact ⟨[.readNowait n], rfl, rfl⟩
  | turn i =>
    simp only [Sys.step]
    split
    · exact ⟨[], rfl, rfl⟩
    · rename_i id w _
      cases w with
      | recv k => exact rcv _ id k rfl
      | read n =>
        obtain ⟨m, h⟩ := loop { s with woken := s.woken.eraseIdx i } id n rfl
        exact ⟨[.readNowait m], h, rfl⟩
  | cancel i => exact ⟨[], rfl, rfl⟩

theorem run_sys (evs : List Ev) : ∀ s : Sys, ∃ l : List SnkEv, (evs.foldl (Sys.step c) s).sys = l.foldl (SnkSys.step c) s.sys ∧
    l.filter (fun x => !isCall x) = busEvents evs := by
  induction evs with
  | nil => exact fun s => ⟨[], rfl, rfl⟩
  | cons e evs ih =>
    intro s
    obtain ⟨l1, h1, h2⟩ := step_sys (c := c) s e
    obtain ⟨l2, h3, h4⟩ := ih (s.step c e)
    refine ⟨l1 ++ l2, ?_, ?_⟩
    · rw [List.foldl_append, ← h1, ← h3]; rfl
    · rw [List.filter_append, h2, h4]
      simp only [busEvents, ← List.filterMap_append]
      rfl

/-- **C145 (AXI stream sinks).** Whatever calls are suspended, woken and cancelled, the sink and its bus go through states that they also have if the calls are
made when there is something to return: with the same events of the clock, the bus, `pause`, `clear()` and reset, in the same order. So everything proved of the
sink for all histories of `Model/Axis.lean` also holds with suspended calls. -/
theorem C145_axis_sink (evs : List Ev) : ∃ evs' : List SnkEv, (Sys.exec c evs).sys = SnkSys.exec c evs' ∧
    evs'.filter (fun x => !isCall x) = busEvents evs := run_sys evs {}

/-! ## The calls -/

/-- A call, in terms of `Model/Readers.lean`. -/
def Call.abs (x : Call) : Readers.Call := ⟨x.id, match x.want with | .recv _ => none | .read n => some n⟩

/-- A call, a turn or a cancellation, in terms of `Model/Readers.lean`. -/
def Ev.abs : Ev → Option (Readers.Ev Frame)
  | .bus _ => none
  | .recv id _ => some (.recv id)
  | .recvNowait id _ => some (.recvNowait id)
  | .read id n => some (.read id n)
  | .readNowait id n => some (.readNowait id n)
  | .turn i => some (.turn i)
  | .cancel i => some (.cancel i)

/-- The events of `Model/Readers.lean` that are not frames received and `clear()`. -/
def readers (l : List (Readers.Ev Frame)) : List (Readers.Ev Frame) := l.filter fun
  | .put _ | .clear => false
  | _ => true

theorem readNowait_full {s : Rx} (hi : RxInv c s) (hr : ReadInv s) (n : Int) :
    let all := s.readQueue ++ s.queue.flatMap Frame.payload
    let m := if n < 0 then all.length else n.toNat
    (s.readNowait true n).1 = .ok (all.take m) ∧ (s.readNowait true n).2.queue = [] ∧ (s.readNowait true n).2.readQueue = all.drop m ∧
      (s.readNowait true n).2.taken = s.taken ++ s.queue.map (fun f => (true, f)) := by
  obtain ⟨t, h1, h2, h3, h4, h5, h6⟩ := drain_spec true c s hi hr
  unfold Rx.readNowait
  rw [h1]
  simp only [h6]
  exact ⟨trivial, h2, trivial, h4⟩

/-- When the loop of `read` is suspended. -/
theorem readLoop_none (n : Int) : ∀ (k : Nat) (s : Rx), s.queue.length = k → RxInv c s → ReadInv s →
    ((readLoop n k s).1 = none ↔ s.queue = [] ∨ s.readQueue ++ s.queue.flatMap Frame.payload = []) := by
  intro k
  induction k with
  | zero =>
    intro s hk _ _
    exact ⟨fun _ => .inl (List.eq_nil_of_length_eq_zero hk), fun _ => rfl⟩
  | succ k ih =>
    intro s hk hi hr
    cases hq : s.queue with
    | nil => rw [hq] at hk; cases hk
    | cons f rest =>
      obtain ⟨e1, e2, e3, e4, e5, e6⟩ := popped_queue true s true f rest
      obtain ⟨bs, hf⟩ := hi.form f (by rw [hq]; simp)
      obtain ⟨g, hg⟩ := frameOf_compact c bs
      rw [← hf] at hg
      have hpay := payload_ok hg
      simp only [readLoop, hq, hg, List.flatMap_cons, hpay, e5]
      by_cases he : s.readQueue ++ g.tdata = []
      · rw [if_pos he]
        have := ih { s.popped true true f rest with readQueue := s.readQueue ++ g.tdata }
          (by show (s.popped true true f rest).queue.length = k; rw [e1]; rw [hq] at hk; simpa using hk)
          ((hi.popped true true f rest hq).same rfl rfl rfl rfl) (by
            unfold ReadInv at hr ⊢
            simp only [e4, e6, List.filter_append, List.flatMap_append, ← hr, List.append_assoc]
            simp [payload_ok hg])
        rw [this]
        simp only [e1, ← List.append_assoc, he, List.nil_append]
        constructor
        · rintro (h | h)
          · exact .inr (by rw [h]; rfl)
          · exact .inr h
        · rintro (h | h)
          · cases h
          · exact .inr h
      · rw [if_neg he]
        refine ⟨(fun h => by cases h), fun h => ?_⟩
        rcases h with h | h
        · cases h
        · rw [← List.append_assoc] at h
          exact absurd (List.append_eq_nil_iff.1 h).1 he

theorem readers_loop {α : Type} (bytes : α → List Int) (x : Readers.Call) (n : Int) : ∀ (q : List α) (r : Readers.Rx α),
    (Readers.Rx.readLoop bytes x n q r).items = r.items ∧ (Readers.Rx.readLoop bytes x n q r).woken = r.woken ∧
    (Readers.Rx.readLoop bytes x n q r).taken = r.taken ++ q.map (fun a => (some x, a)) := by
  intro q
  induction q with
  | nil => exact fun r => ⟨rfl, rfl, by simp [Readers.Rx.readLoop]⟩
  | cons a q ih =>
    intro r
    simp only [Readers.Rx.readLoop]
    split
    · obtain ⟨h1, h2, h3⟩ := ih { r with queue := q, taken := r.taken ++ [(some x, a)], readQueue := r.readQueue ++ bytes a }
      exact ⟨h1, h2, by rw [h3]; simp⟩
    · exact ⟨rfl, rfl, by simp [Readers.Rx.readNowait]⟩

/-- Which frames were taken, by `read()` (`true`) or `recv()` (`false`), without those dropped by `clear()`. -/
def byCalls (l : List (Option Readers.Call × Frame)) : List (Bool × Frame) := l.filterMap fun x => x.1.map fun y => (y.count.isSome, x.2)

theorem byCalls_append (l m : List (Option Readers.Call × Frame)) : byCalls (l ++ m) = byCalls l ++ byCalls m := List.filterMap_append ..

theorem byCalls_read (id : Nat) (n : Int) (q : List Frame) : byCalls (q.map fun a => (some ⟨id, some n⟩, a)) = q.map fun f => (true, f) := by
  induction q with
  | nil => rfl
  | cons a q ih => simp only [List.map_cons, byCalls] at ih ⊢; simp [ih]

theorem byCalls_clear (q : List Frame) : byCalls (q.map fun a => (none, a)) = [] := by
  induction q with
  | nil => rfl
  | cons a q ih => simp only [List.map_cons, byCalls] at ih ⊢; simp

/-- The sink with its calls is in the state `r` of `Model/Readers.lean`. -/
structure Agrees (s : Sys) (r : Readers.Rx Frame) : Prop where
  queue : r.queue = s.sys.snk.queue
  readQueue : r.readQueue = s.sys.snk.readQueue
  getters : r.getters = s.getters.map Call.abs
  woken : r.woken = s.woken.map Call.abs
  items : r.items = s.items
  outs : r.out.map (fun x => (x.1, Except.ok x.2)) = s.outs
  taken : byCalls r.taken = s.sys.snk.taken

/-- What the other events do to the queue. -/
theorem other_queue (s : SnkSys) (e : SnkEv) (he : isCall e = false) :
    ((s.step c e).snk.readQueue = s.snk.readQueue ∧ (s.step c e).snk.taken = s.snk.taken) ∧
    ((s.step c e).snk.queue = s.snk.queue ∨ (∃ f, (s.step c e).snk.queue = s.snk.queue ++ [f]) ∨ e = .clear ∧ (s.step c e).snk.queue = []) := by
  cases e with
  | tick => simp only [SnkSys.step]; split <;> exact ⟨⟨rfl, rfl⟩, .inl rfl⟩
  | run =>
    simp only [SnkSys.step]
    split
    · refine ⟨?_, ?_⟩
      · have h' : ∀ t : Rx, (t.finish c s.valid).readQueue = t.readQueue ∧ (t.finish c s.valid).taken = t.taken := by
          intro t
          unfold Rx.finish
          simp only
          repeat' split
          all_goals exact ⟨rfl, rfl⟩
        have h2 : (s.snk.capture c s.valid s.beat).readQueue = s.snk.readQueue ∧ (s.snk.capture c s.valid s.beat).taken = s.snk.taken := by
          unfold Rx.capture Rx.collect
          simp only
          repeat' split
          all_goals exact ⟨rfl, rfl⟩
        exact ⟨(h' _).1.trans h2.1, (h' _).2.trans h2.2⟩
      · have h := (finish_same c (s.snk.capture c s.valid s.beat) s.valid).1
        show ((s.snk.capture c s.valid s.beat).finish c s.valid).queue = _ ∨ (∃ f, ((s.snk.capture c s.valid s.beat).finish c s.valid).queue = _) ∨ _
        rw [h]
        unfold Rx.capture
        split
        · unfold Rx.collect
          simp only
          split
          · exact .inr (.inl ⟨_, rfl⟩)
          · exact .inl rfl
        · exact .inl rfl
    · exact ⟨⟨rfl, rfl⟩, .inl rfl⟩
  | wake => simp only [SnkSys.step]; split <;> exact ⟨⟨rfl, rfl⟩, .inl rfl⟩
  | spurious => simp only [SnkSys.step]; split <;> exact ⟨⟨rfl, rfl⟩, .inl rfl⟩
  | commit =>
    simp only [SnkSys.step]
    repeat' split
    all_goals exact ⟨⟨rfl, rfl⟩, .inl rfl⟩
  | env v b =>
    simp only [SnkSys.step]
    repeat' split
    all_goals exact ⟨⟨rfl, rfl⟩, .inl rfl⟩
  | recv k => cases he
  | readNowait n => cases he
  | pause v =>
    simp only [SnkSys.step, Rx.setPause]
    split <;> exact ⟨⟨rfl, rfl⟩, .inl rfl⟩
  | clear => exact ⟨⟨rfl, rfl⟩, .inr (.inr ⟨rfl, rfl⟩)⟩
  | reset v =>
    simp only [SnkSys.step, Rx.reset]
    repeat' split
    all_goals exact ⟨⟨rfl, rfl⟩, .inl rfl⟩

theorem Agrees.recv {s : Sys} {r : Readers.Rx Frame} (h : Agrees s r) (id : Nat) (k : Bool) :
    Agrees (s.recv c id k) (r.recv ⟨id, none⟩) := by
  unfold Sys.recv Readers.Rx.recv
  rw [h.queue]
  cases hq : s.sys.snk.queue with
  | nil =>
    refine ⟨hq.symm, h.readQueue, ?_, h.woken, h.items, h.outs, h.taken⟩
    simp [h.getters, Call.abs]
  | cons f rest =>
    obtain ⟨e1, e2, e3, e4, e5, e6⟩ := popped_queue true s.sys.snk false f rest
    refine ⟨?_, ?_, h.getters, h.woken, ?_, h.outs, ?_⟩
    · simp only [SnkSys.step, Rx.recv, hq, e1]
    · simp only [SnkSys.step, Rx.recv, hq, e5]; exact h.readQueue
    · simp only [h.items]
    · simp only [SnkSys.step, Rx.recv, hq, e4, byCalls_append, h.taken]
      rfl

theorem Agrees.readNowait {s : Sys} {r : Readers.Rx Frame} (h : Agrees s r) (hi : RxInv c s.sys.snk) (hr : ReadInv s.sys.snk) (id : Nat) (n : Int) :
    Agrees { s with sys := { s.sys with snk := (s.sys.snk.readNowait true n).2, settled := false }
                    outs := s.outs ++ [(id, (s.sys.snk.readNowait true n).1)] } (r.readNowait Frame.payload ⟨id, some n⟩ n) := by
  obtain ⟨h1, h2, h3, h4⟩ := readNowait_full hi hr n
  unfold Readers.Rx.readNowait
  refine ⟨?_, ?_, h.getters, h.woken, h.items, ?_, ?_⟩
  · exact h2.symm
  · simp only [h.readQueue, h.queue]; exact h3.symm
  · simp only [List.map_append, h.outs, List.map_cons, List.map_nil, h1, h.readQueue, h.queue]
  · simp only [byCalls_append, byCalls_read, h.taken, h.queue, h4]

theorem Agrees.loop {s : Sys} {r : Readers.Rx Frame} (h : Agrees s r) (hi : RxInv c s.sys.snk) (hr : ReadInv s.sys.snk) (id : Nat) (n : Int) :
    Agrees (s.finishRead id n (readLoop n s.sys.snk.queue.length s.sys.snk)) (Readers.Rx.readLoop Frame.payload ⟨id, some n⟩ n r.queue r) := by
  obtain ⟨k1, k2⟩ := Readers.readLoop_returns Frame.payload ⟨id, some n⟩ n r.queue r rfl
  obtain ⟨k3, k4, k6⟩ := readers_loop Frame.payload ⟨id, some n⟩ n r.queue r
  have k5 := Readers.readLoop_queue Frame.payload ⟨id, some n⟩ n r.queue r
  have hn := readLoop_none (c := c) n s.sys.snk.queue.length s.sys.snk rfl hi hr
  obtain ⟨g1, g2⟩ := readLoop_eq n s.sys.snk.queue.length s.sys.snk rfl
  simp only [h.queue, h.readQueue] at k1 k2
  rw [h.queue] at k3 k4 k5 k6 ⊢
  cases hd : (readLoop n s.sys.snk.queue.length s.sys.snk).1 with
  | none =>
    obtain ⟨j1, j2, j3⟩ := k1 (hn.1 hd)
    obtain ⟨_, f2, f3, f4⟩ := readNowait_full hi hr 0
    have hs := g1 hd
    unfold Sys.finishRead
    simp only [hd]
    refine ⟨?_, ?_, ?_, ?_, ?_, ?_, ?_⟩
    · rw [k5]; simp only [hs, f2]
    · rw [j2]; simp only [hs, f3]
      simp only [show ¬ ((0 : Int) < 0) by omega, if_false, Int.toNat_zero, List.drop_zero]
      rcases hn.1 hd with hq | hq
      · rw [hq]; simp
      · rw [hq]; exact (List.append_eq_nil_iff.1 hq).1
    · rw [j3]; simp [h.getters, Call.abs]
    · rw [k4]; exact h.woken
    · rw [k3]; exact h.items
    · rw [j1]; exact h.outs
    · rw [k6, byCalls_append, byCalls_read, h.taken]; simp only [hs, f4]
  | some d =>
    have hne : ¬ (s.sys.snk.queue = [] ∨ s.sys.snk.readQueue ++ s.sys.snk.queue.flatMap Frame.payload = []) := by
      intro hh; rw [hn.2 hh] at hd; cases hd
    obtain ⟨j1, j2, j3⟩ := k2 (fun hh => hne (.inl hh)) (fun hh => hne (.inr hh))
    obtain ⟨f1, f2, f3, f4⟩ := readNowait_full hi hr n
    obtain ⟨hs, hdd⟩ := g2 d hd
    unfold Sys.finishRead
    simp only [hd]
    refine ⟨?_, ?_, ?_, ?_, ?_, ?_, ?_⟩
    · rw [k5]; simp only [hs, f2]
    · rw [j2]; simp only [hs, f3]
    · rw [j3]; exact h.getters
    · rw [k4]; exact h.woken
    · rw [k3]; exact h.items
    · rw [j1]; simp only [List.map_append, h.outs, List.map_cons, List.map_nil, hdd, f1]
    · rw [k6, byCalls_append, byCalls_read, h.taken]; simp only [hs, f4]

theorem map_eraseIdx {α β : Type} (f : α → β) (l : List α) (i : Nat) : (l.eraseIdx i).map f = (l.map f).eraseIdx i := by
  induction l generalizing i with
  | nil => rfl
  | cons a l ih => cases i <;> simp [List.eraseIdx, ih]

theorem Agrees.step {s : Sys} {r : Readers.Rx Frame} (h : Agrees s r) (hi : RxInv c s.sys.snk) (hr : ReadInv s.sys.snk) (e : Ev) :
    ∃ l : List (Readers.Ev Frame), readers l = e.abs.toList ∧ Agrees (s.step c e) (l.foldl (Readers.Rx.step Frame.payload) r) := by
  cases e with
  | bus e =>
    simp only [Sys.step]
    by_cases hc : isCall e = true
    · rw [if_pos hc]; exact ⟨[], rfl, h⟩
    · rw [if_neg hc]
      obtain ⟨⟨h1, h3⟩, h2⟩ := other_queue (c := c) s.sys e (by simpa using hc)
      rcases h2 with h2 | ⟨f, h2⟩ | ⟨rfl, h2⟩
      · rw [if_neg (by rw [h2]; omega)]
        exact ⟨[], rfl, h.queue.trans h2.symm, h.readQueue.trans h1.symm, h.getters, h.woken, h.items, h.outs, h.taken.trans h3.symm⟩
      · rw [if_pos (by rw [h2]; simp)]
        refine ⟨[.put f], rfl, ?_⟩
        simp only [List.foldl_cons, List.foldl_nil, Readers.Rx.step, Readers.Rx.put, Sys.wakeFirst]
        rw [h.getters]
        cases hg : s.getters with
        | nil =>
          refine ⟨?_, h.readQueue.trans h1.symm, ?_, h.woken, h.items, h.outs, h.taken.trans h3.symm⟩
          · simp only [List.map_nil]; rw [h2, h.queue]
          · simp only [List.map_nil]
        | cons g rest =>
          refine ⟨?_, h.readQueue.trans h1.symm, rfl, ?_, h.items, h.outs, h.taken.trans h3.symm⟩
          · simp only [List.map_cons]; rw [h2, h.queue]
          · simp only [List.map_cons]; rw [h.woken]; simp
      · rw [if_neg (by rw [h2]; simp)]
        refine ⟨[.clear], rfl, h2.symm, h.readQueue.trans h1.symm, h.getters, h.woken, h.items, h.outs, ?_⟩
        simp only [List.foldl_cons, List.foldl_nil, Readers.Rx.step, Readers.Rx.clear, byCalls_append, byCalls_clear, List.append_nil]
        exact h.taken.trans h3.symm
  | recv id k => exact ⟨[.recv id], rfl, h.recv id k⟩
  | recvNowait id k =>
    refine ⟨[.recvNowait id], rfl, ?_⟩
    simp only [Sys.step, List.foldl_cons, List.foldl_nil, Readers.Rx.step]
    by_cases hq : s.sys.snk.queue = []
    · rw [if_pos hq]
      have : r.recvNowait ⟨id, none⟩ = r := by unfold Readers.Rx.recvNowait; rw [h.queue, hq]
      rw [this]; exact h
    · rw [if_neg hq]
      have : r.recvNowait ⟨id, none⟩ = r.recv ⟨id, none⟩ := by
        unfold Readers.Rx.recvNowait Readers.Rx.recv
        cases h' : r.queue with
        | nil => exact absurd (h.queue.symm.trans h') hq
        | cons f rest => rfl
      rw [this]; exact h.recv id k
  | read id n =>
    refine ⟨[.read id n], rfl, ?_⟩
    simp only [Sys.step, readCall, List.foldl_cons, List.foldl_nil, Readers.Rx.step, Readers.Rx.read, h.readQueue]
    by_cases hq : s.sys.snk.readQueue = []
    · rw [if_pos hq, if_pos hq]; exact h.loop hi hr id n
    · rw [if_neg hq, if_neg hq]; exact h.readNowait hi hr id n
  | readNowait id n => exact ⟨[.readNowait id n], rfl, h.readNowait hi hr id n⟩
  | turn i =>
    refine ⟨[.turn i], rfl, ?_⟩
    simp only [Sys.step, List.foldl_cons, List.foldl_nil, Readers.Rx.step, h.woken, List.getElem?_map]
    cases hw : s.woken[i]? with
    | none => exact h
    | some x =>
      obtain ⟨id, w⟩ := x
      have h' : Agrees { s with woken := s.woken.eraseIdx i } { r with woken := (s.woken.map Call.abs).eraseIdx i } :=
        ⟨h.queue, h.readQueue, h.getters, (map_eraseIdx _ _ _).symm, h.items, h.outs, h.taken⟩
      cases w with
      | recv k => exact h'.recv id k
      | read n => exact h'.loop hi hr id n
  | cancel i =>
    refine ⟨[.cancel i], rfl, h.queue, h.readQueue, ?_, h.woken, h.items, h.outs, h.taken⟩
    simp only [Readers.Rx.step, List.foldl_cons, List.foldl_nil, Sys.step, h.getters, map_eraseIdx]

theorem agrees (hl : 0 < c.lanes) (evs : List Ev) : ∃ revs : List (Readers.Ev Frame), readers revs = evs.filterMap Ev.abs ∧
    Agrees (Sys.exec c evs) (Readers.Rx.exec Frame.payload revs) := by
  have key : ∀ n, ∃ revs : List (Readers.Ev Frame), readers revs = (evs.take n).filterMap Ev.abs ∧ Agrees (Sys.exec c (evs.take n)) (Readers.Rx.exec Frame.payload revs) := by
    intro n
    induction n with
    | zero => exact ⟨[], rfl, rfl, rfl, rfl, rfl, rfl, rfl, rfl⟩
    | succ n ih =>
      obtain ⟨revs, h0, h⟩ := ih
      rw [List.take_add_one]
      cases he : evs[n]? with
      | none => simp only [Option.toList_none, List.append_nil]; exact ⟨revs, h0, h⟩
      | some e =>
        obtain ⟨evs', h1, -⟩ := C145_axis_sink (c := c) (evs.take n)
        have hi : RxInv c (Sys.exec c (evs.take n)).sys.snk := by rw [h1]; exact SnkSys.exec_rx hl evs'
        have hr : ReadInv (Sys.exec c (evs.take n)).sys.snk := by rw [h1]; exact SnkSys.exec_read hl evs'
        obtain ⟨l, h3, h2⟩ := h.step hi hr e
        refine ⟨revs ++ l, ?_, ?_⟩
        · unfold readers at *
          rw [List.filter_append, List.filterMap_append, h0, h3]
          cases e <;> rfl
        unfold Sys.exec Readers.Rx.exec at *
        rw [List.foldl_append, List.foldl_append]
        exact h2
  obtain ⟨revs, h0, h⟩ := key evs.length
  rw [List.take_length] at h h0
  exact ⟨revs, h0, h⟩

/-- **C145 (AXI stream sinks).** The calls of the users of a sink are suspended, woken and answered as in `Model/Readers.lean`, where the same calls, turns and cancellations happen in
the same order, with some frames received (`put`) and calls of `clear()` in between: same queue, same waiting calls, same frames and bytes returned to the same calls. -/
theorem C145_axis_readers (hl : 0 < c.lanes) (evs : List Ev) : ∃ revs : List (Readers.Ev Frame), readers revs = evs.filterMap Ev.abs ∧
    let r := Readers.Rx.exec Frame.payload revs
    let s := Sys.exec c evs
    r.queue = s.sys.snk.queue ∧ r.readQueue = s.sys.snk.readQueue ∧ r.getters = s.getters.map Call.abs ∧ r.woken = s.woken.map Call.abs ∧
      r.items = s.items ∧ r.out.map (fun x => (x.1, Except.ok x.2)) = s.outs := by
  obtain ⟨revs, h0, h⟩ := agrees hl evs
  exact ⟨revs, h0, h.queue, h.readQueue, h.getters, h.woken, h.items, h.outs⟩

/-- **C145 (AXI stream sinks).** However its readers are suspended and served, `recv()` and `recv_nowait()` return, in the order of return, exactly the frames that
were taken for them, in the order of arrival; `read()` and `read_nowait()` never raise, and return, in the order of return, the bytes of exactly the frames that were
taken for them; and no reader is suspended while there is a frame in the queue, unless a woken one still has to get its turn. -/
theorem C145_axis_served (hl : 0 < c.lanes) (evs : List Ev) :
    let s := Sys.exec c evs
    s.items.map (·.2) = (s.sys.snk.taken.filter (fun x => !x.1)).map (·.2) ∧
    (∃ ds : List (Nat × List Int), s.outs = ds.map (fun x => (x.1, Except.ok x.2)) ∧
      ds.flatMap (·.2) ++ s.sys.snk.readQueue = ((s.sys.snk.taken.filter (·.1)).map (·.2)).flatMap Frame.payload) ∧
    (s.woken = [] → s.getters = [] ∨ s.sys.snk.queue = []) := by
  intro s
  obtain ⟨revs, -, h⟩ := agrees hl evs
  refine ⟨?_, ⟨_, h.outs.symm, ?_⟩, fun hw => ?_⟩
  · rw [← h.items, ← h.taken, (Readers.C145_once Frame.payload revs).2]
    generalize (Readers.Rx.exec Frame.payload revs).taken = l
    induction l with
    | nil => rfl
    | cons x l ih =>
      obtain ⟨a, f⟩ := x
      rcases a with _ | ⟨id, _ | n⟩ <;>
        simpa [byCalls, Readers.byRecv, List.filterMap_cons] using ih
  · rw [← h.readQueue, Readers.C145_bytes Frame.payload revs, ← h.taken]
    generalize (Readers.Rx.exec Frame.payload revs).taken = l
    induction l with
    | nil => rfl
    | cons x l ih =>
      obtain ⟨a, f⟩ := x
      rcases a with _ | ⟨id, _ | n⟩ <;>
        simpa [byCalls, Readers.byRead, List.filterMap_cons] using ih
  · have := Readers.C145_no_lost_wakeup Frame.payload revs (by rw [h.woken, hw]; rfl)
    rw [h.getters, h.queue] at this
    rcases this with h1 | h1
    · exact .inl (List.map_eq_nil_iff.1 h1)
    · exact .inr h1

/-- **C145 (AXI stream sinks).** Without `clear()` and reset, the frames taken for the calls, followed by those in the queue, are exactly the packets transferred on the
bus, in order: nothing is lost or duplicated by suspending, waking or cancelling readers. -/
theorem C145_axis_delivered (hl : 0 < c.lanes) (evs : List Ev) (hcl : ∀ e ∈ busEvents evs, e.clean = true)
    (hnd : (Sys.exec c (.bus (.reset false) :: evs)).sys.snk.pc ≠ .due) :
    let s := Sys.exec c (.bus (.reset false) :: evs)
    s.sys.snk.taken.map (·.2) ++ s.sys.snk.queue = (packets c (xfers c s.sys.trace)).1.map (frameOf c) := by
  intro s
  obtain ⟨l, h1, h2⟩ := run_sys (c := c) evs (Sys.step c {} (.bus (.reset false)))
  have h0 : s.sys = SnkSys.exec c (.reset false :: l) := h1
  have hl' : ∀ e ∈ l, e.clean = true := by
    intro e he
    by_cases hc : isCall e = true
    · cases e <;> first | rfl | cases hc
    · exact hcl e (by rw [← h2]; exact List.mem_filter.2 ⟨he, by simpa using hc⟩)
  have hnd' : (SnkSys.exec c (.reset false :: l)).snk.pc ≠ .due := by rw [← h0]; exact hnd
  have := C80_sink c hl l hl' hnd'
  rw [← h0] at this
  exact this

/-! Two readers wait, a third is cancelled; two packets arrive; the second reader gets its turn first, takes both, and the first one waits again. -/

def exCalls : List Ev := [.recv 1 true, .read 2 6, .recv 3 false, .cancel 2] ++ exPackets.map .bus ++
  [.bus (.env true { tdata := 0x0807, tkeep := 3, tlast := true }), .bus .commit, .bus .tick, .bus .run, .bus .commit, .turn 1, .turn 0, .readNowait 4 2]

example : let s := Sys.exec exCfg (.bus (.reset false) :: exCalls)
    s.outs.map (fun x => (x.1, x.2.toOption)) = [(2, some [1, 2, 3, 4, 5, 6]), (4, some [0, 0])] ∧ s.items = [] ∧ s.getters = [⟨1, .recv true⟩] ∧ s.woken = [] ∧
    s.sys.snk.readQueue = [0, 7, 8] ∧ s.sys.snk.pc ≠ .due := by decide +kernel
example : (∀ e ∈ busEvents exCalls, e.clean = true) ∧ 0 < exCfg.lanes := by decide +kernel

end Verif.AxisReaders
