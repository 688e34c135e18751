import Verif.Proof.AxisAcc
import Verif.Props.AxisFrame

/-!
# Invariants of AXI stream sinks and monitors
-/

namespace Verif.Axis

open Verif.Stream (Pc wakeUp_ne wakeUp_off wakeUp_woken wakeUp_due wakeUp_edge tick_due tick_off tick_asleep tick_woken tick_edge
  still_iff foldl_inv foldl_inv')

/-! ## Frames from beats -/

theorem frameOf_eq (c : Cfg) (bs : List Beat) : frameOf c bs = ofLists c (received c bs) := by
  unfold frameOf ofLists received beatData beatKeep
  congr 2
  split
  · rfl
  · simp

theorem frameOf_nil (c : Cfg) : frameOf c [] = emptyFrame c := by
  simp [frameOf, emptyFrame]

theorem frameOf_snoc (c : Cfg) (bs : List Beat) (b : Beat) : (frameOf c bs).pushBeat c b = frameOf c (bs ++ [b]) := by
  rw [frameOf_eq, frameOf_eq, pushBeat_spec, received_snoc]

theorem frameOf_truthy (c : Cfg) (hl : 0 < c.lanes) (bs : List Beat) (h : bs ≠ []) : (frameOf c bs).truthy = true := by
  rw [truthy_iff]
  intro hh
  simp only [frameOf, List.flatMap_eq_nil_iff] at hh
  obtain ⟨b, bs', rfl⟩ := List.exists_cons_of_ne_nil h
  have := hh b (by simp)
  simp at this
  omega

theorem frameOf_compact (c : Cfg) (bs : List Beat) : ∃ g, (frameOf c bs).compact = .ok g := by
  have hlen : ∀ (x : Beat → Int), (bs.flatMap fun b => List.replicate c.lanes (x b)).length =
      (bs.flatMap fun b => (List.range c.lanes).map fun k => (((b.tdata >>> (k * c.size)) % 2 ^ c.size : Nat) : Int)).length := by
    intro x; simp [List.length_flatMap]
  by_cases hk : c.hasKeep = true
  · refine ⟨_, C51_compact _ _ _ _ _ rfl rfl rfl rfl ?_ ?_ ?_ ?_⟩
    · simp [frameOf, hk, List.length_flatMap]
    all_goals
      simp only [frameOf]
      split
      · exact .inl (hlen _)
      · exact .inr rfl
  · refine ⟨_, C51_compact_no_keep _ _ _ _ ?_ rfl rfl rfl⟩
    simp [frameOf, hk]

/-! ## Packets -/

theorem packets_snoc (c : Cfg) (bs : List Beat) (b : Beat) : packets c (bs ++ [b]) =
    if !c.hasLast || b.tlast then ((packets c bs).1 ++ [(packets c bs).2 ++ [b]], [])
    else ((packets c bs).1, (packets c bs).2 ++ [b]) := by
  simp only [packets, List.foldl_append, List.foldl_cons, List.foldl_nil]

/-! ## Taking frames out -/

theorem popped_facts (sink : Bool) (s : Rx) (r : Bool) (f : Frame) (rest : List Frame) (hq : s.queue = f :: rest) :
    ((s.popped sink r f rest).pc = .due ↔ s.pc = .due) ∧ ((s.popped sink r f rest).pc = .off ↔ s.pc = .off) ∧
    (s.popped sink r f rest).captured = s.captured ∧ (s.popped sink r f rest).ready = s.ready ∧
    (s.popped sink r f rest).nready = s.nready ∧ (s.popped sink r f rest).part = s.part ∧
    (s.popped sink r f rest).taken.map (·.2) ++ (s.popped sink r f rest).queue = s.taken.map (·.2) ++ s.queue ∧
    ((s.popped sink r f rest).pc = .asleep → s.pc = .asleep ∧ sink = false) ∧
    (s.popped sink r f rest).pause = s.pause ∧ (s.popped sink r f rest).active = s.active := by
  unfold Rx.popped Rx.dequeue
  cases sink
  · simp [hq]
  · simp [Rx.setWake, wakeUp_due, wakeUp_off, wakeUp_ne, hq]

/-- Induction over the frames that `read_nowait` takes out. -/
theorem drain_ind (sink : Bool) (P : Rx → Prop)
    (hpop : ∀ s f rest, s.queue = f :: rest → P s → P (s.popped sink true f rest))
    (hrq : ∀ s l, P s → P { s with readQueue := l }) : ∀ n s, P s → P (Rx.drain sink n s).2
  | 0, s, h => h
  | n + 1, s, h => by
    unfold Rx.drain
    split
    · exact h
    · rename_i f rest hq
      simp only
      split
      · exact hpop s f rest hq h
      · exact drain_ind sink P hpop hrq n _ (hrq _ _ (hpop s f rest hq h))

theorem read_ind (sink : Bool) (P : Rx → Prop)
    (hpop : ∀ s f rest, s.queue = f :: rest → P s → P (s.popped sink true f rest))
    (hrq : ∀ s l, P s → P { s with readQueue := l })
    (hout : ∀ s l, P s → P { s with out := l }) (s : Rx) (n : Int) (h : P s) : P (s.readNowait sink n).2 := by
  have hd := drain_ind sink P hpop hrq s.queue.length s h
  unfold Rx.readNowait
  split
  · rename_i heq; rw [heq] at hd; exact hd
  · rename_i t heq
    rw [heq] at hd
    exact hout { t with readQueue := t.readQueue.drop _ } _ (hrq t _ hd)

theorem recv_ind (sink : Bool) (P : Rx → Prop)
    (hpop : ∀ s f rest, s.queue = f :: rest → P s → P (s.popped sink false f rest)) (s : Rx) (k : Bool) (h : P s) :
    P (s.recv sink k).2 := by
  unfold Rx.recv
  split
  · exact h
  · rename_i f rest hq
    exact hpop s f rest hq h

/-! ## The queue -/

/-- Facts about the queue and the frame being received. -/
structure RxInv (c : Cfg) (s : Rx) : Prop where
  occF : s.occFrames = s.queue.length
  occB : s.occBytes = bytes s.queue
  form : ∀ f ∈ s.queue, ∃ bs, f = frameOf c bs
  part : s.part = none ∨ ∃ bs, bs ≠ [] ∧ s.part = some (frameOf c bs)

theorem RxInv.same {c : Cfg} {s t : Rx} (h : RxInv c s) (h1 : t.occFrames = s.occFrames) (h2 : t.occBytes = s.occBytes)
    (h3 : t.queue = s.queue) (h4 : t.part = s.part) : RxInv c t :=
  ⟨by rw [h1, h3]; exact h.occF, by rw [h2, h3]; exact h.occB, by rw [h3]; exact h.form, by rw [h4]; exact h.part⟩

theorem RxInv.init (c : Cfg) : RxInv c {} := ⟨rfl, rfl, by simp, .inl rfl⟩

theorem popped_queue (sink : Bool) (s : Rx) (r : Bool) (f : Frame) (rest : List Frame) :
    (s.popped sink r f rest).queue = rest ∧ (s.popped sink r f rest).occFrames = s.occFrames - 1 ∧
    (s.popped sink r f rest).occBytes = s.occBytes - f.tdata.length ∧ (s.popped sink r f rest).taken = s.taken ++ [(r, f)] ∧
    (s.popped sink r f rest).readQueue = s.readQueue ∧ (s.popped sink r f rest).out = s.out := by
  unfold Rx.popped Rx.dequeue
  cases sink <;> simp [Rx.setWake]

theorem RxInv.popped {c : Cfg} {s : Rx} (h : RxInv c s) (sink r : Bool) (f : Frame) (rest : List Frame)
    (hq : s.queue = f :: rest) : RxInv c (s.popped sink r f rest) := by
  obtain ⟨e1, e2, e3, _⟩ := popped_queue sink s r f rest
  have h1 := h.occF
  have h2 := h.occB
  rw [hq] at h1 h2
  simp only [List.length_cons, bytes_cons] at h1 h2
  exact ⟨by rw [e1, e2]; omega, by rw [e1, e3]; omega, by rw [e1]; exact fun g hg => h.form g (by rw [hq]; exact List.mem_cons_of_mem _ hg),
    by rw [(popped_facts sink s r f rest hq).2.2.2.2.2.1]; exact h.part⟩

/-- The beats of the frame being received. -/
theorem RxInv.collect_eq {c : Cfg} (hl : 0 < c.lanes) {s : Rx} (b : Beat) (bs : List Beat)
    (hp : s.part = if bs = [] then none else some (frameOf c bs)) :
    ∃ act, s.collect c b =
      if !c.hasLast || b.tlast then
        { s with active := act, captured := s.captured ++ [b], queue := s.queue ++ [frameOf c (bs ++ [b])]
                 occBytes := s.occBytes + (frameOf c (bs ++ [b])).tdata.length, occFrames := s.occFrames + 1, actEv := true
                 part := none }
      else { s with active := act, captured := s.captured ++ [b], part := some (frameOf c (bs ++ [b])) } := by
  unfold Rx.collect
  by_cases hb : bs = []
  · subst hb
    rw [if_pos rfl] at hp
    refine ⟨true, ?_⟩
    simp only [hp, Option.elim_none, Bool.not_false, if_true, ← frameOf_nil, frameOf_snoc]
  · rw [if_neg hb] at hp
    refine ⟨s.active, ?_⟩
    simp only [hp, Option.elim_some, frameOf_truthy c hl bs hb, Bool.not_true, Bool.false_eq_true, if_false, Option.getD_some,
      frameOf_snoc]

theorem RxInv.collect {c : Cfg} (hl : 0 < c.lanes) {s : Rx} (h : RxInv c s) (b : Beat) : RxInv c (s.collect c b) := by
  have key : ∀ bs, s.part = (if bs = [] then none else some (frameOf c bs)) → RxInv c (s.collect c b) := by
    intro bs hp
    obtain ⟨act, e⟩ := RxInv.collect_eq hl b bs hp
    rw [e]
    split
    · refine ⟨by simp [h.occF], by simp [h.occB, bytes_append, bytes_cons, bytes_nil], ?_, .inl rfl⟩
      intro f hf
      simp only [List.mem_append, List.mem_singleton] at hf
      rcases hf with hf | hf
      · exact h.form f hf
      · exact ⟨_, hf⟩
    · exact ⟨h.occF, h.occB, h.form, .inr ⟨_, by simp, rfl⟩⟩
  rcases h.part with hp | ⟨bs, hne, hp⟩
  · exact key [] (by simpa using hp)
  · exact key bs (by rw [if_neg hne]; exact hp)

theorem finish_same (c : Cfg) (s : Rx) (v : Bool) : (s.finish c v).queue = s.queue ∧ (s.finish c v).part = s.part ∧
    (s.finish c v).occFrames = s.occFrames ∧ (s.finish c v).occBytes = s.occBytes ∧ (s.finish c v).captured = s.captured ∧
    (s.finish c v).taken = s.taken ∧ (s.finish c v).readQueue = s.readQueue ∧ (s.finish c v).out = s.out ∧
    (s.finish c v).pc ≠ .due ∧ (s.finish c v).pc ≠ .off ∧ (s.finish c v).ready = s.ready ∧ (s.finish c v).pause = s.pause ∧
    (s.finish c v).active = s.active := by
  unfold Rx.finish
  simp only
  repeat' split
  all_goals simp [Rx.top]

theorem RxInv.capture {c : Cfg} (hl : 0 < c.lanes) {s : Rx} (h : RxInv c s) (v : Bool) (b : Beat) : RxInv c (s.capture c v b) := by
  unfold Rx.capture
  split
  · exact h.collect hl b
  · exact h.same rfl rfl rfl rfl

theorem RxInv.runSnk {c : Cfg} (hl : 0 < c.lanes) {s : Rx} (h : RxInv c s) (v : Bool) (b : Beat) : RxInv c (s.runSnk c v b) := by
  obtain ⟨e1, e2, e3, e4, _⟩ := finish_same c (s.capture c v b) v
  exact (h.capture hl v b).same e3 e4 e1 e2

theorem RxInv.runMon {c : Cfg} (hl : 0 < c.lanes) {s : Rx} (h : RxInv c s) (v r : Bool) (b : Beat) : RxInv c (s.runMon c v r b) := by
  unfold Rx.runMon
  split
  · exact (h.collect hl b).same rfl rfl rfl rfl
  · exact h.same rfl rfl rfl rfl

theorem RxInv.recv {c : Cfg} {s : Rx} (h : RxInv c s) (sink k : Bool) : RxInv c (s.recv sink k).2 :=
  recv_ind sink _ (fun _ f rest hq h => h.popped sink false f rest hq) s k h

theorem RxInv.readNowait {c : Cfg} {s : Rx} (h : RxInv c s) (sink : Bool) (n : Int) : RxInv c (s.readNowait sink n).2 :=
  read_ind sink _ (fun _ f rest hq h => h.popped sink true f rest hq) (fun _ _ h => h.same rfl rfl rfl rfl)
    (fun _ _ h => h.same rfl rfl rfl rfl) s n h

theorem RxInv.clear {c : Cfg} {s : Rx} (h : RxInv c s) : RxInv c s.clear :=
  ⟨rfl, rfl, by simp [Rx.clear], h.part⟩

theorem RxInv.setPause {c : Cfg} {s : Rx} (h : RxInv c s) (v : Bool) : RxInv c (s.setPause v) := by
  unfold Rx.setPause
  simp only
  split <;> exact h.same rfl rfl rfl rfl

theorem RxInv.reset {c : Cfg} {s : Rx} (h : RxInv c s) (v : Bool) : RxInv c (s.reset v) := by
  unfold Rx.reset
  split
  · exact ⟨h.occF, h.occB, h.form, .inl rfl⟩
  · split
    · exact h.same rfl rfl rfl rfl
    · exact h

theorem SnkSys.step_rx {c : Cfg} (hl : 0 < c.lanes) {s : SnkSys} (h : RxInv c s.snk) (e : SnkEv) : RxInv c (s.step c e).snk := by
  cases e <;> simp only [SnkSys.step]
  case tick => split; exact h.same rfl rfl rfl rfl; exact h
  case run => split; exact h.runSnk hl _ _; exact h
  case wake => split; exact h.same rfl rfl rfl rfl; exact h
  case spurious => split; exact h.same rfl rfl rfl rfl; exact h
  case commit => split; (simp only; split <;> exact h.same rfl rfl rfl rfl); exact h
  case env v b =>
    split
    · exact h
    · simp only
      split
      · exact h.same rfl rfl rfl rfl
      · exact h
  case recv k => exact h.recv _ _
  case readNowait n => exact h.readNowait _ _
  case pause v => exact h.setPause _
  case clear => exact h.clear
  case reset v => exact h.reset _

theorem SnkSys.exec_rx {c : Cfg} (hl : 0 < c.lanes) (evs : List SnkEv) : RxInv c (SnkSys.exec c evs).snk :=
  foldl_inv _ (fun s : SnkSys => RxInv c s.snk) (fun _ e h => SnkSys.step_rx hl h e) evs _ (RxInv.init c)

theorem MonSys.step_rx {c : Cfg} (hl : 0 < c.lanes) {s : MonSys} (h : RxInv c s.mon) (e : MonEv) : RxInv c (s.step c e).mon := by
  cases e <;> simp only [MonSys.step]
  case tick => split; exact h.same rfl rfl rfl rfl; exact h
  case run => split; exact h.runMon hl _ _ _; exact h
  case wake => split; exact h.same rfl rfl rfl rfl; exact h
  case spurious => split; exact h.same rfl rfl rfl rfl; exact h
  case env v r b =>
    split
    · exact h
    · simp only
      split
      · exact h.same rfl rfl rfl rfl
      · exact h
  case recv k => exact h.recv _ _
  case readNowait n => exact h.readNowait _ _
  case clear => exact h.clear
  case reset v => exact h.reset _

theorem MonSys.exec_rx {c : Cfg} (hl : 0 < c.lanes) (evs : List MonEv) : RxInv c (MonSys.exec c evs).mon :=
  foldl_inv _ (fun s : MonSys => RxInv c s.mon) (fun _ e h => MonSys.step_rx hl h e) evs _ (RxInv.init c)

/-! ## Reading bytes -/

/-- What `read`/`read_nowait` has handed out and still holds are the bytes of the frames it took. -/
def ReadInv (s : Rx) : Prop := s.out ++ s.readQueue = (s.taken.filter (·.1)).flatMap fun p => p.2.payload

theorem ReadInv.same {s t : Rx} (h : ReadInv s) (h1 : t.out = s.out) (h2 : t.readQueue = s.readQueue) (h3 : t.taken = s.taken) :
    ReadInv t := by
  unfold ReadInv; rw [h1, h2, h3]; exact h

theorem payload_ok {f g : Frame} (h : f.compact = .ok g) : f.payload = g.tdata := by
  unfold Frame.payload; rw [h]

/-- The loop of `read_nowait` on received frames. -/
theorem drain_spec (sink : Bool) (c : Cfg) : ∀ (s : Rx), RxInv c s → ReadInv s → ∃ t, Rx.drain sink s.queue.length s = (.ok (), t) ∧
    t.queue = [] ∧ ReadInv t ∧ t.taken = s.taken ++ s.queue.map (fun f => (true, f)) ∧ t.out = s.out ∧
    t.readQueue = s.readQueue ++ s.queue.flatMap Frame.payload := by
  intro s
  generalize hn : s.queue.length = n
  intro hi hr
  induction n generalizing s with
  | zero =>
    have hq : s.queue = [] := List.eq_nil_of_length_eq_zero hn
    exact ⟨s, rfl, hq, hr, by simp [hq], rfl, by simp [hq]⟩
  | succ n ih =>
    unfold Rx.drain
    cases hq : s.queue with
    | nil => rw [hq] at hn; cases hn
    | cons f rest =>
      obtain ⟨bs, hf⟩ := hi.form f (by rw [hq]; simp)
      obtain ⟨g, hg⟩ := frameOf_compact c bs
      rw [← hf] at hg
      obtain ⟨e1, e2, e3, e4, e5, e6⟩ := popped_queue sink s true f rest
      simp only [hg]
      obtain ⟨t, h1, h2, h3, h4, h5, h6⟩ := ih
        { s.popped sink true f rest with readQueue := (s.popped sink true f rest).readQueue ++ g.tdata }
        (by simp only [e1]; rw [hq] at hn; simpa using hn)
        ((hi.popped sink true f rest hq).same rfl rfl rfl rfl) (by
          unfold ReadInv at hr ⊢
          simp only [e4, e5, e6, List.filter_append, List.flatMap_append, ← hr, List.append_assoc]
          simp [payload_ok hg])
      refine ⟨t, h1, h2, h3, ?_, ?_, ?_⟩
      · rw [h4]; simp [e1, e4]
      · rw [h5]; exact e6
      · rw [h6]; simp [e1, e5, payload_ok hg]

theorem ReadInv.popped {s : Rx} (h : ReadInv s) (sink : Bool) (f : Frame) (rest : List Frame) :
    ReadInv (s.popped sink false f rest) := by
  obtain ⟨e1, e2, e3, e4, e5, e6⟩ := popped_queue sink s false f rest
  unfold ReadInv at h ⊢
  rw [e4, e5, e6, h]
  simp

/-- `read_nowait` on received frames: it returns the next bytes and never raises. -/
theorem read_spec (sink : Bool) (c : Cfg) (s : Rx) (n : Int) (hi : RxInv c s) (hr : ReadInv s) :
    ∃ t, s.readNowait sink n = (.ok ((s.readQueue ++ s.queue.flatMap Frame.payload).take
        (if n < 0 then (s.readQueue ++ s.queue.flatMap Frame.payload).length else n.toNat)), t) ∧
      t.queue = [] ∧ ReadInv t ∧ t.taken = s.taken ++ s.queue.map (fun f => (true, f)) := by
  obtain ⟨t, h1, h2, h3, h4, h5, h6⟩ := drain_spec sink c s hi hr
  unfold Rx.readNowait
  rw [h1]
  simp only [h6]
  refine ⟨_, rfl, h2, ?_, h4⟩
  unfold ReadInv at h3 ⊢
  simp only [List.append_assoc, List.take_append_drop]
  rw [← h6]
  exact h3

theorem ReadInv.readNowait {c : Cfg} {s : Rx} (hi : RxInv c s) (h : ReadInv s) (sink : Bool) (n : Int) :
    ReadInv (s.readNowait sink n).2 := by
  obtain ⟨t, h1, _, h3, _⟩ := read_spec sink c s n hi h
  rw [h1]; exact h3

theorem collect_same (c : Cfg) (s : Rx) (b : Beat) : (s.collect c b).out = s.out ∧ (s.collect c b).readQueue = s.readQueue ∧
    (s.collect c b).taken = s.taken ∧ (s.collect c b).pc = s.pc ∧ (s.collect c b).ready = s.ready ∧ (s.collect c b).nready = s.nready ∧
    (s.collect c b).captured = s.captured ++ [b] ∧ (s.collect c b).pause = s.pause ∧ (s.collect c b).pauseSample = s.pauseSample := by
  unfold Rx.collect
  simp only
  split <;> simp

theorem capture_same (c : Cfg) (s : Rx) (v : Bool) (b : Beat) : (s.capture c v b).out = s.out ∧
    (s.capture c v b).readQueue = s.readQueue ∧
    (s.capture c v b).taken = s.taken ∧ (s.capture c v b).pc = s.pc ∧ (s.capture c v b).ready = s.ready ∧
    (s.capture c v b).nready = s.nready ∧
    (s.capture c v b).captured = s.captured ++ (if ((!c.hasReady || s.ready) && (!c.hasValid || v)) = true then [b] else []) := by
  unfold Rx.capture
  split
  · obtain ⟨e1, e2, e3, e4, e5, e6, e7, _⟩ := collect_same c s b
    exact ⟨e1, e2, e3, e4, e5, e6, e7⟩
  · simp

theorem ReadInv.runSnk {c : Cfg} {s : Rx} (h : ReadInv s) (v : Bool) (b : Beat) : ReadInv (s.runSnk c v b) := by
  obtain ⟨_, _, _, _, _, e1, e2, e3, _⟩ := finish_same c (s.capture c v b) v
  obtain ⟨f1, f2, f3, _⟩ := capture_same c s v b
  exact h.same (e3.trans f1) (e2.trans f2) (e1.trans f3)

theorem ReadInv.runMon {c : Cfg} {s : Rx} (h : ReadInv s) (v r : Bool) (b : Beat) : ReadInv (s.runMon c v r b) := by
  unfold Rx.runMon
  split
  · obtain ⟨f1, f2, f3, _⟩ := collect_same c s b
    exact h.same f1 f2 f3
  · exact h.same rfl rfl rfl

theorem ReadInv.setPause {s : Rx} (h : ReadInv s) (v : Bool) : ReadInv (s.setPause v) := by
  unfold Rx.setPause
  simp only
  split <;> exact h.same rfl rfl rfl

theorem ReadInv.reset {s : Rx} (h : ReadInv s) (v : Bool) : ReadInv (s.reset v) := by
  unfold Rx.reset
  repeat' split
  all_goals exact h.same rfl rfl rfl

theorem SnkSys.exec_read {c : Cfg} (hl : 0 < c.lanes) (evs : List SnkEv) : ReadInv (SnkSys.exec c evs).snk := by
  refine (foldl_inv _ (fun s : SnkSys => RxInv c s.snk ∧ ReadInv s.snk)
    (fun s e h => ⟨SnkSys.step_rx hl h.1 e, ?_⟩) evs _ ⟨RxInv.init c, show ReadInv {} from rfl⟩).2
  obtain ⟨hi, h⟩ := h
  cases e <;> simp only [SnkSys.step]
  case tick => split <;> exact h.same rfl rfl rfl
  case run => split; exact h.runSnk _ _; exact h
  case wake => split <;> exact h.same rfl rfl rfl
  case spurious => split <;> exact h.same rfl rfl rfl
  case commit => split; (simp only; split <;> exact h.same rfl rfl rfl); exact h
  case env v b =>
    split
    · exact h
    · simp only
      split <;> exact h.same rfl rfl rfl
  case recv k => exact recv_ind true _ (fun _ f rest _ h => h.popped true f rest) s.snk k h
  case readNowait n => exact h.readNowait hi _ _
  case pause v => exact h.setPause _
  case clear => exact h.same rfl rfl rfl
  case reset v => exact h.reset _

theorem MonSys.exec_read {c : Cfg} (hl : 0 < c.lanes) (evs : List MonEv) : ReadInv (MonSys.exec c evs).mon := by
  refine (foldl_inv _ (fun s : MonSys => RxInv c s.mon ∧ ReadInv s.mon)
    (fun s e h => ⟨MonSys.step_rx hl h.1 e, ?_⟩) evs _ ⟨RxInv.init c, show ReadInv {} from rfl⟩).2
  obtain ⟨hi, h⟩ := h
  cases e <;> simp only [MonSys.step]
  case tick => split <;> exact h.same rfl rfl rfl
  case run => split; exact h.runMon _ _ _; exact h
  case wake => split <;> exact h.same rfl rfl rfl
  case spurious => split <;> exact h.same rfl rfl rfl
  case env v r b =>
    split
    · exact h
    · simp only
      split <;> exact h.same rfl rfl rfl
  case recv k => exact recv_ind false _ (fun _ f rest _ h => h.popped false f rest) s.mon k h
  case readNowait n => exact h.readNowait hi _ _
  case clear => exact h.same rfl rfl rfl
  case reset v => exact h.reset _

end Verif.Axis
