import Verif.Proof.StreamProgress
import Verif.Proof.StreamPause

/-!
# C42-C48, C66-C69, C83, C86: stream sources, sinks and monitors

A history is any list of events: clock edges, coroutines resuming in any order, signal writes taking effect,
the environment changing the signals it drives, and user calls. Components are built out of reset, which
the model writes as a first event `reset false`.
-/

namespace Verif.Stream

variable {α : Type}

/-! ## C42 -/

/-- **C42.** If a clock edge saw `valid` without `ready`, the next clock edge sees `valid` with the same payload,
unless the source was reset in between (a reset is a `none` entry in the trace). -/
theorem C42_hold (c : Cfg) (hv : c.hasValid = true) (evs : List (SrcEv α)) (i : Nat) (a b : Sample α)
    (ha : (SrcSys.exec c evs).trace[i]? = some (some a)) (hb : (SrcSys.exec c evs).trace[i + 1]? = some (some b))
    (hval : a.valid = true) (hr : c.hasReady = true) (hnr : a.ready = false) :
    b.valid = true ∧ b.data = a.data :=
  (SrcSys.exec_hold hv evs).all i a b ha hb hval (by rw [hr, hnr]; rfl)

/-- **C42**, until the handshake: the item seen at edge `i` is still there at edge `i + n` if no edge from `i` on
saw `ready` and there was no reset. -/
theorem C42_hold_until (c : Cfg) (hv : c.hasValid = true) (hr : c.hasReady = true) (evs : List (SrcEv α)) (i n : Nat)
    (a b : Sample α) (ha : (SrcSys.exec c evs).trace[i]? = some (some a)) (hval : a.valid = true)
    (hb : (SrcSys.exec c evs).trace[i + n]? = some (some b))
    (hnr : ∀ k, k < n → ∃ m, (SrcSys.exec c evs).trace[i + k]? = some (some m) ∧ m.ready = false) :
    b.valid = true ∧ b.data = a.data := by
  induction n generalizing b with
  | zero => rw [Nat.add_zero, ha] at hb; simp only [Option.some.injEq] at hb; subst hb; exact ⟨hval, rfl⟩
  | succ n ih =>
    obtain ⟨m, hm, hmr⟩ := hnr n (by omega)
    obtain ⟨h1, h2⟩ := ih m hm (fun k hk => hnr k (by omega))
    obtain ⟨h3, h4⟩ := C42_hold c hv evs (i + n) m b hm hb h1 hr hmr
    exact ⟨h3, h4.trans h2⟩

/-- An item held over two edges while the user pauses and clears the source, then taken. -/
def exSrc : List (SrcEv Nat) :=
  [.reset false, .wake, .commit, .send 7, .send 8, .commit, .tick, .run, .commit, .tick, .run, .pause true, .clear,
   .commit, .tick, .run, .commit, .env true, .tick, .run, .commit, .tick]

example : (SrcSys.exec {} exSrc).trace =
    [some ⟨false, false, none⟩, some ⟨true, false, some 7⟩, some ⟨true, false, some 7⟩, some ⟨true, true, some 7⟩,
     some ⟨false, true, some 7⟩] := by decide

/-! ## C46 -/

/-- **C46.** With a limit `L > 0` the source's queue never holds more than `L` items, whatever number of senders
is blocked or resumed in whatever order. -/
theorem C46_bound (c : Cfg) (hv : c.hasValid = true) (evs : List (SrcEv α)) (h : c.limit > 0) :
    ((SrcSys.exec c evs).src.queue.length : Int) ≤ c.limit :=
  (SrcSys.exec_inv hv evs).bound h

/-- **C46.** `send_nowait` raises `QueueFull` exactly if there is a limit and it is reached, and then changes
nothing; otherwise it appends the item. -/
theorem C46_send_nowait (c : Cfg) (s : Src α) (x : α) :
    ((s.sendNowait c x).1 = .error .queueFull ↔ c.limit > 0 ∧ (s.queue.length : Int) ≥ c.limit) ∧
    ((s.sendNowait c x).1 ≠ .ok () → (s.sendNowait c x).2 = s) ∧
    ((s.sendNowait c x).1 = .ok () → (s.sendNowait c x).2.queue = s.queue ++ [x]) := by
  unfold Src.sendNowait
  split
  · rename_i h
    rw [full_iff] at h
    simp [h]
  · rename_i h
    rw [full_iff] at h
    simpa [Src.put] using h

/-- Two blocked senders are both woken by one dequeue; only one of them gets the free place. -/
def exSenders : List (SrcEv Nat) :=
  [.reset false, .wake, .send 1, .send 2, .send 3, .commit, .tick, .run, .resume 0, .resume 0]

example : (SrcSys.exec { limit := 1 } exSenders).src.queue = [2] ∧
    (SrcSys.exec { limit := 1 } exSenders).src.waiters = [(3, false)] := by decide

/-! ## C66: blocked senders -/

/-- **C66.** No wake-up is lost: as long as a blocked `send` has not been signalled, the queue is full. -/
theorem C66_no_lost_wakeup (c : Cfg) (hv : c.hasValid = true) (evs : List (SrcEv α)) (x : α)
    (h : (x, false) ∈ (SrcSys.exec c evs).src.waiters) :
    c.limit > 0 ∧ ((SrcSys.exec c evs).src.queue.length : Int) ≥ c.limit := by
  rw [← full_iff]
  exact (SrcSys.exec_inv hv evs).wait x h

example : (3, false) ∈ (SrcSys.exec { limit := 1 } exSenders).src.waiters := by decide

/-! ## C47 -/

/-- **C47.** Without `clear()` and reset, when `idle()` is true every item sent has completed its handshake. -/
theorem C47_idle (c : Cfg) (hv : c.hasValid = true) (evs : List (SrcEv α)) (hcl : ∀ e ∈ evs, e.clean = true)
    (h : (SrcSys.exec c evs).src.idle = true) :
    xfers c (SrcSys.exec c evs).trace = (SrcSys.exec c evs).src.sent := by
  have hs := SrcSys.exec_acc hv true evs (fun _ => hcl)
  have ha := hs.acc
  simp only [Src.idle, Bool.and_eq_true, Bool.not_eq_true', List.isEmpty_iff] at h
  have hb : (SrcSys.exec c evs).onBus c = [] := by
    unfold SrcSys.onBus
    rw [hs.inv.act h.2]
    simp
  simp only [Acc, if_true] at ha
  rw [ha, hb, h.1]
  simp

/-- **C47.** At any time the items sent are: those transferred, then at most one on the bus, then those queued. -/
theorem C47_accounting (c : Cfg) (hv : c.hasValid = true) (evs : List (SrcEv α)) (hcl : ∀ e ∈ evs, e.clean = true) :
    ∃ bus : List α, bus.length ≤ 1 ∧
      (SrcSys.exec c evs).src.sent = xfers c (SrcSys.exec c evs).trace ++ bus ++ (SrcSys.exec c evs).src.queue := by
  have ha := (SrcSys.exec_acc hv true evs (fun _ => hcl)).acc
  simp only [Acc, if_true] at ha
  refine ⟨_, ?_, ha⟩
  unfold SrcSys.onBus
  split
  · simp
  · split
    · cases (SrcSys.exec c evs).src.ndata <;> simp
    · simp

/-- With `clear()` and reset anywhere, what is transferred is still a subsequence of what was sent: nothing is
invented, duplicated or reordered. -/
theorem C47_no_dup (c : Cfg) (hv : c.hasValid = true) (evs : List (SrcEv α)) :
    (xfers c (SrcSys.exec c evs).trace).Sublist (SrcSys.exec c evs).src.sent := by
  have ha := (SrcSys.exec_acc hv false evs (by simp)).acc
  simp only [Acc, Bool.false_eq_true, if_false] at ha
  refine List.Sublist.trans ?_ ha
  rw [List.append_assoc]
  exact List.sublist_append_left _ _

/-- **C69.** `wait()` returns (its event is set) exactly when `idle()` is true, without `clear()`. -/
theorem C69_wait_partial (c : Cfg) (hv : c.hasValid = true) (evs : List (SrcEv α)) (hcl : ∀ e ∈ evs, e.noClear = true) :
    (SrcSys.exec c evs).src.idleEv = (SrcSys.exec c evs).src.idle := by
  rw [Bool.eq_iff_iff]
  constructor
  · intro h
    obtain ⟨h1, h2⟩ := SrcSys.exec_idle c evs hcl h
    simp [Src.idle, h1, h2]
  · intro h
    simp only [Src.idle, Bool.and_eq_true, Bool.not_eq_true', List.isEmpty_iff] at h
    exact (SrcSys.exec_inv hv evs).idle h.1 h.2

/-- **C69** is false of the code with `clear()`: an item is on the bus, not yet transferred, and `wait()` returns. -/
theorem C69_wait_violated : ∃ evs : List (SrcEv Nat), (SrcSys.exec {} evs).src.idleEv = true ∧
    (SrcSys.exec {} evs).src.idle = false ∧ xfers {} (SrcSys.exec {} evs).trace = [] ∧
    (SrcSys.exec {} evs).src.valid = true :=
  ⟨[.reset false, .wake, .commit, .send 7, .commit, .tick, .run, .commit, .clear], by decide, by decide, by decide, by decide⟩

/-- A clean history that ends idle with two items transferred. -/
def exIdle : List (SrcEv Nat) :=
  [.reset false, .wake, .commit, .env true, .send 7, .send 8, .commit, .tick, .run, .commit, .tick, .run, .commit, .tick,
   .run, .commit, .tick]

example : (∀ e ∈ exIdle, e.clean = true) ∧ (SrcSys.exec {} exIdle).src.idle = true ∧
    xfers {} (SrcSys.exec {} exIdle).trace = [7, 8] := by decide

/-! ## C67: a source never stalls by itself -/

/-- **C67.** Between two clock edges, a running, unpaused source with a queued item presents its next item at the
next clock edge, unless the item before it is then on the bus without `ready`. -/
theorem C67_source_progress (c : Cfg) (hv : c.hasValid = true) (evs : List (SrcEv α)) (x : α) (rest : List α)
    (s : SrcSys α) (hs : s = SrcSys.exec c evs)
    (hq : s.src.queue = x :: rest) (hp : s.src.pause = false) (hon : s.src.pc ≠ .off) (hnd : s.src.pc ≠ .due)
    (hfree : s.src.nvalid = false ∨ c.hasReady = false ∨ s.ready = true) :
    let t := [SrcEv.wake, .commit, .tick, .run, .commit].foldl (SrcSys.step c) s
    t.src.valid = true ∧ t.src.data = some x ∧ t.src.queue = rest := by
  have hi := SrcSys.exec_inv hv evs (α := α)
  rw [← hs] at hi
  have hpc : s.src.pc = .edge ∨ s.src.pc = .woken := by
    cases h : s.src.pc
    · exact absurd h hon
    · left; rfl
    · exact absurd h hnd
    · have := hi.sleep h; rw [hq] at this; exact absurd this (by simp)
    · right; rfl
  have hcond : ((!c.hasReady || s.ready) && s.src.nvalid || !s.src.nvalid) = true := by
    rcases hfree with h | h | h <;> simp [h]
  rcases hpc with h | h
  · simp only [List.foldl_cons, List.foldl_nil, SrcSys.step, h, Pc.still, Pc.tick, reduceCtorEq, if_false, if_true,
      Bool.and_self, Src.run, hv, Bool.not_true, Bool.false_or, hcond, hq, hp, Src.setDeq]
    exact ⟨trivial, trivial, trivial⟩
  · simp only [List.foldl_cons, List.foldl_nil, SrcSys.step, h, Pc.still, Pc.tick, if_true,
      Bool.and_self, Src.run, hv, Bool.not_true, Bool.false_or, hcond, hq, hp, Src.setDeq]
    exact ⟨trivial, trivial, trivial⟩

/-- The hypotheses of C67 hold after sending two items. -/
example : let s := SrcSys.exec ({} : Cfg) ([.reset false, .wake, .commit, .send 7, .send 8] : List (SrcEv Nat))
    s.src.queue = [7, 8] ∧ s.src.pause = false ∧ s.src.pc ≠ .off ∧ s.src.pc ≠ .due ∧ s.src.nvalid = false := by decide

/-! ## C44 -/

/-- **C44.** Whatever drives the bus, the sink captures exactly the items of the cycles in which `valid` and
`ready` were both high, in order (`clear` may drop captured items later). The statement is for any moment
when the sink is not in the middle of a clock edge. -/
theorem C44_captures (c : Cfg) (evs : List (SnkEv α)) (hcl : ∀ e ∈ evs, e.noReset = true)
    (hnd : (SnkSys.exec c (.reset false :: evs)).snk.pc ≠ .due) :
    (SnkSys.exec c (.reset false :: evs)).snk.captured = xfers c (SnkSys.exec c (.reset false :: evs)).trace := by
  have ha := (SnkSys.exec_acc c true evs (fun _ => hcl)).acc
  rw [pend_not_due _ _ hnd, List.append_nil] at ha
  exact ha.symm

/-- **C44.** Without `clear()` and reset, the items received so far followed by those in the queue are exactly the
items transferred. -/
theorem C44_received (c : Cfg) (evs : List (SnkEv α)) (hcl : ∀ e ∈ evs, e.noReset = true ∧ e.noClear = true)
    (hnd : (SnkSys.exec c (.reset false :: evs)).snk.pc ≠ .due) :
    (SnkSys.exec c (.reset false :: evs)).snk.got ++ (SnkSys.exec c (.reset false :: evs)).snk.queue =
      xfers c (SnkSys.exec c (.reset false :: evs)).trace := by
  rw [← C44_captures c evs (fun e he => (hcl e he).1) hnd]
  have := SnkSys.exec_got c true (.reset false :: evs) (fun _ e he => by
    rcases List.mem_cons.1 he with h | h
    · subst h; rfl
    · exact (hcl e h).2)
  exact this.symm

/-- **C44.** With a limit `L > 0` on a bus with `ready`, the sink never holds more than `L` items, in any history. -/
theorem C44_bound (c : Cfg) (hr : c.hasReady = true) (evs : List (SnkEv α)) (h : c.limit > 0) :
    ((SnkSys.exec c evs).snk.queue.length : Int) ≤ c.limit :=
  (SnkSys.exec_inv c evs).lim hr h

/-- With resets anywhere, what is captured is still a subsequence of what was transferred. -/
theorem C44_no_dup (c : Cfg) (evs : List (SnkEv α)) :
    (SnkSys.exec c (.reset false :: evs)).snk.captured.Sublist (xfers c (SnkSys.exec c (.reset false :: evs)).trace) := by
  have ha := (SnkSys.exec_acc c false evs (by simp)).acc
  simp only [Acc, Bool.false_eq_true, if_false] at ha
  exact (List.sublist_append_left _ _).trans ha

/-- A driver that offers three items to a sink of limit 2; the third is taken after a `recv`. -/
def exSnk : List (SnkEv Nat) :=
  [.wake, .commit, .tick, .run, .commit, .env true 1, .wake, .commit, .tick, .run, .commit, .env true 2, .tick, .run,
   .commit, .env true 3, .tick, .run, .commit, .tick, .run, .commit, .recv, .wake, .commit, .tick, .run, .commit, .tick, .run]

example : (∀ e ∈ exSnk, e.noReset = true ∧ e.noClear = true) ∧
    (SnkSys.exec { limit := 2 } (.reset false :: exSnk)).snk.pc ≠ .due ∧
    xfers {} (SnkSys.exec { limit := 2 } (.reset false :: exSnk)).trace = [1, 2, 3] ∧
    (SnkSys.exec { limit := 2 } (.reset false :: exSnk)).snk.got = [1] := by decide +kernel

/-! ## C45 -/

/-- **C45** for histories without `clear()`. A running, unpaused sink that has room after two clock cycles is ready
then, whatever the driver does. -/
theorem C45_ready_partial (c : Cfg) (hr : c.hasReady = true) (evs : List (SnkEv α)) (hcl : ∀ e ∈ evs, e.noClear = true)
    (hon : (SnkSys.exec c evs).snk.pc ≠ .off) (hp : (SnkSys.exec c evs).snk.pause = false) (v₁ v₂ : Bool) (d₁ d₂ : α)
    (hroom : isFull c.limit (((SnkSys.exec c evs).cycle c v₁ d₁).cycle c v₂ d₂).snk.queue.length = false) :
    (((SnkSys.exec c evs).cycle c v₁ d₁).cycle c v₂ d₂).snk.ready = true := by
  rw [SnkSys.cycle_ready hr v₂ d₂ (SnkSys.cycle_good hr v₁ d₁ hon hp (SnkSys.exec_live c evs hcl)), hroom]
  rfl

example : let s := SnkSys.exec ({ limit := 2 } : Cfg) (.reset false :: exSnk ++ [.commit, .recv, .recv])
    (∀ e ∈ SnkEv.reset false :: exSnk ++ [.commit, .recv, .recv], e.noClear = true) ∧ s.snk.pc ≠ .off ∧ s.snk.pause = false ∧
    s.snk.ready = false ∧
    isFull 2 ((s.cycle { limit := 2 } true 4).cycle { limit := 2 } true 5).snk.queue.length = false := by
  decide +kernel

/-- A sink that went to sleep full and was then cleared: it is empty, unpaused and running. -/
def exCleared : List (SnkEv Nat) :=
  [.reset false, .wake, .commit, .tick, .run, .commit, .env true 1, .wake, .commit, .tick, .run, .commit, .clear, .commit]

/-- **C45** is false of the code after `clear()`: the sink is empty and unpaused, `valid` is high, and `ready` stays low
however many clock cycles pass. -/
theorem C45_violated (n : Nat) :
    let c : Cfg := { limit := 1 }
    let s := (SnkSys.exec c exCleared)
    s.snk.queue = [] ∧ s.snk.pause = false ∧ s.snk.pc ≠ .off ∧ s.valid = true ∧
    (Nat.repeat (fun s => s.cycle c true 2) n s).snk.ready = false := by
  refine ⟨by decide, by decide, by decide, by decide, ?_⟩
  have : ∀ n, (Nat.repeat (fun s => s.cycle { limit := 1 } true 2) n (SnkSys.exec { limit := 1 } exCleared)).snk =
      (SnkSys.exec { limit := 1 } exCleared).snk ∧
      (Nat.repeat (fun s => s.cycle { limit := 1 } true 2) n (SnkSys.exec { limit := 1 } exCleared)).valid = true := by
    intro n
    induction n with
    | zero => exact ⟨rfl, by decide⟩
    | succ n ih =>
      simp only [Nat.repeat]
      have hpc : (SnkSys.exec { limit := 1 } exCleared).snk.pc = .asleep := by decide
      have hrd : (SnkSys.exec { limit := 1 } exCleared).snk.ready = (SnkSys.exec { limit := 1 } exCleared).snk.nready := by decide
      have key : ∀ t : SnkSys Nat, t.snk.pc = .asleep → t.valid = true → t.snk.ready = t.snk.nready →
          (t.cycle { limit := 1 } true 2).snk = t.snk ∧ (t.cycle { limit := 1 } true 2).valid = true := by
        intro t h1 h2 h3
        simp only [SnkSys.cycle, List.foldl_cons, List.foldl_nil, SnkSys.step, h1, h2, Pc.still, Pc.tick, reduceCtorEq, if_false,
          if_true, Bool.and_self, Bool.not_true, Bool.and_false, Bool.false_eq_true, ← h3, Bool.and_not_self]
        refine ⟨?_, trivial⟩
        cases t with
        | mk snk v d st tr => cases snk; simp_all
      obtain ⟨h1, h2⟩ := key _ (by rw [ih.1]; exact hpc) ih.2 (by rw [ih.1]; exact hrd)
      exact ⟨h1.trans ih.1, h2⟩
  rw [(this n).1]
  decide

/-! ## C48 -/

/-- **C48.** A monitor captures exactly the items of the cycles in which `valid` and `ready` were both high, in order,
whatever drives the bus; a monitor drives no signal. -/
theorem C48_monitor (c : Cfg) (evs : List (MonEv α)) (hcl : ∀ e ∈ evs, e.noReset = true)
    (hnd : (MonSys.exec c (.reset false :: evs)).mon.pc ≠ .due) :
    (MonSys.exec c (.reset false :: evs)).mon.captured = xfers c (MonSys.exec c (.reset false :: evs)).trace := by
  have ha := (MonSys.exec_acc c true evs (fun _ => hcl)).acc
  rw [mon_pend_not_due _ _ hnd, List.append_nil] at ha
  exact ha.symm

/-- **C48.** Without `clear()`, what was received followed by the queue is exactly what was transferred. -/
theorem C48_received (c : Cfg) (evs : List (MonEv α)) (hcl : ∀ e ∈ evs, e.noReset = true ∧ e.noClear = true)
    (hnd : (MonSys.exec c (.reset false :: evs)).mon.pc ≠ .due) :
    (MonSys.exec c (.reset false :: evs)).mon.got ++ (MonSys.exec c (.reset false :: evs)).mon.queue =
      xfers c (MonSys.exec c (.reset false :: evs)).trace := by
  rw [← C48_monitor c evs (fun e he => (hcl e he).1) hnd]
  have := MonSys.exec_got c true (.reset false :: evs) (fun _ e he => by
    rcases List.mem_cons.1 he with h | h
    · subst h; rfl
    · exact (hcl e h).2)
  exact this.symm

/-- With resets anywhere, the monitor's record is still a subsequence of what was transferred. -/
theorem C48_no_dup (c : Cfg) (evs : List (MonEv α)) :
    (MonSys.exec c (.reset false :: evs)).mon.captured.Sublist (xfers c (MonSys.exec c (.reset false :: evs)).trace) := by
  have ha := (MonSys.exec_acc c false evs (by simp)).acc
  simp only [Acc, Bool.false_eq_true, if_false] at ha
  exact (List.sublist_append_left _ _).trans ha

/-- A monitor that sleeps, is woken by `valid`, sleeps again and is woken by `ready`. -/
def exMon : List (MonEv Nat) :=
  [.wake, .tick, .run, .env true false 5, .wake, .tick, .run, .env true true 5, .wake, .tick, .run, .env true true 6, .tick,
   .run, .recv]

example : (∀ e ∈ exMon, e.noReset = true ∧ e.noClear = true) ∧ (MonSys.exec {} (.reset false :: exMon)).mon.pc ≠ .due ∧
    xfers {} (MonSys.exec {} (.reset false :: exMon)).trace = [5, 6] ∧
    (MonSys.exec {} (.reset false :: exMon)).mon.got = [5] := by decide

/-! ## C43 -/

/-- **C43.** For a source connected to a sink, at any moment between clock edges, without `clear()` and reset, the items
sent are: those received, those in the sink's queue, at most one on the bus, and those in the source's queue. -/
theorem C43_exactly_once (c : NetCfg) (evs : List (NetEv α)) (hcl : ∀ e ∈ evs, e.clean = true) (s : Net α)
    (hs : s = Net.exec c (.snkReset false :: evs)) (h1 : s.src.pc ≠ .due) (h2 : s.snk.pc ≠ .due) :
    ∃ bus : List α, (bus = [] ∧ s.src.nvalid = false ∨ ∃ x, bus = [x] ∧ s.src.nvalid = true ∧ s.src.ndata = some x) ∧
      s.src.sent = s.snk.got ++ s.snk.queue ++ bus ++ s.src.queue := by
  have hi := Net.exec_inv c true evs (fun _ => hcl)
  rw [← hs] at hi
  have ha := hi.acc
  have hg := hi.got
  rw [net_pend_not_due c s h2, net_bus_not_due c s h1] at ha
  simp only [Acc, if_true, List.append_nil] at ha hg
  rw [hg] at ha
  refine ⟨_, ?_, ha⟩
  cases hv : s.src.nvalid
  · left; simp
  · right
    obtain ⟨x, hx⟩ := hi.src.data hv
    exact ⟨x, by simp [hx], rfl, hx⟩

/-- **C43** at every moment, also in the middle of a clock edge: the item that the sink is about to capture is then
counted separately. -/
theorem C43_exactly_once_always (c : NetCfg) (evs : List (NetEv α)) (hcl : ∀ e ∈ evs, e.clean = true) (s : Net α)
    (hs : s = Net.exec c (.snkReset false :: evs)) :
    ∃ edge bus : List α, edge.length ≤ 1 ∧ bus.length ≤ 1 ∧
      s.src.sent = s.snk.got ++ s.snk.queue ++ edge ++ bus ++ s.src.queue := by
  have hi := Net.exec_inv c true evs (fun _ => hcl)
  rw [← hs] at hi
  have ha := hi.acc
  have hg := hi.got
  simp only [Acc, if_true] at ha hg
  rw [hg] at ha
  refine ⟨s.pend c, s.onBus c, ?_, ?_, ha⟩
  · unfold Net.pend
    split
    · cases s.src.data <;> simp
    · simp
  · unfold Net.onBus
    repeat' split
    · simp
    · cases s.src.ndata <;> simp
    · simp

/-- With `clear()` and reset of either side anywhere, what is received is a subsequence of what was sent: no item is
duplicated, invented or reordered. -/
theorem C43_no_dup (c : NetCfg) (evs : List (NetEv α)) (s : Net α) (hs : s = Net.exec c (.snkReset false :: evs)) :
    (s.snk.got ++ s.snk.queue).Sublist s.src.sent := by
  have hi := Net.exec_inv c false evs (by simp)
  rw [← hs] at hi
  have hg := hi.got
  simp only [Acc, Bool.false_eq_true, if_false] at hg
  exact hg.trans (captured_le hi)

/-- Three items; at the end one is received, one is in the sink's queue, one is on the bus. -/
def exNet : List (NetEv Nat) :=
  [.srcReset false, .srcWake, .snkWake, .commit, .send 1, .send 2, .send 3, .commit, .tick, .snkRun, .srcRun, .commit,
   .snkWake, .commit, .tick, .srcRun, .snkRun, .commit, .tick, .srcRun, .snkRun, .commit, .recv]

example : (∀ e ∈ exNet, e.clean = true) ∧ (Net.exec {} (.snkReset false :: exNet)).snk.got = [1] ∧
    (Net.exec {} (.snkReset false :: exNet)).snk.queue = [2] ∧ (Net.exec {} (.snkReset false :: exNet)).src.ndata = some 3 ∧
    (Net.exec {} (.snkReset false :: exNet)).src.nvalid = true ∧
    (Net.exec {} (.snkReset false :: exNet)).src.pc ≠ .due ∧ (Net.exec {} (.snkReset false :: exNet)).snk.pc ≠ .due := by
  decide

/-! ## C68: delivery -/

/-- **C68.** If items are outstanding, the sink has room and nobody is paused, then within three clock cycles another item
reaches the sink, whatever the order of the coroutines in each cycle. -/
theorem C68_progress (c : NetCfg) (evs : List (NetEv α)) (hcl : ∀ e ∈ evs, e.clean = true) (s : Net α)
    (hs : s = Net.exec c (.snkReset false :: evs)) (hrun : NetRun s)
    (hout : s.snk.captured.length < s.src.sent.length)
    (hroom : c.snkLimit > 0 → (s.snk.queue.length : Int) < c.snkLimit) (b₁ b₂ b₃ : Bool) :
    s.snk.captured.length < (s.cycles c [b₁, b₂, b₃]).snk.captured.length := by
  have hi := Net.exec_inv c true evs (fun _ => hcl)
  have hl := Net.exec_live c (.snkReset false :: evs) (fun e he => by
    rcases List.mem_cons.1 he with h | h
    · subst h; rfl
    · exact hcl e h)
  rw [← hs] at hi hl
  simp only [Net.cycles, List.foldl_cons, List.foldl_nil]
  exact Net.progress hrun hi hl hout ((not_full_iff _ _).2 hroom) b₁ b₂ b₃

/-- **C68.** With an unlimited sink queue and nobody paused, `n` outstanding items all arrive within `3 * n` clock cycles. -/
theorem C68_delivery (c : NetCfg) (hlim : c.snkLimit ≤ 0) (evs : List (NetEv α)) (hcl : ∀ e ∈ evs, e.clean = true) (s : Net α)
    (hs : s = Net.exec c (.snkReset false :: evs)) (hrun : NetRun s) (bs : List Bool)
    (hb : 3 * (s.src.sent.length - s.snk.captured.length) ≤ bs.length) :
    (s.cycles c bs).snk.captured = s.src.sent := by
  have hi := Net.exec_inv c true evs (fun _ => hcl)
  have hl := Net.exec_live c (.snkReset false :: evs) (fun e he => by
    rcases List.mem_cons.1 he with h | h
    · subst h; rfl
    · exact hcl e h)
  rw [← hs] at hi hl
  exact Net.delivers hlim _ hrun hi hl (Nat.le_refl _) bs hb

/-- The hypotheses hold after three items have been sent to a pair just out of reset. -/
example : let s := Net.exec ({} : NetCfg) ([.snkReset false, .srcReset false, .send 1, .send 2, .send 3] : List (NetEv Nat))
    NetRun s ∧ s.snk.captured.length < s.src.sent.length := by
  refine ⟨⟨?_, ?_, ?_, ?_, ?_, ?_⟩, ?_⟩ <;> decide

/-! ## C83, C86: pausing -/

/-- **C83.** From the moment a source is paused until it is unpaused, whatever happens, at most one more item is transferred; it is the
one presented when the source was paused, and if none was presented none is transferred. -/
theorem C83_source (c : Cfg) (hv : c.hasValid = true) (evs more : List (SrcEv α))
    (hm : ∀ e ∈ more, e.noResume = true) (s t : SrcSys α) (hs : s = SrcSys.exec c (evs ++ [.pause true]))
    (ht : t = SrcSys.exec c (evs ++ [.pause true] ++ more)) :
    ∃ new, xfers c t.trace = xfers c s.trace ++ new ∧ (new = [] ∨ s.src.nvalid = true ∧ ∃ x, s.src.ndata = some x ∧ new = [x]) := by
  have htt : t = more.foldl (SrcSys.step c) s := by rw [ht, SrcSys.exec, List.foldl_append, hs]; rfl
  have hp : s.src.pause = true := by rw [hs, SrcSys.exec, List.foldl_append]; rfl
  have ha : SrcAcc c false s := by rw [hs]; exact SrcSys.exec_acc hv false _ (by simp)
  have h1 := SrcSys.run_paused hv more hm ha hp
  obtain ⟨new, h2⟩ := steps_trace c more s
  rw [← htt] at h1 h2
  refine ⟨new, h2.symm, ?_⟩
  have h3 := (List.prefix_append _ _).trans h1
  rw [← h2, List.prefix_append_right_inj] at h3
  revert h3
  unfold SrcSys.onBus
  repeat' split
  · intro h; exact .inl (List.prefix_nil.1 h)
  · rename_i hn
    intro h
    cases hd : s.src.ndata with
    | none => rw [hd] at h; exact .inl (List.prefix_nil.1 h)
    | some y =>
      rw [hd] at h
      rcases h with ⟨r, h⟩
      cases new with
      | nil => exact .inl rfl
      | cons x xs =>
        have h : x :: (xs ++ r) = [y] := h
        rw [List.cons.injEq, List.append_eq_nil_iff] at h
        exact .inr ⟨hn, y, rfl, by rw [h.1, h.2.1]⟩
  · intro h; exact .inl (List.prefix_nil.1 h)

example : let evs : List (SrcEv Nat) := [.reset false, .wake, .send 7, .send 8, .commit, .tick, .run, .commit]
    let more : List (SrcEv Nat) := [.env true, .commit, .tick, .run, .commit, .tick, .run, .send 9, .commit, .tick, .run, .commit]
    (∀ e ∈ more, e.noResume = true) ∧ xfers {} (SrcSys.exec {} (evs ++ [.pause true] ++ more)).trace = [7] ∧
    xfers {} (SrcSys.exec {} (evs ++ more)).trace = [7, 8] := by decide +kernel

/-- **C86.** From the moment a sink is paused until it is unpaused, whatever else happens, at most two more items are transferred. -/
theorem C86_sink (c : Cfg) (hr : c.hasReady = true) (evs more : List (SnkEv α)) (hm : ∀ e ∈ more, e.noResume = true) :
    (xfers c (SnkSys.exec c (evs ++ [.pause true] ++ more)).trace).length ≤ (xfers c (SnkSys.exec c evs).trace).length + 2 := by
  have e1 : SnkSys.exec c (evs ++ [.pause true] ++ more) = more.foldl (SnkSys.step c) ((SnkSys.exec c evs).step c (.pause true)) := by
    rw [SnkSys.exec, List.foldl_append, List.foldl_append]; rfl
  have h1 := SnkSys.run_calm hr more hm ((SnkSys.step_calm hr (SnkSys.exec_calm hr evs) (.pause true)).1) rfl
  have h2 := budget_le ((SnkSys.exec c evs).step c (.pause true)).snk.pc ((SnkSys.exec c evs).step c (.pause true)).snk.pauseSample
    ((SnkSys.exec c evs).step c (.pause true)).snk.nready
  have h3 : ((SnkSys.exec c evs).step c (.pause true)).trace = (SnkSys.exec c evs).trace := rfl
  rw [e1]
  unfold SnkSys.upTo at h1
  rw [h3] at h1
  omega

/-- Two more items get through after the pause. -/
example : let evs : List (SnkEv Nat) := [.reset false, .wake, .commit, .tick, .run, .commit, .env true 1, .wake, .commit, .tick, .run, .commit]
    let more : List (SnkEv Nat) := (List.replicate 5 [SnkEv.env true 2, .wake, .commit, .tick, .run, .commit]).flatten
    (∀ e ∈ more, e.noResume = true) ∧ xfers {} (SnkSys.exec {} evs).trace = [1] ∧
    xfers {} (SnkSys.exec {} (evs ++ [.pause true] ++ more)).trace = [1, 2, 2] := by decide +kernel

end Verif.Stream
