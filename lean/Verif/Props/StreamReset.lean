import Verif.Proof.StreamReset

/-!
# C137: stream items across resets and `clear()`
-/

namespace Verif.Stream

variable {α : Type}

theorem reset_run (c : NetCfg) (evs : List (NetEv α)) (hon : c.hasReady = false → ∀ e ∈ evs, e.sinkOn = true) (s : Net α)
    (hs : s = Net.exec c (.snkReset false :: evs)) :
    s.src.sent.Perm (s.kept c ++ Net.lost c {} (.snkReset false :: evs)) ∧ (s.kept c).Sublist s.src.sent := by
  obtain ⟨new, h1, h2, h3⟩ := Net.kept_run (c := c) evs (Net.exec_inv c false [] (by simp)) (fun _ => by simp [Net.exec, Net.step, Snk.reset]) hon
  have e1 : evs.foldl (Net.step c) (Net.exec c [.snkReset false]) = s := by rw [hs]; rfl
  rw [e1] at h1 h2 h3
  have e2 : (Net.exec c [.snkReset false] : Net α).src.sent = [] := rfl
  have e3 : (Net.exec c [.snkReset false] : Net α).kept c = [] := by
    simp [Net.kept, Net.arriving, Net.presented, Net.exec, Net.step, Snk.reset]
  rw [e2, List.nil_append] at h1
  rw [e3, List.nil_append] at h2 h3
  rw [h1]
  exact ⟨h2, h3⟩

/-- **C137.** A source connected to a sink, with resets of either side and `clear()` at any moments: every item sent is received, in the
connection, or was thrown away by an event that `Net.drops` lists; nothing is lost otherwise. What is received and in the connection is in
the order of sending. (On a bus without `ready` the sink is not to be reset: nothing could hold the source.) -/
theorem C137_accounting (c : NetCfg) (evs : List (NetEv α)) (hon : c.hasReady = false → ∀ e ∈ evs, e.sinkOn = true) (s : Net α)
    (hs : s = Net.exec c (.snkReset false :: evs)) :
    s.src.sent.Perm (s.kept c ++ Net.lost c {} (.snkReset false :: evs)) ∧ (s.kept c).Sublist s.src.sent :=
  reset_run c evs hon s hs

theorem drops_le (c : NetCfg) (s : Net α) (e : NetEv α) (h : e.noClear = true) : (s.drops c e).length ≤ if e.asserts then 1 else 0 := by
  have hp : (s.presented c).length ≤ 1 := by
    unfold Net.presented
    repeat' split
    · simp
    · cases s.src.ndata <;> simp
    · simp
  have ha : (s.arriving c).length ≤ 1 := by
    unfold Net.arriving
    split
    · cases s.src.data <;> simp
    · simp
  cases e <;> first | (simp [NetEv.noClear] at h; done) | (rename_i v; cases v <;> simp [Net.drops, NetEv.asserts] <;> assumption) |
    simp [Net.drops, NetEv.asserts]

theorem lost_le (c : NetCfg) (evs : List (NetEv α)) : ∀ s : Net α, (∀ e ∈ evs, e.noClear = true) →
    (Net.lost c s evs).length ≤ evs.countP NetEv.asserts := by
  induction evs with
  | nil => intro s _; simp [Net.lost]
  | cons e evs ih =>
    intro s h
    have h1 := drops_le c s e (h e (by simp))
    have h2 := ih (s.step c e) (fun e he => h e (by simp [he]))
    rw [Net.lost, List.length_append, List.countP_cons]
    omega

/-- **C137.** Without `clear()` each assertion of a reset costs at most one item. -/
theorem C137_one_per_reset (c : NetCfg) (evs : List (NetEv α)) (hon : c.hasReady = false → ∀ e ∈ evs, e.sinkOn = true)
    (hcl : ∀ e ∈ evs, e.noClear = true) (s : Net α) (hs : s = Net.exec c (.snkReset false :: evs)) :
    s.src.sent.length ≤ (s.kept c).length + evs.countP NetEv.asserts := by
  have h := (C137_accounting c evs hon s hs).1.length_eq
  have h2 := lost_le c evs (({} : Net α).step c (.snkReset false)) hcl
  rw [List.length_append, Net.lost, show Net.drops c ({} : Net α) (.snkReset false) = [] from rfl, List.nil_append] at h
  omega

theorem lost_nil (c : NetCfg) (evs : List (NetEv α)) : ∀ s : Net α,
    (∀ pre e post, evs = pre ++ e :: post → (pre.foldl (Net.step c) s).drops c e = []) → Net.lost c s evs = [] := by
  induction evs with
  | nil => intro s _; rfl
  | cons e evs ih =>
    intro s h
    rw [Net.lost, show s.drops c e = [] from h [] e evs rfl, List.nil_append]
    exact ih _ (fun pre e' post he => h (e :: pre) e' post (by rw [he]; rfl))

/-- **C137.** If the source is reset only while it drives `valid` low, and the sink only between clock edges, no reset loses anything:
the items sent are exactly those received, queued at the sink, on the bus and queued at the source. -/
theorem C137_quiet_resets (c : NetCfg) (evs : List (NetEv α)) (hon : c.hasReady = false → ∀ e ∈ evs, e.sinkOn = true)
    (hcl : ∀ e ∈ evs, e.noClear = true) (s : Net α) (hs : s = Net.exec c (.snkReset false :: evs))
    (hsrc : ∀ n : Nat, evs[n]? = some (.srcReset true) → (Net.exec c (.snkReset false :: evs.take n)).src.nvalid = false)
    (hsnk : ∀ n : Nat, evs[n]? = some (.snkReset true) → (Net.exec c (.snkReset false :: evs.take n)).snk.pc ≠ .due) :
    s.src.sent = s.kept c := by
  obtain ⟨h1, h2⟩ := C137_accounting c evs hon s hs
  have hn : Net.lost c {} (.snkReset false :: evs) = [] := by
    rw [Net.lost, show Net.drops c ({} : Net α) (.snkReset false) = [] from rfl, List.nil_append]
    refine lost_nil c evs _ (fun pre e post he => ?_)
    have hnc := hcl e (by rw [he]; simp)
    have hat : evs[pre.length]? = some e := by rw [he]; simp
    have htk : evs.take pre.length = pre := by rw [he]; simp
    cases e <;> first | rfl | (simp [NetEv.noClear] at hnc; done) | skip
    case srcReset v =>
      cases v
      · rfl
      · have := hsrc pre.length hat
        rw [htk] at this
        show Net.presented c _ = []
        unfold Net.presented
        split
        · rfl
        · rw [if_neg]
          rw [show pre.foldl (Net.step c) (({} : Net α).step c (.snkReset false)) = Net.exec c (.snkReset false :: pre) from rfl, this]
          simp
    case snkReset v =>
      cases v
      · rfl
      · have := hsnk pre.length hat
        rw [htk] at this
        show Net.arriving c _ = []
        unfold Net.arriving
        rw [if_neg (fun hh => this hh.1)]
  rw [hn, List.append_nil] at h1
  exact (h2.eq_of_length h1.length_eq.symm).symm

/-- **C137.** After any such history, with both sides out of reset and unpaused and an unlimited sink queue, what is left in the connection
arrives completely and in order, within three clock cycles per item. -/
theorem C137_delivery (c : NetCfg) (hlim : c.snkLimit ≤ 0) (evs : List (NetEv α)) (hcl : ∀ e ∈ evs, e.noClear = true) (s : Net α)
    (hs : s = Net.exec c (.snkReset false :: evs)) (hrun : NetRun s) (bs : List Bool)
    (hb : 3 * ((s.presented c).length + s.src.queue.length) ≤ bs.length) :
    (s.cycles c bs).snk.got ++ (s.cycles c bs).snk.queue = s.kept c := by
  have hi := Net.exec_inv c false evs (by simp)
  have hl : SnkLive c.snk (Net.exec c (.snkReset false :: evs)).snk :=
    foldl_inv' _ (fun s : Net α => SnkLive c.snk s.snk) (fun e => e.noClear = true)
      (fun _ e hq h => Net.step_live' e hq h) evs _ hcl (fun hp => by simp [Net.step, Snk.reset] at hp)
  rw [← hs] at hi hl
  exact Net.arrives hlim hrun hi hl bs hb

/-! ## Examples -/

/-- Three items; the source is reset while it presents the second one, then the sink is reset between clock edges. -/
def exReset : List (NetEv Nat) :=
  [.srcReset false, .srcWake, .snkWake, .commit, .send 1, .send 2, .send 3, .commit, .tick, .snkRun, .srcRun, .commit,
   .snkWake, .commit, .tick, .srcRun, .snkRun, .commit, .srcReset true, .commit, .snkReset true, .commit, .tick, .srcReset false, .srcWake,
   .snkReset false, .snkWake, .commit]

/-- The item on the bus at the reset of the source is lost, the others are not: 1 is in the sink's queue, 3 arrives later. -/
example : let s := Net.exec ({} : NetCfg) (.snkReset false :: exReset)
    (∀ e ∈ exReset, e.noClear = true) ∧ NetRun s ∧ s.src.sent = [1, 2, 3] ∧ s.kept {} = [1, 3] ∧
    Net.lost {} {} (.snkReset false :: exReset) = [2] ∧ s.src.queue = [3] ∧
    (s.cycles {} [true, false, true]).snk.queue = [1, 3] := by
  refine ⟨by decide +kernel, ⟨?_, ?_, ?_, ?_, ?_, ?_⟩, ?_⟩ <;> decide +kernel

/-- Quiet resets: the source is reset before its first item is on the bus, the sink with an item waiting on the bus. -/
def exQuiet : List (NetEv Nat) :=
  [.srcReset false, .srcWake, .snkWake, .commit, .send 1, .send 2, .srcReset true, .commit, .srcReset false, .srcWake, .commit, .tick,
   .snkRun, .srcRun, .commit, .snkWake, .snkReset true, .commit, .tick, .srcRun, .commit, .snkReset false, .snkWake, .commit, .tick, .srcRun,
   .snkRun, .commit, .tick, .srcRun, .snkRun, .commit]

example : let s := Net.exec ({} : NetCfg) (.snkReset false :: exQuiet)
    (∀ e ∈ exQuiet, e.noClear = true) ∧ s.snk.queue = [1] ∧ s.kept {} = [1, 2] ∧ s.src.nvalid = true ∧
    exQuiet.countP NetEv.asserts = 2 := by
  decide +kernel

example (n : Nat) :
    (exQuiet[n]? = some (.srcReset true) → (Net.exec ({} : NetCfg) (.snkReset false :: exQuiet.take n)).src.nvalid = false) ∧
    (exQuiet[n]? = some (.snkReset true) → (Net.exec ({} : NetCfg) (.snkReset false :: exQuiet.take n)).snk.pc ≠ .due) := by
  have key : ∀ n < 32, (match exQuiet[n]? with
      | some (.srcReset true) => decide ((Net.exec ({} : NetCfg) (.snkReset false :: exQuiet.take n)).src.nvalid = false)
      | some (.snkReset true) => decide ((Net.exec ({} : NetCfg) (.snkReset false :: exQuiet.take n)).snk.pc ≠ .due)
      | _ => true) = true := by decide +kernel
  constructor <;> intro hn <;> have := key n (List.getElem?_eq_some_iff.1 hn).1 <;> rw [hn] at this <;> simpa using this

/-- Without a `ready` signal a sink in reset misses everything: two items are gone after one reset of the sink. -/
theorem C137_no_ready : ∃ evs : List (NetEv Nat), (∀ e ∈ evs, e.noClear = true) ∧ evs.countP NetEv.asserts = 1 ∧
    (Net.exec { hasReady := false } (.snkReset false :: evs)).src.sent = [1, 2] ∧
    (Net.exec { hasReady := false } (.snkReset false :: evs)).kept { hasReady := false } = [] :=
  ⟨[.srcReset false, .srcWake, .snkWake, .snkReset true, .send 1, .send 2, .commit, .tick, .srcRun, .commit, .tick, .srcRun, .commit,
    .tick, .srcRun, .commit], by decide +kernel⟩

end Verif.Stream
