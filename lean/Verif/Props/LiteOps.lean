import Verif.Proof.LiteOpsMore

/-!
# Properties of the AXI-lite masters' operation bookkeeping (C38, and the AXI-lite part of C33 - C35, C72)

`Lite.exec evs` is the state of an `AxiLiteMasterWrite` or `AxiLiteMasterRead` after the history `evs`, from construction. A
history contains calls, arriving responses, resets and the atomic pieces of all coroutines in any order.
-/

namespace Verif.LiteOps

open Lite

variable {χ ρ : Type}

/-! ## C38 -/

/-- **C38.** At any time, the operations completed since the last reset (or construction), in order of completion and with
the responses they completed with, are an initial part of: first issued operation - first block of responses, second
operation - next block, ... -/
theorem C38_matching (evs : List (Ev χ ρ)) :
    let s := exec evs
    s.done <+: blocks s.epoch s.arrived := by
  simp only
  rw [(exec_inv evs).blocks_eq]
  exact List.prefix_append _ _

/-- Completions occur in issue order. -/
theorem C38_in_order (evs : List (Ev χ ρ)) :
    let s := exec evs
    s.done.map (·.1) <+: s.epoch := by
  simp only
  rw [(exec_inv evs).epoch]
  simp only [started, List.append_assoc]
  exact List.prefix_append _ _

/-- When the coroutines have nothing left to do, every operation whose responses have arrived has completed. -/
theorem C38_complete (evs : List (Ev χ ρ)) (hr : (exec evs : Lite χ ρ).running = true)
    (hq : Quiet (exec evs : Lite χ ρ)) :
    let s := exec evs
    s.done = blocks s.epoch s.arrived := by
  simp only
  rw [(exec_inv evs).blocks_eq, (exec_inv evs).quiet hr hq, List.append_nil]

/-- The transfers sent are those of the issued operations, in issue order. -/
theorem C38_traffic (evs : List (Ev χ ρ)) :
    let s := exec evs
    s.sent <+: s.epoch.flatMap (·.xs) := by
  simp only
  rw [(exec_inv evs).epoch, List.flatMap_append, ← (exec_inv evs).sent, List.append_assoc]
  exact List.prefix_append _ _

theorem foldl_results (b : List (Ev χ ρ)) (s : Lite χ ρ) (hb : Ev.reset true ∉ b) :
    ∃ d, (b.foldl step s).results = s.results ++ d.map (fun x => (x.1, some x.2)) ∧ (b.foldl step s).done = s.done ++ d := by
  induction b generalizing s with
  | nil => exact ⟨[], by simp, by simp⟩
  | cons e b ih =>
    have h1 : ∃ d, (s.step e).results = s.results ++ d.map (fun x => (x.1, some x.2)) ∧ (s.step e).done = s.done ++ d := by
      cases e with
      | respDone =>
        simp only [step, respDone]
        split
        · exact ⟨[_], rfl, rfl⟩
        · exact ⟨[], by simp, by simp⟩
      | reset v =>
        cases v with
        | false => exact ⟨[], by simp [step, reset], by simp [step, reset]⟩
        | true => simp at hb
      | take => refine ⟨[], ?_, ?_⟩ <;> simp only [step, take] <;> split <;> simp
      | send => refine ⟨[], ?_, ?_⟩ <;> simp only [step, send] <;> split <;> simp
      | resp r => refine ⟨[], ?_, ?_⟩ <;> simp only [step, resp] <;> split <;> simp
      | respTake => refine ⟨[], ?_, ?_⟩ <;> simp only [step, respTake] <;> split <;> simp
      | respGet => refine ⟨[], ?_, ?_⟩ <;> simp only [step, respGet] <;> split <;> simp
      | write op => exact ⟨[], by simp [step, write], by simp [step, write]⟩
      | init op => exact ⟨[], by simp [step], by simp [step]⟩
      | runInit i => refine ⟨[], ?_, ?_⟩ <;> simp only [step] <;> split <;> simp [write]
    obtain ⟨d1, e1, e2⟩ := h1
    obtain ⟨d2, e3, e4⟩ := ih (s.step e) (by simp at hb; exact hb.2)
    refine ⟨d1 ++ d2, ?_, ?_⟩
    · rw [List.foldl_cons, e3, e1]; simp
    · rw [List.foldl_cons, e4, e2]; simp

/-- What the callers are given: after a reset (or from construction), the results signalled are exactly those of the
completed operations, in the order of completion. -/
theorem C38_results (a b : List (Ev χ ρ)) (hb : Ev.reset true ∉ b) :
    (exec b).results = (exec b).done.map (fun x => (x.1, some x.2)) ∧
    (exec (a ++ .reset true :: b)).results =
      (exec (a ++ [.reset true])).results ++ (exec (a ++ .reset true :: b)).done.map (fun x => (x.1, some x.2)) := by
  constructor
  · obtain ⟨d, h1, h2⟩ := foldl_results b ({} : Lite χ ρ) hb
    simp only [exec]
    rw [h1, h2]; rfl
  · have e : ∀ l : List (Ev χ ρ), exec (a ++ .reset true :: l) = l.foldl step ((exec a).step (.reset true)) := by
      intro l; simp [exec, List.foldl_append]
    obtain ⟨d, h1, h2⟩ := foldl_results b ((exec a).step (.reset true)) hb
    rw [e, e, h1, h2]
    simp [step, reset]

/-- Three operations of two, zero and one transfers; responses arrive while later operations are being sent. -/
def exHist : List (Ev Nat Nat) :=
  [.reset false, .write ⟨0, [10, 11]⟩, .init ⟨1, []⟩, .runInit 0, .take, .send, .write ⟨2, [12]⟩, .resp 100, .send, .respTake,
   .take, .take, .respGet, .resp 101, .respGet, .send, .respDone, .respTake, .respDone, .respTake, .resp 102, .respGet,
   .respDone]

example : (exec exHist).results = [(⟨0, [10, 11]⟩, some [100, 101]), (⟨1, []⟩, some []), (⟨2, [12]⟩, some [102])] ∧
    (exec exHist).sent = [10, 11, 12] ∧ (exec exHist).idle = true ∧ (exec exHist).running = true := by decide +kernel

theorem quiet_of_idle (evs : List (Ev χ ρ)) (h : (exec evs : Lite χ ρ).idle = true) (hc : (exec evs : Lite χ ρ).cur = none) :
    Quiet (exec evs : Lite χ ρ) := by
  have hi := exec_inv evs (ρ := ρ) (χ := χ)
  revert h hc hi
  generalize (exec evs : Lite χ ρ) = s
  intro h hc hi e he
  have hp : s.pend = [] := by
    simp only [idle, decide_eq_true_eq, hi.flight] at h
    rw [← List.length_eq_zero_iff]; omega
  simp only [pend, respOps, List.append_eq_nil_iff, Option.toList_eq_nil_iff, Option.map_eq_none_iff] at hp
  obtain ⟨⟨h1, h2⟩, h3⟩ := hp
  cases e with
  | take => simp [step, take, h3]
  | send => simp [step, send, hc]
  | respTake => simp [step, respTake, h2]
  | respGet => simp [step, respGet, h1]
  | respDone => simp [step, respDone, h1]
  | _ => simp [internal] at he

example : Quiet (exec exHist) := quiet_of_idle exHist (by decide +kernel) (by decide +kernel)

/-! ## C33 - idle and wait -/

/-- `idle()` is true exactly when every operation that was issued has a result (completed, or flushed by reset), and
the event `wait()` waits for is set exactly then. -/
theorem C33_lite_idle (evs : List (Ev χ ρ)) (hk : (exec evs : Lite χ ρ).issued.Nodup) :
    let s := exec evs
    (s.idle = true ↔ ∀ op ∈ s.issued, ∃ r, (op, r) ∈ s.results) ∧ s.idleEv = s.idle := by
  have hi := exec_inv evs (ρ := ρ) (χ := χ)
  simp only
  revert hi hk
  generalize (exec evs : Lite χ ρ) = s
  intro hk hi
  refine ⟨?_, hi.ev⟩
  have hidle : s.idle = true ↔ s.pend = [] := by
    simp only [idle, decide_eq_true_eq, hi.flight]
    rw [← List.length_eq_zero_iff]; omega
  rw [hidle]
  constructor
  · intro hp op hop
    obtain ⟨st, h1, h2⟩ := hi.acct
    have := h1.mem_iff.1 hop
    rw [hp, List.append_nil] at this
    exact (h2 op).1 this
  · intro hall
    cases hp : s.pend with
    | nil => rfl
    | cons op l =>
      exfalso
      have := (hi.pend_iff hk op).1 (by simp [hp])
      obtain ⟨r, hr⟩ := hall op this.1
      exact this.2 r hr

/-- As for AXI: right after `init_write`/`init_read` the master still is idle. -/
theorem C33_lite_init_violated :
    ∃ (evs : List (Ev Nat Nat)) (op : Op Nat), Ev.init op ∈ evs ∧ (exec evs).idle = true ∧ (exec evs).idleEv = true ∧
      resultOf (exec evs).results op = none :=
  ⟨[.reset false, .init ⟨0, [1]⟩], ⟨0, [1]⟩, by simp, by decide +kernel⟩

example : (exec exHist).issued.Nodup ∧ (exec (exHist.take 9)).idle = false := by decide +kernel

/-! ## C34 - reset -/

/-- Whenever reset is asserted: results already given are kept in the log, every operation that had none is signalled
`None`, nothing is left waiting, and afterwards nothing is queued or in progress and the master is idle. -/
theorem C34_lite_reset (evs : List (Ev χ ρ)) :
    let s := exec evs
    let s' := exec (evs ++ [.reset true])
    (∀ op ∈ s.issued, (∀ r, (op, r) ∉ s.results) → (op, none) ∈ s'.results) ∧
    (∀ op ∈ s.issued, ∃ r, (op, r) ∈ s'.results) ∧
    (∃ flushed : List (Op χ), s'.results = s.results ++ flushed.map (fun o => (o, none)) ∧ ∀ o ∈ flushed, o ∈ s.issued) ∧
    s'.issued = s.issued ∧ s'.idle = true ∧ s'.idleEv = true ∧ s'.queue = [] ∧ s'.cur = none ∧ s'.respQ = [] ∧
    s'.respCur = none ∧ s'.bch = [] ∧ s'.running = false := by
  have hi := exec_inv evs (ρ := ρ) (χ := χ)
  simp only
  have e : exec (evs ++ [.reset true]) = (exec evs : Lite χ ρ).step (.reset true) := by
    simp [exec, List.foldl_append]
  rw [e]
  have hi' := step_inv hi (.reset true)
  revert hi hi'
  generalize (exec evs : Lite χ ρ) = s
  intro hi hi'
  have hpend : (s.step (.reset true)).pend = [] := by simp [step, reset, pend, respOps]
  obtain ⟨st, h1, h2⟩ := hi.acct
  have key : ∀ op, op ∈ s.issued → (∀ r, (op, r) ∉ s.results) → (op, none) ∈ (s.step (.reset true)).results := by
    intro op hop hn
    have := h1.mem_iff.1 hop
    rcases List.mem_append.1 this with h3 | h3
    · obtain ⟨r, hr⟩ := (h2 op).1 h3
      exact absurd hr (hn r)
    · simp only [step, reset, if_true, List.mem_append, List.mem_map]
      right
      refine ⟨op, ?_, rfl⟩
      simp only [pend, respOps, List.mem_append] at h3
      rcases h3 with (h3 | h3) | h3
      · exact .inr h3
      · exact .inl (.inr h3)
      · exact .inl (.inl (.inl h3))
  refine ⟨key, ?_, ⟨_, rfl, ?_⟩, rfl, rfl, rfl, rfl, rfl, rfl, rfl, rfl, rfl⟩
  · intro op hop
    by_cases hn : ∃ r, (op, r) ∈ s.results
    · obtain ⟨r, hr⟩ := hn
      exact ⟨r, by simp only [step, reset, if_true, List.mem_append]; exact .inl hr⟩
    · exact ⟨none, key op hop (fun r hr => hn ⟨r, hr⟩)⟩
  · intro o ho
    have hx : (o, none) ∈ (s.step (.reset true)).results := by
      simp only [step, reset, if_true, List.mem_append, List.mem_map]
      exact .inr ⟨o, by simpa only [List.mem_append] using ho, rfl⟩
    obtain ⟨st', h1', h2'⟩ := hi'.acct
    rw [hpend, List.append_nil] at h1'
    have : o ∈ (s.step (.reset true)).issued := h1'.mem_iff.2 ((h2' o).2 ⟨_, hx⟩)
    exact this

/-- In the middle of the history above: the completed operation keeps its result, the others are released. -/
example : (exec (exHist.take 17 ++ [.reset true])).results =
    [(⟨0, [10, 11]⟩, some [100, 101]), (⟨1, []⟩, none), (⟨2, [12]⟩, none)] := by decide +kernel

/-! ## C35 - results are final -/

/-- Once an operation has a result, no later event - in particular no reset - changes it, provided the slave never sends
more responses than it has received transfers. -/
theorem C35_lite_final [DecidableEq χ] (evs more : List (Ev χ ρ)) (hk : (exec (evs ++ more) : Lite χ ρ).issued.Nodup)
    (hslave : ∀ pre, pre <+: evs ++ more → (exec pre : Lite χ ρ).arrived.length ≤ (exec pre : Lite χ ρ).sent.length)
    (op : Op χ) (r : Option (List ρ)) (h : resultOf (exec evs).results op = some r) :
    resultOf (exec (evs ++ more)).results op = some r := by
  have := (exec_seq (evs ++ more) (ρ := ρ) (χ := χ)).final (fun n => hslave _ (List.take_prefix _ _)) evs.length more.length
    (by rw [List.take_of_length_le (by simp)]; exact hk) op r (by rw [List.take_left]; exact h)
  rwa [List.take_of_length_le (by simp)] at this

/-- The proviso is needed: a slave that answers a transfer it has not received makes the master complete an operation it
is still sending, and a reset at this point changes the result of the completed operation to `None`. -/
theorem C35_lite_early_violated :
    ∃ (evs : List (Ev Nat Nat)) (op : Op Nat) (r : List Nat), (exec (evs ++ [.reset true])).issued.Nodup ∧
      resultOf (exec evs).results op = some (some r) ∧ resultOf (exec (evs ++ [.reset true])).results op = some none :=
  ⟨[.reset false, .write ⟨0, [10, 11]⟩, .take, .send, .respTake, .resp 100, .resp 101, .respGet, .respGet, .respDone],
    ⟨0, [10, 11]⟩, [100, 101], by decide +kernel⟩

example : (exec (exHist ++ [.reset true])).issued.Nodup ∧
    (∀ n < exHist.length + 2, (exec ((exHist ++ [Ev.reset true]).take n)).arrived.length ≤
      (exec ((exHist ++ [Ev.reset true]).take n)).sent.length) ∧
    resultOf (exec (exHist.take 17)).results ⟨0, [10, 11]⟩ = some (some [100, 101]) := by decide +kernel

/-! ## C72 - progress -/

/-- The master's own steps come to an end. -/
theorem C72_lite_terminates : ∃ μ : Lite χ ρ → Nat, ∀ (evs : List (Ev χ ρ)) (e : Ev χ ρ), internal e = true →
    (exec evs).step e = exec evs ∨ μ ((exec evs).step e) < μ (exec evs) :=
  ⟨Lite.wt, fun evs e he => (exec evs).decreases e he⟩

/-- And when they have, all transfers of the issued operations have been sent, and if every one of them has been answered,
every operation has completed. -/
theorem C72_lite_no_deadlock (evs : List (Ev χ ρ)) (hr : (exec evs : Lite χ ρ).running = true)
    (hq : Quiet (exec evs : Lite χ ρ)) :
    let s := exec evs
    s.sent = s.epoch.flatMap (·.xs) ∧
      (s.sent.length ≤ s.arrived.length → s.idle = true ∧ ∀ op ∈ s.issued, ∃ r, (op, r) ∈ s.results) := by
  have hi := exec_inv evs (ρ := ρ) (χ := χ)
  have hc := C38_complete evs hr hq
  simp only at hc ⊢
  revert hr hq hi hc
  generalize (exec evs : Lite χ ρ) = s
  intro hr hq hi hc
  have hcur : s.cur = none := by
    cases hcu : s.cur with
    | none => rfl
    | some p =>
      obtain ⟨op, rm⟩ := p
      exfalso
      have h3 := (hi.cur op rm hcu).1
      cases rm with
      | nil => exact h3 rfl
      | cons x rm =>
        have := congrArg Lite.sent (hq .send rfl)
        simp only [step, send, hr, hcu] at this
        have := congrArg List.length this
        simp at this
  have hqu : s.queue = [] := by
    cases hqu : s.queue with
    | nil => rfl
    | cons op rest =>
      exfalso
      have := congrArg Lite.queue (hq .take rfl)
      simp only [step, take, hr, hcur, hqu] at this
      have := congrArg List.length this
      simp at this
  have hsent : s.sent = s.epoch.flatMap (·.xs) := by
    rw [hi.epoch, hqu, List.append_nil, ← hi.sent]
    simp [rem, hcur]
  refine ⟨hsent, ?_⟩
  intro hl
  have hfull := blocks_full s.epoch s.arrived (by rw [← hsent]; exact hl)
  rw [← hc] at hfull
  have hp : s.pend = [] := by
    have := hi.epoch
    rw [← hfull] at this
    simp only [started, List.append_assoc] at this
    have := List.append_cancel_left ((List.append_nil _).trans this)
    simp only [pend]
    exact this.symm
  refine ⟨?_, ?_⟩
  · simp only [idle, decide_eq_true_eq, hi.flight, hp]; rfl
  · intro op hop
    obtain ⟨st, h1, h2⟩ := hi.acct
    have := h1.mem_iff.1 hop
    rw [hp, List.append_nil] at this
    exact (h2 op).1 this

example : (exec exHist).sent.length = 3 ∧ (exec exHist).arrived.length = 3 := by decide +kernel

end Verif.LiteOps
