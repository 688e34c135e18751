import Verif.Proof.AxiOpsProgress

/-!
# Properties of the AXI masters' operation bookkeeping (C31 - C35, C70 - C72)

`Master.exec n evs` is the state of an `AxiMasterWrite` or `AxiMasterRead` with `n` IDs after the history `evs`, from
construction. A history contains calls, arriving responses, resets and the atomic pieces of all coroutines in
any order, so every theorem holds for every schedule. See `Spec/Matching.lean` for the vocabulary.
-/

namespace Verif.AxiOps

open Master

variable {ρ : Type}

/-! ## C31 - the IDs -/

/-- The operations that have been given an ID since the last reset, in order, with that ID. -/
def taken (s : Master ρ) : List (Nat × Op) := s.started ++ (s.cur.map fun x => (x.2.1, x.1)).toList

/-- The ID that operation `i` of a sequence must have: the one asked for, or the number of operations before it that left
the choice open, modulo the number of IDs. -/
def mustHave (n : Nat) (ops : List Op) (i : Nat) : Option Nat :=
  ops[i]?.map fun o => o.id?.getD (((ops.take i).filter (·.id?.isNone)).length % n)

/-- What is known of the IDs. -/
structure IdInv (n : Nat) (s : Master ρ) : Prop where
  ids : ∀ i x, (taken s)[i]? = some x → mustHave n ((taken s).map (·.2)) i = some x.1
  next : s.curId = (((taken s).map (·.2)).filter (·.id?.isNone)).length % n
  sent : s.sent = s.started.flatMap (fun x => x.2.bursts.map fun k => (x.1, k)) ++
    (s.cur.map fun x => (x.1.bursts.take x.2.2).map fun k => (x.2.1, k)).getD []
  bound : ∀ x, s.cur = some x → x.2.2 ≤ x.1.bursts.length

theorem IdInv.of_same {n : Nat} {s t : Master ρ} (h : IdInv n s) (h1 : t.started = s.started) (h2 : t.cur = s.cur)
    (h3 : t.curId = s.curId) (h4 : t.sent = s.sent) : IdInv n t := by
  have ht : taken t = taken s := by unfold taken; rw [h1, h2]
  exact ⟨by rw [ht]; exact h.ids, by rw [ht, h3]; exact h.next, by rw [h4, h1, h2]; exact h.sent, by rw [h2]; exact h.bound⟩

theorem IdInv.step {n : Nat} {s : Master ρ} (h : IdInv n s) (e : Ev ρ) : IdInv n (s.step n e) := by
  cases e with
  | write op => exact h.of_same rfl rfl rfl rfl
  | init op => exact h.of_same rfl rfl rfl rfl
  | runInit i =>
    simp only [Master.step]
    split
    · exact h.of_same rfl rfl rfl rfl
    · exact h
  | take =>
    simp only [Master.step, Master.take]
    split
    · rename_i op rest hr hc hq
      have hold : taken s = s.started := by unfold taken; rw [hc]; simp
      have key : ∀ (t cid : Nat) (q : List Op), t = op.id?.getD (((s.started.map (·.2)).filter (·.id?.isNone)).length % n) →
          cid = (((s.started.map (·.2)) ++ [op]).filter (·.id?.isNone)).length % n →
          IdInv n { s with queue := q, cur := some (op, t, 0), curId := cid } := by
        intro t cid q ht hcid
        have hnew : taken { s with queue := q, cur := some (op, t, 0), curId := cid } = s.started ++ [(t, op)] := by
          simp [taken]
        refine ⟨?_, ?_, ?_, ?_⟩
        · rw [hnew]
          intro i x hx
          rw [List.getElem?_append] at hx
          split at hx
          · rename_i hi
            have := h.ids i x (by rw [hold]; exact hx)
            rw [hold] at this
            unfold mustHave at this ⊢
            rw [List.map_append, List.getElem?_append_left (by simpa using hi), List.take_append_of_le_length (by simp; omega)]
            exact this
          · rename_i hi
            have hi2 : i - s.started.length = 0 := by
              rcases Nat.eq_zero_or_pos (i - s.started.length) with h0 | h0
              · exact h0
              · rw [List.getElem?_eq_none (by simp; omega)] at hx; cases hx
            have hi3 : i = s.started.length := by omega
            rw [hi2] at hx
            simp only [List.getElem?_cons_zero, Option.some.injEq] at hx
            subst hx
            unfold mustHave
            rw [List.map_append, List.getElem?_append_right (by simp; omega)]
            rw [show i - (s.started.map (·.2)).length = 0 by simp; omega]
            simp only [List.map_cons, List.map_nil, List.getElem?_cons_zero, Option.map_some, Option.some.injEq]
            rw [List.take_append_of_le_length (by simp; omega), List.take_of_length_le (by simp; omega)]
            exact ht.symm
        · rw [hnew]; simpa using hcid
        · show s.sent = _
          rw [h.sent, hc]; simp
        · intro x hx; cases hx; exact Nat.zero_le _
      have hn := h.next
      rw [hold] at hn
      split
      · rename_i t hid
        exact key t s.curId rest (by rw [hid]; rfl) (by
          rw [hn, List.filter_append]
          simp [hid])
      · rename_i hid
        refine key s.curId _ rest (by rw [hid, hn]; rfl) ?_
        rw [hn, List.filter_append, Nat.mod_add_mod]
        simp [hid]
    · exact h
  | burst =>
    simp only [Master.step, Master.burst]
    split
    · rename_i op t k hr hc
      split
      · rename_i b hb
        have hlt : k < op.bursts.length := by
          rcases Nat.lt_or_ge k op.bursts.length with h | h
          · exact h
          · rw [List.getElem?_eq_none h] at hb; cases hb
        refine ⟨?_, ?_, ?_, ?_⟩
        · have := h.ids
          unfold taken at this ⊢
          rw [hc] at this
          exact this
        · have := h.next
          unfold taken at this ⊢
          rw [hc] at this
          exact this
        · show s.sent ++ _ = _
          rw [h.sent, hc, List.append_assoc]
          congr 1
          simp only [Option.map_some, Option.getD_some]
          rw [List.take_add_one, hb, List.map_append]
          rfl
        · intro x hx; cases hx; exact hlt
      · exact h
    · exact h
  | start =>
    simp only [Master.step, Master.start]
    split
    · rename_i op t k hr hc
      split
      · rename_i hk
        have ht : s.started ++ [(t, op)] = taken s := by unfold taken; rw [hc]; rfl
        refine ⟨?_, ?_, ?_, ?_⟩
        · show ∀ i x, (s.started ++ [(t, op)] ++ ([] : List (Nat × Op)))[i]? = some x →
            mustHave n ((s.started ++ [(t, op)] ++ ([] : List (Nat × Op))).map (·.2)) i = some x.1
          rw [List.append_nil, ht]; exact h.ids
        · show s.curId = (((s.started ++ [(t, op)] ++ ([] : List (Nat × Op))).map (·.2)).filter (·.id?.isNone)).length % n
          rw [List.append_nil, ht]; exact h.next
        · show s.sent = (s.started ++ [(t, op)]).flatMap _ ++ []
          rw [h.sent, hc, List.append_nil, List.flatMap_append]
          congr 1
          simp [hk, List.take_of_length_le]
        · intro x hx; cases hx
      · exact h
    · exact h
  | resp t r =>
    simp only [Master.step, Master.resp]
    split
    · split <;> exact h.of_same rfl rfl rfl rfl
    · exact h
  | workTake i => exact h.of_same rfl rfl rfl rfl
  | workGet i =>
    simp only [Master.step, Master.workGet]
    split
    · exact h.of_same rfl rfl rfl rfl
    · split <;> exact h.of_same rfl rfl rfl rfl
  | workDone i =>
    simp only [Master.step, Master.workDone]
    split <;> exact h.of_same rfl rfl rfl rfl
  | reset v =>
    simp only [Master.step, Master.reset]
    split
    · exact ⟨fun i x hx => by simp [taken] at hx, by simp [taken], rfl, fun x hx => by cases hx⟩
    · exact h.of_same rfl rfl rfl rfl

theorem exec_idInv (n : Nat) (evs : List (Ev ρ)) : IdInv n (exec n evs) := by
  have : ∀ (evs : List (Ev ρ)) (s : Master ρ), IdInv n s → IdInv n (evs.foldl (Master.step n) s) := by
    intro evs
    induction evs with
    | nil => exact fun s h => h
    | cons e evs ih => exact fun s h => ih _ (h.step e)
  exact this evs {} ⟨fun i x hx => by simp [taken] at hx, by simp [taken], rfl, fun x hx => by cases hx⟩

/-- **C31**: whatever the schedule, the operations processed since the last reset have the IDs they must have. -/
theorem C31_ids (n : Nat) (evs : List (Ev ρ)) (i t : Nat) (op : Op) (h : (taken (exec n evs : Master ρ))[i]? = some (t, op)) :
    mustHave n ((taken (exec n evs : Master ρ)).map (·.2)) i = some t := (exec_idInv n evs).ids i (t, op) h

/-- **C31**: and the bursts on the bus are those of these operations, in order, each with the ID of its operation; of the
last one perhaps only the first few. -/
theorem C31_bursts (n : Nat) (evs : List (Ev ρ)) :
    (exec n evs : Master ρ).sent <+: (taken (exec n evs : Master ρ)).flatMap (fun x => x.2.bursts.map fun k => (x.1, k)) ∧
    (exec n evs : Master ρ).started.flatMap (fun x => x.2.bursts.map fun k => (x.1, k)) <+: (exec n evs : Master ρ).sent := by
  have h := (exec_idInv n evs (ρ := ρ)).sent
  refine ⟨?_, by rw [h]; exact List.prefix_append _ _⟩
  rw [h, taken, List.flatMap_append]
  refine List.prefix_append_right_inj _ |>.2 ?_
  cases (exec n evs : Master ρ).cur with
  | none => exact List.nil_prefix
  | some x =>
    simp only [Option.map_some, Option.getD_some, Option.toList_some, List.flatMap_cons, List.flatMap_nil, List.append_nil]
    exact (List.take_prefix _ _).map _

/-- One event that does not assert the reset: the operations in order of issue are the ones that have an ID, then the
queue. -/
theorem order_step (n : Nat) (s : Master ρ) (e : Ev ρ) (he : e ≠ .reset true) (old : List Op)
    (h : s.issued = old ++ ((taken s).map (·.2) ++ s.queue)) :
    (s.step n e).issued = old ++ ((taken (s.step n e)).map (·.2) ++ (s.step n e).queue) := by
  have key : ∀ t : Master ρ, t.issued = s.issued → t.queue = s.queue → t.started = s.started → t.cur = s.cur →
      t.issued = old ++ ((taken t).map (·.2) ++ t.queue) := by
    intro t h1 h2 h3 h4
    rw [h1, h2, h, taken, taken, h3, h4]
  have hw : ∀ (t : Master ρ) (op : Op), t.issued = old ++ ((taken t).map (·.2) ++ t.queue) →
      (t.write op).issued = old ++ ((taken (t.write op)).map (·.2) ++ (t.write op).queue) := by
    intro t op ht
    show t.issued ++ [op] = old ++ ((taken t).map (·.2) ++ (t.queue ++ [op]))
    rw [ht]; simp
  cases e with
  | write op => exact hw s op h
  | init op => exact key _ rfl rfl rfl rfl
  | runInit i =>
    simp only [Master.step]
    split
    · exact hw _ _ (key _ rfl rfl rfl rfl)
    · exact h
  | take =>
    simp only [Master.step, Master.take]
    split
    · rename_i op rest hr hc hq
      rw [hq, taken, hc] at h
      split <;> (simp only [taken]; rw [h]; simp)
    · exact h
  | burst =>
    simp only [Master.step, Master.burst]
    split
    · rename_i op t k hr hc
      split
      · simp only [taken, hc] at h ⊢
        exact h
      · exact h
    · exact h
  | start =>
    simp only [Master.step, Master.start]
    split
    · rename_i op t k hr hc
      split
      · rw [taken, hc] at h
        simp only [taken]; rw [h]; simp
      · exact h
    · exact h
  | resp t r =>
    simp only [Master.step, Master.resp]
    split
    · split <;> exact key _ rfl rfl rfl rfl
    · exact h
  | workTake i => exact key _ rfl rfl rfl rfl
  | workGet i =>
    simp only [Master.step, Master.workGet]
    split
    · exact key _ rfl rfl rfl rfl
    · split <;> exact key _ rfl rfl rfl rfl
  | workDone i =>
    simp only [Master.step, Master.workDone]
    split <;> exact key _ rfl rfl rfl rfl
  | reset v =>
    cases v with
    | true => exact absurd rfl he
    | false => exact key _ rfl rfl rfl rfl

/-- **C31**: the order is the order of issue: since a reset (or since construction) the operations issued are the ones that
have an ID followed by the ones in the queue. -/
theorem C31_order (n : Nat) (a b : List (Ev ρ)) (hb : Ev.reset true ∉ b) :
    (exec n (a ++ [.reset true] ++ b) : Master ρ).issued =
      (exec n a : Master ρ).issued ++ ((taken (exec n (a ++ [.reset true] ++ b) : Master ρ)).map (·.2) ++
        (exec n (a ++ [.reset true] ++ b) : Master ρ).queue) ∧
    (exec n b : Master ρ).issued = (taken (exec n b : Master ρ)).map (·.2) ++ (exec n b : Master ρ).queue := by
  have run : ∀ (b : List (Ev ρ)) (s : Master ρ) (old : List Op), Ev.reset true ∉ b →
      s.issued = old ++ ((taken s).map (·.2) ++ s.queue) →
      (b.foldl (Master.step n) s).issued =
        old ++ ((taken (b.foldl (Master.step n) s)).map (·.2) ++ (b.foldl (Master.step n) s).queue) := by
    intro b
    induction b with
    | nil => exact fun s old _ h => h
    | cons e b ih =>
      intro s old hn h
      exact ih _ old (fun hm => hn (List.mem_cons_of_mem _ hm))
        (order_step n s e (fun he => hn (he ▸ List.mem_cons_self)) old h)
  constructor
  · have := run b (exec n (a ++ [.reset true])) (exec n a : Master ρ).issued hb (by
      simp only [exec, List.foldl_append, List.foldl_cons, List.foldl_nil, Master.step, Master.reset, if_true, taken]
      simp)
    simpa only [exec, List.foldl_append] using this
  · exact run b {} [] hb rfl

-- Three IDs; the fourth automatic choice is 0 again, in spite of an operation with an ID of its own in between.
example : (taken (exec 3 ([.reset false] ++ ([none, none, some 7, none, none].map fun o => [.write ⟨0, o, [0]⟩, .take, .burst,
    .start]).flatten) : Master Nat)).map (·.1) = [0, 1, 7, 2, 0] := by decide +kernel

/-! ## C32 - responses are matched to operations -/

/-- At any time, for every ID: the operations of that ID that have completed, with the responses they completed with,
are an initial part of: first operation - first block of responses of that ID, second operation - next block, ... -/
theorem C32_matching (n : Nat) (evs : List (Ev ρ)) (t : Nat) :
    let s := exec n evs
    forId t s.done <+: blocks (forId t s.started) (forId t s.arrived) := by
  simp only
  rw [(exec_inv n evs).blocks t]
  exact List.prefix_append _ _

/-- And when the workers have nothing left to do, nothing is missing: every operation whose block has arrived has
completed. -/
theorem C32_complete (n : Nat) (evs : List (Ev ρ)) (t : Nat) (hq : Quiet n (exec n evs : Master ρ)) :
    let s := exec n evs
    forId t s.done = blocks (forId t s.started) (forId t s.arrived) := by
  simp only
  rw [(exec_inv n evs).blocks t]
  rcases (exec_inv n evs).quiet (fun i => ⟨hq (.workTake i) rfl, hq (.workGet i) rfl, hq (.workDone i) rfl⟩) t with
    h | ⟨op, ops, h, hl⟩
  · simp [h, blocks]
  · rw [h, blocks, if_neg (by omega), List.append_nil]

/-- What the callers are given: after a reset (or from construction), the results signalled are exactly those of the
completed operations, in the order of completion. -/
theorem C32_results (n : Nat) (a b : List (Ev ρ)) (hb : Ev.reset true ∉ b) :
    (exec n b).results = (exec n b).done.map (fun x => (x.2.1, some x.2.2)) ∧
    (exec n (a ++ .reset true :: b)).results =
      (exec n (a ++ [.reset true])).results ++
        (exec n (a ++ .reset true :: b)).done.map (fun x => (x.2.1, some x.2.2)) := by
  constructor
  · obtain ⟨d, h1, h2⟩ := foldl_results n b ({} : Master ρ) hb
    simp only [exec]
    rw [h1, h2]; rfl
  · have e : ∀ l : List (Ev ρ), exec n (a ++ .reset true :: l) = l.foldl (step n) ((exec n a).step n (.reset true)) := by
      intro l; simp [exec, List.foldl_append]
    obtain ⟨d, h1, h2⟩ := foldl_results n b ((exec n a).step n (.reset true)) hb
    rw [e, e, h1, h2]
    simp [Master.step, Master.reset]

/-- A history with two IDs: reads `0` (two bursts, of 2 and 1 beats) and `2` (one burst of 1 beat) on ID 0, read `1` (one
beat) on ID 1; the responses of ID 1 overtake and interleave. -/
def exHist : List (Ev Nat) :=
  [.reset false, .write ⟨0, some 0, [1, 0]⟩, .write ⟨1, some 1, [0]⟩, .write ⟨2, some 0, [0]⟩,
   .take, .burst, .burst, .resp 0 100, .start, .take, .burst, .start, .resp 1 200, .resp 0 101, .take, .burst, .start,
   .workTake 1, .workTake 0, .workGet 0, .workGet 0, .workGet 1, .workDone 1, .resp 0 102, .resp 0 103, .workGet 0,
   .workDone 0, .workTake 0, .workGet 0, .workDone 0]

example : (exec 4 exHist).results = [(⟨1, some 1, [0]⟩, some [200]), (⟨0, some 0, [1, 0]⟩, some [100, 101, 102]),
    (⟨2, some 0, [0]⟩, some [103])] ∧ (exec 4 exHist).idle = true := by decide +kernel

example : forId 0 (exec 4 exHist).done = [(⟨0, some 0, [1, 0]⟩, [100, 101, 102]), (⟨2, some 0, [0]⟩, [103])] ∧
    forId 0 (exec 4 exHist).arrived = [100, 101, 102, 103] := by decide +kernel

/-- The hypothesis of `C32_complete` is met: a completed history is quiet. -/
theorem quiet_of_idle (n : Nat) (evs : List (Ev ρ)) (h : (exec n evs : Master ρ).pend = []) :
    Quiet n (exec n evs : Master ρ) := by
  have hi := exec_inv n evs (ρ := ρ)
  revert h hi
  generalize (exec n evs : Master ρ) = s
  intro h hi e he
  simp only [pend, List.append_eq_nil_iff, Option.toList_eq_nil_iff, Option.map_eq_none_iff] at h
  obtain ⟨⟨h1, h2⟩, h3⟩ := h
  have h4 : ∀ i, (s.mgr.ctxs i).cur = none ∧ (s.mgr.ctxs i).cmds = [] := by
    intro i
    by_cases hc : i < s.mgr.count
    · have := List.flatMap_eq_nil_iff.1 h3 i (by simpa using hc)
      simpa [Ctx.ops] using this
    · have := hi.mgr.free i (hi.mgr.beyond i (by omega)); exact ⟨this.2.1, this.1⟩
  cases e with
  | take => simp [Master.step, Master.take, h1]
  | burst => simp [Master.step, Master.burst, h2]
  | start => simp [Master.step, Master.start, h2]
  | workTake i => simp [Master.step, Mgr.take, h4 i]
  | workGet i => simp [Master.step, Master.workGet, Mgr.get, h4 i]
  | workDone i => simp [Master.step, Master.workDone, Mgr.finish, h4 i]
  | _ => simp [internal] at he

example : Quiet 4 (exec 4 exHist) := quiet_of_idle 4 exHist (by decide +kernel)

/-! ## C33 - idle and wait -/

/-- `idle()` is true exactly when every operation that was issued has a result (completed, or flushed by reset), and
the event `wait()` waits for is set exactly then. -/
theorem C33_idle (n : Nat) (evs : List (Ev ρ)) (hk : (exec n evs : Master ρ).issued.Nodup) :
    let s := exec n evs
    (s.idle = true ↔ ∀ op ∈ s.issued, ∃ r, (op, r) ∈ s.results) ∧ s.idleEv = s.idle := by
  have hi := exec_inv n evs (ρ := ρ)
  simp only
  revert hi hk
  generalize (exec n evs : Master ρ) = s
  intro hk hi
  refine ⟨?_, hi.ev⟩
  have hidle : s.idle = true ↔ s.pend = [] := by
    simp only [idle, decide_eq_true_eq, hi.flight]
    rw [← List.length_eq_zero_iff]; omega
  rw [hidle]
  constructor
  · intro hp op hop
    have := hi.acct.mem_iff.1 hop
    rw [hp, List.append_nil, List.mem_map] at this
    obtain ⟨⟨o, r⟩, h1, h2⟩ := this
    exact ⟨r, by simp only at h2; rw [← h2]; exact h1⟩
  · intro hall
    rw [hi.acct.nodup_iff] at hk
    cases hp : s.pend with
    | nil => rfl
    | cons op l =>
      exfalso
      obtain ⟨r, hr⟩ := hall op (hi.acct.mem_iff.2 (by simp [hp]))
      exact (List.nodup_append.1 hk).2.2 op (List.mem_map.2 ⟨_, hr, rfl⟩) op (by simp [hp]) rfl

/-- The number of operations in flight, without any assumption on the calls. -/
theorem C33_count (n : Nat) (evs : List (Ev ρ)) :
    let s := exec n evs
    s.inFlight = s.issued.length - s.results.length ∧ (s.idle = true ↔ s.results.length = s.issued.length) := by
  have hi := exec_inv n evs (ρ := ρ)
  simp only
  have h1 := hi.acct.length_eq
  have h2 := hi.flight
  simp only [List.length_append, List.length_map] at h1
  simp only [idle, decide_eq_true_eq]
  omega

example : (exec 4 exHist).issued.Nodup ∧ (exec 4 (exHist.take 10)).issued.Nodup ∧
    (exec 4 (exHist.take 10)).idle = false := by decide +kernel

/-- What a user expects of `init_write`/`init_read` fails: right after the call the master is idle, `wait()` would return
at once, although the operation has no result. -/
theorem C33_init_violated :
    ∃ (evs : List (Ev Nat)) (op : Op), Ev.init op ∈ evs ∧ (exec 4 evs).idle = true ∧ (exec 4 evs).idleEv = true ∧
      resultOf (exec 4 evs).results op = none :=
  ⟨[.reset false, .init ⟨0, none, [0]⟩], ⟨0, none, [0]⟩, by simp, by decide +kernel⟩

/-! ## C34 - reset -/

/-- Whenever reset is asserted: results already given stay, every operation that had none gets `None`, no operation is
left without a result, and afterwards nothing is queued, in progress or held by the workers, all ID state is as new
and the master is idle. -/
theorem C34_reset (n : Nat) (evs : List (Ev ρ)) :
    let s := exec n evs
    let s' := exec n (evs ++ [.reset true])
    (∃ flushed : List Op, s'.results = s.results ++ flushed.map (fun o => (o, none)) ∧
      s.issued.Perm (s.results.map (·.1) ++ flushed)) ∧
    (∀ op ∈ s.issued, ∃ r, (op, r) ∈ s'.results) ∧
    s'.issued = s.issued ∧ s'.idle = true ∧ s'.idleEv = true ∧ s'.queue = [] ∧ s'.cur = none ∧ s'.curId = 0 ∧
    (∀ t, s'.active t = 0 ∧ s'.mgr.map t = none) ∧
    (∀ i, (s'.mgr.ctxs i).cmds = [] ∧ (s'.mgr.ctxs i).cur = none ∧ (s'.mgr.ctxs i).resps = []) := by
  have hi := exec_inv n evs (ρ := ρ)
  simp only
  have e : exec n (evs ++ [.reset true]) = (exec n evs : Master ρ).step n (.reset true) := by
    simp [exec, List.foldl_append]
  rw [e]
  obtain ⟨g1, g2, g3, g4⟩ := Mgr.flush_spec hi.mgr
  have hp : (exec n evs : Master ρ).issued.Perm ((exec n evs : Master ρ).results.map (·.1) ++
      ((exec n evs : Master ρ).queue ++ ((exec n evs : Master ρ).cur.map (·.1)).toList ++
        (exec n evs : Master ρ).mgr.flush.1)) := by
    rw [g2]; exact hi.acct
  refine ⟨⟨_, rfl, hp⟩, ?_, rfl, rfl, rfl, rfl, rfl, rfl, ?_, ?_⟩
  · intro op hop
    have := hp.mem_iff.1 hop
    simp only [Master.step, Master.reset, if_true, List.mem_append, List.mem_map]
    simp only [List.mem_append, List.mem_map] at this
    rcases this with ⟨⟨o, r⟩, h1, rfl⟩ | h1
    · exact ⟨r, Or.inl h1⟩
    · exact ⟨none, Or.inr ⟨op, h1, rfl⟩⟩
  · intro t; exact ⟨rfl, g4 t⟩
  · intro i; exact g1.free i (g3 i)

/-- In the middle of the history above: the operation that completed keeps its result, the others are released. -/
example : (exec 4 (exHist.take 23 ++ [.reset true])).results =
    [(⟨1, some 1, [0]⟩, some [200]), (⟨0, some 0, [1, 0]⟩, none), (⟨2, some 0, [0]⟩, none)] := by decide +kernel

/-- All three places an operation can be in: queue, current command, worker. -/
example : (exec 4 (exHist.take 11 ++ [.reset true])).results =
    [(⟨2, some 0, [0]⟩, none), (⟨1, some 1, [0]⟩, none), (⟨0, some 0, [1, 0]⟩, none)] := by decide +kernel

/-! ## C35 - results are final -/

/-- Once an operation has a result, no later event - in particular no reset - changes it. -/
theorem C35_final (n : Nat) (evs more : List (Ev ρ)) (hk : (exec n (evs ++ more) : Master ρ).issued.Nodup)
    (op : Op) (r : Option (List ρ)) (h : resultOf (exec n evs).results op = some r) :
    resultOf (exec n (evs ++ more)).results op = some r := by
  have hi := exec_inv n (evs ++ more) (ρ := ρ)
  rw [hi.acct.nodup_iff] at hk
  have hnd := (List.nodup_append.1 hk).1
  have e : exec n (evs ++ more) = more.foldl (step n) (exec n evs : Master ρ) := by simp [exec, List.foldl_append]
  obtain ⟨l, hl⟩ := foldl_results_prefix n more (exec n evs : Master ρ)
  rw [e, ← hl] at hnd ⊢
  simp only [resultOf, List.filter_append] at h ⊢
  have : l.filter (fun x => x.1 = op) = [] := by
    rw [List.filter_eq_nil_iff]
    intro x hx hxo
    simp only [decide_eq_true_eq] at hxo
    rw [List.map_append, List.nodup_append] at hnd
    have hne : (exec n evs : Master ρ).results.filter (fun x => x.1 = op) ≠ [] := by
      intro hnil; rw [hnil] at h; simp at h
    obtain ⟨y, hy⟩ := List.exists_mem_of_ne_nil _ hne
    simp only [List.mem_filter, decide_eq_true_eq] at hy
    exact hnd.2.2 op (List.mem_map.2 ⟨y, hy.1, hy.2⟩) op (List.mem_map.2 ⟨x, hx, hxo⟩) rfl
  rw [this, List.append_nil]; exact h

/-- An operation is signalled at most once. -/
theorem C35_once (n : Nat) (evs : List (Ev ρ)) (hk : (exec n evs : Master ρ).issued.Nodup) :
    ((exec n evs : Master ρ).results.map (·.1)).Nodup ∧
    ∀ x ∈ (exec n evs : Master ρ).results, x.1 ∈ (exec n evs : Master ρ).issued := by
  have hi := exec_inv n evs (ρ := ρ)
  refine ⟨?_, ?_⟩
  · rw [hi.acct.nodup_iff] at hk; exact (List.nodup_append.1 hk).1
  · intro x hx
    exact hi.acct.mem_iff.2 (List.mem_append_left _ (List.mem_map.2 ⟨x, hx, rfl⟩))

example : (exec 4 (exHist.take 23 ++ [.reset true])).issued.Nodup ∧
    resultOf (exec 4 (exHist.take 23)).results ⟨1, some 1, [0]⟩ = some (some [200]) ∧
    resultOf (exec 4 (exHist.take 23 ++ [.reset true])).results ⟨1, some 1, [0]⟩ = some (some [200]) := by
  decide +kernel

/-! ## C70 - the response checks -/

/-- The check inside the workers never fails, in any history, whatever the slave sends. -/
theorem C70_worker_check (n : Nat) (evs : List (Ev ρ)) : (exec n evs : Master ρ).workFailed = false :=
  (exec_inv n evs).ok

/-- The check on arrival rejects a response only if the slave has already sent all the responses it owed for that ID:
a slave that sends no more than it owes is never accused. -/
theorem C70_arrival_check (n : Nat) (evs : List (Ev ρ)) (t : Nat) (r : ρ)
    (h0 : (exec n evs : Master ρ).respFailed = false) (h1 : (exec n (evs ++ [.resp t r])).respFailed = true) :
    owedFor (forId t (exec n evs : Master ρ).sent) ≤ (forId t (exec n evs : Master ρ).arrived).length := by
  have e : exec n (evs ++ [.resp t r]) = (exec n evs : Master ρ).step n (.resp t r) := by
    simp [exec, List.foldl_append]
  rw [e] at h1
  simp only [Master.step, Master.resp] at h1
  split at h1
  · split at h1
    · rename_i ha
      exact (exec_inv n evs).no_owed ha
    · rw [h0] at h1; simp at h1
  · rw [h0] at h1; simp at h1

/-- A response that arrives while no operation is outstanding is rejected. -/
theorem C70_rejects (n : Nat) (evs : List (Ev ρ)) (t : Nat) (r : ρ) (hr : (exec n evs : Master ρ).running = true)
    (hc : (exec n evs : Master ρ).idle = true) : (exec n (evs ++ [.resp t r])).respFailed = true := by
  have hi := exec_inv n evs (ρ := ρ)
  have e : exec n (evs ++ [.resp t r]) = (exec n evs : Master ρ).step n (.resp t r) := by
    simp [exec, List.foldl_append]
  rw [e]
  simp only [Master.step, Master.resp]
  have hp : (exec n evs : Master ρ).pend = [] := by
    simp only [idle, decide_eq_true_eq, hi.flight] at hc
    rw [← List.length_eq_zero_iff]; omega
  have hcur : (exec n evs : Master ρ).cur = none := by
    simp only [pend, List.append_eq_nil_iff, Option.toList_eq_nil_iff, Option.map_eq_none_iff] at hp
    exact hp.1.2
  have hall : (exec n evs : Master ρ).mgr.allOps = [] := by
    simp only [pend, List.append_eq_nil_iff] at hp; exact hp.2
  have ho : (exec n evs : Master ρ).mgr.owedOf t = 0 := by
    cases hm : (exec n evs : Master ρ).mgr.map t with
    | none => simp [Mgr.owedOf, hm]
    | some i =>
      have hlt := (hi.mgr.mapped t i hm).1
      have := List.flatMap_eq_nil_iff.1 hall i (by simpa using hlt)
      simp only [Ctx.ops, List.append_eq_nil_iff, Option.toList_eq_nil_iff, Option.map_eq_none_iff] at this
      simp [Mgr.owedOf, hm, Ctx.owed, this]
  have ha : (exec n evs : Master ρ).active t = 0 := by
    have := hi.act t
    simp only [curBursts, hcur, ho] at this
    simpa using this
  cases hf : (exec n evs : Master ρ).respFailed
  · simp [hr, ha]
  · simp [hf]

example : (exec 4 (exHist ++ [.resp 0 999])).respFailed = true ∧ (exec 4 exHist).respFailed = false ∧
    (exec 4 exHist).running = true := by decide +kernel

/-! ## C71 - surplus responses -/

/-- "A response beyond those owed is always detected" is false: if it arrives before the worker has consumed the last one it
is accepted, and becomes the response of the next operation on that ID. -/
theorem C71_surplus_violated :
    ∃ (evs : List (Ev Nat)) (op : Op),
      (exec 4 evs).respFailed = false ∧ (exec 4 evs).workFailed = false ∧
      -- at its arrival the slave had already sent everything it owed
      (∃ pre rest r, evs = pre ++ .resp 0 r :: rest ∧
        owedFor (forId 0 (exec 4 pre).sent) = (forId 0 (exec 4 pre).arrived).length ∧
        -- and yet it is what a later operation completes with
        op ∉ (exec 4 pre).issued ∧ resultOf (exec 4 evs).results op = some (some [r])) := by
  refine ⟨[.reset false, .write ⟨0, some 0, [0]⟩, .take, .burst, .start, .resp 0 7, .resp 0 8, .workTake 0, .workGet 0,
    .workDone 0, .write ⟨1, some 0, [0]⟩, .take, .burst, .start, .workTake 0, .workGet 0, .workDone 0],
    ⟨1, some 0, [0]⟩, by decide +kernel, by decide +kernel,
    [.reset false, .write ⟨0, some 0, [0]⟩, .take, .burst, .start, .resp 0 7],
    [.workTake 0, .workGet 0, .workDone 0, .write ⟨1, some 0, [0]⟩, .take, .burst, .start, .workTake 0, .workGet 0,
      .workDone 0], 8, rfl, by decide +kernel, by decide +kernel, by decide +kernel⟩

/-! ## C72 - progress -/

/-- The master's own steps come to an end: there is a measure that every step that does something decreases. -/
theorem C72_terminates (n : Nat) : ∃ μ : Master ρ → Nat, ∀ (evs : List (Ev ρ)) (e : Ev ρ), internal e = true →
    (exec n evs).step n e = exec n evs ∨ μ ((exec n evs).step n e) < μ (exec n evs) :=
  ⟨Master.wt, fun evs e he => (exec_inv n evs).decreases n e he⟩

/-- And when they have, if every response owed has arrived, every operation issued has completed: nothing hangs. -/
theorem C72_no_deadlock (n : Nat) (evs : List (Ev ρ)) (hr : (exec n evs : Master ρ).running = true)
    (hq : Quiet n (exec n evs : Master ρ))
    (ha : ∀ t, owedFor (forId t (exec n evs : Master ρ).sent) ≤ (forId t (exec n evs : Master ρ).arrived).length) :
    let s := exec n evs
    s.idle = true ∧ ∀ op ∈ s.issued, ∃ r, (op, r) ∈ s.results := by
  have hi := exec_inv n evs (ρ := ρ)
  have hp := hi.drained n hr (hq .take rfl) (hq .burst rfl) (hq .start rfl)
    (fun i => ⟨hq (.workTake i) rfl, hq (.workGet i) rfl, hq (.workDone i) rfl⟩) ha
  refine ⟨?_, ?_⟩
  · simp only [idle, decide_eq_true_eq, hi.flight, hp]; rfl
  · intro op hop
    have := hi.acct.mem_iff.1 hop
    rw [hp, List.append_nil, List.mem_map] at this
    obtain ⟨⟨o, r⟩, h1, h2⟩ := this
    exact ⟨r, by simp only at h2; rw [← h2]; exact h1⟩

example : (exec 4 exHist).running = true ∧ owedFor (forId 0 (exec 4 exHist).sent) = 4 ∧
    (forId 0 (exec 4 exHist).arrived).length = 4 := by decide +kernel

end Verif.AxiOps
