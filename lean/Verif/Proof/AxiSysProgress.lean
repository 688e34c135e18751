import Verif.Proof.AxiSystem
import Verif.Proof.AxiOpsProgress

/-!
# Progress of a connected AXI system
-/

namespace Verif.AxiOps

variable {ρ : Type}

theorem Mgr.putResp_wt {m : Mgr ρ} (h : m.Inv) (t : Nat) (r : ρ) : (m.putResp t r).wt = m.wt := by
  have h0 := getContext_wt m t
  obtain ⟨h1, h2, _⟩ := getContext_spec h t
  unfold putResp
  revert h0 h1 h2
  generalize m.getContext t = p
  obtain ⟨i, m'⟩ := p
  intro h0 h1 h2
  simp only at *
  have := wt_upd (m := m') { m'.ctxs i with resps := (m'.ctxs i).resps ++ [r] } (h1.mapped t i h2).1
  simp only [Ctx.wt] at this
  omega

theorem Master.resp_wt {s : Master ρ} (h : s.Inv) (n t : Nat) (r : ρ) : (s.step n (.resp t r)).wt = s.wt := by
  simp only [Master.step, Master.resp]
  split
  · split
    · rfl
    · simp only [Master.wt, Master.curWt, Mgr.putResp_wt h.mgr]
  · rfl

/-- Events that touch neither the command queue nor the wrappers. -/
def keeps : Ev ρ → Bool
  | .burst | .start | .resp _ _ | .workTake _ | .workGet _ | .workDone _ => true
  | _ => false

theorem Master.keeps_step (n : Nat) (s : Master ρ) (e : Ev ρ) (he : keeps e = true) :
    (s.step n e).queue = s.queue ∧ (s.step n e).wrappers = s.wrappers := by
  cases e with
  | burst => simp only [Master.step, Master.burst]; split <;> (try split) <;> exact ⟨rfl, rfl⟩
  | start => simp only [Master.step, Master.start]; split <;> (try split) <;> exact ⟨rfl, rfl⟩
  | resp t r => simp only [Master.step, Master.resp]; split <;> (try split) <;> exact ⟨rfl, rfl⟩
  | workTake i => exact ⟨rfl, rfl⟩
  | workGet i => simp only [Master.step, Master.workGet]; split <;> (try split) <;> exact ⟨rfl, rfl⟩
  | workDone i => simp only [Master.step, Master.workDone]; split <;> exact ⟨rfl, rfl⟩
  | write op => simp [keeps] at he
  | init op => simp [keeps] at he
  | runInit i => simp [keeps] at he
  | take => simp [keeps] at he
  | reset v => simp [keeps] at he

end Verif.AxiOps

namespace Verif.AxiSys

open Verif.Axi Verif.AxiOps Verif.AxiOps.Master

variable {σ ρ : Type} {c : Cfg}

theorem sum_eraseIdx {α : Type} (f : α → Nat) {l : List α} {i : Nat} {x : α} (h : l[i]? = some x) :
    ((l.eraseIdx i).map f).sum + f x = (l.map f).sum := by
  induction l generalizing i with
  | nil => simp at h
  | cons a l ih =>
    cases i with
    | zero => simp at h; subst h; simp; omega
    | succ i =>
      have := ih (i := i) (by simpa using h)
      simp only [List.eraseIdx_cons_succ, List.map_cons, List.sum_cons]
      omega

/-- The measure of a master's waiting operations, if an operation weighs `f` on the channels. -/
def waitWt (f : Op → Nat) (m : Master ρ) : Nat :=
  (m.queue.map f).sum + (m.wrappers.map fun op => f op + (op.need + op.bursts.length + 5)).sum

theorem runInit_wt (f : Op → Nat) (n : Nat) (m : Master ρ) (i : Nat) :
    m.step n (.runInit i) = m ∨ (m.step n (.runInit i)).wt + waitWt f (m.step n (.runInit i)) < m.wt + waitWt f m := by
  simp only [Master.step]
  split
  · rename_i op hop
    right
    have := sum_eraseIdx (fun op => f op + (op.need + op.bursts.length + 5)) hop
    simp only [Master.wt, Master.curWt, waitWt, Master.write, List.map_append, List.sum_append, List.map_cons, List.map_nil,
      List.sum_cons, List.sum_nil]
    omega
  · left; rfl

theorem keeps_wait (f : Op → Nat) (n : Nat) (m : Master ρ) (e : AxiOps.Ev ρ) (he : keeps e = true) :
    waitWt f (m.step n e) = waitWt f m := by
  obtain ⟨h1, h2⟩ := keeps_step n m e he
  unfold waitWt; rw [h1, h2]

theorem keeps_wt (f : Op → Nat) (n : Nat) {m : Master ρ} (h : m.Inv) (e : AxiOps.Ev ρ) (he : keeps e = true)
    (hi : internal e = true) :
    m.step n e = m ∨ (m.step n e).wt + waitWt f (m.step n e) < m.wt + waitWt f m := by
  rw [keeps_wait f n m e he]
  rcases h.decreases n e hi with h | h
  · exact .inl h
  · exact .inr (by omega)

theorem take_wt (f : Op → Nat) (n : Nat) {m : Master ρ} (h : m.Inv) {op : Op} {rest : List Op} (hr : m.running = true)
    (hcur : m.cur = none) (hq : m.queue = op :: rest) :
    (m.step n .take).wt + waitWt f (m.step n .take) + f op < m.wt + waitWt f m := by
  rcases h.decreases n .take rfl with h1 | h1
  · have := (take_fields (n := n) hr hcur hq).1
    rw [h1, hcur] at this
    cases this
  · have hs : (m.step n .take).queue = rest ∧ (m.step n .take).wrappers = m.wrappers := by
      simp only [Master.step, Master.take, hr, hcur, hq]
      split <;> exact ⟨rfl, rfl⟩
    unfold waitWt
    rw [hs.1, hs.2, hq, List.map_cons, List.sum_cons]
    omega

/-! ## Write side -/

section

variable {args : Nat → WArgs}

/-- What the transactions of a list of bursts weigh before they are sent. -/
def grpWt (l : List Grp) : Nat := 4 * l.length + 2 * (l.flatMap (·.ws)).length

def wOpWt (c : Cfg) (args : Nat → WArgs) (op : Op) : Nat := grpWt (wGroups c args (0, op))

theorem wOpWt_eq (t : Nat) (op : Op) : grpWt (wGroups c args (t, op)) = wOpWt c args op := by
  unfold wOpWt grpWt wGroups
  simp only
  split
  · simp only [List.length_map, List.flatMap_map]
  · rfl

/-- The measure of the write side. -/
def WPort.wt (c : Cfg) (args : Nat → WArgs) (p : WPort) : Nat :=
  p.m.wt + waitWt (wOpWt c args) p.m + (4 * (awsOf p.todo).length + 2 * (wsOf p.todo).length) + 3 * p.aw.length + p.w.length +
    (if p.sl.isSome then 2 else 0) + p.b.length

theorem WInv.decreases {t : Target σ} {p : WPort} {w : WWit} (hc : c.Std)
    (hid : ∀ k op i, wMk c args k = some op → op.id? = some i → i < c.idCount) (h : WInv c args p w) (st : σ) (e : WEv)
    (he : e.progress = true) :
    p.step c args t st e = (p, st) ∨ (p.step c args t st e).1.wt c args < p.wt c args := by
  have hd : (p.step c args t st e).1.died = false := by
    obtain ⟨w', h', _⟩ := h.step (t := t) hc hid st e 0
    exact h'.died
  cases e with
  | write => simp [WEv.progress] at he
  | init => simp [WEv.progress] at he
  | reset v => simp [WEv.progress] at he
  | runInit i =>
    simp only [WPort.step]
    rcases runInit_wt (wOpWt c args) c.idCount p.m i with h1 | h1
    · left; rw [h1]
    · right; simp only [WPort.wt]; omega
  | take =>
    simp only [WPort.step, WPort.take] at hd ⊢
    split
    · rename_i op rest hdd hr hcur hq
      have hi : op ∈ p.m.issued := h.m.queue_issued (by rw [hq]; exact List.mem_cons_self)
      have hmk := h.m.madeOf hi
      obtain ⟨cmd, ha, _⟩ := wMade hc hmk
      obtain ⟨out, bl, nid, ho, hoa, how⟩ := wGroups_out hc hmk p.m.curId ha
      simp only [ha, ho]
      right
      have h1 := take_wt (wOpWt c args) c.idCount h.m.inv hr hcur hq
      have h2 := wOpWt_eq (c := c) (args := args) ((op.id?).getD p.m.curId) op
      have h3 := h.todo hcur
      simp only [WPort.wt, hoa, how, h3, List.length_map]
      simp only [grpWt] at h2
      simp only [awsOf, wsOf, List.filterMap_nil, List.length_nil]
      omega
    · exact .inl rfl
  | sendAW =>
    simp only [WPort.step, WPort.sendAW] at hd ⊢
    split
    · rename_i a rest hdd ht
      rw [hdd, ht] at hd
      simp only at hd
      split at hd
      · rename_i hlt
        rw [if_pos hlt]
        right
        have h1 : (p.m.step c.idCount .burst).wt ≤ p.m.wt := by
          rcases h.m.inv.decreases c.idCount .burst rfl with h1 | h1
          · rw [h1]; omega
          · omega
        have h2 := keeps_wait (wOpWt c args) c.idCount p.m .burst rfl
        simp only [WPort.wt, h2, ht, awsOf, wsOf, List.filterMap_cons, List.length_cons, List.length_append, List.length_nil]
        omega
      · cases hd
    · exact .inl rfl
  | sendW =>
    simp only [WPort.step, WPort.sendW]
    split
    · rename_i a rest hdd ht
      right
      simp only [WPort.wt, ht, awsOf, wsOf, List.filterMap_cons, List.length_cons, List.length_append, List.length_nil]
      omega
    · exact .inl rfl
  | start =>
    simp only [WPort.step, WPort.start]
    split
    · rcases keeps_wt (wOpWt c args) c.idCount h.m.inv .start rfl rfl with h1 | h1
      · left; rw [h1]
      · right; simp only [WPort.wt]; omega
    · exact .inl rfl
  | slaveAW =>
    simp only [WPort.step, WPort.slaveAW] at hd ⊢
    split
    · rename_i a rest hdd hsl haw
      rw [hdd, hsl, haw] at hd
      simp only at hd
      split at hd
      · cases hd
      · rename_i h1
        rw [if_neg h1]
        split at hd
        · cases hd
        · rename_i h2
          rw [if_neg h2]
          right
          simp only [WPort.wt, hsl, haw, Option.isSome_some, Option.isSome_none, List.length_cons, if_true]
          simp
          omega
    · exact .inl rfl
  | slaveW =>
    simp only [WPort.step, WPort.slaveW] at hd ⊢
    split
    · rename_i s x rest hdd hsl hw
      rw [hdd, hsl, hw] at hd
      simp only at hd
      split at hd
      · rename_i hn
        rw [if_pos hn]
        split at hd
        · cases hd
        · rename_i data hdata
          split at hd
          · cases hd
          · rename_i hl
            rw [if_neg hl]
            right
            simp only [WPort.wt, hsl, hw, Option.isSome_some, List.length_cons]
            omega
      · rename_i hn
        rw [if_neg hn]
        exact .inl rfl
    · exact .inl rfl
  | slaveB =>
    simp only [WPort.step, WPort.slaveB]
    split
    · rename_i s hdd hsl
      split
      · right
        simp only [WPort.wt, hsl, Option.isSome_some, List.length_append, List.length_cons, List.length_nil]
        simp
        omega
      · exact .inl rfl
    · exact .inl rfl
  | deliver =>
    simp only [WPort.step, WPort.deliver]
    split
    · rename_i x rest hb
      right
      have h1 := resp_wt h.m.inv c.idCount x.id x
      have h2 := keeps_wait (wOpWt c args) c.idCount p.m (.resp x.id x) rfl
      simp only [WPort.wt, h1, h2, hb, List.length_cons]
      omega
    · exact .inl rfl
  | workTake i =>
    simp only [WPort.step]
    rcases keeps_wt (wOpWt c args) c.idCount h.m.inv (.workTake i) rfl rfl with h1 | h1
    · left; rw [h1]
    · right; simp only [WPort.wt]; omega
  | workGet i =>
    simp only [WPort.step]
    rcases keeps_wt (wOpWt c args) c.idCount h.m.inv (.workGet i) rfl rfl with h1 | h1
    · left; rw [h1]
    · right; simp only [WPort.wt]; omega
  | workDone i =>
    simp only [WPort.step]
    rcases keeps_wt (wOpWt c args) c.idCount h.m.inv (.workDone i) rfl rfl with h1 | h1
    · left; rw [h1]
    · right; simp only [WPort.wt]; omega

/-! ### Nothing left to do -/

theorem wAll_bursts (hc : c.Std) {n calls : Nat} {m : Master BBeat} (h : MInv n (wMk c args) calls m) :
    (wAll c args m).map (fun g => (g.t, 0)) = (taken m).flatMap fun x => x.2.bursts.map fun k => (x.1, k) := by
  have hm : ∀ x ∈ taken m, wMk c args x.2.key = some x.2 := fun x hx => h.madeOf (h.taken_issued hx)
  unfold wAll
  revert hm
  generalize taken m = l
  intro hm
  induction l with
  | nil => rfl
  | cons x l ih =>
    simp only [List.flatMap_cons, List.map_append]
    rw [ih (fun y hy => hm y (List.mem_cons_of_mem _ hy))]
    congr 1
    obtain ⟨cmd, h1, _, _, _, _, h2, _⟩ := wMade hc (hm x List.mem_cons_self)
    unfold wGroups
    simp only [h1, h2, List.map_map]
    have : ((fun g : Grp => (g.t, 0)) ∘ fun q : (Nat × Nat) × Nat => (⟨x.1, x.2, q.2, aAt c cmd x.1 q.1.1,
        segW c cmd (args x.2.key).data (args x.2.key).wuser q.1⟩ : Grp)) = (fun _ => (x.1, 0)) ∘ Prod.fst := rfl
    rw [this, ← List.map_map, List.zipIdx_map_fst]
    rfl

/-- All bursts of a master have been sent when none is left to send. -/
theorem sent_eq {ρ : Type} {n : Nat} {m : Master ρ} (h : IdInv n m)
    (hl : m.sent.length = ((taken m).flatMap fun x => x.2.bursts).length) :
    m.sent = (taken m).flatMap fun x => x.2.bursts.map fun k => (x.1, k) := by
  have hs : m.sent <+: (taken m).flatMap fun x => x.2.bursts.map fun k => (x.1, k) := by
    rw [h.sent, taken, List.flatMap_append]
    refine List.prefix_append_right_inj _ |>.2 ?_
    cases m.cur with
    | none => exact List.nil_prefix
    | some x =>
      simp only [Option.map_some, Option.getD_some, Option.toList_some, List.flatMap_cons, List.flatMap_nil, List.append_nil]
      exact (List.take_prefix _ _).map _
  refine hs.eq_of_length ?_
  rw [hl]
  generalize taken m = l
  induction l with
  | nil => rfl
  | cons x l ih => simp only [List.flatMap_cons, List.length_append, List.length_map, ih]

theorem need_forId {α β : Type} (l : List α) (f : α → Nat) (g : α → β) (t : Nat) :
    needOf (forId t (l.map fun a => (f a, 0))) = (forId t (l.map fun a => (f a, g a))).length := by
  induction l with
  | nil => rfl
  | cons a l ih =>
    simp only [forId, needOf, List.map_cons, List.filter_cons] at ih ⊢
    by_cases h : f a = t
    · simp only [h, decide_true, if_true, List.map_cons, List.sum_cons, List.length_cons, ih]; omega
    · simp only [h, decide_false, Bool.false_eq_true, if_false]; exact ih

theorem burst_stuck {ρ : Type} {n : Nat} {m : Master ρ} (h : IdInv n m)
    (hl : m.sent.length = ((taken m).flatMap fun x => x.2.bursts).length) : m.step n .burst = m := by
  simp only [Master.step, Master.burst]
  split
  · rename_i op t k hr hcur
    have h1 := IdInv.sent_length h
    rw [hcur] at h1
    simp only [Option.map_some, Option.getD_some] at h1
    split
    · rename_i b hb
      have := (List.getElem?_eq_some_iff.1 hb).1
      omega
    · rfl
  · rfl

theorem WInv.quiet {t : Target σ} {p : WPort} {w : WWit} (hc : c.Std) (h : WInv c args p w) (hr : p.m.running = true) (st : σ)
    (hq : ∀ e : WEv, e.progress = true → p.step c args t st e = (p, st)) (hid : ∀ k op i, wMk c args k = some op → op.id? = some i → i < c.idCount) :
    p.m.pend = [] ∧ p.m.wrappers = [] := by
  have hdec : ∀ e : WEv, e.progress = true → (p.step c args t st e).1 = p := fun e he => by rw [hq e he]
  have hdied := h.died
  /- nothing to send -/
  have htodo : p.todo = [] := by
    cases ht : p.todo with
    | nil => rfl
    | cons x rest =>
      exfalso
      cases x with
      | inl a =>
        have h1 := congrArg WPort.todo (hdec .sendAW rfl)
        have h2 := congrArg WPort.died (hdec .sendAW rfl)
        simp only [WPort.step, WPort.sendAW, ht, hdied] at h1 h2
        split at h1
        · have := congrArg List.length h1
          simp at this
        · rename_i hn; rw [if_neg hn] at h2; cases h2
      | inr a =>
        have h1 := congrArg WPort.todo (hdec .sendW rfl)
        simp only [WPort.step, WPort.sendW, ht, hdied] at h1
        have := congrArg List.length h1
        simp at this
  /- the slave is not serving -/
  have hsl : p.sl = none := by
    cases hs : p.sl with
    | none => rfl
    | some s =>
      exfalso
      have h0 := h.sl
      rw [hs] at h0
      cases hw : w.cur with
      | none => rw [hw] at h0; cases h0
      | some g =>
        rw [hw] at h0
        simp only [Option.map_some, Option.some.injEq] at h0
        obtain ⟨gok, gt⟩ := wAll_ok hc h.m (h.mem_cur hw)
        have hlen := gok.len
        simp only [ABeat.beats] at hlen
        have hle := h.csl g hw
        by_cases hn : w.cs.length = g.a.len + 1
        · have h1 := congrArg WPort.sl (hdec .slaveB rfl)
          simp only [WPort.step, WPort.slaveB, hs, hdied] at h1
          rw [if_pos (by rw [h0]; exact hn)] at h1
          cases h1
        · have hwn : p.w ≠ [] := by
            intro he
            have h1 := congrArg List.length h.wbs
            rw [he, htodo, hw] at h1
            simp only [Option.toList_some, List.flatMap_cons, List.flatMap_nil, List.append_nil, List.length_append,
              List.length_drop, wsOf, List.filterMap_nil, List.length_nil] at h1
            omega
          cases hww : p.w with
          | nil => exact hwn hww
          | cons x rest =>
            rcases h.decreases (t := t) hc hid st .slaveW rfl with h1 | h1
            · have h2 := congrArg (fun y => y.1.w) h1
              have h3 := congrArg (fun y => y.1.died) h1
              simp only [WPort.step, WPort.slaveW, hs, hdied, hww] at h2 h3
              rw [if_pos (by rw [h0]; show w.cs.length < g.a.len + 1; omega)] at h2 h3
              split at h2
              · rename_i hx; simp only [hx] at h3; cases h3
              · rename_i hx
                simp only [hx] at h3
                split at h2
                · rename_i hy; rw [if_pos hy] at h3; cases h3
                · have := congrArg List.length h2
                  simp at this
            · rw [hdec .slaveW rfl] at h1; omega
  have haw : p.aw = [] := by
    cases ha : p.aw with
    | nil => rfl
    | cons a rest =>
      exfalso
      have h1 := congrArg WPort.sl (hdec .slaveAW rfl)
      have h2 := congrArg WPort.died (hdec .slaveAW rfl)
      simp only [WPort.step, WPort.slaveAW, hsl, hdied, ha] at h1 h2
      split at h1
      · rename_i hx; rw [if_pos hx] at h2; cases h2
      · rename_i hx
        rw [if_neg hx] at h2
        split at h1
        · rename_i hy; rw [if_pos hy] at h2; cases h2
        · cases h1
  have hb : p.b = [] := by
    cases hbb : p.b with
    | nil => rfl
    | cons x rest =>
      exfalso
      have h1 := congrArg WPort.b (hdec .deliver rfl)
      simp only [WPort.step, WPort.deliver, hbb] at h1
      have := congrArg List.length h1
      simp at this
  /- so every burst has been answered -/
  have hcur : w.cur = none := by
    have h0 := h.sl
    rw [hsl] at h0
    cases hw : w.cur with
    | none => rfl
    | some g => rw [hw] at h0; cases h0
  have hrest : w.rest = [] := by
    have := congrArg List.length h.aws
    rw [haw, htodo] at this
    simp only [List.length_map, awsOf, List.filterMap_nil, List.append_nil, List.length_nil] at this
    exact List.length_eq_zero_iff.1 this
  have hall : wAll c args p.m = w.rv.map (·.1) := by rw [h.split, hcur, hrest]; simp
  have hlen : p.m.sent.length = ((taken p.m).flatMap fun x => x.2.bursts).length := by
    have := h.sent
    rw [htodo, wAll_length hc h.m] at this
    simpa [awsOf] using this
  have hsent := sent_eq h.m.ids hlen
  rw [← wAll_bursts hc h.m, hall, List.map_map] at hsent
  have harr := h.arr
  rw [hb] at harr
  simp only [List.map_nil, List.append_nil] at harr
  constructor
  · refine h.m.inv.drained c.idCount hr ?_ (burst_stuck h.m.ids hlen) ?_ ?_ ?_
    · have h1 := congrArg WPort.m (hdec .take rfl)
      have h2 := congrArg WPort.died (hdec .take rfl)
      simp only [WPort.step, WPort.take] at h1 h2
      split at h1
      · rename_i op rest hdd hrr hcc hqq
        rw [hdd, hrr, hcc, hqq] at h2
        simp only at h1 h2
        split at h1
        · rename_i hx; simp only [hx] at h2; cases h2
        · rename_i hx
          simp only [hx] at h2
          split at h1
          · rename_i hy; simp only [hy] at h2; cases h2
          · exact h1
      · rename_i hno
        simp only [Master.step, Master.take]
        split
        · rename_i op rest hrr hcc hqq
          exact absurd hqq (hno op rest hdied hrr hcc)
        · rfl
    · have h1 := congrArg WPort.m (hdec .start rfl)
      simpa only [WPort.step, WPort.start, hdied, htodo] using h1
    · intro i
      exact ⟨congrArg WPort.m (hdec (.workTake i) rfl), congrArg WPort.m (hdec (.workGet i) rfl),
        congrArg WPort.m (hdec (.workDone i) rfl)⟩
    · intro u
      rw [hsent, harr]
      exact Nat.le_of_eq (need_forId w.rv (fun d => d.1.t) wRsp u)
  · cases hww : p.m.wrappers with
    | nil => rfl
    | cons op rest =>
      exfalso
      have h1 := congrArg (fun q : WPort => q.m.wrappers) (hdec (.runInit 0) rfl)
      simp only [WPort.step, Master.step, hww, List.getElem?_cons_zero, Master.write, List.eraseIdx_cons_zero] at h1
      have := congrArg List.length h1
      simp at this

end

/-! ## Read side -/

section

variable {args : Nat → Req}

def abWt (l : List ABeat) : Nat := (l.map fun a => 2 * a.len + 3).sum

theorem abWt_append (l l' : List ABeat) : abWt (l ++ l') = abWt l + abWt l' := by simp [abWt]

theorem abWt_cons (a : ABeat) (l : List ABeat) : abWt (a :: l) = 2 * a.len + 3 + abWt l := by simp [abWt]

def rOpWt (c : Cfg) (args : Nat → Req) (op : Op) : Nat :=
  abWt ((rGroups c args (0, op)).map (·.a)) + (rGroups c args (0, op)).length

theorem rOpWt_eq (t : Nat) (op : Op) :
    abWt ((rGroups c args (t, op)).map (·.a)) + (rGroups c args (t, op)).length = rOpWt c args op := by
  unfold rOpWt rGroups abWt
  simp only
  split
  · simp only [List.length_map, List.map_map]
    rfl
  · rfl

/-- The measure of the read side. -/
def RPort.wt (c : Cfg) (args : Nat → Req) (p : RPort) : Nat :=
  p.m.wt + waitWt (rOpWt c args) p.m + (abWt p.todo + p.todo.length) + abWt p.ar +
    ((p.sl.map fun s => 2 * (s.ar.len + 1 - s.n)).getD 0) + p.r.length

theorem RInv.decreases {t : Target σ} {p : RPort} {w : RWit} (hc : c.Std)
    (hid : ∀ k op i, rMk c args k = some op → op.id? = some i → i < c.idCount) (h : RInv c args p w) (st : σ) (e : REv)
    (he : e.progress = true) :
    p.step c args t st e = (p, st) ∨ (p.step c args t st e).1.wt c args < p.wt c args := by
  have hd : (p.step c args t st e).1.died = false := by
    obtain ⟨w', h', _⟩ := h.step (t := t) hc hid st e 0
    exact h'.died
  cases e with
  | read => simp [REv.progress] at he
  | init => simp [REv.progress] at he
  | reset v => simp [REv.progress] at he
  | runInit i =>
    simp only [RPort.step]
    rcases runInit_wt (rOpWt c args) c.idCount p.m i with h1 | h1
    · left; rw [h1]
    · right; simp only [RPort.wt]; omega
  | take =>
    simp only [RPort.step, RPort.take] at hd ⊢
    split
    · rename_i op rest hdd hr hcur hq
      have hi : op ∈ p.m.issued := h.m.queue_issued (by rw [hq]; exact List.mem_cons_self)
      have hmk := h.m.madeOf hi
      obtain ⟨cmd, ha, _⟩ := rMade hc hmk
      have hoa := rGroups_out hc hmk p.m.curId ha
      simp only [ha]
      right
      have h1 := take_wt (rOpWt c args) c.idCount h.m.inv hr hcur hq
      have h2 := rOpWt_eq (c := c) (args := args) ((op.id?).getD p.m.curId) op
      have h3 := h.todo hcur
      simp only [RPort.wt, hoa, h3, List.length_map]
      simp only [abWt, List.map_nil, List.sum_nil, List.length_nil] at h2 ⊢
      omega
    · exact .inl rfl
  | sendAR =>
    simp only [RPort.step, RPort.sendAR] at hd ⊢
    split
    · rename_i a rest hdd ht
      rw [hdd, ht] at hd
      simp only at hd
      split at hd
      · rename_i hlt
        rw [if_pos hlt]
        right
        have h1 : (p.m.step c.idCount .burst).wt ≤ p.m.wt := by
          rcases h.m.inv.decreases c.idCount .burst rfl with h1 | h1
          · rw [h1]; omega
          · omega
        have h2 := keeps_wait (rOpWt c args) c.idCount p.m .burst rfl
        simp only [RPort.wt, h2, ht, abWt_cons, abWt_append, List.length_cons]
        simp only [abWt, List.map_nil, List.sum_nil]
        omega
      · cases hd
    · exact .inl rfl
  | start =>
    simp only [RPort.step, RPort.start]
    split
    · rcases keeps_wt (rOpWt c args) c.idCount h.m.inv .start rfl rfl with h1 | h1
      · left; rw [h1]
      · right; simp only [RPort.wt]; omega
    · exact .inl rfl
  | slaveAR =>
    simp only [RPort.step, RPort.slaveAR] at hd ⊢
    split
    · rename_i a rest hdd hsl haw
      rw [hdd, hsl, haw] at hd
      simp only at hd
      split at hd
      · cases hd
      · rename_i h1
        rw [if_neg h1]
        split at hd
        · cases hd
        · rename_i h2
          rw [if_neg h2]
          right
          simp only [RPort.wt, hsl, haw, abWt_cons, Option.map_some, Option.map_none, Option.getD_some, Option.getD_none]
          omega
    · exact .inl rfl
  | slaveR =>
    simp only [RPort.step, RPort.slaveR]
    split
    · rename_i s hdd hsl
      right
      have hn : s.n ≤ s.ar.len := by
        have h1 := h.sl
        rw [hsl] at h1
        cases hw : w.cur with
        | none => rw [hw] at h1; cases h1
        | some g =>
          rw [hw] at h1
          cases h1
          exact h.nl g hw
      simp only [RPort.wt, hsl, Option.map_some, Option.getD_some, List.length_append, List.length_cons, List.length_nil]
      split
      · simp only [Option.map_some, Option.getD_some]; omega
      · simp only [Option.map_none, Option.getD_none]; omega
    · exact .inl rfl
  | deliver =>
    simp only [RPort.step, RPort.deliver]
    split
    · rename_i x rest hb
      right
      have h1 := resp_wt h.m.inv c.idCount x.id x
      have h2 := keeps_wait (rOpWt c args) c.idCount p.m (.resp x.id x) rfl
      simp only [RPort.wt, h1, h2, hb, List.length_cons]
      omega
    · exact .inl rfl
  | workTake i =>
    simp only [RPort.step]
    rcases keeps_wt (rOpWt c args) c.idCount h.m.inv (.workTake i) rfl rfl with h1 | h1
    · left; rw [h1]
    · right; simp only [RPort.wt]; omega
  | workGet i =>
    simp only [RPort.step]
    rcases keeps_wt (rOpWt c args) c.idCount h.m.inv (.workGet i) rfl rfl with h1 | h1
    · left; rw [h1]
    · right; simp only [RPort.wt]; omega
  | workDone i =>
    simp only [RPort.step]
    rcases keeps_wt (rOpWt c args) c.idCount h.m.inv (.workDone i) rfl rfl with h1 | h1
    · left; rw [h1]
    · right; simp only [RPort.wt]; omega

/-! ### Nothing left to do -/

theorem need_atoms (l : List RGrp) (t : Nat) : needOf (forId t (l.map fun g => (g.t, g.a.len))) =
    ((l.flatMap RGrp.atoms).filter fun x => decide (x.1.t = t)).length := by
  induction l with
  | nil => rfl
  | cons g l ih =>
    simp only [forId, needOf, List.map_cons, List.filter_cons, List.flatMap_cons, List.filter_append, List.length_append] at ih ⊢
    by_cases h : g.t = t
    · have : (g.atoms.filter fun x => decide (x.1.t = t)) = g.atoms := by
        refine List.filter_eq_self.2 ?_
        intro x hx
        obtain ⟨k, _, rfl⟩ := List.mem_map.1 hx
        simpa using h
      rw [this, g.atoms_length]
      simp only [h, decide_true, if_true, List.map_cons, List.sum_cons, ih, ABeat.beats]
    · have : (g.atoms.filter fun x => decide (x.1.t = t)) = [] := by
        refine List.filter_eq_nil_iff.2 ?_
        intro x hx
        obtain ⟨k, _, rfl⟩ := List.mem_map.1 hx
        simpa using h
      rw [this]
      simp only [h, decide_false, Bool.false_eq_true, if_false, List.length_nil, Nat.zero_add]
      exact ih

theorem forId_served (l : List Served) (t : Nat) : (forId t (l.map fun d => (d.at_.1.t, d.r))).length =
    ((l.map (·.at_)).filter fun x => decide (x.1.t = t)).length := by
  simp only [forId, List.length_map, List.filter_map]
  rfl

theorem RInv.quiet {t : Target σ} {p : RPort} {w : RWit} (hc : c.Std) (h : RInv c args p w) (hr : p.m.running = true) (st : σ)
    (hq : ∀ e : REv, e.progress = true → p.step c args t st e = (p, st)) : p.m.pend = [] ∧ p.m.wrappers = [] := by
  have hdec : ∀ e : REv, e.progress = true → (p.step c args t st e).1 = p := fun e he => by rw [hq e he]
  have hdied := h.died
  have htodo : p.todo = [] := by
    cases ht : p.todo with
    | nil => rfl
    | cons a rest =>
      exfalso
      have h1 := congrArg RPort.todo (hdec .sendAR rfl)
      have h2 := congrArg RPort.died (hdec .sendAR rfl)
      simp only [RPort.step, RPort.sendAR, ht, hdied] at h1 h2
      split at h1
      · have := congrArg List.length h1
        simp at this
      · rename_i hn; rw [if_neg hn] at h2; cases h2
  have hsl : p.sl = none := by
    cases hs : p.sl with
    | none => rfl
    | some s =>
      exfalso
      have h1 := congrArg RPort.r (hdec .slaveR rfl)
      simp only [RPort.step, RPort.slaveR, hs, hdied] at h1
      have := congrArg List.length h1
      simp at this
  have har : p.ar = [] := by
    cases ha : p.ar with
    | nil => rfl
    | cons a rest =>
      exfalso
      have h1 := congrArg RPort.sl (hdec .slaveAR rfl)
      have h2 := congrArg RPort.died (hdec .slaveAR rfl)
      simp only [RPort.step, RPort.slaveAR, hsl, hdied, ha] at h1 h2
      split at h1
      · rename_i hx; rw [if_pos hx] at h2; cases h2
      · rename_i hx
        rw [if_neg hx] at h2
        split at h1
        · rename_i hy; rw [if_pos hy] at h2; cases h2
        · cases h1
  have hb : p.r = [] := by
    cases hbb : p.r with
    | nil => rfl
    | cons x rest =>
      exfalso
      have h1 := congrArg RPort.r (hdec .deliver rfl)
      simp only [RPort.step, RPort.deliver, hbb] at h1
      have := congrArg List.length h1
      simp at this
  have hcur : w.cur = none := by
    have h0 := h.sl
    rw [hsl] at h0
    cases hw : w.cur with
    | none => rfl
    | some g => rw [hw] at h0; cases h0
  have hrest : w.rest = [] := by
    have := congrArg List.length h.ars
    rw [har, htodo] at this
    simp only [List.length_map, List.append_nil, List.length_nil] at this
    exact List.length_eq_zero_iff.1 this
  have hall : rAll c args p.m = w.dn := by rw [h.split, hcur, hrest]; simp
  have hlen : p.m.sent.length = ((taken p.m).flatMap fun x => x.2.bursts).length := by
    have := h.sent
    rw [htodo, rAll_length hc h.m] at this
    simpa using this
  have hsent := sent_eq h.m.ids hlen
  rw [← rAll_bursts hc h.m, hall] at hsent
  have harr := h.arr
  rw [hb] at harr
  simp only [List.map_nil, List.append_nil] at harr
  have hsv := h.svs
  rw [hcur] at hsv
  simp only [Option.toList_none, List.flatMap_nil, List.append_nil] at hsv
  constructor
  · refine h.m.inv.drained c.idCount hr ?_ (burst_stuck h.m.ids hlen) ?_ ?_ ?_
    · have h1 := congrArg RPort.m (hdec .take rfl)
      have h2 := congrArg RPort.died (hdec .take rfl)
      simp only [RPort.step, RPort.take] at h1 h2
      split at h1
      · rename_i op rest hdd hrr hcc hqq
        rw [hdd, hrr, hcc, hqq] at h2
        simp only at h1 h2
        split at h1
        · rename_i hx; simp only [hx] at h2; cases h2
        · exact h1
      · rename_i hno
        simp only [Master.step, Master.take]
        split
        · rename_i op rest hrr hcc hqq
          exact absurd hqq (hno op rest hdied hrr hcc)
        · rfl
    · have h1 := congrArg RPort.m (hdec .start rfl)
      simpa only [RPort.step, RPort.start, hdied, htodo] using h1
    · intro i
      exact ⟨congrArg RPort.m (hdec (.workTake i) rfl), congrArg RPort.m (hdec (.workGet i) rfl),
        congrArg RPort.m (hdec (.workDone i) rfl)⟩
    · intro u
      rw [hsent, harr, need_atoms, forId_served, hsv]
      exact Nat.le_refl _
  · cases hww : p.m.wrappers with
    | nil => rfl
    | cons op rest =>
      exfalso
      have h1 := congrArg (fun q : RPort => q.m.wrappers) (hdec (.runInit 0) rfl)
      simp only [RPort.step, Master.step, hww, List.getElem?_cons_zero, Master.write, List.eraseIdx_cons_zero] at h1
      have := congrArg List.length h1
      simp at this

end

end Verif.AxiSys
