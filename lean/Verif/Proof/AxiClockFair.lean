import Verif.Proof.AxiClockLive
import Verif.Proof.AxiSysProgress

/-!
# Progress of the clock-level AXI system
-/

namespace Verif.AxiSys

open Verif.Axi Verif.AxiOps
open Verif.Stream (Net NetCfg NetEv NetInv Src Snk SrcInv SnkInv SnkLive Pc)

/-! ## The order in which a burst is sent -/

/-- The transactions of a burst: AW, then W. -/
def block (x : ABeat × List WBeat) : List (ABeat ⊕ WBeat) := .inl x.1 :: x.2.map .inr

/-- What is left to send are the rest of the W transactions of the last burst, then whole bursts. -/
def Bal (p : WPort) : Prop :=
  ∃ (ws : List WBeat) (L : List (ABeat × List WBeat)), p.todo = ws.map .inr ++ L.flatMap block ∧
    (∀ x ∈ L, x.2.length = x.1.len + 1) ∧ ∀ a, p.aw.getLast? = some a → ws.length ≤ a.len + 1

theorem Bal.same {p q : WPort} (h : Bal p) (h1 : q.todo = p.todo) (h2 : q.aw = p.aw) : Bal q := by
  unfold Bal at *
  rw [h1, h2]
  exact h

theorem Bal.empty {q : WPort} (h1 : q.todo = []) : Bal q := ⟨[], [], by simp [h1], by simp, by simp⟩

section

variable {σ : Type} {c : Cfg} {args : Nat → WArgs} {t : Target σ}

theorem Bal.step {p : WPort} {w : WWit} (hc : c.Std) (hi : WInv c args p w) (h : Bal p) (st : σ) (e : WEv) :
    Bal (p.step c args t st e).1 := by
  cases e
  case write => simp only [WPort.step, WPort.write]; split <;> exact h.same rfl rfl
  case init => simp only [WPort.step, WPort.init]; split <;> exact h.same rfl rfl
  case take =>
    simp only [WPort.step, WPort.take]
    split
    · rename_i op rest hdd hr hcur hq
      have hm : op ∈ p.m.issued := hi.m.queue_issued (by rw [hq]; exact List.mem_cons_self)
      have hmk := hi.m.madeOf hm
      obtain ⟨cmd, h1, h2, h3, h4, h5, _⟩ := wMade hc hmk
      simp only [h1]
      have hp := processWrite_spec c cmd (args op.key).data (args op.key).wuser h2 h4 p.m.curId
      simp only [hp]
      refine ⟨[], (segs c cmd 0).map fun q => (aAt c cmd (chooseId c cmd p.m.curId).1 q.1, segW c cmd (args op.key).data (args op.key).wuser q), ?_, ?_, by simp⟩
      · simp only [List.map_nil, List.nil_append, List.flatMap_map]
        congr 1
        funext q
        simp [block, burstOut, segW]
      · intro x hx
        obtain ⟨q, hq, rfl⟩ := List.mem_map.1 hx
        obtain ⟨b1, b2⟩ := mem_segs c cmd 0 (Nat.zero_le _) q hq
        have := beats_aAt c cmd (chooseId c cmd p.m.curId).1 b1
        simp only [ABeat.beats] at this
        simp only [segW_length]
        omega
    · exact h
  case sendAW =>
    simp only [WPort.step, WPort.sendAW]
    split
    · rename_i a rest hdd ht
      split
      · obtain ⟨ws, L, h1, h2, h3⟩ := h
        rw [ht] at h1
        cases ws with
        | cons x ws => simp at h1
        | nil =>
          cases L with
          | nil => simp at h1
          | cons x L =>
            simp only [List.map_nil, List.nil_append, List.flatMap_cons, block, List.cons_append, List.cons.injEq, Sum.inl.injEq] at h1
            obtain ⟨rfl, rfl⟩ := h1
            refine ⟨x.2, L, rfl, fun y hy => h2 y (List.mem_cons_of_mem _ hy), ?_⟩
            intro a ha
            simp only [List.getLast?_append, List.getLast?_singleton, Option.some_or, Option.some.injEq] at ha
            subst ha
            exact Nat.le_of_eq (h2 x List.mem_cons_self)
      · exact h.same rfl rfl
    · exact h
  case sendW =>
    simp only [WPort.step, WPort.sendW]
    split
    · rename_i a rest hdd ht
      obtain ⟨ws, L, h1, h2, h3⟩ := h
      rw [ht] at h1
      cases ws with
      | nil =>
        cases L with
        | nil => simp at h1
        | cons x L => simp [block] at h1
      | cons x ws =>
        simp only [List.map_cons, List.cons_append, List.cons.injEq] at h1
        refine ⟨ws, L, h1.2, h2, ?_⟩
        intro a ha
        have := h3 a ha
        simp only [List.length_cons] at this
        omega
    · exact h
  case start => simp only [WPort.step, WPort.start]; split <;> exact h.same rfl rfl
  case slaveAW =>
    simp only [WPort.step, WPort.slaveAW]
    split
    · rename_i a rest hdd hs ha
      split
      · exact h.same rfl rfl
      · split
        · exact h.same rfl rfl
        · obtain ⟨ws, L, h1, h2, h3⟩ := h
          refine ⟨ws, L, h1, h2, ?_⟩
          intro b hb
          refine h3 b ?_
          rw [ha]
          cases rest with
          | nil => simp at hb
          | cons y l => simpa [List.getLast?_cons_cons] using hb
    · exact h
  case slaveW =>
    simp only [WPort.step, WPort.slaveW]
    repeat' split
    all_goals exact h.same rfl rfl
  case slaveB => simp only [WPort.step, WPort.slaveB]; repeat' split
                 all_goals exact h.same rfl rfl
  case deliver => simp only [WPort.step, WPort.deliver]; split <;> exact h.same rfl rfl
  case reset v =>
    simp only [WPort.step, WPort.reset]
    split
    · exact .empty rfl
    · exact h.same rfl rfl
  all_goals exact h.same rfl rfl

theorem awsOf_inr (ws : List WBeat) : awsOf (ws.map .inr) = [] := by
  simp [awsOf]

theorem wsOf_inr (ws : List WBeat) : wsOf (ws.map .inr) = ws := by
  induction ws with
  | nil => rfl
  | cons x l ih => simp only [wsOf, List.map_cons, List.filterMap_cons] at ih ⊢; rw [ih]

theorem blocks_aws (L : List (ABeat × List WBeat)) : awsOf (L.flatMap block) = L.map (·.1) := by
  induction L with
  | nil => rfl
  | cons x l ih =>
    rw [List.flatMap_cons, awsOf_append, ih]
    have : awsOf (block x) = x.1 :: awsOf (x.2.map .inr) := rfl
    rw [this, awsOf_inr]
    rfl

theorem blocks_ws (L : List (ABeat × List WBeat)) (h : ∀ x ∈ L, x.2.length = x.1.len + 1) :
    (wsOf (L.flatMap block)).length = ((L.map (·.1)).map fun a => a.len + 1).sum := by
  induction L with
  | nil => rfl
  | cons x l ih =>
    rw [List.flatMap_cons, wsOf_append, List.length_append, ih (fun y hy => h y (List.mem_cons_of_mem _ hy))]
    have : wsOf (block x) = wsOf (x.2.map .inr) := rfl
    rw [this, wsOf_inr, h x List.mem_cons_self]
    simp

theorem le_sum_last {l : List ABeat} {a : ABeat} (h : l.getLast? = some a) : a.len + 1 ≤ (l.map fun a => a.len + 1).sum := by
  have : a ∈ l := List.mem_of_getLast? h
  clear h
  induction l with
  | nil => cases this
  | cons x l ih =>
    simp only [List.map_cons, List.sum_cons]
    rcases List.mem_cons.1 this with rfl | h
    · omega
    · have := ih h; omega

/-- While the slave waits for a W transaction of a burst and none is on its way, no AW transaction is. -/
theorem Bal.starved {p : WPort} {w : WWit} (hc : c.Std) (hi : WInv c args p w) (h : Bal p) (hw : p.w = [])
    (hs : ∀ s, p.sl = some s → s.n < s.aw.len + 1) (ha : p.sl = none → p.aw = []) : p.aw = [] := by
  obtain ⟨ws, L, h1, h2, h3⟩ := h
  cases hsl : p.sl with
  | none => exact ha hsl
  | some s =>
    have h0 := hi.sl
    rw [hsl] at h0
    cases hcur : w.cur with
    | none => rw [hcur] at h0; cases h0
    | some g =>
      rw [hcur] at h0
      simp only [Option.map_some, Option.some.injEq] at h0
      have hn := hs s hsl
      rw [h0] at hn
      simp only at hn
      have gok : ∀ g ∈ w.cur.toList ++ w.rest, g.ws.length = g.a.len + 1 := by
        intro g hg
        have hm : g ∈ wAll c args p.m := by rw [hi.split]; exact List.mem_append_right _ hg
        have := (wAll_ok hc hi.m hm).1.len
        simpa [ABeat.beats] using this
      have e1 := hi.aws
      have e2 := congrArg List.length hi.wbs
      rw [h1, awsOf_append, awsOf_inr, blocks_aws, List.nil_append] at e1
      rw [h1, wsOf_append, wsOf_inr, hw, hcur] at e2
      simp only [Option.toList_some, List.flatMap_cons, List.flatMap_nil, List.append_nil, List.length_append, List.length_drop,
        List.nil_append] at e2
      rw [blocks_ws L h2, gok g (by simp [hcur])] at e2
      have e3 : (w.rest.flatMap (·.ws)).length = ((w.rest.map (·.a)).map fun a => a.len + 1).sum := by
        have : ∀ l : List Grp, (∀ g ∈ l, g.ws.length = g.a.len + 1) →
            (l.flatMap (·.ws)).length = ((l.map (·.a)).map fun a => a.len + 1).sum := by
          intro l hl
          induction l with
          | nil => rfl
          | cons y l ih =>
            simp only [List.flatMap_cons, List.length_append, List.map_cons, List.sum_cons]
            rw [ih (fun g hg => hl g (List.mem_cons_of_mem _ hg)), hl y List.mem_cons_self]
        exact this _ (fun g hg => gok g (List.mem_append_right _ hg))
      rw [e3, e1, List.map_append, List.sum_append] at e2
      cases hl : p.aw.getLast? with
      | none => exact List.getLast?_eq_none_iff.1 hl
      | some a =>
        exfalso
        have g1 := h3 a hl
        have g2 := le_sum_last hl
        omega

end

/-! ## Channels that do not block -/

/-- Whatever is in the channel can be received. -/
def Here {α : Type} (s : Net α) : Prop := avail s = none → content s = []

theorem blocked_content {α : Type} {s : Net α} (h : content s = []) : blocked s = false := by
  have := congrArg List.length h
  rw [content_length] at this
  simp only [List.length_nil] at this
  have : s.src.waiters = [] := List.length_eq_zero_iff.1 (by omega)
  simp [blocked, this]

/-- Nothing in the channels keeps the piece of a coroutine from being executed. -/
def CWPort.free (p : CWPort) : WEv → Prop
  | .sendAW | .sendW | .start => p.stuck = false
  | .slaveAW => blocked p.b = false ∧ Here p.aw
  | .slaveW => ∀ s, p.sl = some s → s.n < s.aw.len + 1 → (∃ w, p.acc = .held w) ∨ content p.w = [] ∧ p.acc = .none
  | .slaveB => blocked p.b = false ∧ ∀ s, p.sl = some s → p.acc ≠ .performed
  | .deliver => Here p.b
  | _ => True

section

variable {σ : Type} {c : Cfg} {args : Nat → WArgs} {t : Target σ}

theorem CWInv.free {p : CWPort} (h : CWInv p) (st : σ) (e : WEv) (he : e.progress = true) (hf : p.free e) :
    ((p.step c args t st e).1.view, (p.step c args t st e).2) = p.view.step c args t st e := by
  cases e
  case write => cases he
  case init => cases he
  case reset v => cases he
  case take =>
    obtain ⟨h1, h2, h3⟩ := WPort.take_chan (c := c) (args := args) p.view
    simp only [CWPort.step, WPort.step, CWPort.update_view h1 h2 h3]
  case runInit i => rfl
  case workTake i => rfl
  case workGet i => rfl
  case workDone i => rfl
  case start =>
    have hf : p.stuck = false := hf
    obtain ⟨h1, h2, h3⟩ := WPort.start_chan (c := c) p.view
    simp only [CWPort.step, CWPort.start, hf, Bool.false_eq_true, if_false, WPort.step, CWPort.update_view h1 h2 h3]
  case sendAW =>
    have hf : p.stuck = false := hf
    have hb : blocked p.aw = false := by simp only [CWPort.stuck, Bool.or_eq_false_iff] at hf; exact hf.1
    cases hd : p.died with
    | true => simp [CWPort.step, WPort.step, CWPort.sendAW, WPort.sendAW, CWPort.view, hd]
    | false =>
      cases ht : p.todo with
      | nil => simp [CWPort.step, WPort.step, CWPort.sendAW, WPort.sendAW, CWPort.view, hd, ht]
      | cons x rest =>
        cases x with
        | inr x => simp [CWPort.step, WPort.step, CWPort.sendAW, WPort.sendAW, CWPort.view, hd, ht]
        | inl x =>
          simp only [CWPort.step, WPort.step, CWPort.sendAW, WPort.sendAW, CWPort.view, hd, ht, hf]
          split <;> simp [(h.aw.send hb x).2]
  case sendW =>
    have hf : p.stuck = false := hf
    have hb : blocked p.w = false := by simp only [CWPort.stuck, Bool.or_eq_false_iff] at hf; exact hf.2
    cases hd : p.died with
    | true => simp [CWPort.step, WPort.step, CWPort.sendW, WPort.sendW, CWPort.view, hd]
    | false =>
      cases ht : p.todo with
      | nil => simp [CWPort.step, WPort.step, CWPort.sendW, WPort.sendW, CWPort.view, hd, ht]
      | cons x rest =>
        cases x with
        | inl x => simp [CWPort.step, WPort.step, CWPort.sendW, WPort.sendW, CWPort.view, hd, ht]
        | inr x => simp [CWPort.step, WPort.step, CWPort.sendW, WPort.sendW, CWPort.view, hd, ht, hf, (h.w.send hb x).2]
  case slaveAW =>
    obtain ⟨hb, hh⟩ := hf
    cases hd : p.died with
    | true => simp [CWPort.step, WPort.step, CWPort.slaveAW, WPort.slaveAW, CWPort.view, hd]
    | false =>
      cases hs : p.sl with
      | some s => simp [CWPort.step, WPort.step, CWPort.slaveAW, WPort.slaveAW, CWPort.view, hd, hs]
      | none =>
        cases ha : avail p.aw with
        | none => simp [CWPort.step, WPort.step, CWPort.slaveAW, WPort.slaveAW, CWPort.view, hd, hs, ha, hb, hh ha]
        | some a =>
          obtain ⟨_, hr⟩ := h.aw.recv ha
          simp only [CWPort.step, WPort.step, CWPort.slaveAW, WPort.slaveAW, CWPort.view, hd, hs, ha, hb, hr]
          repeat' split
          all_goals simp [hr]
  case slaveW =>
    cases hd : p.died with
    | true => simp [CWPort.step, WPort.step, CWPort.slaveW, WPort.slaveW, CWPort.view, hd]
    | false =>
      cases hs : p.sl with
      | none => simp [CWPort.step, WPort.step, CWPort.slaveW, WPort.slaveW, CWPort.view, hd, hs]
      | some s =>
        by_cases hn : s.n < s.aw.len + 1
        case neg =>
          have e1 : p.view.step c args t st .slaveW = (p.view, st) := by
            simp only [WPort.step, WPort.slaveW, CWPort.view, hd, hs]
            cases p.acc.beat ++ content p.w with
            | nil => rfl
            | cons x l => simp only [if_neg hn]
          rw [e1]
          cases hacc : p.acc with
          | none =>
            simp only [CWPort.step, CWPort.slaveW, hd, hs, hacc]
            cases avail p.w with
            | none => rfl
            | some w => simp only [if_neg hn]
          | held w => simp only [CWPort.step, CWPort.slaveW, hd, hs, hacc, if_neg hn]
          | performed => simp only [CWPort.step, CWPort.slaveW, hd, hs, hacc, CWPort.view]; rfl
        rcases hf s hs hn with ⟨a, hacc⟩ | ⟨hw, hacc⟩
        · simp only [CWPort.step, WPort.step, CWPort.slaveW, WPort.slaveW, CWPort.view, hd, hs, hacc, Acc.beat, List.cons_append,
            List.nil_append]
          simp only [if_pos hn]
          cases toBytes c.lanes .little a.data with
          | error _ => simp
          | ok data =>
            simp only
            split
            · simp
            · rfl
        · have ha : avail p.w = none := by
            cases ha : avail p.w with
            | none => rfl
            | some a => rw [(h.w.recv ha).2] at hw; cases hw
          simp [CWPort.step, WPort.step, CWPort.slaveW, WPort.slaveW, CWPort.view, hd, hs, ha, hacc, hw, Acc.beat]
  case slaveB =>
    obtain ⟨hb, hp⟩ := hf
    cases hd : p.died with
    | true => simp [CWPort.step, WPort.step, CWPort.slaveB, WPort.slaveB, CWPort.view, hd]
    | false =>
      cases hs : p.sl with
      | none => simp [CWPort.step, WPort.step, CWPort.slaveB, WPort.slaveB, CWPort.view, hd, hs]
      | some s =>
        simp only [CWPort.step, WPort.step, CWPort.slaveB, WPort.slaveB, CWPort.view, hd, hs, hb, and_true, hp s hs, not_false_eq_true, ne_eq]
        split <;> simp [(h.b.send hb _).2, hs, hd]
  case deliver =>
    have hh : Here p.b := hf
    cases ha : avail p.b with
    | none => simp [CWPort.step, WPort.step, CWPort.deliver, WPort.deliver, CWPort.view, ha, hh ha]
    | some a =>
      obtain ⟨_, hr⟩ := h.b.recv ha
      simp [CWPort.step, WPort.step, CWPort.deliver, WPort.deliver, CWPort.view, ha, hr]

/-- A piece of a coroutine that changes nothing in the view, and does not start an access or return from one, changes nothing. -/
theorem CWInv.same {p : CWPort} (h : CWInv p) (st : σ) (e : WEv) (he : e.progress = true)
    (hv : (p.step c args t st e).1.view = p.view) (hac : (p.step c args t st e).1.acc = p.acc) : (p.step c args t st e).1 = p := by
  have upd : p.update p.view = p := rfl
  cases e
  case write => cases he
  case init => cases he
  case reset v => cases he
  case take =>
    obtain ⟨h1, h2, h3⟩ := WPort.take_chan (c := c) (args := args) p.view
    simp only [CWPort.step, CWPort.update_view h1 h2 h3] at hv ⊢
    rw [hv]; rfl
  case start =>
    simp only [CWPort.step, CWPort.start] at hv ⊢
    split
    · rfl
    · rename_i hs
      rw [if_neg hs] at hv
      obtain ⟨h1, h2, h3⟩ := WPort.start_chan (c := c) p.view
      rw [CWPort.update_view h1 h2 h3] at hv
      rw [hv]; rfl
  case sendAW =>
    simp only [CWPort.step] at hv ⊢
    unfold CWPort.sendAW at hv ⊢
    split
    · rename_i a rest hd ht hs
      exfalso
      simp only [hd, ht, hs] at hv
      split at hv
      · have := congrArg (fun q : WPort => q.todo.length) hv
        simp [CWPort.view, ht] at this
      · have := congrArg WPort.died hv
        simp [CWPort.view, hd] at this
    · rfl
  case sendW =>
    simp only [CWPort.step] at hv ⊢
    unfold CWPort.sendW at hv ⊢
    split
    · rename_i a rest hd ht hs
      exfalso
      simp only [hd, ht, hs] at hv
      have := congrArg (fun q : WPort => q.todo.length) hv
      simp [CWPort.view, ht] at this
    · rfl
  case slaveAW =>
    simp only [CWPort.step] at hv ⊢
    unfold CWPort.slaveAW at hv ⊢
    split
    · rename_i a hd hs hb ha
      exfalso
      simp only [hd, hs, hb, ha] at hv
      split at hv
      · have := congrArg WPort.died hv
        simp [CWPort.view, hd] at this
      · split at hv
        · have := congrArg WPort.died hv
          simp [CWPort.view, hd] at this
        · have := congrArg WPort.sl hv
          simp [CWPort.view, hs] at this
    · rfl
  case slaveW =>
    simp only [CWPort.step] at hv hac ⊢
    unfold CWPort.slaveW at hv hac ⊢
    split
    · rename_i s hd hs hacc
      split
      · rename_i w ha
        split
        · rename_i hn
          exfalso
          simp only [hd, hs, hacc, ha, if_pos hn] at hac
          cases hac
        · rfl
      · rfl
    · rename_i s w hd hs hacc
      simp only [hd, hs, hacc] at hv
      split
      · rename_i hn
        exfalso
        simp only [if_pos hn] at hv
        split at hv
        · have := congrArg WPort.died hv
          simp [CWPort.view, hd] at this
        · split at hv
          · have := congrArg WPort.died hv
            simp [CWPort.view, hd] at this
          · have := congrArg WPort.sl hv
            simp only [CWPort.view, hs, Option.some.injEq] at this
            have := congrArg WBurst.n this
            simp at this
      · rfl
    · rename_i s hd hs hacc
      exfalso
      simp only [hd, hs, hacc] at hac
      cases hac
    · rfl
  case slaveB =>
    simp only [CWPort.step] at hv ⊢
    unfold CWPort.slaveB at hv ⊢
    split
    · rename_i s hd hs
      simp only [hd, hs] at hv
      split
      · rename_i hn
        exfalso
        simp only [if_pos hn] at hv
        have := congrArg WPort.sl hv
        simp [CWPort.view, hs] at this
      · rfl
    · rfl
  case deliver =>
    simp only [CWPort.step] at hv ⊢
    unfold CWPort.deliver at hv ⊢
    split
    · rename_i x ha
      exfalso
      simp only [ha] at hv
      have := congrArg WPort.b hv
      simp only [CWPort.view] at this
      rw [(h.b.recv ha).2] at this
      have := congrArg List.length this
      simp at this
    · rfl
  all_goals
    have := congrArg WPort.m hv
    simp only [CWPort.step, CWPort.view] at this ⊢
    rw [this]

end

/-- Nothing in the channels keeps the piece of a coroutine from being executed. -/
def CRPort.free (p : CRPort) : REv → Prop
  | .sendAR | .start => blocked p.ar = false
  | .slaveAR => blocked p.r = false ∧ p.got = none ∧ Here p.ar
  | .slaveR => blocked p.r = false ∧ p.got = none
  | .deliver => Here p.r ∧ (content p.r = [] → p.got = none)
  | _ => True

section

variable {σ : Type} {c : Cfg} {args : Nat → Req} {t : Target σ}

theorem CRInv.free {p : CRPort} (h : CRInv p) (st : σ) (e : REv) (he : e.progress = true) (hf : p.free e) :
    ((p.step c args t st e).1.view, (p.step c args t st e).2) = p.view.step c args t st e := by
  cases e
  case read => cases he
  case init => cases he
  case reset v => cases he
  case take =>
    obtain ⟨h1, h2⟩ := RPort.take_chan (c := c) (args := args) p.view
    simp only [CRPort.step, RPort.step, CRPort.update_view h1 h2]
  case runInit i => rfl
  case workTake i => rfl
  case workGet i => rfl
  case workDone i => rfl
  case start =>
    have hf : blocked p.ar = false := hf
    obtain ⟨h1, h2⟩ := RPort.start_chan (c := c) p.view
    simp only [CRPort.step, CRPort.start, hf, Bool.false_eq_true, if_false, RPort.step, CRPort.update_view h1 h2]
  case sendAR =>
    have hb : blocked p.ar = false := hf
    cases hd : p.died with
    | true => simp [CRPort.step, RPort.step, CRPort.sendAR, RPort.sendAR, CRPort.view, hd]
    | false =>
      cases ht : p.todo with
      | nil => simp [CRPort.step, RPort.step, CRPort.sendAR, RPort.sendAR, CRPort.view, hd, ht]
      | cons x rest =>
        simp only [CRPort.step, RPort.step, CRPort.sendAR, RPort.sendAR, CRPort.view, hd, ht, hb]
        split <;> simp [(h.ar.send hb x).2]
  case slaveAR =>
    obtain ⟨hb, hg, hh⟩ := hf
    cases hd : p.died with
    | true => simp [CRPort.step, RPort.step, CRPort.slaveAR, RPort.slaveAR, CRPort.view, hd]
    | false =>
      cases hs : p.sl with
      | some s => simp [CRPort.step, RPort.step, CRPort.slaveAR, RPort.slaveAR, CRPort.view, hd, hs]
      | none =>
        cases ha : avail p.ar with
        | none => simp [CRPort.step, RPort.step, CRPort.slaveAR, RPort.slaveAR, CRPort.view, hd, hs, ha, hg, hb, hh ha]
        | some a =>
          obtain ⟨_, hr⟩ := h.ar.recv ha
          simp only [CRPort.step, RPort.step, CRPort.slaveAR, RPort.slaveAR, CRPort.view, hd, hs, ha, hg, hb, hr]
          repeat' split
          all_goals simp [hr]
  case slaveR =>
    obtain ⟨hb, hg⟩ := hf
    cases hd : p.died with
    | true => simp [CRPort.step, RPort.step, CRPort.slaveR, RPort.slaveR, CRPort.view, hd]
    | false =>
      cases hs : p.sl with
      | none => simp [CRPort.step, RPort.step, CRPort.slaveR, RPort.slaveR, CRPort.view, hd, hs, hg]
      | some s =>
        simp only [CRPort.step, RPort.step, CRPort.slaveR, RPort.slaveR, CRPort.view, hd, hs, hb, hg, Option.toList_some,
          Option.toList_none, List.append_nil]
        rfl
  case deliver =>
    obtain ⟨hh, hg⟩ := hf
    cases ha : avail p.r with
    | none => simp [CRPort.step, RPort.step, CRPort.deliver, RPort.deliver, CRPort.view, ha, hh ha, hg (hh ha)]
    | some a =>
      obtain ⟨_, hr⟩ := h.r.recv ha
      simp [CRPort.step, RPort.step, CRPort.deliver, RPort.deliver, CRPort.view, ha, hr]

/-- A piece of a coroutine that changes nothing in the view, and does not return from an access, changes nothing. -/
theorem CRInv.same {p : CRPort} (h : CRInv p) (st : σ) (e : REv) (he : e.progress = true)
    (hv : (p.step c args t st e).1.view = p.view) (hgt : (p.step c args t st e).1.got = p.got) : (p.step c args t st e).1 = p := by
  cases e
  case read => cases he
  case init => cases he
  case reset v => cases he
  case take =>
    obtain ⟨h1, h2⟩ := RPort.take_chan (c := c) (args := args) p.view
    simp only [CRPort.step, CRPort.update_view h1 h2] at hv ⊢
    rw [hv]; rfl
  case start =>
    simp only [CRPort.step, CRPort.start] at hv ⊢
    split
    · rfl
    · rename_i hs
      rw [if_neg hs] at hv
      obtain ⟨h1, h2⟩ := RPort.start_chan (c := c) p.view
      rw [CRPort.update_view h1 h2] at hv
      rw [hv]; rfl
  case sendAR =>
    simp only [CRPort.step] at hv ⊢
    unfold CRPort.sendAR at hv ⊢
    split
    · rename_i a rest hd ht hs
      exfalso
      simp only [hd, ht, hs] at hv
      split at hv
      · have := congrArg (fun q : RPort => q.todo.length) hv
        simp [CRPort.view, ht] at this
      · have := congrArg RPort.died hv
        simp [CRPort.view, hd] at this
    · rfl
  case slaveAR =>
    simp only [CRPort.step] at hv ⊢
    unfold CRPort.slaveAR at hv ⊢
    split
    · rename_i a hd hs hg hb ha
      exfalso
      simp only [hd, hs, hg, hb, ha] at hv
      split at hv
      · have := congrArg RPort.died hv
        simp [CRPort.view, hd] at this
      · split at hv
        · have := congrArg RPort.died hv
          simp [CRPort.view, hd] at this
        · have := congrArg RPort.sl hv
          simp [CRPort.view, hs] at this
    · rfl
  case slaveR =>
    simp only [CRPort.step] at hgt ⊢
    unfold CRPort.slaveR at hgt ⊢
    split
    · rename_i b hd hg hb
      exfalso
      simp only [hd, hg, hb] at hgt
      cases hgt
    · rename_i s hd hg hs hb
      exfalso
      simp only [hd, hg, hs, hb] at hgt
      cases hgt
    · rfl
  case deliver =>
    simp only [CRPort.step] at hv ⊢
    unfold CRPort.deliver at hv ⊢
    split
    · rename_i x ha
      exfalso
      simp only [ha] at hv
      have := congrArg RPort.r hv
      simp only [CRPort.view] at this
      rw [(h.r.recv ha).2] at this
      have := congrArg List.length this
      simp at this
    · rfl
  all_goals
    have := congrArg RPort.m hv
    simp only [CRPort.step, CRPort.view] at this ⊢
    rw [this]

end

/-! ## Accesses that have not returned -/

/-- What is left to do that the view does not show. -/
def Acc.rank : Acc → Nat
  | .performed => 2
  | .none => 1
  | .held _ => 0

theorem Acc.rank_le (a : Acc) : a.rank ≤ 2 := by cases a <;> simp [Acc.rank]

def gotRank (g : Option RBeat) : Nat := if g.isSome then 1 else 0

theorem gotRank_le (g : Option RBeat) : gotRank g ≤ 1 := by cases g <;> simp [gotRank]

section

variable {σ : Type} {c : Cfg} {t : Target σ}

theorem CWPort.acc_step {args : Nat → WArgs} (p : CWPort) (st : σ) (e : WEv) (he : e.progress = true)
    (hv : (p.step c args t st e).1.view = p.view) :
    (p.step c args t st e).1.acc = p.acc ∨ (p.step c args t st e).1.acc.rank < p.acc.rank := by
  cases e
  case write => cases he
  case init => cases he
  case reset v => cases he
  case start => left; simp only [CWPort.step, CWPort.start]; split <;> rfl
  case sendAW => left; simp only [CWPort.step, CWPort.sendAW]; repeat' split
                 all_goals rfl
  case sendW => left; simp only [CWPort.step, CWPort.sendW]; split <;> rfl
  case slaveAW => left; simp only [CWPort.step, CWPort.slaveAW]; repeat' split
                  all_goals rfl
  case slaveB => left; simp only [CWPort.step, CWPort.slaveB]; repeat' split
                 all_goals rfl
  case deliver => left; simp only [CWPort.step, CWPort.deliver]; split <;> rfl
  case slaveW =>
    simp only [CWPort.step] at hv ⊢
    unfold CWPort.slaveW at hv ⊢
    split
    · rename_i s hd hs hacc
      split
      · split
        · right; rw [hacc]; exact Nat.zero_lt_one
        · exact .inl rfl
      · exact .inl rfl
    · rename_i s w hd hs hacc
      simp only [hd, hs, hacc] at hv
      split
      · rename_i hn
        exfalso
        simp only [if_pos hn] at hv
        split at hv
        · have := congrArg WPort.died hv
          simp [CWPort.view, hd] at this
        · split at hv
          · have := congrArg WPort.died hv
            simp [CWPort.view, hd] at this
          · have := congrArg WPort.sl hv
            simp only [CWPort.view, hs, Option.some.injEq] at this
            have := congrArg WBurst.n this
            simp at this
      · exact .inl rfl
    · rename_i s hd hs hacc
      right; rw [hacc]; exact Nat.lt_succ_self 1
    · exact .inl rfl
  all_goals exact .inl rfl

theorem CRPort.got_step {args : Nat → Req} (p : CRPort) (st : σ) (e : REv) (he : e.progress = true)
    (hv : (p.step c args t st e).1.view = p.view) :
    (p.step c args t st e).1.got = p.got ∨ gotRank (p.step c args t st e).1.got < gotRank p.got := by
  cases e
  case read => cases he
  case init => cases he
  case reset v => cases he
  case start => left; simp only [CRPort.step, CRPort.start]; split <;> rfl
  case sendAR => left; simp only [CRPort.step, CRPort.sendAR]; repeat' split
                 all_goals rfl
  case slaveAR => left; simp only [CRPort.step, CRPort.slaveAR]; repeat' split
                  all_goals rfl
  case deliver => left; simp only [CRPort.step, CRPort.deliver]; split <;> rfl
  case slaveR =>
    simp only [CRPort.step] at hv ⊢
    unfold CRPort.slaveR at hv ⊢
    split
    · rename_i b hd hg hb
      right; rw [hg]; exact Nat.zero_lt_one
    · rename_i s hd hg hs hb
      exfalso
      simp only [hd, hg, hs, hb] at hv
      have := congrArg RPort.r hv
      simp [CRPort.view, hg] at this
    · exact .inl rfl
  all_goals exact .inl rfl

end

/-! ## Between two edges -/

section

variable {α : Type}

def srcWt : Pc → Nat
  | .due => 2
  | .woken => 1
  | _ => 0

def snkWt : Pc → Nat
  | .due => 3
  | .asleep => 2
  | .woken => 1
  | _ => 0

def flagWt (l : List (α × Bool)) : Nat := (l.map fun w => if w.2 then 2 else 1).sum

/-- What can still happen in a channel before the next edge. -/
def calm (s : Net α) : Nat :=
  2 * (srcWt s.src.pc + flagWt s.src.waiters + snkWt s.snk.pc) + if s.settled then 0 else 1

theorem flagWt_run {c : Stream.Cfg} (s : Src α) (r : Bool) : flagWt (s.run c r).waiters ≤ flagWt s.waiters + s.waiters.length := by
  have h1 : flagWt (s.setDeq).waiters ≤ flagWt s.waiters + s.waiters.length := by
    simp only [Src.setDeq, flagWt]
    induction s.waiters with
    | nil => simp
    | cons x l ih =>
      simp only [List.map_cons, List.sum_cons, List.length_cons, if_true] at ih ⊢
      split <;> omega
  unfold Src.run
  simp only
  repeat' split
  all_goals first | exact h1 | exact Nat.le_add_right _ _

theorem srcWt_run {c : Stream.Cfg} (s : Src α) (r : Bool) : srcWt (s.run c r).pc = 0 := by
  unfold Src.run
  simp only
  repeat' split
  all_goals rfl

theorem snkWt_run {c : Stream.Cfg} (s : Snk α) (v : Bool) (d : Option α) : snkWt (s.run c v d).pc ≤ 2 := by
  unfold Snk.run
  have := Stream.finish_due (c := c) (s := s.capture c v d) (v := v)
  revert this
  generalize (s.capture c v d).finish c v = k
  intro h
  cases hk : k.pc <;> simp_all [snkWt]

theorem snkWt_wake (p : Pc) : snkWt p.wakeUp ≤ snkWt p := by cases p <;> simp [snkWt, Pc.wakeUp]
theorem srcWt_wake (p : Pc) : srcWt p.wakeUp ≤ srcWt p + 1 := by cases p <;> simp [srcWt, Pc.wakeUp]

theorem ite_le (b : Bool) : (if b = true then 0 else 1) ≤ 1 := by cases b <;> simp

theorem calm_inner {s : Net α} (h : ChanInv s) (e : Inner) (he : e.piece = true) : e.step s = s ∨ calm (e.step s) < calm s := by
  cases e
  case srcRun =>
    simp only [Inner.step, Net.step]
    split
    · rename_i hd
      right
      have h1 := flagWt_run (c := chanCfg.src) s.src s.snk.ready
      have h2 := h.one
      have h3 := srcWt_run (c := chanCfg.src) s.src s.snk.ready
      have h4 : srcWt s.src.pc = 2 := by rw [hd]; rfl
      simp only [calm, h3, h4]
      simp
      omega
    · exact .inl rfl
  case srcWake =>
    simp only [Inner.step, Net.step]
    split
    · rename_i hd
      right
      simp only [calm, hd, srcWt]
      simp
      omega
    · exact .inl rfl
  case snkRun =>
    simp only [Inner.step, Net.step]
    split
    · rename_i hd
      right
      have h1 := snkWt_run (c := chanCfg.snk) s.snk s.src.valid s.src.data
      have h3 : snkWt s.snk.pc = 3 := by rw [hd]; rfl
      simp only [calm, h3]
      simp
      omega
    · exact .inl rfl
  case snkWake =>
    simp only [Inner.step, Net.step]
    split
    · rename_i hd
      right
      simp only [calm, hd, snkWt, Snk.top]
      simp
      omega
    · exact .inl rfl
  case snkSpurious =>
    simp only [Inner.step, Net.step]
    split
    · rename_i hd
      right
      simp only [calm, hd, snkWt, Snk.top]
      simp
      omega
    · exact .inl rfl
  case resume =>
    simp only [Inner.step]
    split
    · rename_i hany
      right
      have h1 := h.one
      cases hw : s.src.waiters with
      | nil => rw [hw] at hany; simp at hany
      | cons x l =>
        have : l = [] := by rw [hw] at h1; simpa using h1
        subst this
        obtain ⟨x, f⟩ := x
        have hf : f = true := by rw [hw] at hany; simpa using hany
        subst hf
        simp only [Net.step, Src.resume, hw, List.getElem?_cons_zero]
        split
        · simp [calm, flagWt, hw]
          omega
        · have := srcWt_wake s.src.pc
          simp [calm, flagWt, hw, Src.put]
          omega
    · exact .inl rfl
  case srcPause v => cases he
  case snkPause v => cases he

theorem commit_step {s : Net α} (hc : canCommit s = true) : s.step chanCfg .commit =
    { src := { s.src with valid := s.src.nvalid, data := s.src.ndata }
      snk := if (s.src.nvalid && !s.src.valid) || (s.snk.nready && !s.snk.ready) then ({ s.snk with ready := s.snk.nready } : Snk α).setWake
        else { s.snk with ready := s.snk.nready }
      settled := true } := by
  simp only [Net.step]
  rw [if_pos (by exact hc)]

theorem calm_commit {s : Net α} (h : ChanInv s) (hc : canCommit s = true) :
    s.step chanCfg .commit = s ∨ calm (s.step chanCfg .commit) < calm s := by
  have hs := commit_step hc
  cases hset : s.settled with
  | true =>
    left
    rw [hs]
    obtain ⟨e1, e2, e3⟩ := h.net.set hset
    rw [← e1, ← e2, ← e3]
    have : ¬ (((s.src.valid && !s.src.valid) || (s.snk.ready && !s.snk.ready)) = true) := by simp
    rw [if_neg this]
    obtain ⟨a, b, f⟩ := s
    subst hset
    rfl
  | false =>
    right
    rw [hs]
    have := snkWt_wake s.snk.pc
    simp only [calm, hset]
    split
    · simp [Snk.setWake]
      omega
    · simp

/-- Nothing can happen before the next edge. -/
theorem calm_rest {s : Net α} (h1 : Inner.srcRun.step s = s) (h2 : Inner.srcWake.step s = s) (h3 : Inner.snkRun.step s = s)
    (h4 : Inner.snkWake.step s = s) : canCommit s = true := by
  have hd : s.src.pc ≠ .due := by
    intro hd
    have h := h1
    simp only [Inner.step, Net.step, if_pos hd] at h
    have := congrArg (fun n : Net α => srcWt n.src.pc) h
    simp only [srcWt_run, hd] at this
    cases this
  have hw : s.src.pc ≠ .woken := by
    intro hd
    have h := h2
    simp only [Inner.step, Net.step, if_pos hd] at h
    have := congrArg (fun n : Net α => n.src.pc) h
    simp [hd] at this
  have kd : s.snk.pc ≠ .due := by
    intro hd
    have h := h3
    simp only [Inner.step, Net.step, if_pos hd] at h
    have := congrArg (fun n : Net α => n.snk.pc) h
    simp only [hd] at this
    exact Stream.finish_due this
  have kw : s.snk.pc ≠ .woken := by
    intro hd
    have h := h4
    simp only [Inner.step, Net.step, if_pos hd] at h
    have := congrArg (fun n : Net α => n.snk.pc) h
    simp [hd, Snk.top] at this
  simp only [canCommit, Bool.and_eq_true, Stream.still_iff]
  exact ⟨⟨hd, hw⟩, kd, kw⟩

end

/-! ## The channels of a running system -/

theorem Master.step_running {ρ : Type} (n : Nat) (m : Master ρ) (e : AxiOps.Ev ρ) (h1 : e ≠ .reset true) (h2 : e ≠ .reset false) :
    (m.step n e).running = m.running := by
  cases e with
  | write op => rfl
  | init op => rfl
  | runInit i => simp only [Master.step]; split <;> rfl
  | take => simp only [Master.step, Master.take]; split <;> (try split) <;> rfl
  | burst => simp only [Master.step, Master.burst]; split <;> (try split) <;> rfl
  | start => simp only [Master.step, Master.start]; split <;> (try split) <;> rfl
  | resp t r => simp only [Master.step, Master.resp]; split <;> (try split) <;> rfl
  | workTake i => rfl
  | workGet i => simp only [Master.step, Master.workGet]; split <;> (try split) <;> rfl
  | workDone i => simp only [Master.step, Master.workDone]; split <;> rfl
  | reset v => cases v <;> simp at h1 h2

/-- A channel is fine, and runs if its master does. -/
structure ChanFine {α : Type} (run : Bool) (s : Net α) : Prop where
  live : ChanLive s
  on : run = true → ChanOn s

theorem ChanFine.send {α : Type} {b : Bool} {s : Net α} (h : ChanFine b s) (x : α) : ChanFine b (s.step chanCfg (.send x)) :=
  ⟨h.live.step _ (by simp), fun hb => (h.on hb).step _ (by simp) (by simp)⟩

theorem ChanFine.recv {α : Type} {b : Bool} {s : Net α} (h : ChanFine b s) : ChanFine b (s.step chanCfg .recv) :=
  ⟨h.live.step _ (by simp), fun hb => (h.on hb).step _ (by simp) (by simp)⟩

theorem ChanFine.inner {α : Type} {b : Bool} {s : Net α} (h : ChanFine b s) (e : Inner) : ChanFine b (e.step s) :=
  ⟨h.live.inner e, fun hb => (h.on hb).inner e⟩

theorem ChanFine.tick {α : Type} {b : Bool} {s : Net α} (h : ChanFine b s) : ChanFine b (s.step chanCfg .tick) :=
  ⟨h.live.step _ (by simp), fun hb => (h.on hb).step _ (by simp) (by simp)⟩

theorem ChanFine.commit {α : Type} {b : Bool} {s : Net α} (h : ChanFine b s) : ChanFine b (s.step chanCfg .commit) :=
  ⟨h.live.step _ (by simp), fun hb => (h.on hb).step _ (by simp) (by simp)⟩

structure CWFine (p : CWPort) : Prop where
  aw : ChanFine p.m.running p.aw
  w : ChanFine p.m.running p.w
  b : ChanFine p.m.running p.b

structure CRFine (p : CRPort) : Prop where
  ar : ChanFine p.m.running p.ar
  r : ChanFine p.m.running p.r

theorem CWFine.of {p q : CWPort} (h : q.m.running = p.m.running) (h1 : ChanFine p.m.running q.aw) (h2 : ChanFine p.m.running q.w)
    (h3 : ChanFine p.m.running q.b) : CWFine q := ⟨h ▸ h1, h ▸ h2, h ▸ h3⟩

theorem CRFine.of {p q : CRPort} (h : q.m.running = p.m.running) (h1 : ChanFine p.m.running q.ar)
    (h2 : ChanFine p.m.running q.r) : CRFine q := ⟨h ▸ h1, h ▸ h2⟩

section

variable {σ : Type} {c : Cfg} {t : Target σ}

theorem CWFine.step {args : Nat → WArgs} {p : CWPort} (h : CWFine p) (st : σ) (e : WEv) : CWFine (p.step c args t st e).1 := by
  have hm : ∀ (e : AxiOps.Ev BBeat), e ≠ .reset true → e ≠ .reset false → (p.m.step c.idCount e).running = p.m.running :=
    fun e h1 h2 => Master.step_running _ _ _ h1 h2
  cases e
  case write =>
    refine .of ?_ h.aw h.w h.b
    simp only [CWPort.step, CWPort.update, WPort.write]
    split
    · exact hm _ (by simp) (by simp)
    · rfl
  case init =>
    refine .of ?_ h.aw h.w h.b
    simp only [CWPort.step, CWPort.update, WPort.init]
    split
    · exact hm _ (by simp) (by simp)
    · rfl
  case take =>
    refine .of ?_ h.aw h.w h.b
    simp only [CWPort.step, CWPort.update, WPort.take]
    repeat' split
    all_goals first | rfl | exact hm _ (by simp) (by simp)
  case start =>
    simp only [CWPort.step, CWPort.start]
    split
    · exact h
    · refine .of ?_ h.aw h.w h.b
      simp only [CWPort.update, WPort.start]
      split
      · exact hm _ (by simp) (by simp)
      · rfl
  case reset v =>
    cases v
    · exact ⟨⟨h.aw.live.started, fun _ => .started _⟩, ⟨h.w.live.started, fun _ => .started _⟩, ⟨h.b.live.started, fun _ => .started _⟩⟩
    · have hr : (p.m.step c.idCount (.reset true)).running = false := rfl
      refine ⟨⟨.reset _, ?_⟩, ⟨.reset _, ?_⟩, ⟨.reset _, ?_⟩⟩ <;>
        (intro hh; simp only [CWPort.step, CWPort.reset, if_true] at hh; rw [hr] at hh; cases hh)
  case sendAW =>
    simp only [CWPort.step]
    unfold CWPort.sendAW
    split
    · split
      · exact .of (hm _ (by simp) (by simp)) (h.aw.send _) h.w h.b
      · exact ⟨h.aw, h.w, h.b⟩
    · exact h
  case sendW =>
    simp only [CWPort.step]
    unfold CWPort.sendW
    split
    · exact ⟨h.aw, h.w.send _, h.b⟩
    · exact h
  case slaveAW =>
    simp only [CWPort.step]
    unfold CWPort.slaveAW
    simp only
    repeat' split
    all_goals first | exact h | exact ⟨h.aw, h.w, h.b⟩ | exact ⟨h.aw.recv, h.w, h.b⟩
  case slaveW =>
    simp only [CWPort.step]
    unfold CWPort.slaveW
    simp only
    repeat' split
    all_goals first | exact h | exact ⟨h.aw, h.w, h.b⟩ | exact ⟨h.aw, h.w.recv, h.b⟩
  case slaveB =>
    simp only [CWPort.step]
    unfold CWPort.slaveB
    repeat' split
    all_goals first | exact h | exact ⟨h.aw, h.w, h.b.send _⟩
  case deliver =>
    simp only [CWPort.step]
    unfold CWPort.deliver
    split
    · exact .of (hm _ (by simp) (by simp)) h.aw h.w h.b.recv
    · exact h
  all_goals exact .of (hm _ (by simp) (by simp)) h.aw h.w h.b

theorem CRFine.step {args : Nat → Req} {p : CRPort} (h : CRFine p) (st : σ) (e : REv) : CRFine (p.step c args t st e).1 := by
  have hm : ∀ (e : AxiOps.Ev RBeat), e ≠ .reset true → e ≠ .reset false → (p.m.step c.idCount e).running = p.m.running :=
    fun e h1 h2 => Master.step_running _ _ _ h1 h2
  cases e
  case read =>
    refine .of ?_ h.ar h.r
    simp only [CRPort.step, CRPort.update, RPort.read]
    split
    · exact hm _ (by simp) (by simp)
    · rfl
  case init =>
    refine .of ?_ h.ar h.r
    simp only [CRPort.step, CRPort.update, RPort.init]
    split
    · exact hm _ (by simp) (by simp)
    · rfl
  case take =>
    refine .of ?_ h.ar h.r
    simp only [CRPort.step, CRPort.update, RPort.take]
    repeat' split
    all_goals first | rfl | exact hm _ (by simp) (by simp)
  case start =>
    simp only [CRPort.step, CRPort.start]
    split
    · exact h
    · refine .of ?_ h.ar h.r
      simp only [CRPort.update, RPort.start]
      split
      · exact hm _ (by simp) (by simp)
      · rfl
  case reset v =>
    cases v
    · exact ⟨⟨h.ar.live.started, fun _ => .started _⟩, ⟨h.r.live.started, fun _ => .started _⟩⟩
    · have hr : (p.m.step c.idCount (.reset true)).running = false := rfl
      refine ⟨⟨.reset _, ?_⟩, ⟨.reset _, ?_⟩⟩ <;>
        (intro hh; simp only [CRPort.step, CRPort.reset, if_true] at hh; rw [hr] at hh; cases hh)
  case sendAR =>
    simp only [CRPort.step]
    unfold CRPort.sendAR
    split
    · split
      · exact .of (hm _ (by simp) (by simp)) (h.ar.send _) h.r
      · exact ⟨h.ar, h.r⟩
    · exact h
  case slaveAR =>
    simp only [CRPort.step]
    unfold CRPort.slaveAR
    simp only
    repeat' split
    all_goals first | exact h | exact ⟨h.ar, h.r⟩ | exact ⟨h.ar.recv, h.r⟩
  case slaveR =>
    simp only [CRPort.step]
    unfold CRPort.slaveR
    split
    · exact ⟨h.ar, h.r.send _⟩
    · exact ⟨h.ar, h.r⟩
    · exact h
  case deliver =>
    simp only [CRPort.step]
    unfold CRPort.deliver
    split
    · exact .of (hm _ (by simp) (by simp)) h.ar h.r.recv
    · exact h
  all_goals exact .of (hm _ (by simp) (by simp)) h.ar h.r

structure CFine (s : CSys σ) : Prop where
  w : CWFine s.w
  r : CRFine s.r

theorem CFine.init (st : σ) : CFine ({ mem := st } : CSys σ) :=
  have h : ∀ {α : Type}, ChanFine false ({} : Net α) := ⟨.init, fun h => nomatch h⟩
  ⟨⟨h, h, h⟩, h, h⟩

theorem CFine.step {wa : Nat → WArgs} {ra : Nat → Req} {s : CSys σ} (h : CFine s) (e : CEv) : CFine (s.step c wa ra t e) := by
  cases e with
  | w e => exact ⟨h.w.step _ e, h.r⟩
  | r e => exact ⟨h.w, h.r.step _ e⟩
  | chan k e =>
    cases k
    · exact ⟨⟨h.w.aw.inner e, h.w.w, h.w.b⟩, h.r⟩
    · exact ⟨⟨h.w.aw, h.w.w.inner e, h.w.b⟩, h.r⟩
    · exact ⟨⟨h.w.aw, h.w.w, h.w.b.inner e⟩, h.r⟩
    · exact ⟨h.w, ⟨h.r.ar.inner e, h.r.r⟩⟩
    · exact ⟨h.w, ⟨h.r.ar, h.r.r.inner e⟩⟩
  | tick =>
    simp only [CSys.step]
    split
    · exact ⟨⟨h.w.aw.tick, h.w.w.tick, h.w.b.tick⟩, h.r.ar.tick, h.r.r.tick⟩
    · exact h
  | commit =>
    simp only [CSys.step]
    split
    · exact ⟨⟨h.w.aw.commit, h.w.w.commit, h.w.b.commit⟩, h.r.ar.commit, h.r.r.commit⟩
    · exact h

end

end Verif.AxiSys
