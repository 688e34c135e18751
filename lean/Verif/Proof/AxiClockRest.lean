import Verif.Proof.AxiClockFair
import Verif.Props.AxiSysProgress

/-!
# The clock-level AXI system comes to rest (C95)
-/

namespace Verif.AxiSys

open Verif.Axi Verif.AxiOps Verif.AxiOps.Master
open Verif.Stream (Net NetEv Src Snk Pc)

section

variable {σ : Type} {c : Cfg} {t : Target σ}

/-! ## What is in the channels when the coroutines at their ends cannot do anything -/

theorem WPort.delivered {args : Nat → WArgs} {p : WPort} {st : σ} (h : p.step c args t st .deliver = (p, st)) : p.b = [] := by
  cases hbb : p.b with
  | nil => rfl
  | cons x rest =>
    exfalso
    have h1 := congrArg (fun y => y.1.b) h
    simp only [WPort.step, WPort.deliver, hbb] at h1
    have := congrArg List.length h1
    simp at this

theorem WInv.drained {args : Nat → WArgs} {p : WPort} {w : WWit} (hc : c.Std) (hi : WInv c args p w) (hb : Bal p) {st : σ}
    (h1 : p.step c args t st .slaveAW = (p, st)) (h2 : p.step c args t st .slaveW = (p, st))
    (h3 : p.step c args t st .slaveB = (p, st)) : p.aw = [] ∧ p.w = [] := by
  have hdied := hi.died
  have hnone : p.sl = none → p.aw = [] := by
    intro hsl
    cases ha : p.aw with
    | nil => rfl
    | cons a rest =>
      exfalso
      have g1 := congrArg (fun y => y.1.sl) h1
      have g2 := congrArg (fun y => y.1.died) h1
      simp only [WPort.step, WPort.slaveAW, hsl, hdied, ha] at g1 g2
      split at g1
      · rename_i hx; rw [if_pos hx] at g2; cases g2
      · rename_i hx
        rw [if_neg hx] at g2
        split at g1
        · rename_i hy; rw [if_pos hy] at g2; cases g2
        · cases g1
  have gok : ∀ g ∈ w.cur.toList ++ w.rest, g.ws.length = g.a.len + 1 := by
    intro g hg
    have hm : g ∈ wAll c args p.m := by rw [hi.split]; exact List.mem_append_right _ hg
    have := (wAll_ok hc hi.m hm).1.len
    simpa [ABeat.beats] using this
  have hlt : ∀ s, p.sl = some s → s.n < s.aw.len + 1 := by
    intro s hs
    have h0 := hi.sl
    rw [hs] at h0
    cases hw : w.cur with
    | none => rw [hw] at h0; cases h0
    | some g =>
      rw [hw] at h0
      simp only [Option.map_some, Option.some.injEq] at h0
      have hle := hi.csl g hw
      rw [gok g (by simp [hw])] at hle
      have hne : s.n ≠ s.aw.len + 1 := by
        intro hn
        have g1 := congrArg (fun y => y.1.sl) h3
        simp only [WPort.step, WPort.slaveB, hs, hdied, if_pos hn] at g1
        cases g1
      rw [h0] at hne ⊢
      simp only at hne ⊢
      omega
  have hsome : ∀ s, p.sl = some s → p.w = [] := by
    intro s hs
    cases hww : p.w with
    | nil => rfl
    | cons x rest =>
      exfalso
      have g2 := congrArg (fun y => y.1.w) h2
      have g3 := congrArg (fun y => y.1.died) h2
      simp only [WPort.step, WPort.slaveW, hs, hdied, hww, if_pos (hlt s hs)] at g2 g3
      split at g2
      · rename_i hx; simp only [hx] at g3; cases g3
      · rename_i hx
        simp only [hx] at g3
        split at g2
        · rename_i hy; rw [if_pos hy] at g3; cases g3
        · have := congrArg List.length g2
          simp at this
  cases hsl : p.sl with
  | some s => exact ⟨hb.starved hc hi (hsome s hsl) hlt hnone, hsome s hsl⟩
  | none =>
    refine ⟨hnone hsl, ?_⟩
    have hcur : w.cur = none := by
      have h0 := hi.sl
      rw [hsl] at h0
      cases hw : w.cur with
      | none => rfl
      | some g => rw [hw] at h0; cases h0
    obtain ⟨ws, L, e1, e2, e3⟩ := hb
    have f1 := hi.aws
    have f2 := congrArg List.length hi.wbs
    rw [hnone hsl, e1, awsOf_append, awsOf_inr, blocks_aws, List.nil_append, List.nil_append] at f1
    rw [e1, wsOf_append, wsOf_inr, hcur] at f2
    simp only [Option.toList_none, List.flatMap_nil, List.length_append, List.nil_append] at f2
    rw [blocks_ws L e2, ← f1] at f2
    have f3 : (w.rest.flatMap (·.ws)).length = ((w.rest.map (·.a)).map fun a => a.len + 1).sum := by
      have : ∀ l : List Grp, (∀ g ∈ l, g.ws.length = g.a.len + 1) →
          (l.flatMap (·.ws)).length = ((l.map (·.a)).map fun a => a.len + 1).sum := by
        intro l hl
        induction l with
        | nil => rfl
        | cons y l ih =>
          simp only [List.flatMap_cons, List.length_append, List.map_cons, List.sum_cons]
          rw [ih (fun g hg => hl g (List.mem_cons_of_mem _ hg)), hl y List.mem_cons_self]
      exact this _ (fun g hg => gok g (List.mem_append_right _ hg))
    rw [f3] at f2
    exact List.length_eq_zero_iff.1 (by omega)

theorem RPort.delivered {args : Nat → Req} {p : RPort} {st : σ} (h : p.step c args t st .deliver = (p, st)) : p.r = [] := by
  cases hbb : p.r with
  | nil => rfl
  | cons x rest =>
    exfalso
    have h1 := congrArg (fun y => y.1.r) h
    simp only [RPort.step, RPort.deliver, hbb] at h1
    have := congrArg List.length h1
    simp at this

theorem RPort.drained {args : Nat → Req} {p : RPort} (hdied : p.died = false) {st : σ}
    (h1 : p.step c args t st .slaveAR = (p, st)) (h2 : p.step c args t st .slaveR = (p, st)) : p.ar = [] := by
  have hsl : p.sl = none := by
    cases hs : p.sl with
    | none => rfl
    | some s =>
      exfalso
      have h1 := congrArg (fun y => y.1.r) h2
      simp only [RPort.step, RPort.slaveR, hs, hdied] at h1
      have := congrArg List.length h1
      simp at this
  cases ha : p.ar with
  | nil => rfl
  | cons a rest =>
    exfalso
    have g1 := congrArg (fun y => y.1.sl) h1
    have g2 := congrArg (fun y => y.1.died) h1
    simp only [RPort.step, RPort.slaveAR, hsl, hdied, ha] at g1 g2
    split at g1
    · rename_i hx; rw [if_pos hx] at g2; cases g2
    · rename_i hx
      rw [if_neg hx] at g2
      split at g1
      · rename_i hy; rw [if_pos hy] at g2; cases g2
      · cases g1

/-! ## `pause` -/

/-- The values of `pause` at the two ends of a channel. -/
def flags {α : Type} (s : Net α) : Bool × Bool := (s.src.pause, s.snk.pause)

theorem flags_recv {α : Type} (s : Net α) : flags (s.step chanCfg .recv) = flags s := by
  simp only [Net.step, Snk.recv, flags]
  split <;> rfl

theorem flags_send {α : Type} (s : Net α) (x : α) : flags (s.step chanCfg (.send x)) = flags s := by
  simp only [Net.step, Src.send, Src.put, flags]
  split <;> rfl

theorem run_pause {α : Type} {c : Stream.Cfg} (s : Src α) (r : Bool) : (s.run c r).pause = s.pause := by
  unfold Src.run
  simp only
  repeat' split
  all_goals rfl

theorem snk_run_pause {α : Type} {c : Stream.Cfg} (s : Snk α) (v : Bool) (d : Option α) : (s.run c v d).pause = s.pause := by
  unfold Snk.run
  rw [Stream.finish_pause]
  unfold Snk.capture
  simp only
  split <;> rfl

theorem flags_inner {α : Type} (s : Net α) (e : Inner) (he : e.piece = true) : flags (e.step s) = flags s := by
  refine Prod.ext ?_ ?_ <;> simp only [flags]
  · cases e <;> simp only [Inner.step, Net.step]
    case resume =>
      split
      · unfold Src.resume
        repeat' split
        all_goals rfl
      · rfl
    case srcPause v => cases he
    all_goals first | rfl | (split <;> first | rfl | exact run_pause _ _)
  · cases e <;> simp only [Inner.step, Net.step]
    case snkPause v => cases he
    all_goals first | rfl | (split <;> first | rfl | exact snk_run_pause _ _ _)

theorem flags_all {α : Type} (s : Net α) : flags (s.step chanCfg .commit) = flags s ∧ flags (s.step chanCfg .tick) = flags s := by
  constructor <;> simp only [flags, Net.step]
  · split
    · split <;> rfl
    · rfl
  · split <;> rfl

theorem flags_w {args : Nat → WArgs} {p : CWPort} (st : σ) (e : WEv) (he : e.progress = true) :
    let q := (p.step c args t st e).1
    flags q.aw = flags p.aw ∧ flags q.w = flags p.w ∧ flags q.b = flags p.b := by
  cases e
  case write => cases he
  case init => cases he
  case reset v => cases he
  case start =>
    simp only [CWPort.step, CWPort.start]
    split <;> exact ⟨rfl, rfl, rfl⟩
  case sendAW =>
    simp only [CWPort.step]
    unfold CWPort.sendAW
    repeat' split
    all_goals first | exact ⟨rfl, rfl, rfl⟩ | exact ⟨flags_send _ _, rfl, rfl⟩
  case sendW =>
    simp only [CWPort.step]
    unfold CWPort.sendW
    split
    all_goals first | exact ⟨rfl, rfl, rfl⟩ | exact ⟨rfl, flags_send _ _, rfl⟩
  case slaveAW =>
    simp only [CWPort.step]
    unfold CWPort.slaveAW
    simp only
    repeat' split
    all_goals first | exact ⟨rfl, rfl, rfl⟩ | exact ⟨flags_recv _, rfl, rfl⟩
  case slaveW =>
    simp only [CWPort.step]
    unfold CWPort.slaveW
    simp only
    repeat' split
    all_goals first | exact ⟨rfl, rfl, rfl⟩ | exact ⟨rfl, flags_recv _, rfl⟩
  case slaveB =>
    simp only [CWPort.step]
    unfold CWPort.slaveB
    repeat' split
    all_goals first | exact ⟨rfl, rfl, rfl⟩ | exact ⟨rfl, rfl, flags_send _ _⟩
  case deliver =>
    simp only [CWPort.step]
    unfold CWPort.deliver
    split
    all_goals first | exact ⟨rfl, rfl, rfl⟩ | exact ⟨rfl, rfl, flags_recv _⟩
  all_goals exact ⟨rfl, rfl, rfl⟩

theorem flags_r {args : Nat → Req} {p : CRPort} (st : σ) (e : REv) (he : e.progress = true) :
    let q := (p.step c args t st e).1
    flags q.ar = flags p.ar ∧ flags q.r = flags p.r := by
  cases e
  case read => cases he
  case init => cases he
  case reset v => cases he
  case start =>
    simp only [CRPort.step, CRPort.start]
    split <;> exact ⟨rfl, rfl⟩
  case sendAR =>
    simp only [CRPort.step]
    unfold CRPort.sendAR
    repeat' split
    all_goals first | exact ⟨rfl, rfl⟩ | exact ⟨flags_send _ _, rfl⟩
  case slaveAR =>
    simp only [CRPort.step]
    unfold CRPort.slaveAR
    simp only
    repeat' split
    all_goals first | exact ⟨rfl, rfl⟩ | exact ⟨flags_recv _, rfl⟩
  case slaveR =>
    simp only [CRPort.step]
    unfold CRPort.slaveR
    split
    all_goals first | exact ⟨rfl, rfl⟩ | exact ⟨rfl, flags_send _ _⟩
  case deliver =>
    simp only [CRPort.step]
    unfold CRPort.deliver
    split
    all_goals first | exact ⟨rfl, rfl⟩ | exact ⟨rfl, flags_recv _⟩
  all_goals exact ⟨rfl, rfl⟩

/-- The values of `pause` at all ends. -/
def CSys.flags (s : CSys σ) : List (Bool × Bool) :=
  [AxiSys.flags s.w.aw, AxiSys.flags s.w.w, AxiSys.flags s.w.b, AxiSys.flags s.r.ar, AxiSys.flags s.r.r]

theorem unpaused_iff {s : CSys σ} : Unpaused s ↔ s.flags = List.replicate 5 (false, false) := by
  simp only [CSys.flags, AxiSys.flags, List.replicate, List.cons.injEq, Prod.mk.injEq, and_true]
  exact ⟨fun ⟨a, b, c, d, e⟩ => ⟨a, b, c, d, e⟩, fun ⟨a, b, c, d, e⟩ => ⟨a, b, c, d, e⟩⟩

/-! ## One event -/

variable {wa : Nat → WArgs} {ra : Nat → Req}

/-- All channels do something of their own, or nothing. -/
structure AllQuiet (s s' : CSys σ) : Prop where
  aw : Quiet s.w.aw s'.w.aw
  w : Quiet s.w.w s'.w.w
  b : Quiet s.w.b s'.w.b
  ar : Quiet s.r.ar s'.r.ar
  r : Quiet s.r.r s'.r.r

theorem AllQuiet.refl (s : CSys σ) : AllQuiet s s := ⟨.stay, .stay, .stay, .stay, .stay⟩

/-- Every channel is ready for the edge. -/
def ticks (s : CSys σ) : Bool := canTick s.w.aw && canTick s.w.w && canTick s.w.b && canTick s.r.ar && canTick s.r.r

theorem quiet_inner (s : CSys σ) (k : Chan) (e : Inner) : AllQuiet s (s.inner k e) := by
  cases k
  · exact ⟨.inner e, .stay, .stay, .stay, .stay⟩
  · exact ⟨.stay, .inner e, .stay, .stay, .stay⟩
  · exact ⟨.stay, .stay, .inner e, .stay, .stay⟩
  · exact ⟨.stay, .stay, .stay, .inner e, .stay⟩
  · exact ⟨.stay, .stay, .stay, .stay, .inner e⟩

theorem quiet_tick (s : CSys σ) (h : ticks s = true) : AllQuiet s (s.all .tick) := by
  simp only [ticks, Bool.and_eq_true] at h
  obtain ⟨⟨⟨⟨h1, h2⟩, h3⟩, h4⟩, h5⟩ := h
  exact ⟨.tick h1, .tick h2, .tick h3, .tick h4, .tick h5⟩

theorem quiet_commit (s : CSys σ)
    (h : (canCommit s.w.aw && canCommit s.w.w && canCommit s.w.b && canCommit s.r.ar && canCommit s.r.r) = true) :
    AllQuiet s (s.all .commit) := by
  simp only [Bool.and_eq_true] at h
  obtain ⟨⟨⟨⟨h1, h2⟩, h3⟩, h4⟩, h5⟩ := h
  exact ⟨.commit h1, .commit h2, .commit h3, .commit h4, .commit h5⟩

/-- One event: a piece of a coroutine of a master or slave, or something inside the channels. -/
theorem quiet_step (s : CSys σ) (e : CEv) :
    (∃ e', e = .w e') ∨ (∃ e', e = .r e') ∨ AllQuiet s (s.step c wa ra t e) := by
  cases e with
  | w e => exact .inl ⟨e, rfl⟩
  | r e => exact .inr (.inl ⟨e, rfl⟩)
  | chan k e => exact .inr (.inr (quiet_inner s k e))
  | tick =>
    refine .inr (.inr ?_)
    simp only [CSys.step]
    split
    · rename_i h; exact quiet_tick s h
    · exact .refl s
  | commit =>
    refine .inr (.inr ?_)
    simp only [CSys.step]
    split
    · rename_i h; exact quiet_commit s h
    · exact .refl s

theorem CSys.step_flags (s : CSys σ) (e : CEv) (he : e.progress = true) : (s.step c wa ra t e).flags = s.flags := by
  cases e with
  | w e =>
    obtain ⟨h1, h2, h3⟩ := flags_w (c := c) (args := wa) (t := t) (p := s.w) s.mem e he
    simp only [CSys.flags, CSys.step, h1, h2, h3]
  | r e =>
    obtain ⟨h1, h2⟩ := flags_r (c := c) (args := ra) (t := t) (p := s.r) s.mem e he
    simp only [CSys.flags, CSys.step, h1, h2]
  | chan k e => cases k <;> simp only [CSys.flags, CSys.step, CSys.inner, flags_inner _ e he]
  | tick =>
    simp only [CSys.step]
    split
    · simp only [CSys.flags, CSys.all, flags_all]
    · rfl
  | commit =>
    simp only [CSys.step]
    split
    · simp only [CSys.flags, CSys.all, flags_all]
    · rfl

theorem Unpaused.step {s : CSys σ} (h : Unpaused s) (e : CEv) (he : e.progress = true) : Unpaused (s.step c wa ra t e) := by
  rw [unpaused_iff, CSys.step_flags s e he, ← unpaused_iff]
  exact h

theorem CEv.quiet_of {e : CEv} (h : e.progress = true) : e.quiet = true := by cases e <;> first | exact h | rfl

/-- An event that is not a call or reset is such an event of the system with FIFO channels. -/
theorem CInv.progress {s : CSys σ} (h : CInv s) (e : CEv) (he : e.quiet = true) :
    ∃ e' : Ev, e'.progress = true ∧ (s.step c wa ra t e).view = s.view.step c wa ra t e' := by
  have stay : ∃ e' : Ev, e'.progress = true ∧ s.view = s.view.step c wa ra t e' := ⟨_, rfl, (Sys.step_idle s.view).symm⟩
  have same : (s.step c wa ra t e).view = s.view → ∃ e' : Ev, e'.progress = true ∧ (s.step c wa ra t e).view = s.view.step c wa ra t e' :=
    fun hh => by rw [hh]; exact stay
  cases e with
  | w e =>
    obtain ⟨h1, e', he', h2⟩ := h.w.step (c := c) (args := wa) (t := t) s.mem e
    refine ⟨.w e', ?_, ?_⟩
    · rcases he' with rfl | rfl
      · exact he
      · rfl
    · simp only [CSys.step, CSys.view, Sys.step]
      rw [← h2]
  | r e =>
    obtain ⟨h1, e', he', h2⟩ := h.r.step (c := c) (args := ra) (t := t) s.mem e
    refine ⟨.r e', ?_, ?_⟩
    · rcases he' with rfl | rfl
      · exact he
      · rfl
    · simp only [CSys.step, CSys.view, Sys.step]
      rw [← h2]
  | chan k e => exact same (h.inner k e).2
  | tick =>
    refine same ?_
    simp only [CSys.step]
    split
    · simp only [CSys.all, CSys.view, CWPort.view, CRPort.view, h.w.aw.tick.2, h.w.w.tick.2, h.w.b.tick.2, h.r.ar.tick.2, h.r.r.tick.2]
    · rfl
  | commit =>
    refine same ?_
    simp only [CSys.step]
    split
    · simp only [CSys.all, CSys.view, CWPort.view, CRPort.view, h.w.aw.commit.2, h.w.w.commit.2, h.w.b.commit.2, h.r.ar.commit.2,
        h.r.r.commit.2]
    · rfl

/-- The state with the channels as FIFOs, and how far the slave is with its accesses. -/
def CSys.seen (s : CSys σ) : Sys σ × Acc × Option RBeat := (s.view, s.w.acc, s.r.got)

/-- An event that changes nothing with FIFO channels leaves the accesses of the slave as they are or brings them forward. -/
theorem CSys.seen_step (s : CSys σ) (e : CEv) (he : e.quiet = true) (hv : (s.step c wa ra t e).view = s.view) :
    (s.step c wa ra t e).seen = s.seen ∨
      (s.step c wa ra t e).w.acc.rank + gotRank (s.step c wa ra t e).r.got < s.w.acc.rank + gotRank s.r.got := by
  have key : (s.step c wa ra t e).w.acc = s.w.acc → (s.step c wa ra t e).r.got = s.r.got → (s.step c wa ra t e).seen = s.seen := by
    intro h1 h2
    simp only [CSys.seen, hv, h1, h2]
  cases e with
  | w e =>
    rcases s.w.acc_step (c := c) (args := wa) (t := t) s.mem e he (congrArg Sys.w hv) with h | h
    · exact .inl (key h rfl)
    · right; simp only [CSys.step]; omega
  | r e =>
    rcases s.r.got_step (c := c) (args := ra) (t := t) s.mem e he (congrArg Sys.r hv) with h | h
    · exact .inl (key rfl h)
    · right; simp only [CSys.step]; omega
  | chan k e => exact .inl (key (by cases k <;> rfl) (by cases k <;> rfl))
  | tick => exact .inl (key (by simp only [CSys.step]; split <;> rfl) (by simp only [CSys.step]; split <;> rfl))
  | commit => exact .inl (key (by simp only [CSys.step]; split <;> rfl) (by simp only [CSys.step]; split <;> rfl))

theorem CInv.same {s : CSys σ} (h : CInv s) (e : CEv) (he : e.quiet = true) (hv : (s.step c wa ra t e).seen = s.seen)
    (hp : (∃ e', e = .w e') ∨ ∃ e', e = .r e') : s.step c wa ra t e = s := by
  have ha : (s.step c wa ra t e).w.acc = s.w.acc := congrArg (fun x => x.2.1) hv
  have hg : (s.step c wa ra t e).r.got = s.r.got := congrArg (fun x => x.2.2) hv
  replace hv : (s.step c wa ra t e).view = s.view := congrArg Prod.fst hv
  rcases hp with ⟨e, rfl⟩ | ⟨e, rfl⟩
  · have h1 := congrArg Sys.w hv
    have h2 := congrArg Sys.mem hv
    have h3 := h.w.same (c := c) (args := wa) (t := t) s.mem e he h1 ha
    simp only [CSys.view, CSys.step] at h2
    simp only [CSys.step, h3, h2]
  · have h1 := congrArg Sys.r hv
    have h2 := congrArg Sys.mem hv
    have h3 := h.r.same (c := c) (args := ra) (t := t) s.mem e he h1 hg
    simp only [CSys.view, CSys.step] at h2
    simp only [CSys.step, h3, h2]

theorem CInv.quiet {s : CSys σ} (h : CInv s) (e : CEv) (he : e.quiet = true) (hv : (s.step c wa ra t e).seen = s.seen) :
    AllQuiet s (s.step c wa ra t e) := by
  rcases quiet_step (c := c) (wa := wa) (ra := ra) (t := t) s e with hp | hp | q
  · rw [h.same e he hv (.inl hp)]; exact .refl s
  · rw [h.same e he hv (.inr hp)]; exact .refl s
  · exact q

/-- What can still happen in the channels before the next edge. -/
def calms (s : CSys σ) : Nat := calm s.w.aw + calm s.w.w + calm s.w.b + calm s.r.ar + calm s.r.r

theorem CInv.calms {s : CSys σ} (h : CInv s) (e : CEv) (he : e.progress = true) (hv : (s.step c wa ra t e).seen = s.seen) :
    s.step c wa ra t e = s ∨ (e = .tick ∧ ticks s = true ∧ s.step c wa ra t e = s.all .tick) ∨
      calms (s.step c wa ra t e) < calms s := by
  cases e with
  | w e => exact .inl (h.same _ he hv (.inl ⟨e, rfl⟩))
  | r e => exact .inl (h.same _ he hv (.inr ⟨e, rfl⟩))
  | chan k e =>
    cases k
    · rcases calm_inner h.w.aw e he with h1 | h1
      · left; simp only [CSys.step, CSys.inner, h1]
      · right; right; simp only [CSys.step, CSys.inner, AxiSys.calms]; omega
    · rcases calm_inner h.w.w e he with h1 | h1
      · left; simp only [CSys.step, CSys.inner, h1]
      · right; right; simp only [CSys.step, CSys.inner, AxiSys.calms]; omega
    · rcases calm_inner h.w.b e he with h1 | h1
      · left; simp only [CSys.step, CSys.inner, h1]
      · right; right; simp only [CSys.step, CSys.inner, AxiSys.calms]; omega
    · rcases calm_inner h.r.ar e he with h1 | h1
      · left; simp only [CSys.step, CSys.inner, h1]
      · right; right; simp only [CSys.step, CSys.inner, AxiSys.calms]; omega
    · rcases calm_inner h.r.r e he with h1 | h1
      · left; simp only [CSys.step, CSys.inner, h1]
      · right; right; simp only [CSys.step, CSys.inner, AxiSys.calms]; omega
  | tick =>
    by_cases ht : ticks s = true
    · right; left
      refine ⟨rfl, ht, ?_⟩
      simp only [CSys.step]
      rw [if_pos (by exact ht)]
    · left
      simp only [CSys.step]
      rw [if_neg (by exact ht)]
  | commit =>
    simp only [CSys.step]
    split
    · rename_i hh
      simp only [Bool.and_eq_true] at hh
      obtain ⟨⟨⟨⟨h1, h2⟩, h3⟩, h4⟩, h5⟩ := hh
      have key : ∀ {α : Type} {n : Net α}, ChanInv n → canCommit n = true →
          calm (n.step chanCfg .commit) ≤ calm n ∧ (calm (n.step chanCfg .commit) = calm n → n.step chanCfg .commit = n) := by
        intro α n hn hcm
        rcases calm_commit hn hcm with g | g
        · exact ⟨by rw [g]; exact Nat.le_refl _, fun _ => g⟩
        · exact ⟨by omega, fun hh => by omega⟩
      have a1 := key h.w.aw h1
      have a2 := key h.w.w h2
      have a3 := key h.w.b h3
      have a4 := key h.r.ar h4
      have a5 := key h.r.r h5
      by_cases hlt : AxiSys.calms (s.all .commit) < AxiSys.calms s
      · exact .inr (.inr hlt)
      · left
        simp only [AxiSys.calms, CSys.all] at hlt
        simp only [CSys.all]
        rw [a1.2 (by omega), a2.2 (by omega), a3.2 (by omega), a4.2 (by omega), a5.2 (by omega)]
    · exact .inl rfl

end

end Verif.AxiSys
