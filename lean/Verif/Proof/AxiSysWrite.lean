import Verif.Proof.AxiSysOrder
import Verif.Props.Axi
import Verif.Spec.AxiSystem

/-!
# The write side of a connected system: which burst is served when
-/

namespace Verif.AxiSys

open Verif.Axi Verif.AxiOps Verif.AxiOps.Master

/-! ## The bursts of the operations -/

/-- The operation of call number `k`, if it is accepted. -/
def wMk (c : Cfg) (args : Nat → WArgs) (k : Nat) : Option Op :=
  match acceptWrite c (args k).req (args k).data (args k).wuser with
  | .ok _ => some (wOp c args k)
  | .error _ => none

/-- A write burst: ID, operation, number within the operation, its AW transaction and its W transactions. -/
structure Grp where
  t : Nat
  op : Op
  j : Nat
  a : ABeat
  ws : List WBeat

def Grp.lab (g : Grp) : Nat × Op × Nat := (g.t, g.op, g.j)

/-- The bursts of an operation under a given ID. -/
def wGroups (c : Cfg) (args : Nat → WArgs) (x : Nat × Op) : List Grp :=
  match acceptWrite c (args x.2.key).req (args x.2.key).data (args x.2.key).wuser with
  | .ok cmd => (segs c cmd 0).zipIdx.map fun q =>
      ⟨x.1, x.2, q.2, aAt c cmd x.1 q.1.1, segW c cmd (args x.2.key).data (args x.2.key).wuser q.1⟩
  | .error _ => []

variable {c : Cfg} {args : Nat → WArgs}

theorem wMk_some {k : Nat} {op : Op} (h : wMk c args k = some op) :
    op = wOp c args k ∧ ∃ cmd, acceptWrite c (args k).req (args k).data (args k).wuser = .ok cmd := by
  unfold wMk at h
  split at h
  · rename_i cmd hc
    exact ⟨(Option.some.inj h).symm, cmd, hc⟩
  · cases h

theorem wOp_spec (hc : c.Std) {k : Nat} {cmd : Cmd}
    (ha : acceptWrite c (args k).req (args k).data (args k).wuser = .ok cmd) :
    wOp c args k = { key := k, id? := cmd.id, bursts := (segs c cmd 0).map fun _ => 0 } := by
  obtain ⟨h1, _, h3, _⟩ := acceptWrite_ok hc ha
  unfold wOp
  rw [ha]
  simp only
  rw [processWrite_spec c cmd _ _ h1 h3 0]
  simp

theorem wOp_key (k : Nat) : (wOp c args k).key = k := by
  unfold wOp
  split
  · split <;> rfl
  · rfl

theorem need_zeros (l : List (Nat × Nat)) (k : Nat) (i : Option Nat) :
    ({ key := k, id? := i, bursts := l.map fun _ => 0 } : Op).need = l.length := by
  unfold Op.need
  induction l with
  | nil => rfl
  | cons x l ih =>
    simp only [List.map_cons, List.sum_cons, List.length_cons] at ih ⊢
    omega

/-- The facts about an operation that call number `op.key` made. -/
theorem wMade (hc : c.Std) {op : Op} (h : wMk c args op.key = some op) : ∃ cmd,
    acceptWrite c (args op.key).req (args op.key).data (args op.key).wuser = .ok cmd ∧ CmdOK c cmd ∧ cmd.size ≤ 12 ∧
      (args op.key).data.length = cmd.length ∧ op.id? = cmd.id ∧ op.bursts = (segs c cmd 0).map (fun _ => 0) ∧
      op.need = (segs c cmd 0).length := by
  obtain ⟨h1, cmd, h2⟩ := wMk_some h
  obtain ⟨g1, g2, g3, _⟩ := acceptWrite_ok hc h2
  have h3 := wOp_spec hc h2
  refine ⟨cmd, h2, g1, g2, g3, ?_, ?_, ?_⟩
  · rw [h1, h3]
  · rw [h1, h3]
  · rw [h1, h3, need_zeros]

theorem wGroups_lab (hc : c.Std) {t : Nat} {op : Op} (h : wMk c args op.key = some op) :
    (wGroups c args (t, op)).map (·.lab) = (List.range op.need).map fun i => (t, op, i) := by
  obtain ⟨cmd, h1, _, _, _, _, _, h2⟩ := wMade hc h
  unfold wGroups
  simp only [h1]
  rw [h2, List.map_map]
  have : (Grp.lab ∘ fun q : (Nat × Nat) × Nat => (⟨t, op, q.2, aAt c cmd t q.1.1,
      segW c cmd (args op.key).data (args op.key).wuser q.1⟩ : Grp)) = (fun i => (t, op, i)) ∘ Prod.snd := rfl
  rw [this, ← List.map_map, List.zipIdx_map_snd, List.range_eq_range']

theorem wGroups_length (hc : c.Std) {t : Nat} {op : Op} (h : wMk c args op.key = some op) :
    (wGroups c args (t, op)).length = op.bursts.length := by
  obtain ⟨cmd, h1, _, _, _, _, h2, _⟩ := wMade hc h
  unfold wGroups
  simp only [h1, h2, List.length_map, List.length_zipIdx]

theorem wGroups_op {x : Nat × Op} {g : Grp} (h : g ∈ wGroups c args x) : (g.t, g.op) = x := by
  unfold wGroups at h
  split at h
  · obtain ⟨q, _, rfl⟩ := List.mem_map.1 h; rfl
  · simp at h

/-- What the slave needs of a burst. -/
structure Grp.OK (c : Cfg) (g : Grp) : Prop where
  id : g.a.id = g.t
  size : g.a.nbytes ≤ c.lanes
  page : Within4K g.a
  len : g.ws.length = g.a.beats
  data : ∀ w ∈ g.ws, w.data < 256 ^ c.lanes
  last : ∀ i w, g.ws[i]? = some w → w.last = decide (i = g.a.len)

theorem wGroups_ok (hc : c.Std) {x : Nat × Op} (h : wMk c args x.2.key = some x.2) {g : Grp} (hg : g ∈ wGroups c args x) :
    g.OK c := by
  obtain ⟨cmd, h1, h2, h3, h4, _⟩ := wMade hc h
  unfold wGroups at hg
  simp only [h1] at hg
  obtain ⟨q, hq, rfl⟩ := List.mem_map.1 hg
  have hm : q.1 ∈ segs c cmd 0 := by
    have := List.mem_map_of_mem (f := Prod.fst) hq
    rwa [List.zipIdx_map_fst] at this
  obtain ⟨b1, b2⟩ := mem_segs c cmd 0 (Nat.zero_le _) q.1 hm
  have hb := blAt_bounds c cmd q.1.1 b1
  refine ⟨rfl, ?_, within4k_aAt c cmd _ h3 b1, ?_, ?_, ?_⟩
  · have := h2.geo
    obtain ⟨w, hw, hs⟩ := h2.pow
    show 2 ^ cmd.size ≤ c.lanes
    rw [hw]; exact Nat.pow_le_pow_right (by omega) hs
  · simp only
    rw [segW_length, beats_aAt c cmd _ b1, b2]
  · intro w hw
    exact segs_ws_bound c cmd _ _ h2 h4 w (List.mem_flatMap.2 ⟨q.1, hm, hw⟩)
  · intro i w hw
    have hl := segW_last c cmd (args x.2.key).data (args x.2.key).wuser q.1.1 q.1.2 (by omega)
    have hi : i < q.1.2 := by
      have := (List.getElem?_eq_some_iff.1 hw).1
      simpa [segW_length] using this
    have h5 : ((segW c cmd (args x.2.key).data (args x.2.key).wuser q.1).map (·.last))[i]? = some w.last := by
      rw [List.getElem?_map, hw]; rfl
    have hlen : i < (lastFlags q.1.2).length := by
      rw [← hl, List.length_map]; rw [segW_length]; exact hi
    have h6 : (lastFlags q.1.2)[i]? = some w.last := by rw [← hl]; exact h5
    rw [List.getElem?_eq_getElem hlen, lastFlags_getElem] at h6
    have h7 := (Option.some.inj h6).symm
    rw [h7, decide_eq_decide]
    have := beats_aAt c cmd x.1 b1
    simp only [ABeat.beats] at this ⊢
    omega

/-- What `_process_write` sends are the bursts. -/
theorem wGroups_out (hc : c.Std) {op : Op} (h : wMk c args op.key = some op) (curId : Nat) {cmd : Cmd}
    (ha : acceptWrite c (args op.key).req (args op.key).data (args op.key).wuser = .ok cmd) :
    ∃ out bl nid, processWrite c curId cmd (args op.key).data (args op.key).wuser =
        .ok (out, (op.id?).getD curId, bl, nid) ∧
      awsOf out = (wGroups c args ((op.id?).getD curId, op)).map (·.a) ∧
      wsOf out = (wGroups c args ((op.id?).getD curId, op)).flatMap (·.ws) := by
  obtain ⟨cmd', h1, h2, h3, h4, h5, _⟩ := wMade hc h
  have : cmd' = cmd := by rw [h1] at ha; exact Except.ok.inj ha
  subst this
  have hid : (chooseId c cmd' curId).1 = (op.id?).getD curId := by
    rw [h5]; unfold chooseId; cases cmd'.id <;> rfl
  have hp := processWrite_spec c cmd' (args op.key).data (args op.key).wuser h2 h4 curId
  rw [hid] at hp
  refine ⟨_, _, _, hp, ?_, ?_⟩
  · rw [awsOf_out]
    unfold wGroups
    simp only [h1, List.map_map]
    have : ((fun g : Grp => g.a) ∘ fun q : (Nat × Nat) × Nat => (⟨(op.id?).getD curId, op, q.2,
        aAt c cmd' ((op.id?).getD curId) q.1.1, segW c cmd' (args op.key).data (args op.key).wuser q.1⟩ : Grp)) =
        (fun p : Nat × Nat => aAt c cmd' ((op.id?).getD curId) p.1) ∘ Prod.fst := rfl
    rw [this, ← List.map_map, List.zipIdx_map_fst]
  · rw [wsOf_out]
    unfold wGroups
    simp only [h1, List.flatMap_map]
    conv => lhs; rw [← List.zipIdx_map_fst 0 (segs c cmd' 0), List.flatMap_map]

/-! ## The bursts of the whole port -/

/-- All bursts due since the last reset. -/
def wAll (c : Cfg) (args : Nat → WArgs) (m : Master BBeat) : List Grp := (taken m).flatMap (wGroups c args)

variable {n calls : Nat} {m : Master BBeat}

theorem wAll_lab (hc : c.Std) (h : MInv n (wMk c args) calls m) : (wAll c args m).map (·.lab) = slots (taken m) := by
  have hm : ∀ x ∈ taken m, wMk c args x.2.key = some x.2 := fun x hx => h.madeOf (h.taken_issued hx)
  unfold wAll slots
  revert hm
  generalize taken m = l
  intro hm
  induction l with
  | nil => rfl
  | cons x l ih =>
    simp only [List.flatMap_cons, List.map_append]
    rw [ih (fun y hy => hm y (List.mem_cons_of_mem _ hy)), wGroups_lab hc (hm x List.mem_cons_self)]

theorem wAll_length (hc : c.Std) (h : MInv n (wMk c args) calls m) :
    (wAll c args m).length = ((taken m).flatMap fun x => x.2.bursts).length := by
  have hm : ∀ x ∈ taken m, wMk c args x.2.key = some x.2 := fun x hx => h.madeOf (h.taken_issued hx)
  unfold wAll
  revert hm
  generalize taken m = l
  intro hm
  induction l with
  | nil => rfl
  | cons x l ih =>
    simp only [List.flatMap_cons, List.length_append]
    rw [ih (fun y hy => hm y (List.mem_cons_of_mem _ hy)), wGroups_length hc (hm x List.mem_cons_self)]

theorem wAll_ok (hc : c.Std) (h : MInv n (wMk c args) calls m) {g : Grp} (hg : g ∈ wAll c args m) :
    g.OK c ∧ (g.t, g.op) ∈ taken m := by
  obtain ⟨x, hx, hg⟩ := List.mem_flatMap.1 hg
  exact ⟨wGroups_ok hc (h.madeOf (h.taken_issued hx)) hg, by rw [wGroups_op hg]; exact hx⟩

/-! ## The invariant -/

/-- The response of a burst whose beats had the given outcomes. -/
def burstResp (l : List (Nat × Bool)) : Resp := if l.all (·.2) then .okay else .slverr

theorem burstResp_snoc (l : List (Nat × Bool)) (t : Nat) (b : Bool) :
    burstResp (l ++ [(t, b)]) = if b then burstResp l else .slverr := by
  unfold burstResp
  rw [List.all_append]
  cases b <;> cases l.all (·.2) <;> rfl

/-- Where the bursts are: completed by the slave (with instant and outcome of every beat), being served, and the rest. -/
structure WWit where
  rv : List (Grp × List (Nat × Bool)) := []
  cur : Option Grp := none
  cs : List (Nat × Bool) := []
  rest : List Grp := []

/-- The beats served: burst, number of the beat, instant and outcome. -/
def WWit.log (w : WWit) : List (Grp × Nat × Nat × Bool) :=
  (w.rv ++ w.cur.toList.map fun g => (g, w.cs)).flatMap fun d => d.2.zipIdx.map fun q => (d.1, q.2, q.1)

def wRsp (d : Grp × List (Nat × Bool)) : BBeat := { id := d.1.t, resp := burstResp d.2 }

structure WInv (c : Cfg) (args : Nat → WArgs) (p : WPort) (w : WWit) : Prop where
  m : MInv c.idCount (wMk c args) p.calls p.m
  split : wAll c args p.m = w.rv.map (·.1) ++ (w.cur.toList ++ w.rest)
  aws : w.rest.map (·.a) = p.aw ++ awsOf p.todo
  wbs : (w.cur.toList.flatMap fun g => g.ws.drop w.cs.length) ++ w.rest.flatMap (·.ws) = p.w ++ wsOf p.todo
  sl : p.sl = w.cur.map fun g => { aw := g.a, n := w.cs.length, cur := beatAddr g.a w.cs.length, resp := burstResp w.cs }
  cs0 : w.cur = none → w.cs = []
  csl : ∀ g, w.cur = some g → w.cs.length ≤ g.ws.length
  sent : p.m.sent.length + (awsOf p.todo).length = (wAll c args p.m).length
  todo : p.m.cur = none → p.todo = []
  arr : p.m.arrived ++ p.b.map (fun x => (x.id, x)) = w.rv.map fun d => (d.1.t, wRsp d)
  full : ∀ d ∈ w.rv, d.2.length = d.1.ws.length
  died : p.died = false
  ok : p.m.respFailed = false

/-- The bursts that the slave has not completed. -/
def wOpen (c : Cfg) (args : Nat → WArgs) (p : WPort) : List Grp :=
  (wAll c args p.m).drop ((wAll c args p.m).length - (p.sl.toList.length + (p.aw.length + (awsOf p.todo).length)))

theorem WInv.open_eq {p : WPort} {w : WWit} (h : WInv c args p w) : wOpen c args p = w.cur.toList ++ w.rest := by
  have h1 := congrArg List.length h.aws
  simp only [List.length_map, List.length_append] at h1
  have h2 : p.sl.toList.length = w.cur.toList.length := by
    rw [h.sl]; cases w.cur <;> rfl
  unfold wOpen
  rw [← h1, h2, h.split]
  apply List.drop_left'
  simp only [List.length_append]
  omega

theorem WInv.open_cur {p : WPort} {w : WWit} (h : WInv c args p w) {g : Grp} (hg : w.cur = some g) :
    (wOpen c args p).head? = some g := by
  rw [h.open_eq, hg]; rfl

theorem wOpen_mono {p p' : WPort} (ha : wAll c args p'.m = wAll c args p.m)
    (hn : p'.sl.toList.length + (p'.aw.length + (awsOf p'.todo).length) ≤
      p.sl.toList.length + (p.aw.length + (awsOf p.todo).length)) : ∀ g ∈ wOpen c args p', g ∈ wOpen c args p := by
  unfold wOpen
  rw [ha]
  exact drop_mono (by omega)

theorem WInv.inOrder {p : WPort} {w : WWit} (hc : c.Std) (h : WInv c args p w) :
    InOrder p.m w.rv (fun d => d.1.lab) wRsp where
  labs := by
    have h1 := wAll_lab hc h.m
    rw [h.split, List.map_append, List.map_map] at h1
    rw [← h1]; exact List.prefix_append _ _
  sent := by
    have h1 := h.sent
    have h2 := congrArg List.length h.split
    have h3 := congrArg List.length h.aws
    simp only [List.length_append, List.length_map] at h2 h3
    have h4 : p.m.sent.length ≤ needOf (p.m.sent.map (·.2)) := by
      generalize p.m.sent = l
      induction l with
      | nil => exact Nat.le_refl _
      | cons x l ih =>
        simp only [List.map_cons, needOf, List.sum_cons, List.length_cons] at ih ⊢
        omega
    omega
  arr := by
    have := h.arr
    exact ⟨_, this⟩

/-- The burst being served belongs to an operation that is not complete. -/
theorem WInv.cur_pend {p : WPort} {w : WWit} (hc : c.Std) (h : WInv c args p w) {g : Grp} (hg : w.cur = some g) :
    g.op ∈ p.m.pend := by
  have hs : (slots (taken p.m))[w.rv.length]? = some (g.t, g.op, g.j) := by
    rw [← wAll_lab hc h.m, h.split, hg, List.getElem?_map, List.getElem?_append_right (by simp)]
    simp [Grp.lab]
  refine (h.inOrder hc).pend h.m.inv hs ?_
  have := congrArg List.length h.arr
  simp only [List.length_append, List.length_map] at this
  omega

theorem WInv.mem_cur {p : WPort} {w : WWit} (h : WInv c args p w) {g : Grp} (hg : w.cur = some g) :
    g ∈ wAll c args p.m := by
  rw [h.split, hg]; simp

theorem WInv.mem_rest {p : WPort} {w : WWit} (h : WInv c args p w) {g : Grp} (hg : g ∈ w.rest) :
    g ∈ wAll c args p.m := by
  rw [h.split]; simp [hg]

/-- Nothing is under way while the reset is asserted. -/
theorem WInv.stopped {p : WPort} {w : WWit} (h : WInv c args p w) (hr : p.m.running = false) :
    p.todo = [] ∧ p.aw = [] ∧ p.b = [] := by
  have h0 : wAll c args p.m = [] := by unfold wAll; rw [h.m.off hr]; rfl
  have h1 := h.split
  rw [h0] at h1
  have h2 := congrArg List.length h1
  simp only [List.length_nil, List.length_append, List.length_map] at h2
  have h3 : w.rest = [] := List.length_eq_zero_iff.1 (by omega)
  have h4 : w.rv = [] := List.length_eq_zero_iff.1 (by omega)
  have h5 := h.aws
  have h6 := h.arr
  rw [h3] at h5
  rw [h4] at h6
  have hcur : p.m.cur = none := by
    have := h.m.off hr
    unfold taken at this
    cases hc : p.m.cur with
    | none => rfl
    | some x => rw [hc] at this; simp at this
  refine ⟨h.todo hcur, ?_, ?_⟩
  · have := congrArg List.length h5
    simp only [List.map_nil, List.length_nil, List.length_append] at this
    exact List.length_eq_zero_iff.1 (by omega)
  · have := congrArg List.length h6
    simp only [List.map_nil, List.length_nil, List.length_append, List.length_map] at this
    exact List.length_eq_zero_iff.1 (by omega)

/-- A change of the master that the channels do not see. -/
theorem WInv.same {p : WPort} {w : WWit} (h : WInv c args p w) {m' : Master BBeat} {k : Nat}
    (hm : MInv c.idCount (wMk c args) k m') (hs : Same p.m m') : WInv c args { p with m := m', calls := k } w := by
  have ha : wAll c args m' = wAll c args p.m := by unfold wAll; rw [hs.taken]
  refine ⟨hm, ?_, h.aws, h.wbs, h.sl, h.cs0, h.csl, ?_, ?_, ?_, h.full, h.died, ?_⟩
  · show wAll c args m' = _
    rw [ha]; exact h.split
  · show m'.sent.length + _ = (wAll c args m').length
    rw [ha, hs.sent]; exact h.sent
  · show m'.cur = none → _
    rw [hs.cur]; exact h.todo
  · show m'.arrived ++ _ = _
    rw [hs.arrived]; exact h.arr
  · show m'.respFailed = _
    rw [hs.respFailed]; exact h.ok

theorem wMk_call {k : Nat} {cmd : Cmd} (h : acceptWrite c (args k).req (args k).data (args k).wuser = .ok cmd) :
    wMk c args k = some (wOp c args k) := by
  unfold wMk; rw [h]

theorem WInv.write {p : WPort} {w : WWit} (h : WInv c args p w) : WInv c args (p.write c args) w := by
  unfold WPort.write
  split
  · rename_i cmd ha
    exact h.same (h.m.call (wMk_call ha) (wOp_key _)).1 (inside_step _ _ _ rfl)
  · exact h.same h.m.later (Same.refl _)

theorem WInv.init {p : WPort} {w : WWit} (h : WInv c args p w) : WInv c args (p.init c args) w := by
  unfold WPort.init
  split
  · rename_i cmd ha
    exact h.same (h.m.call (wMk_call ha) (wOp_key _)).2 (inside_step _ _ _ rfl)
  · exact h.same h.m.later (Same.refl _)

theorem WInv.inside {p : WPort} {w : WWit} (h : WInv c args p w) (e : AxiOps.Ev BBeat) (h1 : isCall e = false)
    (h2 : inside e = true) : WInv c args { p with m := p.m.step c.idCount e } w :=
  h.same (h.m.step e h1) (inside_step _ _ _ h2)

theorem WInv.take {p : WPort} {w : WWit} (hc : c.Std) (h : WInv c args p w) :
    ∃ w', WInv c args (p.take c args) w' ∧ w'.log = w.log := by
  unfold WPort.take
  split
  · rename_i op rest hd hr hcur hq
    simp only
    have hi : op ∈ p.m.issued := h.m.queue_issued (by rw [hq]; exact List.mem_cons_self)
    have hmk := h.m.madeOf hi
    obtain ⟨cmd, ha, _⟩ := wMade hc hmk
    obtain ⟨out, bl, nid, ho, hoa, how⟩ := wGroups_out hc hmk p.m.curId ha
    rw [ha]
    simp only
    rw [ho]
    simp only
    obtain ⟨f1, f2, f3, f4, f5, f6⟩ := take_fields (n := c.idCount) hr hcur hq
    have hall : wAll c args (p.m.step c.idCount .take) =
        wAll c args p.m ++ wGroups c args ((op.id?).getD p.m.curId, op) := by
      unfold wAll; rw [f6, List.flatMap_append]; simp
    have htodo := h.todo hcur
    refine ⟨{ w with rest := w.rest ++ wGroups c args ((op.id?).getD p.m.curId, op) }, ?_, rfl⟩
    refine ⟨h.m.step .take rfl, ?_, ?_, ?_, h.sl, h.cs0, h.csl, ?_, ?_, ?_, h.full, h.died, ?_⟩
    · show wAll c args (p.m.step c.idCount .take) = _
      rw [hall, h.split]; simp
    · have := h.aws
      rw [htodo] at this
      show _ = p.aw ++ awsOf out
      rw [List.map_append, this, hoa]; simp [awsOf]
    · have := h.wbs
      rw [htodo] at this
      simp only [List.flatMap_append, how]
      rw [← List.append_assoc, this]
      simp [wsOf]
    · show (p.m.step c.idCount .take).sent.length + (awsOf out).length = (wAll c args (p.m.step c.idCount .take)).length
      have := h.sent
      rw [htodo] at this
      simp only [awsOf, List.filterMap_nil, List.length_nil, Nat.add_zero] at this
      rw [f2, hall, List.length_append, hoa, List.length_map, this]
    · intro hn; rw [f1] at hn; cases hn
    · show (p.m.step c.idCount .take).arrived ++ _ = _
      rw [f3]; exact h.arr
    · show (p.m.step c.idCount .take).respFailed = _
      rw [f4]; exact h.ok
  · exact ⟨w, h, rfl⟩

theorem WInv.sendAW {p : WPort} {w : WWit} (hc : c.Std)
    (hid : ∀ k op i, wMk c args k = some op → op.id? = some i → i < c.idCount) (h : WInv c args p w) :
    WInv c args (p.sendAW c) w := by
  unfold WPort.sendAW
  split
  · rename_i a rest hd ht
    have hne : awsOf p.todo = a :: awsOf rest := by rw [ht]; rfl
    have hw : wsOf p.todo = wsOf rest := by rw [ht]; rfl
    /- the burst of `a` -/
    have ha : a ∈ w.rest.map (·.a) := by rw [h.aws, hne]; simp
    obtain ⟨g, hg, rfl⟩ := List.mem_map.1 ha
    obtain ⟨gok, gt⟩ := wAll_ok hc h.m (h.mem_rest hg)
    have hlt : g.a.id < c.idCount := by
      rw [gok.id]
      exact h.m.id_lt (Nat.two_pow_pos _) hid gt
    rw [if_pos hlt]
    have hr : p.m.running = true := by
      cases hr : p.m.running with
      | true => rfl
      | false => have := (h.stopped hr).1; rw [ht] at this; cases this
    cases hcur : p.m.cur with
    | none => have := h.todo hcur; rw [ht] at this; cases this
    | some x =>
      obtain ⟨op, t, k⟩ := x
      have hk : k < op.bursts.length := by
        have h1 := h.sent
        have h2 := IdInv.sent_length h.m.ids
        rw [wAll_length hc h.m, ← h2, hcur, hne] at h1
        simp only [Option.map_some, Option.getD_some, List.length_cons] at h1
        omega
      obtain ⟨f1, f2, f3, f4, f5, f6⟩ := burst_fields (n := c.idCount) hr hcur (List.getElem?_eq_getElem hk)
      have hall : wAll c args (p.m.step c.idCount .burst) = wAll c args p.m := by unfold wAll; rw [f6]
      refine ⟨h.m.step .burst rfl, ?_, ?_, ?_, h.sl, h.cs0, h.csl, ?_, ?_, ?_, h.full, h.died, ?_⟩
      · show wAll c args (p.m.step c.idCount .burst) = _
        rw [hall]; exact h.split
      · simp only [h.aws, hne, List.append_assoc]; rfl
      · rw [h.wbs, hw]
      · show (p.m.step c.idCount .burst).sent.length + (awsOf rest).length = (wAll c args (p.m.step c.idCount .burst)).length
        have := h.sent
        rw [hne] at this
        rw [f2, hall, ← this]
        simp only [List.length_append, List.length_cons, List.length_nil]
        omega
      · intro hn; rw [f1] at hn; cases hn
      · show (p.m.step c.idCount .burst).arrived ++ _ = _
        rw [f3]; exact h.arr
      · show (p.m.step c.idCount .burst).respFailed = _
        rw [f4]; exact h.ok
  · exact h

theorem WInv.sendW {p : WPort} {w : WWit} (h : WInv c args p w) : WInv c args p.sendW w := by
  unfold WPort.sendW
  split
  · rename_i x rest hd ht
    have hne : awsOf p.todo = awsOf rest := by rw [ht]; rfl
    have hw : wsOf p.todo = x :: wsOf rest := by rw [ht]; rfl
    refine ⟨h.m, h.split, ?_, ?_, h.sl, h.cs0, h.csl, ?_, ?_, h.arr, h.full, h.died, h.ok⟩
    · rw [h.aws, hne]
    · rw [h.wbs, hw]; simp
    · show _ + (awsOf rest).length = _
      rw [← hne]; exact h.sent
    · intro hn; have := h.todo hn; rw [ht] at this; cases this
  · exact h

theorem WInv.start {p : WPort} {w : WWit} (h : WInv c args p w) : WInv c args (p.start c) w := by
  unfold WPort.start
  split
  · rename_i hd ht
    obtain ⟨f1, f2, f3, f4⟩ := start_fields c.idCount p.m
    have hall : wAll c args (p.m.step c.idCount .start) = wAll c args p.m := by unfold wAll; rw [f4]
    refine ⟨h.m.step .start rfl, ?_, h.aws, h.wbs, h.sl, h.cs0, h.csl, ?_, fun _ => ht, ?_, h.full, h.died, ?_⟩
    · show wAll c args (p.m.step c.idCount .start) = _
      rw [hall]; exact h.split
    · show (p.m.step c.idCount .start).sent.length + _ = (wAll c args (p.m.step c.idCount .start)).length
      rw [hall, f1]; exact h.sent
    · show (p.m.step c.idCount .start).arrived ++ _ = _
      rw [f2]; exact h.arr
    · show (p.m.step c.idCount .start).respFailed = _
      rw [f3]; exact h.ok
  · exact h

theorem WInv.slaveAW {p : WPort} {w : WWit} (hc : c.Std) (h : WInv c args p w) :
    ∃ w', WInv c args (p.slaveAW c) w' ∧ w'.log = w.log := by
  unfold WPort.slaveAW
  split
  · rename_i a rest hd hsl haw
    have hcur : w.cur = none := by
      have := h.sl
      rw [hsl] at this
      cases hw : w.cur with
      | none => rfl
      | some g => rw [hw] at this; cases this
    have hcs := h.cs0 hcur
    have haws := h.aws
    rw [haw] at haws
    cases hrest : w.rest with
    | nil => rw [hrest] at haws; simp at haws
    | cons g gs =>
      rw [hrest] at haws
      simp only [List.map_cons, List.cons_append, List.cons.injEq] at haws
      obtain ⟨rfl, haws⟩ := haws
      obtain ⟨gok, gt⟩ := wAll_ok hc h.m (h.mem_rest (g := g) (by rw [hrest]; exact List.mem_cons_self))
      simp only
      rw [if_neg (by have := gok.size; simp only [ABeat.nbytes] at this; omega), if_neg (by
        rintro ⟨_, hn⟩
        exact hn (check4k g.a gok.page))]
      refine ⟨{ w with cur := some g, rest := gs }, ?_, ?_⟩
      · refine ⟨h.m, ?_, haws, ?_, ?_, (fun hn => by cases hn), ?_, h.sent, h.todo, h.arr, h.full, h.died, h.ok⟩
        · show wAll c args p.m = _
          rw [h.split, hcur, hrest]; simp
        · have := h.wbs
          rw [hcur, hrest] at this
          rw [← this]
          simp [hcs]
        · simp only [hcs, Option.map_some, List.length_nil, beatAddr_zero]
          rfl
        · intro g' hg'; cases hg'; rw [hcs]; exact Nat.zero_le _
      · simp [WWit.log, hcur, hcs]
  · exact ⟨w, h, rfl⟩

theorem log_beat (rv : List (Grp × List (Nat × Bool))) (g : Grp) (cs : List (Nat × Bool)) (x : Nat × Bool) (r r' : List Grp) :
    WWit.log ⟨rv, some g, cs ++ [x], r⟩ = WWit.log ⟨rv, some g, cs, r'⟩ ++ [(g, cs.length, x)] := by
  simp [WWit.log, List.zipIdx_append]

theorem WInv.slaveW {σ : Type} {t : Target σ} {p : WPort} {w : WWit} (hc : c.Std) (h : WInv c args p w) (st : σ) (tm : Nat) :
    ∃ w', WInv c args (p.slaveW c t st).1 w' ∧
      ((w'.log = w.log ∧ (p.slaveW c t st).2 = st) ∨ ∃ g k ok wb, w'.log = w.log ++ [(g, k, tm, ok)] ∧
        g ∈ wAll c args p.m ∧ (wOpen c args p).head? = some g ∧ g.op ∈ p.m.pend ∧ g.ws[k]? = some wb ∧ attempt t.write (writeOps c.lanes (beatWord c.lanes g.a k) (digitsLE c.lanes wb.data) wb.strb) st =
          (ok, (p.slaveW c t st).2)) := by
  unfold WPort.slaveW
  split
  · rename_i s wb rest hd hsl hw
    split
    · rename_i hn
      cases hcur : w.cur with
      | none => have := h.sl; rw [hsl, hcur] at this; cases this
      | some g =>
        have hs := h.sl
        rw [hsl, hcur] at hs
        simp only [Option.map_some, Option.some.injEq] at hs
        subst hs
        obtain ⟨gok, gt⟩ := wAll_ok hc h.m (h.mem_cur hcur)
        have hlt : w.cs.length < g.ws.length := by rw [gok.len]; exact hn
        have hwbs := h.wbs
        rw [hcur, hw] at hwbs
        simp only [Option.toList_some, List.flatMap_cons, List.flatMap_nil, List.append_nil] at hwbs
        rw [List.drop_eq_getElem_cons hlt] at hwbs
        simp only [List.cons_append, List.cons.injEq] at hwbs
        obtain ⟨hwb, hwbs⟩ := hwbs
        have hget : g.ws[w.cs.length]? = some wb := by rw [List.getElem?_eq_getElem hlt, hwb]
        have hdat := gok.data wb (hwb ▸ List.getElem_mem hlt)
        have hlast := gok.last _ _ hget
        simp only
        rw [toBytes_little c.lanes wb.data hdat]
        simp only
        rw [if_neg (by rw [hlast]; exact fun h => h rfl)]
        have hp := performOps_attempt t (writeOps c.lanes (beatWord c.lanes g.a w.cs.length) (digitsLE c.lanes wb.data) wb.strb) st
        have hbw : beatAddr g.a w.cs.length / c.lanes * c.lanes = beatWord c.lanes g.a w.cs.length := rfl
        rw [hbw]
        generalize hok : (attempt t.write (writeOps c.lanes (beatWord c.lanes g.a w.cs.length) (digitsLE c.lanes wb.data)
          wb.strb) st) = R at hp
        refine ⟨{ w with cs := w.cs ++ [(tm, R.1)] }, ?_, .inr ⟨g, w.cs.length, R.1, wb, ?_, h.mem_cur hcur, h.open_cur hcur,
          h.cur_pend hc hcur, hget, ?_⟩⟩
        · refine ⟨h.m, ?_, h.aws, ?_, ?_, ?_, ?_, h.sent, h.todo, h.arr, h.full, h.died, h.ok⟩
          · exact h.split
          · simp only [hcur, Option.toList_some, List.flatMap_cons, List.flatMap_nil, List.append_nil, List.length_append,
              List.length_cons, List.length_nil]
            exact hwbs
          · simp only [hcur, Option.map_some, List.length_append, List.length_cons, List.length_nil]
            congr 1
            congr 1
            · exact beatAddr_step g.a w.cs.length hn
            · rcases hr : performOps t (writeOps c.lanes (beatWord c.lanes g.a w.cs.length) (digitsLE c.lanes wb.data)
                wb.strb) st with ⟨r, st'⟩
              rw [hr] at hp
              rw [burstResp_snoc]
              cases r with
              | ok u =>
                have := hp.2.2 rfl
                rw [this]; rfl
              | error e =>
                have : R.1 = false := by
                  cases hb : R.1 with
                  | false => rfl
                  | true => have := hp.2.1 hb; cases this
                rw [this]; rfl
          · intro hn; rw [hcur] at hn; cases hn
          · intro g' hg'
            rw [hcur] at hg'
            cases hg'
            simp only [List.length_append, List.length_cons, List.length_nil]
            omega
        · have := log_beat w.rv g w.cs (tm, R.1) w.rest w.rest
          rw [← hcur] at this
          exact this
        · rw [hok, hp.1]
    · exact ⟨w, h, .inl ⟨rfl, rfl⟩⟩
  · exact ⟨w, h, .inl ⟨rfl, rfl⟩⟩

theorem WInv.slaveB {p : WPort} {w : WWit} (hc : c.Std) (h : WInv c args p w) :
    ∃ w', WInv c args p.slaveB w' ∧ w'.log = w.log := by
  unfold WPort.slaveB
  split
  · rename_i s hd hsl
    split
    · rename_i hn
      cases hcur : w.cur with
      | none => have := h.sl; rw [hsl, hcur] at this; cases this
      | some g =>
        have hs := h.sl
        rw [hsl, hcur] at hs
        simp only [Option.map_some, Option.some.injEq] at hs
        subst hs
        obtain ⟨gok, gt⟩ := wAll_ok hc h.m (h.mem_cur hcur)
        have hlen : w.cs.length = g.ws.length := by rw [gok.len]; exact hn
        refine ⟨{ w with rv := w.rv ++ [(g, w.cs)], cur := none, cs := [] }, ?_, ?_⟩
        · refine ⟨h.m, ?_, h.aws, ?_, rfl, fun _ => rfl, (fun g hg => by cases hg), h.sent, h.todo, ?_, ?_, h.died, h.ok⟩
          · show wAll c args p.m = _
            rw [h.split, hcur]; simp
          · have := h.wbs
            rw [hcur] at this
            rw [← this]
            simp [hlen]
          · simp only [List.map_append, List.map_cons, List.map_nil]
            rw [← List.append_assoc, h.arr]
            simp only [wRsp, gok.id]
          · intro d hd
            rcases List.mem_append.1 hd with hd | hd
            · exact h.full d hd
            · rw [List.mem_singleton] at hd
              subst hd
              exact hlen
        · simp [WWit.log, hcur]
    · exact ⟨w, h, rfl⟩
  · exact ⟨w, h, rfl⟩

theorem WInv.deliver {p : WPort} {w : WWit} (hc : c.Std) (h : WInv c args p w) : WInv c args (p.deliver c) w := by
  unfold WPort.deliver
  split
  · rename_i x rest hb
    have hr : p.m.running = true := by
      cases hr : p.m.running with
      | true => rfl
      | false => have := (h.stopped hr).2.2; rw [hb] at this; cases this
    have harr := h.arr
    rw [hb, List.map_cons] at harr
    have ha := (h.inOrder hc).active h.m.inv h.m.ids harr.symm
    obtain ⟨f1, f2, f3, f4, f5⟩ := resp_fields (n := c.idCount) (r := x) hr h.ok ha
    have hall : wAll c args (p.m.step c.idCount (.resp x.id x)) = wAll c args p.m := by unfold wAll; rw [f5]
    refine ⟨h.m.step (.resp x.id x) rfl, ?_, h.aws, h.wbs, h.sl, h.cs0, h.csl, ?_, ?_, ?_, h.full, h.died, f4⟩
    · show wAll c args (p.m.step c.idCount (.resp x.id x)) = _
      rw [hall]; exact h.split
    · show (p.m.step c.idCount (.resp x.id x)).sent.length + _ = (wAll c args (p.m.step c.idCount (.resp x.id x))).length
      rw [hall, f2]; exact h.sent
    · show (p.m.step c.idCount (.resp x.id x)).cur = none → _
      rw [f1]; exact h.todo
    · show (p.m.step c.idCount (.resp x.id x)).arrived ++ _ = _
      rw [f3, ← harr]; simp
  · exact h

theorem WInv.reset {p : WPort} {w : WWit} (h : WInv c args p w) (v : Bool) :
    ∃ w', WInv c args (p.reset c v) w' ∧ (w'.log = w.log ∨ w'.log = []) := by
  cases v with
  | true =>
    refine ⟨{}, ⟨h.m.step (.reset true) rfl, ?_, rfl, rfl, rfl, fun _ => rfl, (fun g hg => by cases hg), ?_, fun _ => rfl, rfl,
      (fun d hd => by cases hd), rfl, rfl⟩, .inr rfl⟩
    · rfl
    · rfl
  | false =>
    refine ⟨w, ?_, .inl rfl⟩
    exact h.same (h.m.step (.reset false) rfl) ⟨rfl, rfl, rfl, rfl, rfl⟩

/-- One event of the write side at instant `tm`: either nothing happens to the target, or one beat of an operation that is not
complete is executed. -/
theorem WInv.step {σ : Type} {t : Target σ} {p : WPort} {w : WWit} (hc : c.Std)
    (hid : ∀ k op i, wMk c args k = some op → op.id? = some i → i < c.idCount) (h : WInv c args p w) (st : σ) (e : WEv)
    (tm : Nat) : ∃ w', WInv c args (p.step c args t st e).1 w' ∧
      (((w'.log = w.log ∨ w'.log = []) ∧ (p.step c args t st e).2 = st) ∨ ∃ g k ok wb, w'.log = w.log ++ [(g, k, tm, ok)] ∧
        g ∈ wAll c args p.m ∧ (wOpen c args p).head? = some g ∧ g.op ∈ p.m.pend ∧ g.ws[k]? = some wb ∧ WroteBeat c t g.a k wb st ok (p.step c args t st e).2) := by
  cases e with
  | write => exact ⟨w, h.write, .inl ⟨.inl rfl, rfl⟩⟩
  | init => exact ⟨w, h.init, .inl ⟨.inl rfl, rfl⟩⟩
  | runInit i => exact ⟨w, h.inside _ rfl rfl, .inl ⟨.inl rfl, rfl⟩⟩
  | take =>
    obtain ⟨w', h1, h2⟩ := h.take hc
    exact ⟨w', h1, .inl ⟨.inl h2, rfl⟩⟩
  | sendAW => exact ⟨w, h.sendAW hc hid, .inl ⟨.inl rfl, rfl⟩⟩
  | sendW => exact ⟨w, h.sendW, .inl ⟨.inl rfl, rfl⟩⟩
  | start => exact ⟨w, h.start, .inl ⟨.inl rfl, rfl⟩⟩
  | slaveAW =>
    obtain ⟨w', h1, h2⟩ := h.slaveAW hc
    exact ⟨w', h1, .inl ⟨.inl h2, rfl⟩⟩
  | slaveW =>
    obtain ⟨w', h1, h2⟩ := h.slaveW (t := t) hc st tm
    refine ⟨w', h1, ?_⟩
    rcases h2 with ⟨h2, h3⟩ | h2
    · exact .inl ⟨.inl h2, h3⟩
    · exact .inr h2
  | slaveB =>
    obtain ⟨w', h1, h2⟩ := h.slaveB hc
    exact ⟨w', h1, .inl ⟨.inl h2, rfl⟩⟩
  | deliver => exact ⟨w, h.deliver hc, .inl ⟨.inl rfl, rfl⟩⟩
  | workTake i => exact ⟨w, h.inside _ rfl rfl, .inl ⟨.inl rfl, rfl⟩⟩
  | workGet i => exact ⟨w, h.inside _ rfl rfl, .inl ⟨.inl rfl, rfl⟩⟩
  | workDone i => exact ⟨w, h.inside _ rfl rfl, .inl ⟨.inl rfl, rfl⟩⟩
  | reset v =>
    obtain ⟨w', h1, h2⟩ := h.reset v
    exact ⟨w', h1, .inl ⟨h2, rfl⟩⟩

/-- The master's part of an event is at most one step of the master. -/
theorem WPort.step_master {σ : Type} (t : Target σ) (p : WPort) (st : σ) (e : WEv) :
    (p.step c args t st e).1.m = p.m ∨ ∃ e', (p.step c args t st e).1.m = p.m.step c.idCount e' := by
  cases e with
  | write => simp only [WPort.step, WPort.write]; split <;> first | exact .inr ⟨.write (wOp c args p.calls), rfl⟩ | exact .inl rfl
  | init => simp only [WPort.step, WPort.init]; split <;> first | exact .inr ⟨.init (wOp c args p.calls), rfl⟩ | exact .inl rfl
  | runInit i => exact .inr ⟨.runInit i, rfl⟩
  | take =>
    simp only [WPort.step, WPort.take]
    split
    · split
      · exact .inl rfl
      · split
        · exact .inl rfl
        · exact .inr ⟨.take, rfl⟩
    · exact .inl rfl
  | sendAW =>
    simp only [WPort.step, WPort.sendAW]
    split
    · split
      · exact .inr ⟨.burst, rfl⟩
      · exact .inl rfl
    · exact .inl rfl
  | sendW => simp only [WPort.step, WPort.sendW]; split <;> exact .inl rfl
  | start => simp only [WPort.step, WPort.start]; split <;> first | exact .inr ⟨.start, rfl⟩ | exact .inl rfl
  | slaveAW =>
    simp only [WPort.step, WPort.slaveAW]
    split
    · split
      · exact .inl rfl
      · split <;> exact .inl rfl
    · exact .inl rfl
  | slaveW =>
    simp only [WPort.step, WPort.slaveW]
    split
    · split
      · split
        · exact .inl rfl
        · split <;> exact .inl rfl
      · exact .inl rfl
    · exact .inl rfl
  | slaveB =>
    simp only [WPort.step, WPort.slaveB]
    split
    · split <;> exact .inl rfl
    · exact .inl rfl
  | deliver => simp only [WPort.step, WPort.deliver]; split <;> first | exact .inr ⟨.resp _ _, rfl⟩ | exact .inl rfl
  | workTake i => exact .inr ⟨.workTake i, rfl⟩
  | workGet i => exact .inr ⟨.workGet i, rfl⟩
  | workDone i => exact .inr ⟨.workDone i, rfl⟩
  | reset v =>
    cases v with
    | true => exact .inr ⟨.reset true, rfl⟩
    | false => exact .inr ⟨.reset false, rfl⟩

/-! ## Histories -/

/-- A history of the write side; others may change the target in between. -/
structure WTrace {σ : Type} (c : Cfg) (args : Nat → WArgs) (t : Target σ) (p : Nat → WPort) (μ : Nat → σ) : Prop where
  std : c.Std
  ids : ∀ k, (args k).req.id ≠ some (2 ^ c.idWidth)
  start : p 0 = {}
  next : ∀ n, (∃ e, (p (n + 1), μ (n + 1)) = (p n).step c args t (μ n) e) ∨ p (n + 1) = p n

theorem wMk_id (hc : c.Std) (hi : ∀ k, (args k).req.id ≠ some (2 ^ c.idWidth)) :
    ∀ k op i, wMk c args k = some op → op.id? = some i → i < c.idCount := by
  intro k op i h1 h2
  obtain ⟨rfl, cmd, ha⟩ := wMk_some h1
  rw [wOp_spec hc ha] at h2
  obtain ⟨ha, _, he⟩ := (C29_write_iff c hc _ _ _ cmd).1 ha
  have := checkReq_ok c hc _ ha
  rw [← he] at this
  exact (C29_representable_partial c hc _ cmd this (hi k)).1 i h2

section trace

variable {σ : Type} {t : Target σ} {p : Nat → WPort} {μ : Nat → σ}

/-- The beats served since the last reset: when, and with which effect. -/
structure WGood (c : Cfg) (args : Nat → WArgs) (t : Target σ) (p : Nat → WPort) (μ : Nat → σ) (n : Nat) (log : List (Grp × Nat × Nat × Bool)) :
    Prop where
  good : ∀ g k tm ok, (g, k, tm, ok) ∈ log → tm < n ∧ ((wOpen c args (p tm)).head? = some g ∧ g.op ∈ (p tm).m.pend) ∧
    ∃ wb, g.ws[k]? = some wb ∧ WroteBeat c t g.a k wb (μ tm) ok (μ (tm + 1))
  mono : (log.map (·.2.2.1)).Pairwise (· < ·)

theorem WTrace.inv (h : WTrace c args t p μ) (n : Nat) : ∃ w, WInv c args (p n) w ∧ WGood c args t p μ n w.log := by
  induction n with
  | zero =>
    refine ⟨{}, ?_, ⟨by simp [WWit.log], by simp [WWit.log]⟩⟩
    rw [h.start]
    exact ⟨MInv.start _ _, rfl, rfl, rfl, rfl, fun _ => rfl, (fun g hg => by cases hg), rfl, fun _ => rfl, rfl,
      (fun d hd => by cases hd), rfl, rfl⟩
  | succ n ih =>
    obtain ⟨w, hw, hg⟩ := ih
    have hold : ∀ g k tm ok, (g, k, tm, ok) ∈ w.log → tm < n + 1 ∧
        ((wOpen c args (p tm)).head? = some g ∧ g.op ∈ (p tm).m.pend) ∧
        ∃ wb, g.ws[k]? = some wb ∧ WroteBeat c t g.a k wb (μ tm) ok (μ (tm + 1)) := by
      intro g k tm ok hm
      obtain ⟨h1, h2⟩ := hg.good g k tm ok hm
      exact ⟨by omega, h2⟩
    rcases h.next n with ⟨e, hs⟩ | hs
    · obtain ⟨w', h1, h2⟩ := hw.step (t := t) h.std (wMk_id h.std h.ids) (μ n) e n
      rw [← hs] at h1 h2
      refine ⟨w', h1, ?_⟩
      rcases h2 with ⟨h2 | h2, _⟩ | ⟨g, k, ok, wb, h2, _, h6, h3, h4, h5⟩
      · rw [h2]; exact ⟨hold, hg.mono⟩
      · rw [h2]; exact ⟨by simp, by simp⟩
      · rw [h2]
        refine ⟨?_, ?_⟩
        · intro g' k' tm' ok' hm
          rcases List.mem_append.1 hm with hm | hm
          · exact hold g' k' tm' ok' hm
          · rw [List.mem_singleton] at hm
            cases hm
            exact ⟨by omega, ⟨h6, h3⟩, wb, h4, h5⟩
        · rw [List.map_append, List.pairwise_append]
          refine ⟨hg.mono, by simp, ?_⟩
          intro a ha b hb
          simp only [List.map_cons, List.map_nil, List.mem_singleton] at hb
          subst hb
          obtain ⟨⟨g', k', tm', ok'⟩, hm, rfl⟩ := List.mem_map.1 ha
          exact (hg.good g' k' tm' ok' hm).1
    · exact ⟨w, by rw [hs]; exact hw, hold, hg.mono⟩

theorem WTrace.master (h : WTrace c args t p μ) (n : Nat) :
    (p (n + 1)).m = (p n).m ∨ ∃ e, (p (n + 1)).m = (p n).m.step c.idCount e := by
  rcases h.next n with ⟨e, hs⟩ | hs
  · have := WPort.step_master (c := c) (args := args) t (p n) (μ n) e
    rw [← hs] at this
    exact this
  · exact .inl (by rw [hs])

end trace

theorem WTrace.seq {σ : Type} {t : Target σ} {p : Nat → WPort} {μ : Nat → σ} (h : WTrace c args t p μ) :
    MSeq c.idCount (fun n => (p n).m) := ⟨by simp [h.start], h.master⟩

theorem bursts_map (l : List Grp) (h : ∀ g ∈ l, g.ws.length = g.a.beats) :
    bursts (l.map (·.a)) (l.flatMap (·.ws)) = l.map fun g => (g.a, g.ws) := by
  induction l with
  | nil => rfl
  | cons g l ih =>
    simp only [List.map_cons, List.flatMap_cons, bursts]
    rw [← h g List.mem_cons_self, List.take_left, List.drop_left, ih fun g hg => h g (List.mem_cons_of_mem _ hg)]

theorem wGroups_at {x : Nat × Op} {g : Grp} (h : g ∈ wGroups c args x) : (wGroups c args x)[g.j]? = some g := by
  unfold wGroups at h ⊢
  split at h
  · rename_i cmd ha
    obtain ⟨q, hq, rfl⟩ := List.mem_map.1 h
    have := List.mem_zipIdx_iff_getElem?.1 hq
    simp only [List.getElem?_map, List.getElem?_zipIdx]
    rw [this]
    simp
  · simp at h

theorem wGroups_sends (hc : c.Std) {op : Op} (h : wMk c args op.key = some op) {n calls : Nat} {m : Master BBeat}
    (hm : MInv n (wMk c args) calls m) {t : Nat} (ht : (t, op) ∈ taken m) :
    (args op.key).sends c ((wGroups c args (t, op)).map fun g => (g.a, g.ws)) := by
  obtain ⟨cmd, ha, _, _, _, hid, _⟩ := wMade hc h
  obtain ⟨out, bl, nid, ho, h1, h2⟩ := wGroups_out hc h t ha
  have := hm.own_id ht
  rw [this] at h1 h2
  refine ⟨cmd, t, out, _, bl, nid, ha, ho, ?_⟩
  rw [h1, h2, bursts_map _ fun g hg => (wGroups_ok hc (x := (t, op)) h hg).len]

/-- What is known of a completed write. -/
theorem WTrace.done {σ : Type} {t : Target σ} {p : Nat → WPort} {μ : Nat → σ} (h : WTrace c args t p μ) {n u : Nat} {op : Op}
    {got : List BBeat} (hd : (u, op, got) ∈ (p n).m.done) :
    wMk c args op.key = some op ∧ (u, op) ∈ taken (p n).m ∧
    ∃ ds : List (Grp × List (Nat × Bool)), ds.map (·.1) = wGroups c args (u, op) ∧ ds.map wRsp = got ∧
      ((ds.flatMap (·.2)).map (·.1)).Pairwise (· < ·) ∧ (∀ d ∈ ds, d.2.length = d.1.ws.length) ∧
      ∀ d ∈ ds, ∀ k tm ok, d.2[k]? = some (tm, ok) → tm < n ∧
        ((wOpen c args (p tm)).head? = some d.1 ∧ op ∈ (p tm).m.pend) ∧
        ∃ wb, d.1.ws[k]? = some wb ∧ WroteBeat c t d.1.a k wb (μ tm) ok (μ (tm + 1)) := by
  obtain ⟨w, hw, hg⟩ := h.inv n
  obtain ⟨ds, h1, h2, h3⟩ := (hw.inOrder h.std).done hw.m.inv hd
  have hmem : ∀ d ∈ ds, d.1 ∈ wAll c args (p n).m := by
    intro d hdm
    rw [hw.split]
    exact List.mem_append_left _ (List.mem_map_of_mem (h1.subset hdm))
  have htaken := done_taken hw.m.inv hd
  have hmk := hw.m.madeOf (hw.m.taken_issued htaken)
  refine ⟨hmk, htaken, ds, ?_, h3, ?_, fun d hdm => hw.full d (h1.subset hdm), ?_⟩
  · have hlen : ds.length = op.need := by
      have := congrArg List.length h2; simpa using this
    have hlen2 : (wGroups c args (u, op)).length = op.need := by
      have := congrArg List.length (wGroups_lab h.std (t := u) hmk); simpa using this
    apply List.ext_getElem?
    intro i
    by_cases hi : i < op.need
    · have hi' : i < ds.length := by omega
      rw [List.getElem?_map, List.getElem?_eq_getElem hi']
      simp only [Option.map_some]
      have hl : ds[i].1.lab = (u, op, i) := by
        have := congrArg (·[i]?) h2
        simp only [List.getElem?_map, List.getElem?_eq_getElem hi', Option.map_some, List.getElem?_range hi,
          Option.some.injEq] at this
        exact this
      simp only [Grp.lab, Prod.mk.injEq] at hl
      obtain ⟨x, hx, hgx⟩ := List.mem_flatMap.1 (hmem ds[i] (List.getElem_mem hi'))
      have hop := wGroups_op hgx
      rw [hl.1, hl.2.1] at hop
      subst hop
      have := wGroups_at hgx
      rw [hl.2.2] at this
      exact this.symm
    · rw [List.getElem?_eq_none (by rw [List.length_map]; omega), List.getElem?_eq_none (by omega)]
  · have hsub : (ds.flatMap (·.2)).Sublist (w.log.map (·.2.2)) := by
      have e : w.log.map (·.2.2) = (w.rv ++ w.cur.toList.map fun g => (g, w.cs)).flatMap (·.2) := by
        unfold WWit.log
        rw [List.map_flatMap]
        congr 1
        funext d
        rw [List.map_map]
        exact List.zipIdx_map_fst 0 d.2
      rw [e, List.flatMap_append]
      exact (flatMap_sublist _ h1).trans (List.sublist_append_left _ _)
    have := hsub.map (·.1)
    rw [List.map_map] at this
    exact hg.mono.sublist this
  · intro d hdm k tm ok hk
    have hm : (d.1, k, tm, ok) ∈ w.log := by
      unfold WWit.log
      refine List.mem_flatMap.2 ⟨d, List.mem_append_left _ (h1.subset hdm), ?_⟩
      refine List.mem_map.2 ⟨((tm, ok), k), List.mem_zipIdx_iff_getElem?.2 hk, rfl⟩
    have hop : d.1.op = op := by
      obtain ⟨i, hi, rfl⟩ := List.getElem_of_mem hdm
      have hi2 : i < op.need := by
        have := congrArg List.length h2
        simp only [List.length_map, List.length_range] at this
        omega
      have := congrArg (·[i]?) h2
      simp only [List.getElem?_map, List.getElem?_eq_getElem hi, Option.map_some, List.getElem?_range hi2,
        Option.some.injEq] at this
      simp only [Grp.lab, Prod.mk.injEq] at this
      exact this.2.1
    have := hg.good d.1 k tm ok hm
    rw [hop] at this
    exact this

/-- After an event, the slave has no new bursts to complete but those of the command that has just been taken. -/
theorem WInv.open_step {σ : Type} {t : Target σ} {p : WPort} {w : WWit} (hc : c.Std) (h : WInv c args p w) (st : σ) (e : WEv) :
    ∀ g ∈ wOpen c args (p.step c args t st e).1, g ∈ wOpen c args p ∨ g.op ∈ p.m.queue := by
  have hsame : ∀ (m' : Master BBeat) (k : Nat), Same p.m m' → ∀ g ∈ wOpen c args { p with m := m', calls := k },
      g ∈ wOpen c args p ∨ g.op ∈ p.m.queue := by
    intro m' k hs g hg
    refine .inl (wOpen_mono (p := p) (p' := { p with m := m', calls := k }) ?_ (Nat.le_refl _) g hg)
    show wAll c args m' = _
    simp only [wAll]; rw [hs.taken]
  have hport : ∀ p' : WPort, p'.m = p.m → p'.sl.toList.length + (p'.aw.length + (awsOf p'.todo).length) ≤
      p.sl.toList.length + (p.aw.length + (awsOf p.todo).length) → ∀ g ∈ wOpen c args p', g ∈ wOpen c args p ∨ g.op ∈ p.m.queue := by
    intro p' hm hn g hg
    exact .inl (wOpen_mono (by rw [hm]) hn g hg)
  cases e with
  | write =>
    simp only [WPort.step, WPort.write]
    split
    · exact hsame _ _ (inside_step _ _ _ rfl)
    · exact hsame _ _ (Same.refl _)
  | init =>
    simp only [WPort.step, WPort.init]
    split
    · exact hsame _ _ (inside_step _ _ _ rfl)
    · exact hsame _ _ (Same.refl _)
  | runInit i => exact hsame _ _ (inside_step _ _ _ rfl)
  | take =>
    simp only [WPort.step, WPort.take]
    split
    · rename_i op rest hd hr hcur hq
      have hi : op ∈ p.m.issued := h.m.queue_issued (by rw [hq]; exact List.mem_cons_self)
      have hmk := h.m.madeOf hi
      obtain ⟨cmd, ha, _⟩ := wMade hc hmk
      obtain ⟨out, bl, nid, ho, hoa, how⟩ := wGroups_out hc hmk p.m.curId ha
      simp only [ha, ho]
      obtain ⟨_, _, _, _, _, f6⟩ := take_fields (n := c.idCount) hr hcur hq
      have hall : wAll c args (p.m.step c.idCount .take) =
          wAll c args p.m ++ wGroups c args ((op.id?).getD p.m.curId, op) := by
        unfold wAll; rw [f6, List.flatMap_append]; simp
      have htodo := h.todo hcur
      have hl := congrArg List.length hoa
      rw [List.length_map] at hl
      intro g hg
      simp only [wOpen, hall, List.length_append, hl] at hg
      have hle : p.sl.toList.length + (p.aw.length + (awsOf p.todo).length) ≤ (wAll c args p.m).length := by
        have h1 := congrArg List.length h.open_eq
        have h2 := congrArg List.length h.split
        have h3 := congrArg List.length h.aws
        have h4 : p.sl.toList.length = w.cur.toList.length := by rw [h.sl]; cases w.cur <;> rfl
        simp only [List.length_append, List.length_map] at h1 h2 h3
        omega
      rw [htodo] at hle
      simp only [awsOf, List.filterMap_nil, List.length_nil, Nat.add_zero] at hle
      rw [List.drop_append_of_le_length (by omega)] at hg
      rcases List.mem_append.1 hg with hg | hg
      · left
        unfold wOpen
        rw [htodo]
        exact drop_mono (by simp only [awsOf, List.filterMap_nil, List.length_nil]; omega) g hg
      · right
        have := wGroups_op hg
        simp only [Prod.mk.injEq] at this
        rw [this.2, hq]
        exact List.mem_cons_self
    · exact hport _ rfl (Nat.le_refl _)
  | sendAW =>
    simp only [WPort.step, WPort.sendAW]
    split
    · rename_i a rest hd ht
      split
      · intro g hg
        refine .inl (wOpen_mono (p := p) ?_ ?_ g hg)
        · show wAll c args (p.m.step c.idCount .burst) = _
          unfold wAll
          rw [burst_taken]
        · rw [ht]
          simp only [awsOf, List.filterMap_cons, List.length_append, List.length_cons, List.length_nil]
          omega
      · exact hport _ rfl (Nat.le_refl _)
    · exact hport _ rfl (Nat.le_refl _)
  | sendW =>
    simp only [WPort.step, WPort.sendW]
    split
    · rename_i x rest hd ht
      exact hport _ rfl (by rw [ht]; simp [awsOf])
    · exact hport _ rfl (Nat.le_refl _)
  | start =>
    simp only [WPort.step, WPort.start]
    split
    · intro g hg
      refine .inl (wOpen_mono (p := p) (p' := { p with m := p.m.step c.idCount .start }) ?_ (Nat.le_refl _) g hg)
      show wAll c args (p.m.step c.idCount .start) = _
      unfold wAll
      rw [(start_fields c.idCount p.m).2.2.2]
    · exact hport _ rfl (Nat.le_refl _)
  | slaveAW =>
    simp only [WPort.step, WPort.slaveAW]
    split
    · rename_i a rest hd hsl haw
      split
      · exact hport _ rfl (Nat.le_refl _)
      · split
        · exact hport _ rfl (Nat.le_refl _)
        · exact hport _ rfl (by rw [hsl, haw]; simp only [Option.toList_some, Option.toList_none, List.length_cons, List.length_nil]; omega)
    · exact hport _ rfl (Nat.le_refl _)
  | slaveW =>
    simp only [WPort.step, WPort.slaveW]
    split
    · rename_i s wb rest hd hsl hw
      split
      · split
        · exact hport _ rfl (Nat.le_refl _)
        · split
          · exact hport _ rfl (Nat.le_refl _)
          · exact hport _ rfl (by rw [hsl]; simp only [Option.toList_some, List.length_cons, List.length_nil]; omega)
      · exact hport _ rfl (Nat.le_refl _)
    · exact hport _ rfl (Nat.le_refl _)
  | slaveB =>
    simp only [WPort.step, WPort.slaveB]
    split
    · rename_i s hd hsl
      split
      · exact hport _ rfl (by simp)
      · exact hport _ rfl (Nat.le_refl _)
    · exact hport _ rfl (Nat.le_refl _)
  | deliver =>
    simp only [WPort.step, WPort.deliver]
    split
    · rename_i x rest hb
      intro g hg
      refine .inl (wOpen_mono (p := p) (p' := { p with m := p.m.step c.idCount (.resp x.id x), b := rest }) ?_
        (Nat.le_refl _) g hg)
      show wAll c args (p.m.step c.idCount (.resp x.id x)) = _
      unfold wAll
      rw [resp_taken]
    · exact hport _ rfl (Nat.le_refl _)
  | workTake i => exact hsame _ _ (inside_step _ _ _ rfl)
  | workGet i => exact hsame _ _ (inside_step _ _ _ rfl)
  | workDone i => exact hsame _ _ (inside_step _ _ _ rfl)
  | reset v =>
    cases v with
    | true =>
      intro g hg
      simp [WPort.step, WPort.reset, wOpen, wAll, Master.step, Master.reset, taken] at hg
    | false => exact hsame _ _ ⟨rfl, rfl, rfl, rfl, rfl⟩

/-- The write side serves the operations in order. -/
theorem WTrace.served {σ : Type} {t : Target σ} {p : Nat → WPort} {μ : Nat → σ} (h : WTrace c args t p μ) :
    InTurn c.idCount (wMk c args) Grp.op (wGroups c args) (fun n => (p n).m) (fun n => wOpen c args (p n)) where
  op := fun x g hg => by rw [← wGroups_op hg]
  seq := h.seq
  inv := fun k => by
    obtain ⟨w, hw, _⟩ := h.inv k
    exact ⟨_, hw.m⟩
  part := fun k => List.drop_suffix _ _
  next := fun k g hg => by
    rcases h.next k with ⟨e, hs⟩ | hs
    · obtain ⟨w, hw, _⟩ := h.inv k
      rw [show p (k + 1) = ((p k).step c args t (μ k) e).1 by rw [← hs]] at hg
      exact hw.open_step h.std (μ k) e g hg
    · rw [hs] at hg; exact .inl hg

end Verif.AxiSys
