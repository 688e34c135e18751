import Verif.Proof.AxiSysOrder
import Verif.Props.Axi
import Verif.Spec.AxiSystem

/-!
# The read side of a connected system: which beat is served when
-/

namespace Verif.AxiSys

open Verif.Axi Verif.AxiOps Verif.AxiOps.Master

/-! ## The bursts of the operations -/

/-- The operation of call number `k`, if it is accepted. -/
def rMk (c : Cfg) (args : Nat → Req) (k : Nat) : Option Op :=
  match acceptRead c (args k) with
  | .ok _ => some (rOp c args k)
  | .error _ => none

/-- A read burst: ID, operation, number of its first beat within the operation, and its AR transaction. -/
structure RGrp where
  t : Nat
  op : Op
  i0 : Nat
  a : ABeat

/-- The beats of a burst. -/
def RGrp.atoms (g : RGrp) : List (RGrp × Nat) := (List.range g.a.beats).map fun k => (g, k)

theorem RGrp.atoms_length (g : RGrp) : g.atoms.length = g.a.beats := by simp [atoms]

theorem RGrp.atoms_get (g : RGrp) {k : Nat} (h : k < g.a.beats) : g.atoms[k]? = some (g, k) := by
  simp [atoms, List.getElem?_range h]

def rLab (x : RGrp × Nat) : Nat × Op × Nat := (x.1.t, x.1.op, x.1.i0 + x.2)

/-- The bursts of an operation under a given ID. -/
def rGroups (c : Cfg) (args : Nat → Req) (x : Nat × Op) : List RGrp :=
  match acceptRead c (args x.2.key) with
  | .ok cmd => (segs c cmd 0).map fun p => ⟨x.1, x.2, p.1, aAt c cmd x.1 p.1⟩
  | .error _ => []

variable {c : Cfg} {args : Nat → Req}

theorem rMk_some {k : Nat} {op : Op} (h : rMk c args k = some op) :
    op = rOp c args k ∧ ∃ cmd, acceptRead c (args k) = .ok cmd := by
  unfold rMk at h
  split at h
  · rename_i cmd hc
    exact ⟨(Option.some.inj h).symm, cmd, hc⟩
  · cases h

theorem rOp_spec {k : Nat} {cmd : Cmd} (ha : acceptRead c (args k) = .ok cmd) :
    rOp c args k = { key := k, id? := cmd.id, bursts := (segs c cmd 0).map fun p => p.2 - 1 } := by
  unfold rOp
  rw [ha]
  simp only
  rw [processRead_spec]
  simp

theorem rOp_key (k : Nat) : (rOp c args k).key = k := by
  unfold rOp
  split <;> rfl

/-- The beats of the bursts from beat `k` on are the beats `k`, `k + 1`, ... of the operation. -/
theorem segs_labs (cmd : Cmd) (t : Nat) (op : Op) : ∀ k ≤ cyclesOf cmd,
    (((segs c cmd k).map fun p => (⟨t, op, p.1, aAt c cmd t p.1⟩ : RGrp)).flatMap RGrp.atoms).map rLab =
      (List.range' k (cyclesOf cmd - k)).map fun i => (t, op, i) := by
  refine segs_induction (blAt_bounds c cmd) ?_ ?_
  · simp [segs_done]
  · intro k hk ih
    have hb := blAt_bounds c cmd k hk
    rw [segs_step c cmd k hk, List.map_cons, List.flatMap_cons, List.map_append, ih]
    have h1 : cyclesOf cmd - k = blAt c cmd k + (cyclesOf cmd - (k + blAt c cmd k)) := by omega
    rw [h1, ← List.range'_append_1, List.map_append]
    congr 1
    simp only [RGrp.atoms, beats_aAt c cmd t hk, List.map_map]
    rw [List.range'_eq_map_range, List.map_map]
    rfl

theorem segs_need (cmd : Cmd) : ∀ k ≤ cyclesOf cmd,
    (((segs c cmd k).map fun p => p.2 - 1).map (· + 1)).sum = cyclesOf cmd - k := by
  refine segs_induction (blAt_bounds c cmd) ?_ ?_
  · simp [segs_done]
  · intro k hk ih
    have hb := blAt_bounds c cmd k hk
    rw [segs_step c cmd k hk, List.map_cons, List.map_cons, List.sum_cons, ih]
    simp only
    omega

/-- The facts about an operation that call number `op.key` made. -/
theorem rMade (hc : c.Std) {op : Op} (h : rMk c args op.key = some op) : ∃ cmd,
    acceptRead c (args op.key) = .ok cmd ∧ CmdOK c cmd ∧ cmd.size ≤ 12 ∧ op.id? = cmd.id ∧
      op.bursts = (segs c cmd 0).map (fun p => p.2 - 1) ∧ op.need = cyclesOf cmd := by
  obtain ⟨h1, cmd, h2⟩ := rMk_some h
  obtain ⟨g1, g2, _⟩ := acceptRead_ok hc h2
  have h3 := rOp_spec h2
  have h4 : op.bursts = (segs c cmd 0).map (fun p => p.2 - 1) := by rw [h1, h3]
  refine ⟨cmd, h2, g1, g2, by rw [h1, h3], h4, ?_⟩
  unfold Op.need
  rw [h4, segs_need cmd 0 (Nat.zero_le _), Nat.sub_zero]

theorem rGroups_lab (hc : c.Std) {t : Nat} {op : Op} (h : rMk c args op.key = some op) :
    ((rGroups c args (t, op)).flatMap RGrp.atoms).map rLab = (List.range op.need).map fun i => (t, op, i) := by
  obtain ⟨cmd, h1, _, _, _, _, h2⟩ := rMade hc h
  unfold rGroups
  simp only [h1]
  rw [segs_labs cmd t op 0 (Nat.zero_le _), h2, Nat.sub_zero, List.range_eq_range']

theorem rGroups_bursts (hc : c.Std) {t : Nat} {op : Op} (h : rMk c args op.key = some op) :
    (rGroups c args (t, op)).map (fun g => (g.t, g.a.len)) = op.bursts.map fun k => (t, k) := by
  obtain ⟨cmd, h1, _, _, _, h2, _⟩ := rMade hc h
  unfold rGroups
  simp only [h1, h2, List.map_map]
  refine List.map_congr_left ?_
  intro p hp
  obtain ⟨b1, b2⟩ := mem_segs c cmd 0 (Nat.zero_le _) p hp
  have hb := blAt_bounds c cmd p.1 b1
  have := beats_aAt c cmd t b1
  simp only [ABeat.beats] at this
  simp only [Function.comp_apply, Prod.mk.injEq, true_and]
  omega

theorem rGroups_op {x : Nat × Op} {g : RGrp} (h : g ∈ rGroups c args x) : (g.t, g.op) = x := by
  unfold rGroups at h
  split at h
  · obtain ⟨q, _, rfl⟩ := List.mem_map.1 h; rfl
  · simp at h

/-- What the slave needs of a burst. -/
structure RGrp.OK (c : Cfg) (g : RGrp) : Prop where
  id : g.a.id = g.t
  size : g.a.nbytes ≤ c.lanes
  page : Within4K g.a

theorem rGroups_ok (hc : c.Std) {x : Nat × Op} (h : rMk c args x.2.key = some x.2) {g : RGrp} (hg : g ∈ rGroups c args x) :
    g.OK c := by
  obtain ⟨cmd, h1, h2, h3, _⟩ := rMade hc h
  unfold rGroups at hg
  simp only [h1] at hg
  obtain ⟨q, hm, rfl⟩ := List.mem_map.1 hg
  obtain ⟨b1, b2⟩ := mem_segs c cmd 0 (Nat.zero_le _) q hm
  refine ⟨rfl, ?_, within4k_aAt c cmd _ h3 b1⟩
  obtain ⟨w, hw, hs⟩ := h2.pow
  show 2 ^ cmd.size ≤ c.lanes
  rw [hw]; exact Nat.pow_le_pow_right (by omega) hs

/-- What `_process_read` sends are the bursts. -/
theorem rGroups_out (hc : c.Std) {op : Op} (h : rMk c args op.key = some op) (curId : Nat) {cmd : Cmd}
    (ha : acceptRead c (args op.key) = .ok cmd) :
    (processRead c curId cmd).1 = (rGroups c args ((op.id?).getD curId, op)).map (·.a) := by
  obtain ⟨cmd', h1, _, _, h5, _⟩ := rMade hc h
  have : cmd' = cmd := by rw [h1] at ha; exact Except.ok.inj ha
  subst this
  have hid : (chooseId c cmd' curId).1 = (op.id?).getD curId := by
    rw [h5]; unfold chooseId; cases cmd'.id <;> rfl
  rw [processRead_spec, hid]
  unfold rGroups
  simp only [h1, List.map_map]
  rfl

/-! ## The bursts of the whole port -/

/-- All bursts due since the last reset. -/
def rAll (c : Cfg) (args : Nat → Req) (m : Master RBeat) : List RGrp := (taken m).flatMap (rGroups c args)

variable {n calls : Nat} {m : Master RBeat}

theorem rAll_lab (hc : c.Std) (h : MInv n (rMk c args) calls m) :
    ((rAll c args m).flatMap RGrp.atoms).map rLab = slots (taken m) := by
  have hm : ∀ x ∈ taken m, rMk c args x.2.key = some x.2 := fun x hx => h.madeOf (h.taken_issued hx)
  unfold rAll slots
  revert hm
  generalize taken m = l
  intro hm
  induction l with
  | nil => rfl
  | cons x l ih =>
    simp only [List.flatMap_cons, List.map_append, List.flatMap_append]
    rw [ih (fun y hy => hm y (List.mem_cons_of_mem _ hy)), rGroups_lab hc (hm x List.mem_cons_self)]

theorem rAll_bursts (hc : c.Std) (h : MInv n (rMk c args) calls m) :
    (rAll c args m).map (fun g => (g.t, g.a.len)) = (taken m).flatMap fun x => x.2.bursts.map fun k => (x.1, k) := by
  have hm : ∀ x ∈ taken m, rMk c args x.2.key = some x.2 := fun x hx => h.madeOf (h.taken_issued hx)
  unfold rAll
  revert hm
  generalize taken m = l
  intro hm
  induction l with
  | nil => rfl
  | cons x l ih =>
    simp only [List.flatMap_cons, List.map_append]
    rw [ih (fun y hy => hm y (List.mem_cons_of_mem _ hy)), rGroups_bursts hc (hm x List.mem_cons_self)]

theorem rAll_length (hc : c.Std) (h : MInv n (rMk c args) calls m) :
    (rAll c args m).length = ((taken m).flatMap fun x => x.2.bursts).length := by
  have := congrArg List.length (rAll_bursts hc h)
  rw [List.length_map] at this
  rw [this]
  generalize taken m = l
  induction l with
  | nil => rfl
  | cons x l ih => simp only [List.flatMap_cons, List.length_append, List.length_map, ih]

theorem rAll_ok (hc : c.Std) (h : MInv n (rMk c args) calls m) {g : RGrp} (hg : g ∈ rAll c args m) :
    g.OK c ∧ (g.t, g.op) ∈ taken m := by
  obtain ⟨x, hx, hg⟩ := List.mem_flatMap.1 hg
  exact ⟨rGroups_ok hc (h.madeOf (h.taken_issued hx)) hg, by rw [rGroups_op hg]; exact hx⟩

/-! ## The invariant -/

/-- A beat served: burst, number of the beat, R transaction and instant. -/
structure Served where
  at_ : RGrp × Nat
  r : RBeat
  tm : Nat

/-- Where the bursts are: served, being served (up to beat `n`), and the rest; and the beats served. -/
structure RWit where
  dn : List RGrp := []
  cur : Option RGrp := none
  n : Nat := 0
  rest : List RGrp := []
  sv : List Served := []

structure RInv (c : Cfg) (args : Nat → Req) (p : RPort) (w : RWit) : Prop where
  m : MInv c.idCount (rMk c args) p.calls p.m
  split : rAll c args p.m = w.dn ++ (w.cur.toList ++ w.rest)
  ars : w.rest.map (·.a) = p.ar ++ p.todo
  sl : p.sl = w.cur.map fun g => { ar := g.a, n := w.n, cur := beatAddr g.a w.n }
  n0 : w.cur = none → w.n = 0
  nl : ∀ g, w.cur = some g → w.n ≤ g.a.len
  svs : w.sv.map (·.at_) = w.dn.flatMap RGrp.atoms ++ w.cur.toList.flatMap fun g => g.atoms.take w.n
  sent : p.m.sent.length + p.todo.length = (rAll c args p.m).length
  todo : p.m.cur = none → p.todo = []
  arr : p.m.arrived ++ p.r.map (fun x => (x.id, x)) = w.sv.map fun d => (d.at_.1.t, d.r)
  died : p.died = false
  ok : p.m.respFailed = false

/-- The bursts that the slave has not completed. -/
def rOpen (c : Cfg) (args : Nat → Req) (p : RPort) : List RGrp :=
  (rAll c args p.m).drop ((rAll c args p.m).length - (p.sl.toList.length + (p.ar.length + p.todo.length)))

theorem RInv.open_eq {p : RPort} {w : RWit} (h : RInv c args p w) : rOpen c args p = w.cur.toList ++ w.rest := by
  have h1 := congrArg List.length h.ars
  simp only [List.length_map, List.length_append] at h1
  have h2 : p.sl.toList.length = w.cur.toList.length := by
    rw [h.sl]; cases w.cur <;> rfl
  unfold rOpen
  rw [← h1, h2, h.split]
  apply List.drop_left'
  simp only [List.length_append]
  omega

theorem RInv.open_cur {p : RPort} {w : RWit} (h : RInv c args p w) {g : RGrp} (hg : w.cur = some g) :
    (rOpen c args p).head? = some g := by
  rw [h.open_eq, hg]; rfl

theorem rOpen_mono {p p' : RPort} (ha : rAll c args p'.m = rAll c args p.m)
    (hn : p'.sl.toList.length + (p'.ar.length + p'.todo.length) ≤ p.sl.toList.length + (p.ar.length + p.todo.length)) :
    ∀ g ∈ rOpen c args p', g ∈ rOpen c args p := by
  unfold rOpen
  rw [ha]
  exact drop_mono (by omega)

theorem needOf_atoms (l : List RGrp) : needOf (l.map fun g => g.a.len) = (l.flatMap RGrp.atoms).length := by
  induction l with
  | nil => rfl
  | cons g l ih =>
    simp only [needOf, List.map_cons, List.sum_cons, List.flatMap_cons, List.length_append, RGrp.atoms_length, ABeat.beats] at ih ⊢
    omega

theorem RInv.sent_all {p : RPort} {w : RWit} (hc : c.Std) (h : RInv c args p w) :
    p.m.sent = ((rAll c args p.m).take p.m.sent.length).map fun g => (g.t, g.a.len) := by
  have hs : p.m.sent <+: (taken p.m).flatMap fun x => x.2.bursts.map fun k => (x.1, k) := by
    rw [h.m.ids.sent, taken, List.flatMap_append]
    refine List.prefix_append_right_inj _ |>.2 ?_
    cases p.m.cur with
    | none => exact List.nil_prefix
    | some x =>
      simp only [Option.map_some, Option.getD_some, Option.toList_some, List.flatMap_cons, List.flatMap_nil, List.append_nil]
      exact (List.take_prefix _ _).map _
  rw [← rAll_bursts hc h.m] at hs
  rw [List.map_take]
  exact List.prefix_iff_eq_take.1 hs

theorem RInv.inOrder {p : RPort} {w : RWit} (hc : c.Std) (h : RInv c args p w) :
    InOrder p.m w.sv (fun d => rLab d.at_) (·.r) where
  labs := by
    have h1 := rAll_lab hc h.m
    have e : (w.sv.map fun d => rLab d.at_) = (w.sv.map (·.at_)).map rLab := by rw [List.map_map]; rfl
    rw [← h1, e, h.svs, h.split, List.flatMap_append, List.map_append, List.map_append]
    refine (List.prefix_append_right_inj _).2 ?_
    rw [List.flatMap_append, List.map_append]
    refine List.IsPrefix.trans ?_ (List.prefix_append _ _)
    cases w.cur with
    | none => exact List.nil_prefix
    | some g =>
      simp only [Option.toList_some, List.flatMap_cons, List.flatMap_nil, List.append_nil]
      exact (List.take_prefix _ _).map _
  sent := by
    have h1 := h.sent_all hc
    have h2 : p.m.sent.map (·.2) = ((rAll c args p.m).take p.m.sent.length).map fun g => g.a.len := by
      conv => lhs; rw [h1]
      rw [List.map_map]; rfl
    rw [h2, needOf_atoms]
    have h3 := congrArg List.length h.split
    have h4 := congrArg List.length h.ars
    have h5 := h.sent
    simp only [List.length_append, List.length_map] at h3 h4
    have hpre : w.dn ++ w.cur.toList <+: (rAll c args p.m).take p.m.sent.length := by
      refine List.prefix_take_iff.2 ⟨?_, ?_⟩
      · rw [h.split, ← List.append_assoc]; exact List.prefix_append _ _
      · rw [List.length_append]; omega
    obtain ⟨r, hr⟩ := hpre
    have h6 := congrArg List.length h.svs
    rw [← hr, List.flatMap_append, List.flatMap_append]
    simp only [List.length_append, List.length_map] at h6 ⊢
    have h7 : (w.cur.toList.flatMap fun g => g.atoms.take w.n).length ≤ (w.cur.toList.flatMap RGrp.atoms).length := by
      cases w.cur with
      | none => exact Nat.le_refl _
      | some g => simp only [Option.toList_some, List.flatMap_cons, List.flatMap_nil, List.append_nil, List.length_take]; omega
    omega
  arr := ⟨_, h.arr⟩

/-- The next beat belongs to an operation that is not complete. -/
theorem RInv.cur_pend {p : RPort} {w : RWit} (hc : c.Std) (h : RInv c args p w) {g : RGrp} (hg : w.cur = some g) :
    g.op ∈ p.m.pend := by
  have hn := h.nl g hg
  have hs : (slots (taken p.m))[w.sv.length]? = some (g.t, g.op, g.i0 + w.n) := by
    have h6 := congrArg List.length h.svs
    simp only [List.length_map, List.length_append, hg, Option.toList_some, List.flatMap_cons, List.flatMap_nil, List.append_nil,
      List.length_take, RGrp.atoms_length] at h6
    have hlt : w.n < g.a.beats := by simp only [ABeat.beats]; omega
    rw [← rAll_lab hc h.m, h.split, hg, List.getElem?_map, List.flatMap_append,
      List.getElem?_append_right (by omega), List.flatMap_append]
    have e : w.sv.length - (w.dn.flatMap RGrp.atoms).length = w.n := by omega
    rw [e]
    simp only [Option.toList_some, List.flatMap_cons, List.flatMap_nil, List.append_nil]
    rw [List.getElem?_append_left (by rw [RGrp.atoms_length]; exact hlt), RGrp.atoms_get g hlt]
    rfl
  refine (h.inOrder hc).pend h.m.inv hs ?_
  have := congrArg List.length h.arr
  simp only [List.length_append, List.length_map] at this
  omega

theorem RInv.mem_cur {p : RPort} {w : RWit} (h : RInv c args p w) {g : RGrp} (hg : w.cur = some g) :
    g ∈ rAll c args p.m := by
  rw [h.split, hg]; simp

theorem RInv.mem_rest {p : RPort} {w : RWit} (h : RInv c args p w) {g : RGrp} (hg : g ∈ w.rest) :
    g ∈ rAll c args p.m := by
  rw [h.split]; simp [hg]

/-- Nothing is under way while the reset is asserted. -/
theorem RInv.stopped {p : RPort} {w : RWit} (h : RInv c args p w) (hr : p.m.running = false) :
    p.todo = [] ∧ p.ar = [] ∧ p.r = [] := by
  have h0 : rAll c args p.m = [] := by unfold rAll; rw [h.m.off hr]; rfl
  have h1 := h.split
  rw [h0] at h1
  have h2 := congrArg List.length h1
  simp only [List.length_nil, List.length_append] at h2
  have h3 : w.rest = [] := List.length_eq_zero_iff.1 (by omega)
  have h4 : w.dn = [] := List.length_eq_zero_iff.1 (by omega)
  have h8 : w.cur.toList = [] := List.length_eq_zero_iff.1 (by omega)
  have h9 := h.svs
  rw [h4, h8] at h9
  simp only [List.flatMap_nil, List.append_nil, List.map_eq_nil_iff] at h9
  have h5 := h.ars
  have h6 := h.arr
  rw [h3] at h5
  rw [h9] at h6
  have e5 := congrArg List.length h5
  have e6 := congrArg List.length h6
  simp only [List.map_nil, List.length_nil, List.length_append, List.length_map] at e5 e6
  exact ⟨List.length_eq_zero_iff.1 (by omega), List.length_eq_zero_iff.1 (by omega), List.length_eq_zero_iff.1 (by omega)⟩

/-- A change of the master that the channels do not see. -/
theorem RInv.same {p : RPort} {w : RWit} (h : RInv c args p w) {m' : Master RBeat} {k : Nat}
    (hm : MInv c.idCount (rMk c args) k m') (hs : Same p.m m') : RInv c args { p with m := m', calls := k } w := by
  have ha : rAll c args m' = rAll c args p.m := by unfold rAll; rw [hs.taken]
  refine ⟨hm, ?_, h.ars, h.sl, h.n0, h.nl, h.svs, ?_, ?_, ?_, h.died, ?_⟩
  · show rAll c args m' = _
    rw [ha]; exact h.split
  · show m'.sent.length + _ = (rAll c args m').length
    rw [ha, hs.sent]; exact h.sent
  · show m'.cur = none → _
    rw [hs.cur]; exact h.todo
  · show m'.arrived ++ _ = _
    rw [hs.arrived]; exact h.arr
  · show m'.respFailed = _
    rw [hs.respFailed]; exact h.ok

theorem rMk_call {k : Nat} {cmd : Cmd} (h : acceptRead c (args k) = .ok cmd) : rMk c args k = some (rOp c args k) := by
  unfold rMk; rw [h]

theorem RInv.read {p : RPort} {w : RWit} (h : RInv c args p w) : RInv c args (p.read c args) w := by
  unfold RPort.read
  split
  · rename_i cmd ha
    exact h.same (h.m.call (rMk_call ha) (rOp_key _)).1 (inside_step _ _ _ rfl)
  · exact h.same h.m.later (Same.refl _)

theorem RInv.init {p : RPort} {w : RWit} (h : RInv c args p w) : RInv c args (p.init c args) w := by
  unfold RPort.init
  split
  · rename_i cmd ha
    exact h.same (h.m.call (rMk_call ha) (rOp_key _)).2 (inside_step _ _ _ rfl)
  · exact h.same h.m.later (Same.refl _)

theorem RInv.inside {p : RPort} {w : RWit} (h : RInv c args p w) (e : AxiOps.Ev RBeat) (h1 : isCall e = false)
    (h2 : inside e = true) : RInv c args { p with m := p.m.step c.idCount e } w :=
  h.same (h.m.step e h1) (inside_step _ _ _ h2)

theorem RInv.take {p : RPort} {w : RWit} (hc : c.Std) (h : RInv c args p w) :
    ∃ w', RInv c args (p.take c args) w' ∧ w'.sv = w.sv := by
  unfold RPort.take
  split
  · rename_i op rest hd hr hcur hq
    have hi : op ∈ p.m.issued := h.m.queue_issued (by rw [hq]; exact List.mem_cons_self)
    have hmk := h.m.madeOf hi
    obtain ⟨cmd, ha, _⟩ := rMade hc hmk
    have ho := rGroups_out hc hmk p.m.curId ha
    rw [ha]
    simp only
    rw [ho]
    obtain ⟨f1, f2, f3, f4, f5, f6⟩ := take_fields (n := c.idCount) hr hcur hq
    have hall : rAll c args (p.m.step c.idCount .take) =
        rAll c args p.m ++ rGroups c args ((op.id?).getD p.m.curId, op) := by
      unfold rAll; rw [f6, List.flatMap_append]; simp
    have htodo := h.todo hcur
    refine ⟨{ w with rest := w.rest ++ rGroups c args ((op.id?).getD p.m.curId, op) }, ?_, rfl⟩
    refine ⟨h.m.step .take rfl, ?_, ?_, h.sl, h.n0, h.nl, h.svs, ?_, ?_, ?_, h.died, ?_⟩
    · show rAll c args (p.m.step c.idCount .take) = _
      rw [hall, h.split]; simp
    · have := h.ars
      rw [htodo] at this
      simp only [List.map_append, this, List.append_nil]
    · show (p.m.step c.idCount .take).sent.length + ((rGroups c args ((op.id?).getD p.m.curId, op)).map (·.a)).length =
        (rAll c args (p.m.step c.idCount .take)).length
      have := h.sent
      rw [htodo] at this
      simp only [List.length_nil, Nat.add_zero] at this
      rw [f2, hall, List.length_append, List.length_map, this]
    · intro hn; rw [f1] at hn; cases hn
    · show (p.m.step c.idCount .take).arrived ++ _ = _
      rw [f3]; exact h.arr
    · show (p.m.step c.idCount .take).respFailed = _
      rw [f4]; exact h.ok
  · exact ⟨w, h, rfl⟩

theorem RInv.sendAR {p : RPort} {w : RWit} (hc : c.Std)
    (hid : ∀ k op i, rMk c args k = some op → op.id? = some i → i < c.idCount) (h : RInv c args p w) :
    RInv c args (p.sendAR c) w := by
  unfold RPort.sendAR
  split
  · rename_i a rest hd ht
    have ha : a ∈ w.rest.map (·.a) := by rw [h.ars, ht]; simp
    obtain ⟨g, hg, rfl⟩ := List.mem_map.1 ha
    obtain ⟨gok, gt⟩ := rAll_ok hc h.m (h.mem_rest hg)
    have hlt : g.a.id < c.idCount := by
      rw [gok.id]
      exact h.m.id_lt (Nat.two_pow_pos _) hid gt
    rw [if_pos hlt]
    have hr : p.m.running = true := by
      cases hr : p.m.running with
      | true => rfl
      | false => have := (h.stopped hr).1; rw [ht] at this; cases this
    cases hcur : p.m.cur with
    | none => have := h.todo hcur; rw [ht] at this; cases this
    | some x =>
      obtain ⟨op, t, k⟩ := x
      have hk : k < op.bursts.length := by
        have h1 := h.sent
        have h2 := IdInv.sent_length h.m.ids
        rw [rAll_length hc h.m, ← h2, hcur, ht] at h1
        simp only [Option.map_some, Option.getD_some, List.length_cons] at h1
        omega
      obtain ⟨f1, f2, f3, f4, f5, f6⟩ := burst_fields (n := c.idCount) hr hcur (List.getElem?_eq_getElem hk)
      have hall : rAll c args (p.m.step c.idCount .burst) = rAll c args p.m := by unfold rAll; rw [f6]
      refine ⟨h.m.step .burst rfl, ?_, ?_, h.sl, h.n0, h.nl, h.svs, ?_, ?_, ?_, h.died, ?_⟩
      · show rAll c args (p.m.step c.idCount .burst) = _
        rw [hall]; exact h.split
      · simp only [h.ars, ht, List.append_assoc]; rfl
      · show (p.m.step c.idCount .burst).sent.length + rest.length = (rAll c args (p.m.step c.idCount .burst)).length
        have := h.sent
        rw [ht] at this
        rw [f2, hall, ← this]
        simp only [List.length_append, List.length_cons, List.length_nil]
        omega
      · intro hn; rw [f1] at hn; cases hn
      · show (p.m.step c.idCount .burst).arrived ++ _ = _
        rw [f3]; exact h.arr
      · show (p.m.step c.idCount .burst).respFailed = _
        rw [f4]; exact h.ok
  · exact h

theorem RInv.start {p : RPort} {w : RWit} (h : RInv c args p w) : RInv c args (p.start c) w := by
  unfold RPort.start
  split
  · rename_i hd ht
    obtain ⟨f1, f2, f3, f4⟩ := start_fields c.idCount p.m
    have hall : rAll c args (p.m.step c.idCount .start) = rAll c args p.m := by unfold rAll; rw [f4]
    refine ⟨h.m.step .start rfl, ?_, h.ars, h.sl, h.n0, h.nl, h.svs, ?_, fun _ => ht, ?_, h.died, ?_⟩
    · show rAll c args (p.m.step c.idCount .start) = _
      rw [hall]; exact h.split
    · show (p.m.step c.idCount .start).sent.length + _ = (rAll c args (p.m.step c.idCount .start)).length
      rw [hall, f1]; exact h.sent
    · show (p.m.step c.idCount .start).arrived ++ _ = _
      rw [f2]; exact h.arr
    · show (p.m.step c.idCount .start).respFailed = _
      rw [f3]; exact h.ok
  · exact h

theorem RInv.slaveAR {p : RPort} {w : RWit} (hc : c.Std) (h : RInv c args p w) :
    ∃ w', RInv c args (p.slaveAR c) w' ∧ w'.sv = w.sv := by
  unfold RPort.slaveAR
  split
  · rename_i a rest hd hsl har
    have hcur : w.cur = none := by
      have := h.sl
      rw [hsl] at this
      cases hw : w.cur with
      | none => rfl
      | some g => rw [hw] at this; cases this
    have hn := h.n0 hcur
    have hars := h.ars
    rw [har] at hars
    cases hrest : w.rest with
    | nil => rw [hrest] at hars; simp at hars
    | cons g gs =>
      rw [hrest] at hars
      simp only [List.map_cons, List.cons_append, List.cons.injEq] at hars
      obtain ⟨rfl, hars⟩ := hars
      obtain ⟨gok, gt⟩ := rAll_ok hc h.m (h.mem_rest (g := g) (by rw [hrest]; exact List.mem_cons_self))
      simp only
      rw [if_neg (by have := gok.size; simp only [ABeat.nbytes] at this; omega), if_neg (by
        rintro ⟨_, hn⟩
        exact hn (check4k g.a gok.page))]
      refine ⟨{ w with cur := some g, rest := gs }, ?_, rfl⟩
      refine ⟨h.m, ?_, hars, ?_, (fun hn => by cases hn), ?_, ?_, h.sent, h.todo, h.arr, h.died, h.ok⟩
      · show rAll c args p.m = _
        rw [h.split, hcur, hrest]; simp
      · simp only [hn, Option.map_some, beatAddr_zero]
        rfl
      · intro g' hg'; cases hg'; rw [hn]; exact Nat.zero_le _
      · simp only [h.svs, hcur, hn]
        simp
  · exact ⟨w, h, rfl⟩

/-- The R transaction of a beat. -/
theorem RPort.slaveR_spec {σ : Type} (t : Target σ) (p : RPort) (g : RGrp) (n : Nat) (st : σ) (hd : p.died = false)
    (hs : p.sl = some { ar := g.a, n := n, cur := beatAddr g.a n }) (hn : n ≤ g.a.len) :
    ∃ beat, ReadBeat c t g.a n st beat (p.slaveR c t st).2 ∧
      (p.slaveR c t st).1 = { p with
        r := p.r ++ [beat]
        sl := if n < g.a.len then some { ar := g.a, n := n + 1, cur := beatAddr g.a (n + 1) } else none } := by
  have hbw : beatAddr g.a n / c.lanes * c.lanes = beatWord c.lanes g.a n := rfl
  have hst := beatAddr_step g.a n (by simp only [ABeat.beats]; omega)
  unfold RPort.slaveR ReadBeat
  simp only [hd, hs, hbw]
  rcases t.read (beatWord c.lanes g.a n) c.lanes st with ⟨r, st2⟩
  cases r with
  | ok d => exact ⟨_, ⟨rfl, rfl, rfl, rfl, rfl⟩, by simp only; rw [← hst]; rfl⟩
  | error e => exact ⟨_, ⟨rfl, rfl, rfl, fromBytesLE_replicate _, rfl⟩, by simp only; rw [← hst]; rfl⟩

theorem RInv.slaveR {σ : Type} {t : Target σ} {p : RPort} {w : RWit} (hc : c.Std) (h : RInv c args p w) (st : σ) (tm : Nat) :
    ∃ w', RInv c args (p.slaveR c t st).1 w' ∧
      ((w'.sv = w.sv ∧ (p.slaveR c t st).2 = st) ∨ ∃ g k r, w'.sv = w.sv ++ [⟨(g, k), r, tm⟩] ∧
        g ∈ rAll c args p.m ∧ k < g.a.beats ∧ (rOpen c args p).head? = some g ∧ g.op ∈ p.m.pend ∧
           ReadBeat c t g.a k st r (p.slaveR c t st).2) := by
  cases hcur : w.cur with
    | none =>
      have hs := h.sl
      rw [hcur] at hs
      have : p.slaveR c t st = (p, st) := by
        unfold RPort.slaveR
        rw [h.died, hs]; rfl
      rw [this]
      exact ⟨w, h, .inl ⟨rfl, rfl⟩⟩
    | some g =>
      have hs := h.sl
      rw [hcur] at hs
      obtain ⟨gok, gt⟩ := rAll_ok hc h.m (h.mem_cur hcur)
      have hn := h.nl g hcur
      obtain ⟨beat, hrb, hp⟩ := RPort.slaveR_spec (c := c) t p g w.n st h.died hs hn
      rw [hp]
      have hid : beat.id = g.t := by rw [hrb.1]; exact gok.id
      have hlt : w.n < g.a.beats := by simp only [ABeat.beats]; omega
      have htake : g.atoms.take (w.n + 1) = g.atoms.take w.n ++ [(g, w.n)] := by
        rw [List.take_add_one, RGrp.atoms_get g hlt]; rfl
      have hsv : (w.sv ++ [(⟨(g, w.n), beat, tm⟩ : Served)]).map (·.at_) =
          w.dn.flatMap RGrp.atoms ++ g.atoms.take (w.n + 1) := by
        rw [List.map_append, h.svs, hcur, htake]; simp
      have harr : p.m.arrived ++ (p.r ++ [beat]).map (fun x => (x.id, x)) =
          (w.sv ++ [(⟨(g, w.n), beat, tm⟩ : Served)]).map fun d => (d.at_.1.t, d.r) := by
        rw [List.map_append, List.map_append, ← List.append_assoc, h.arr, List.map_cons, hid]; rfl
      by_cases hl : w.n < g.a.len
      · rw [if_pos hl]
        refine ⟨{ w with n := w.n + 1, sv := w.sv ++ [⟨(g, w.n), beat, tm⟩] }, ?_,
          .inr ⟨g, w.n, beat, rfl, h.mem_cur hcur, hlt, h.open_cur hcur, h.cur_pend hc hcur, hrb⟩⟩
        refine ⟨h.m, h.split, h.ars, ?_, ?_, ?_, ?_, h.sent, h.todo, harr, h.died, h.ok⟩
        · simp only [hcur, Option.map_some]
        · intro hn; rw [hcur] at hn; cases hn
        · intro g' hg'; rw [hcur] at hg'; cases hg'; exact hl
        · simp only [hcur, Option.toList_some, List.flatMap_cons, List.flatMap_nil, List.append_nil]; exact hsv
      · rw [if_neg hl]
        refine ⟨{ dn := w.dn ++ [g], cur := none, n := 0, rest := w.rest, sv := w.sv ++ [⟨(g, w.n), beat, tm⟩] }, ?_,
          .inr ⟨g, w.n, beat, rfl, h.mem_cur hcur, hlt, h.open_cur hcur, h.cur_pend hc hcur, hrb⟩⟩
        refine ⟨h.m, ?_, h.ars, rfl, fun _ => rfl, (fun g hg => by cases hg), ?_, h.sent, h.todo, harr, h.died, h.ok⟩
        · show rAll c args p.m = _
          rw [h.split, hcur]; simp
        · rw [hsv, List.take_of_length_le (by rw [RGrp.atoms_length]; simp only [ABeat.beats]; omega)]
          simp

theorem RInv.deliver {p : RPort} {w : RWit} (hc : c.Std) (h : RInv c args p w) : RInv c args (p.deliver c) w := by
  unfold RPort.deliver
  split
  · rename_i x rest hb
    have hr : p.m.running = true := by
      cases hr : p.m.running with
      | true => rfl
      | false => have := (h.stopped hr).2.2; rw [hb] at this; cases this
    have harr := h.arr
    rw [hb, List.map_cons] at harr
    have ha := (h.inOrder hc).active h.m.inv h.m.ids harr.symm
    obtain ⟨f1, f2, f3, f4, f5⟩ := resp_fields (n := c.idCount) (r := x) hr h.ok ha
    have hall : rAll c args (p.m.step c.idCount (.resp x.id x)) = rAll c args p.m := by unfold rAll; rw [f5]
    refine ⟨h.m.step (.resp x.id x) rfl, ?_, h.ars, h.sl, h.n0, h.nl, h.svs, ?_, ?_, ?_, h.died, f4⟩
    · show rAll c args (p.m.step c.idCount (.resp x.id x)) = _
      rw [hall]; exact h.split
    · show (p.m.step c.idCount (.resp x.id x)).sent.length + _ = (rAll c args (p.m.step c.idCount (.resp x.id x))).length
      rw [hall, f2]; exact h.sent
    · show (p.m.step c.idCount (.resp x.id x)).cur = none → _
      rw [f1]; exact h.todo
    · show (p.m.step c.idCount (.resp x.id x)).arrived ++ _ = _
      rw [f3, ← harr]; simp
  · exact h

theorem RInv.reset {p : RPort} {w : RWit} (h : RInv c args p w) (v : Bool) :
    ∃ w', RInv c args (p.reset c v) w' ∧ (w'.sv = w.sv ∨ w'.sv = []) := by
  cases v with
  | true =>
    exact ⟨{}, ⟨h.m.step (.reset true) rfl, rfl, rfl, rfl, fun _ => rfl, (fun g hg => by cases hg), rfl, rfl, fun _ => rfl, rfl,
      rfl, rfl⟩, .inr rfl⟩
  | false =>
    refine ⟨w, ?_, .inl rfl⟩
    exact h.same (h.m.step (.reset false) rfl) ⟨rfl, rfl, rfl, rfl, rfl⟩

/-- One event of the read side at instant `tm`: either nothing happens to the target, or one beat of an operation that is not
complete is executed. -/
theorem RInv.step {σ : Type} {t : Target σ} {p : RPort} {w : RWit} (hc : c.Std)
    (hid : ∀ k op i, rMk c args k = some op → op.id? = some i → i < c.idCount) (h : RInv c args p w) (st : σ) (e : REv)
    (tm : Nat) : ∃ w', RInv c args (p.step c args t st e).1 w' ∧
      (((w'.sv = w.sv ∨ w'.sv = []) ∧ (p.step c args t st e).2 = st) ∨ ∃ g k r, w'.sv = w.sv ++ [⟨(g, k), r, tm⟩] ∧
        g ∈ rAll c args p.m ∧ k < g.a.beats ∧ (rOpen c args p).head? = some g ∧ g.op ∈ p.m.pend ∧
           ReadBeat c t g.a k st r (p.step c args t st e).2) := by
  cases e with
  | read => exact ⟨w, h.read, .inl ⟨.inl rfl, rfl⟩⟩
  | init => exact ⟨w, h.init, .inl ⟨.inl rfl, rfl⟩⟩
  | runInit i => exact ⟨w, h.inside _ rfl rfl, .inl ⟨.inl rfl, rfl⟩⟩
  | take =>
    obtain ⟨w', h1, h2⟩ := h.take hc
    exact ⟨w', h1, .inl ⟨.inl h2, rfl⟩⟩
  | sendAR => exact ⟨w, h.sendAR hc hid, .inl ⟨.inl rfl, rfl⟩⟩
  | start => exact ⟨w, h.start, .inl ⟨.inl rfl, rfl⟩⟩
  | slaveAR =>
    obtain ⟨w', h1, h2⟩ := h.slaveAR hc
    exact ⟨w', h1, .inl ⟨.inl h2, rfl⟩⟩
  | slaveR =>
    obtain ⟨w', h1, h2⟩ := h.slaveR (t := t) hc st tm
    refine ⟨w', h1, ?_⟩
    rcases h2 with ⟨h2, h3⟩ | h2
    · exact .inl ⟨.inl h2, h3⟩
    · exact .inr h2
  | deliver => exact ⟨w, h.deliver hc, .inl ⟨.inl rfl, rfl⟩⟩
  | workTake i => exact ⟨w, h.inside _ rfl rfl, .inl ⟨.inl rfl, rfl⟩⟩
  | workGet i => exact ⟨w, h.inside _ rfl rfl, .inl ⟨.inl rfl, rfl⟩⟩
  | workDone i => exact ⟨w, h.inside _ rfl rfl, .inl ⟨.inl rfl, rfl⟩⟩
  | reset v =>
    obtain ⟨w', h1, h2⟩ := h.reset v
    exact ⟨w', h1, .inl ⟨h2, rfl⟩⟩

/-- The master's part of an event is at most one step of the master. -/
theorem RPort.step_master {σ : Type} (t : Target σ) (p : RPort) (st : σ) (e : REv) :
    (p.step c args t st e).1.m = p.m ∨ ∃ e', (p.step c args t st e).1.m = p.m.step c.idCount e' := by
  cases e with
  | read => simp only [RPort.step, RPort.read]; split <;> first | exact .inr ⟨.write (rOp c args p.calls), rfl⟩ | exact .inl rfl
  | init => simp only [RPort.step, RPort.init]; split <;> first | exact .inr ⟨.init (rOp c args p.calls), rfl⟩ | exact .inl rfl
  | runInit i => exact .inr ⟨.runInit i, rfl⟩
  | take =>
    simp only [RPort.step, RPort.take]
    split
    · split
      · exact .inl rfl
      · exact .inr ⟨.take, rfl⟩
    · exact .inl rfl
  | sendAR =>
    simp only [RPort.step, RPort.sendAR]
    split
    · split
      · exact .inr ⟨.burst, rfl⟩
      · exact .inl rfl
    · exact .inl rfl
  | start => simp only [RPort.step, RPort.start]; split <;> first | exact .inr ⟨.start, rfl⟩ | exact .inl rfl
  | slaveAR =>
    simp only [RPort.step, RPort.slaveAR]
    split
    · split
      · exact .inl rfl
      · split <;> exact .inl rfl
    · exact .inl rfl
  | slaveR => simp only [RPort.step, RPort.slaveR]; split <;> exact .inl rfl
  | deliver => simp only [RPort.step, RPort.deliver]; split <;> first | exact .inr ⟨.resp _ _, rfl⟩ | exact .inl rfl
  | workTake i => exact .inr ⟨.workTake i, rfl⟩
  | workGet i => exact .inr ⟨.workGet i, rfl⟩
  | workDone i => exact .inr ⟨.workDone i, rfl⟩
  | reset v =>
    cases v with
    | true => exact .inr ⟨.reset true, rfl⟩
    | false => exact .inr ⟨.reset false, rfl⟩

/-! ## Histories -/

/-- A history of the read side; others may change the target in between. -/
structure RTrace {σ : Type} (c : Cfg) (args : Nat → Req) (t : Target σ) (p : Nat → RPort) (μ : Nat → σ) : Prop where
  std : c.Std
  ids : ∀ k, (args k).id ≠ some (2 ^ c.idWidth)
  start : p 0 = {}
  next : ∀ n, (∃ e, (p (n + 1), μ (n + 1)) = (p n).step c args t (μ n) e) ∨ p (n + 1) = p n

theorem rMk_id (hc : c.Std) (hi : ∀ k, (args k).id ≠ some (2 ^ c.idWidth)) :
    ∀ k op i, rMk c args k = some op → op.id? = some i → i < c.idCount := by
  intro k op i h1 h2
  obtain ⟨rfl, cmd, ha⟩ := rMk_some h1
  rw [rOp_spec ha] at h2
  exact (C29_representable_partial c hc _ cmd ha (hi k)).1 i h2

section trace

variable {σ : Type} {t : Target σ} {p : Nat → RPort} {μ : Nat → σ}

/-- The beats served since the last reset: when, and with which effect. -/
structure RGood (c : Cfg) (args : Nat → Req) (t : Target σ) (p : Nat → RPort) (μ : Nat → σ) (n : Nat) (sv : List Served) :
    Prop where
  good : ∀ d ∈ sv, d.tm < n ∧ ((rOpen c args (p d.tm)).head? = some d.at_.1 ∧ d.at_.1.op ∈ (p d.tm).m.pend) ∧
    ReadBeat c t d.at_.1.a d.at_.2 (μ d.tm) d.r (μ (d.tm + 1))
  mono : (sv.map (·.tm)).Pairwise (· < ·)

theorem RTrace.inv (h : RTrace c args t p μ) (n : Nat) : ∃ w, RInv c args (p n) w ∧ RGood c args t p μ n w.sv := by
  induction n with
  | zero =>
    refine ⟨{}, ?_, ⟨by simp, by simp⟩⟩
    rw [h.start]
    exact ⟨MInv.start _ _, rfl, rfl, rfl, fun _ => rfl, (fun g hg => by cases hg), rfl, rfl, fun _ => rfl, rfl, rfl, rfl⟩
  | succ n ih =>
    obtain ⟨w, hw, hg⟩ := ih
    have hold : ∀ d ∈ w.sv, d.tm < n + 1 ∧
        ((rOpen c args (p d.tm)).head? = some d.at_.1 ∧ d.at_.1.op ∈ (p d.tm).m.pend) ∧
        ReadBeat c t d.at_.1.a d.at_.2 (μ d.tm) d.r (μ (d.tm + 1)) := by
      intro d hm
      obtain ⟨h1, h2⟩ := hg.good d hm
      exact ⟨by omega, h2⟩
    rcases h.next n with ⟨e, hs⟩ | hs
    · obtain ⟨w', h1, h2⟩ := hw.step (t := t) h.std (rMk_id h.std h.ids) (μ n) e n
      rw [← hs] at h1 h2
      refine ⟨w', h1, ?_⟩
      rcases h2 with ⟨h2 | h2, _⟩ | ⟨g, k, r, h2, _, _, h6, h3, h4⟩
      · rw [h2]; exact ⟨hold, hg.mono⟩
      · rw [h2]; exact ⟨by simp, by simp⟩
      · rw [h2]
        refine ⟨?_, ?_⟩
        · intro d hm
          rcases List.mem_append.1 hm with hm | hm
          · exact hold d hm
          · rw [List.mem_singleton] at hm
            subst hm
            exact ⟨by simp, ⟨h6, h3⟩, h4⟩
        · rw [List.map_append, List.pairwise_append]
          refine ⟨hg.mono, by simp, ?_⟩
          intro a ha b hb
          simp only [List.map_cons, List.map_nil, List.mem_singleton] at hb
          subst hb
          obtain ⟨d, hm, rfl⟩ := List.mem_map.1 ha
          exact (hg.good d hm).1
    · exact ⟨w, by rw [hs]; exact hw, hold, hg.mono⟩

theorem RTrace.master (h : RTrace c args t p μ) (n : Nat) :
    (p (n + 1)).m = (p n).m ∨ ∃ e, (p (n + 1)).m = (p n).m.step c.idCount e := by
  rcases h.next n with ⟨e, hs⟩ | hs
  · have := RPort.step_master (c := c) (args := args) t (p n) (μ n) e
    rw [← hs] at this
    exact this
  · exact .inl (by rw [hs])

theorem RTrace.seq (h : RTrace c args t p μ) : MSeq c.idCount (fun n => (p n).m) := ⟨by simp [h.start], h.master⟩

end trace

theorem rGroups_at (hc : c.Std) {x : Nat × Op} (h : rMk c args x.2.key = some x.2) {g : RGrp} {k : Nat}
    (hg : (g, k) ∈ (rGroups c args x).flatMap RGrp.atoms) :
    ((rGroups c args x).flatMap RGrp.atoms)[g.i0 + k]? = some (g, k) := by
  obtain ⟨i, hi, he⟩ := List.getElem_of_mem hg
  have h1 := congrArg (·[i]?) (rGroups_lab (t := x.1) hc h)
  simp only [List.getElem?_map] at h1
  have h2 : ((rGroups c args x).flatMap RGrp.atoms)[i]? = some (g, k) := by rw [List.getElem?_eq_getElem hi, he]
  have h3 : ((rGroups c args (x.1, x.2)).flatMap RGrp.atoms)[i]? = some (g, k) := h2
  rw [h3] at h1
  simp only [Option.map_some, rLab] at h1
  have h4 : i < x.2.need := by
    have := congrArg List.length (rGroups_lab (t := x.1) hc h)
    simp only [List.length_map, List.length_range] at this
    have h5 : ((rGroups c args (x.1, x.2)).flatMap RGrp.atoms).length = ((rGroups c args x).flatMap RGrp.atoms).length := rfl
    omega
  rw [List.getElem?_range h4] at h1
  simp only [Option.map_some, Option.some.injEq, Prod.mk.injEq] at h1
  rw [h1.2.2]; exact h2

theorem rGroups_sends (hc : c.Std) {op : Op} (h : rMk c args op.key = some op) {n calls : Nat} {m : Master RBeat}
    (hm : MInv n (rMk c args) calls m) {t : Nat} (ht : (t, op) ∈ taken m) :
    sendsR c (args op.key) ((rGroups c args (t, op)).map (·.a)) := by
  obtain ⟨cmd, ha, _⟩ := rMade hc h
  have h1 := rGroups_out hc h t ha
  rw [hm.own_id ht] at h1
  exact ⟨cmd, t, ha, h1.symm⟩

/-- What is known of a completed read. -/
theorem RTrace.done {σ : Type} {t : Target σ} {p : Nat → RPort} {μ : Nat → σ} (h : RTrace c args t p μ) {n u : Nat} {op : Op}
    {got : List RBeat} (hd : (u, op, got) ∈ (p n).m.done) :
    rMk c args op.key = some op ∧ (u, op) ∈ taken (p n).m ∧
    ∃ ds : List Served, ds.map (·.at_) = (rGroups c args (u, op)).flatMap RGrp.atoms ∧ ds.map (·.r) = got ∧
      (ds.map (·.tm)).Pairwise (· < ·) ∧
      ∀ d ∈ ds, d.tm < n ∧ ((rOpen c args (p d.tm)).head? = some d.at_.1 ∧ op ∈ (p d.tm).m.pend) ∧
        ReadBeat c t d.at_.1.a d.at_.2 (μ d.tm) d.r (μ (d.tm + 1)) := by
  obtain ⟨w, hw, hg⟩ := h.inv n
  obtain ⟨ds, h1, h2, h3⟩ := (hw.inOrder h.std).done hw.m.inv hd
  have hmem : ∀ d ∈ ds, d.at_ ∈ (rAll c args (p n).m).flatMap RGrp.atoms := by
    intro d hdm
    have h4 : d.at_ ∈ w.sv.map (·.at_) := List.mem_map_of_mem (h1.subset hdm)
    rw [hw.svs] at h4
    rw [hw.split, List.flatMap_append, List.flatMap_append]
    rcases List.mem_append.1 h4 with h4 | h4
    · exact List.mem_append_left _ h4
    · refine List.mem_append_right _ (List.mem_append_left _ ?_)
      obtain ⟨g, hg1, hg2⟩ := List.mem_flatMap.1 h4
      exact List.mem_flatMap.2 ⟨g, hg1, List.mem_of_mem_take hg2⟩
  have htaken := done_taken hw.m.inv hd
  have hmk := hw.m.madeOf (hw.m.taken_issued htaken)
  have hlab : ∀ i (hi : i < ds.length), rLab ds[i].at_ = (u, op, i) := by
    intro i hi
    have hi2 : i < op.need := by
      have := congrArg List.length h2
      simp only [List.length_map, List.length_range] at this
      omega
    have := congrArg (·[i]?) h2
    simp only [List.getElem?_map, List.getElem?_eq_getElem hi, Option.map_some, List.getElem?_range hi2,
      Option.some.injEq] at this
    exact this
  refine ⟨hmk, htaken, ds, ?_, h3, hg.mono.sublist (h1.map _), ?_⟩
  · have hlen : ds.length = op.need := by
      have := congrArg List.length h2; simpa using this
    have hlen2 : ((rGroups c args (u, op)).flatMap RGrp.atoms).length = op.need := by
      have := congrArg List.length (rGroups_lab h.std (t := u) hmk); simpa only [List.length_map, List.length_range] using this
    apply List.ext_getElem?
    intro i
    by_cases hi : i < op.need
    · have hi' : i < ds.length := by omega
      rw [List.getElem?_map, List.getElem?_eq_getElem hi']
      simp only [Option.map_some]
      have hl := hlab i hi'
      simp only [rLab, Prod.mk.injEq] at hl
      have hin := hmem ds[i] (List.getElem_mem hi')
      unfold rAll at hin
      obtain ⟨g, hg1, hg2⟩ := List.mem_flatMap.1 hin
      obtain ⟨x, hx, hgx⟩ := List.mem_flatMap.1 hg1
      have hgeq : ds[i].at_.1 = g := by
        simp only [RGrp.atoms, List.mem_map] at hg2
        obtain ⟨_, _, he⟩ := hg2
        rw [← he]
      have hop := rGroups_op hgx
      rw [← hgeq, hl.1, hl.2.1] at hop
      subst hop
      have := rGroups_at h.std hmk (g := ds[i].at_.1) (k := ds[i].at_.2) (List.mem_flatMap.2 ⟨g, hgx, hg2⟩)
      rw [hl.2.2] at this
      exact this.symm
    · rw [List.getElem?_eq_none (by rw [List.length_map]; omega), List.getElem?_eq_none (by omega)]
  · intro d hdm
    have hop : d.at_.1.op = op := by
      obtain ⟨i, hi, rfl⟩ := List.getElem_of_mem hdm
      have := hlab i hi
      simp only [rLab, Prod.mk.injEq] at this
      exact this.2.1
    have := hg.good d (h1.subset hdm)
    rw [hop] at this
    exact this

/-- After an event, the slave has no new bursts to complete but those of the command that has just been taken. -/
theorem RInv.open_step {σ : Type} {t : Target σ} {p : RPort} {w : RWit} (hc : c.Std) (h : RInv c args p w) (st : σ) (e : REv) :
    ∀ g ∈ rOpen c args (p.step c args t st e).1, g ∈ rOpen c args p ∨ g.op ∈ p.m.queue := by
  have hsame : ∀ (m' : Master RBeat) (k : Nat), Same p.m m' → ∀ g ∈ rOpen c args { p with m := m', calls := k },
      g ∈ rOpen c args p ∨ g.op ∈ p.m.queue := by
    intro m' k hs g hg
    refine .inl (rOpen_mono (p := p) (p' := { p with m := m', calls := k }) ?_ (Nat.le_refl _) g hg)
    show rAll c args m' = _
    simp only [rAll]; rw [hs.taken]
  have hport : ∀ p' : RPort, p'.m = p.m → p'.sl.toList.length + (p'.ar.length + p'.todo.length) ≤
      p.sl.toList.length + (p.ar.length + p.todo.length) → ∀ g ∈ rOpen c args p', g ∈ rOpen c args p ∨ g.op ∈ p.m.queue := by
    intro p' hm hn g hg
    exact .inl (rOpen_mono (by rw [hm]) hn g hg)
  cases e with
  | read =>
    simp only [RPort.step, RPort.read]
    split
    · exact hsame _ _ (inside_step _ _ _ rfl)
    · exact hsame _ _ (Same.refl _)
  | init =>
    simp only [RPort.step, RPort.init]
    split
    · exact hsame _ _ (inside_step _ _ _ rfl)
    · exact hsame _ _ (Same.refl _)
  | runInit i => exact hsame _ _ (inside_step _ _ _ rfl)
  | take =>
    simp only [RPort.step, RPort.take]
    split
    · rename_i op rest hd hr hcur hq
      have hi : op ∈ p.m.issued := h.m.queue_issued (by rw [hq]; exact List.mem_cons_self)
      have hmk := h.m.madeOf hi
      obtain ⟨cmd, ha, _⟩ := rMade hc hmk
      have hoa := rGroups_out hc hmk p.m.curId ha
      simp only [ha]
      obtain ⟨_, _, _, _, _, f6⟩ := take_fields (n := c.idCount) hr hcur hq
      have hall : rAll c args (p.m.step c.idCount .take) =
          rAll c args p.m ++ rGroups c args ((op.id?).getD p.m.curId, op) := by
        unfold rAll; rw [f6, List.flatMap_append]; simp
      have htodo := h.todo hcur
      have hl := congrArg List.length hoa
      rw [List.length_map] at hl
      intro g hg
      simp only [rOpen, hall, List.length_append, hl] at hg
      have hle : p.sl.toList.length + (p.ar.length + p.todo.length) ≤ (rAll c args p.m).length := by
        have h2 := congrArg List.length h.split
        have h3 := congrArg List.length h.ars
        have h4 : p.sl.toList.length = w.cur.toList.length := by rw [h.sl]; cases w.cur <;> rfl
        simp only [List.length_append, List.length_map] at h2 h3
        omega
      rw [htodo] at hle
      simp only [List.length_nil, Nat.add_zero] at hle
      rw [List.drop_append_of_le_length (by omega)] at hg
      rcases List.mem_append.1 hg with hg | hg
      · left
        unfold rOpen
        rw [htodo]
        exact drop_mono (by simp only [List.length_nil]; omega) g hg
      · right
        have := rGroups_op hg
        simp only [Prod.mk.injEq] at this
        rw [this.2, hq]
        exact List.mem_cons_self
    · exact hport _ rfl (Nat.le_refl _)
  | sendAR =>
    simp only [RPort.step, RPort.sendAR]
    split
    · rename_i a rest hd ht
      split
      · intro g hg
        refine .inl (rOpen_mono (p := p) ?_ ?_ g hg)
        · show rAll c args (p.m.step c.idCount .burst) = _
          unfold rAll
          rw [burst_taken]
        · rw [ht]
          simp only [List.length_append, List.length_cons, List.length_nil]
          omega
      · exact hport _ rfl (Nat.le_refl _)
    · exact hport _ rfl (Nat.le_refl _)
  | start =>
    simp only [RPort.step, RPort.start]
    split
    · intro g hg
      refine .inl (rOpen_mono (p := p) (p' := { p with m := p.m.step c.idCount .start }) ?_ (Nat.le_refl _) g hg)
      show rAll c args (p.m.step c.idCount .start) = _
      unfold rAll
      rw [(start_fields c.idCount p.m).2.2.2]
    · exact hport _ rfl (Nat.le_refl _)
  | slaveAR =>
    simp only [RPort.step, RPort.slaveAR]
    split
    · rename_i a rest hd hsl haw
      split
      · exact hport _ rfl (Nat.le_refl _)
      · split
        · exact hport _ rfl (Nat.le_refl _)
        · exact hport _ rfl (by rw [hsl, haw]; simp only [Option.toList_some, Option.toList_none, List.length_cons, List.length_nil]; omega)
    · exact hport _ rfl (Nat.le_refl _)
  | slaveR =>
    simp only [RPort.step, RPort.slaveR]
    split
    · rename_i s hd hsl
      refine hport _ rfl ?_
      rw [hsl]
      simp only [Option.toList_some, List.length_cons, List.length_nil]
      split <;> simp
    · exact hport _ rfl (Nat.le_refl _)
  | deliver =>
    simp only [RPort.step, RPort.deliver]
    split
    · rename_i x rest hb
      intro g hg
      refine .inl (rOpen_mono (p := p) (p' := { p with m := p.m.step c.idCount (.resp x.id x), r := rest }) ?_
        (Nat.le_refl _) g hg)
      show rAll c args (p.m.step c.idCount (.resp x.id x)) = _
      unfold rAll
      rw [resp_taken]
    · exact hport _ rfl (Nat.le_refl _)
  | workTake i => exact hsame _ _ (inside_step _ _ _ rfl)
  | workGet i => exact hsame _ _ (inside_step _ _ _ rfl)
  | workDone i => exact hsame _ _ (inside_step _ _ _ rfl)
  | reset v =>
    cases v with
    | true =>
      intro g hg
      simp [RPort.step, RPort.reset, rOpen, rAll, Master.step, Master.reset, taken] at hg
    | false => exact hsame _ _ ⟨rfl, rfl, rfl, rfl, rfl⟩

/-- The read side serves the operations in order. -/
theorem RTrace.served {σ : Type} {t : Target σ} {p : Nat → RPort} {μ : Nat → σ} (h : RTrace c args t p μ) :
    InTurn c.idCount (rMk c args) RGrp.op (rGroups c args) (fun n => (p n).m) (fun n => rOpen c args (p n)) where
  op := fun x g hg => by rw [← rGroups_op hg]
  seq := h.seq
  inv := fun k => by
    obtain ⟨w, hw, _⟩ := h.inv k
    exact ⟨_, hw.m⟩
  part := fun k => List.drop_suffix _ _
  next := fun k g hg => by
    rcases h.next k with ⟨e, hs⟩ | hs
    · obtain ⟨w, hw, _⟩ := h.inv k
      rw [show p (k + 1) = ((p k).step c args t (μ k) e).1 by rw [← hs]] at hg
      exact hw.open_step h.std (μ k) e g hg
    · rw [hs] at hg; exact .inl hg

end Verif.AxiSys
