import Verif.Spec.ApbMapped
import Verif.Props.ApbRam
import Verif.Proof.LiteMapped

/-!
# APB operations on a target with an address map: lemmas
-/

namespace Verif.Apb
open Word Master

variable {σ κ : Type} {t : Target σ} {good : σ → Prop} {f : Nat → Option κ} {val : σ → κ → UInt8}

theorem stores_write (a : Int) (d : Bytes) (p : Int) (b : Nat) :
    (Call.write a d p).stores b ≠ none ↔ a.toNat ≤ b ∧ b < a.toNat + d.length := by
  simp only [Call.stores]
  split
  · rename_i h
    rw [ne_eq, List.getElem?_eq_none_iff]; omega
  · simp; omega

theorem stores_get {a : Int} {d : Bytes} {p : Int} {b : Nat} (h : a.toNat ≤ b) :
    (Call.write a d p).stores b = d[b - a.toNat]? := by simp [Call.stores, h]

/-- Some of the transfers of a write. -/
theorem serve_writes (M : Mapped t good f val) (c : Cfg) (hl : 0 < c.lanes) (slverr : Bool) (cmd : Cmd) (d : Bytes)
    (hlen : d.length = cmd.length) (pd : Nat) :
    ∀ (ks : List Nat) (st : σ), (∀ k ∈ ks, k < cycles c cmd) → good st →
      ∃ rs st', serveAll slverr (access t c.lanes true) (ks.map fun k => .write (xAt c cmd d k)) (st, pd) = (rs, (st', pd)) ∧
        good st' ∧ rs.length = ks.length ∧ (∀ r ∈ rs, r.2 = .okay ∨ r.2 = .slverr) ∧
        ((∀ r ∈ rs, r.2 = .okay) ↔ slverr = false ∨ ∀ k ∈ ks, ∀ y, loOf c cmd k ≤ y → y < hiOf c cmd k → f y ≠ none) ∧
        (∀ k ∈ ks, (∀ y, loOf c cmd k ≤ y → y < hiOf c cmd k → f y ≠ none) → ∀ y, loOf c cmd k ≤ y → y < hiOf c cmd k →
          ∀ x, f y = some x → some (val st' x) = d[y - cmd.address]?) ∧
        ∀ x, val st' x = val st x ∨ ∃ k ∈ ks, ∃ y, loOf c cmd k ≤ y ∧ y < hiOf c cmd k ∧ f y = some x ∧
          some (val st' x) = d[y - cmd.address]?
  | [], st, _, hg => ⟨[], st, rfl, hg, rfl, by simp, by simp, by simp, fun x => .inl rfl⟩
  | k :: ks, st, hk, hg => by
    obtain ⟨r, st1, e1, e2, e3, e4, e5, e6⟩ := slaveWrite_mapped c cmd d M hl hlen k (hk k (by simp)) hg
    obtain ⟨rs, st2, f1, f2, f3, f4, f5, f6, f7⟩ := serve_writes M c hl slverr cmd d hlen pd ks st1
      (fun k' h => hk k' (by simp [h])) e2
    have hone : serveOne slverr (access t c.lanes true) (.write (xAt c cmd d k)) (st, pd) =
        ((pd, if slverr && r == .slverr then .slverr else .okay), (st1, pd)) := by simp [serveOne, access, e1]
    refine ⟨(pd, if slverr && r == .slverr then .slverr else .okay) :: rs, st2, by simp only [List.map_cons, serveAll, hone, f1], f2, by simp [f3], ?_, ?_, ?_, ?_⟩
    · intro r' hr'
      rcases List.mem_cons.1 hr' with rfl | hr'
      · simp only; split <;> simp
      · exact f4 r' hr'
    · simp only [List.mem_cons, forall_eq_or_imp, f5]
      cases slverr with
      | false => simp
      | true =>
        simp only [Bool.true_and, beq_iff_eq, Bool.true_eq_false, false_or]
        rw [← e4]
        rcases e3 with rfl | rfl <;> simp
    · intro k' hk' hm y y1 y2 x hx
      rcases List.mem_cons.1 hk' with rfl | hk'
      · have h5 := e5 (e4.2 hm) y y1 y2 x hx
        rcases f7 x with h | ⟨_, _, y', _, _, g3, g4⟩
        · rw [h]; exact h5
        · rw [M.inj y' y x g3 hx] at g4; exact g4
      · exact f6 k' hk' hm y y1 y2 x hx
    · intro x
      rcases f7 x with h | ⟨k', g1, y, g2, g3, g4, g5⟩
      · rw [h]
        rcases e6 x with h | ⟨y, g2, g3, g4, g5⟩
        · exact .inl h
        · exact .inr ⟨k, by simp, y, g2, g3, g4, g5⟩
      · exact .inr ⟨k', by simp [g1], y, g2, g3, g4, g5⟩

/-- Read transfers do not change the target. -/
theorem serve_reads (M : Mapped t good f val) (c : Cfg) (hl : 0 < c.lanes) (slverr : Bool) {st : σ} (hg : good st) :
    ∀ (xs : List RXfer) (pd : Nat),
      ∃ rs pd', serveAll slverr (access t c.lanes true) (xs.map .read) (st, pd) = (rs, (st, pd')) ∧ rs.length = xs.length ∧
        ∀ (k : Nat) (x : RXfer), xs[k]? = some x → ∃ r : Rsp, rs[k]? = some r ∧
          (((∀ i < c.lanes, f (x.addr / c.lanes * c.lanes + i) ≠ none) ∧ r.2 = .okay ∧
            ∀ i < c.lanes, ∀ y, f (x.addr / c.lanes * c.lanes + i) = some y → UInt8.ofNat (r.1 / 256 ^ i) = val st y) ∨
           ((∃ i < c.lanes, f (x.addr / c.lanes * c.lanes + i) = none) ∧ r.2 = (if slverr then .slverr else .okay) ∧ r.1 = 0))
  | [], pd => ⟨[], pd, rfl, rfl, by simp⟩
  | x :: xs, pd => by
    obtain ⟨r, e1, e2⟩ := slaveRead_mapped c M hl x hg
    obtain ⟨rs, pd', f1, f2, f3⟩ := serve_reads M c hl slverr hg xs r.1
    have hone : serveOne slverr (access t c.lanes true) (.read x) (st, pd) =
        ((r.1, if slverr && r.2 == .slverr then .slverr else .okay), (st, r.1)) := by simp [serveOne, access, e1]
    refine ⟨(r.1, if slverr && r.2 == .slverr then .slverr else .okay) :: rs, pd', by simp only [List.map_cons, serveAll, hone, f1], by simp [f2], ?_⟩
    intro k x' hk
    cases k with
    | zero =>
      simp only [List.getElem?_cons_zero, Option.some.injEq] at hk
      subst hk
      refine ⟨_, rfl, ?_⟩
      rcases e2 with ⟨g1, g2, g3⟩ | ⟨g1, g2, g3⟩
      · exact .inl ⟨g1, by simp [g2], g3⟩
      · exact .inr ⟨g1, by simp [g2], g3⟩
    | succ k => exact f3 k x' (by simpa using hk)

/-- One call, entirely. -/
theorem serve_call (M : Mapped t good f val) (c : Cfg) (hl : 0 < c.lanes) (slverr : Bool) (a : Call) (op : Op) (ha : a.makes c op)
    {st : σ} (hg : good st) (pd : Nat) :
    ∃ rs st' pd' o, serveAll slverr (access t c.lanes true) op.xs (st, pd) = (rs, (st', pd')) ∧ good st' ∧
      a.outcome c rs = some o ∧ a.answers c slverr f (val st) o ∧ a.changes c f (val st) (val st') := by
  cases a with
  | write addr d prot =>
    obtain ⟨cmd, xs, h1, h2, h3⟩ := ha
    have hcmd := (C36_accept_iff ..).1 h1
    have e1 : cmd.address = addr.toNat := by rw [hcmd.2.2.2.2.2]
    have e2 : cmd.length = d.length := by rw [hcmd.2.2.2.2.2]
    rw [writeXfers_spec c _ d hl e2.symm] at h2
    have h2 := Except.ok.inj h2
    have h3' : op.xs = (List.range (cycles c cmd)).map fun k => .write (xAt c cmd d k) := by
      rw [h3, ← h2, List.map_map]; rfl
    obtain ⟨rs, st', f1, f2, f3, f4, f5, f6, f7⟩ := serve_writes M c hl slverr cmd d e2.symm pd (List.range (cycles c cmd)) st
      (fun k h => List.mem_range.1 h) hg
    rw [List.length_range] at f3
    have hfold : foldResp .okay (rs.map (·.2)) = Axi.lastNonOkay (rs.map (·.2)) := Axi.foldResp_last _ _
    have hall : (∀ r ∈ rs.map (·.2), r = .okay) ↔ ∀ r ∈ rs, r.2 = .okay := List.forall_mem_map
    /- the transfer of an address -/
    have loc : ∀ y, addr.toNat ≤ y → y < addr.toNat + d.length → ∃ k, k < cycles c cmd ∧ loOf c cmd k ≤ y ∧ y < hiOf c cmd k ∧
        y / c.lanes = addr.toNat / c.lanes + k := by
      intro y y1 y2
      have hle : addr.toNat / c.lanes ≤ y / c.lanes := Nat.div_le_div_right (by omega)
      have hcov := Axi.gCycles_cover c.lanes cmd.address cmd.length hl
      rw [← cycles_eq] at hcov
      simp only [Axi.gBox, e1, e2] at hcov
      have h1 : y / c.lanes < addr.toNat / c.lanes + cycles c cmd := by
        apply Nat.div_lt_of_lt_mul
        rw [Nat.mul_comm, Nat.add_mul]
        omega
      have hk : y / c.lanes - addr.toNat / c.lanes < cycles c cmd := by omega
      obtain ⟨z1, z2⟩ := (xfer_bytes c cmd hl _ hk y).2 ⟨by omega, by omega, by rw [e1]; omega⟩
      exact ⟨_, hk, z1, z2, by omega⟩
    refine ⟨rs, st', pd, .written (Axi.lastNonOkay (rs.map (·.2))), by rw [h3']; exact f1, f2, ?_, ?_, ?_, ?_⟩
    · simp only [Call.outcome, h1]
      rw [writeResult, if_neg (by simp; omega), List.take_of_length_le (by simp; omega), hfold]
      rfl
    · refine ⟨_, rfl, AxiSys.lastNonOkay_two (List.forall_mem_map.2 f4), ?_⟩
      rw [Axi.lastNonOkay_okay_iff, hall, f5]
      refine or_congr_right ⟨?_, ?_⟩
      · intro h i hi
        obtain ⟨k, hk, z1, z2, _⟩ := loc (addr.toNat + i) (by omega) (by omega)
        exact h k (List.mem_range.2 hk) _ z1 z2
      · intro h k hk y y1 y2
        obtain ⟨z1, z2, _⟩ := (xfer_bytes c cmd hl k (List.mem_range.1 hk) y).1 ⟨y1, y2⟩
        have := h (y - addr.toNat) (by omega)
        rwa [show addr.toNat + (y - addr.toNat) = y by omega] at this
    · intro b x hx hs hm
      obtain ⟨b1, b2⟩ := (stores_write ..).1 hs
      obtain ⟨k, hk, z1, z2, z3⟩ := loc b b1 b2
      rw [stores_get b1, ← e1]
      refine (f6 k (List.mem_range.2 hk) (fun y y1 y2 => ?_) b z1 z2 x hx).symm
      obtain ⟨w1, w2, w3⟩ := (xfer_bytes c cmd hl k hk y).1 ⟨y1, y2⟩
      exact hm y ((stores_write ..).2 ⟨by omega, by omega⟩) (by rw [w3, z3, e1])
    · intro x
      rcases f7 x with h | ⟨k, hk, y, y1, y2, y3, y4⟩
      · exact .inl h
      · obtain ⟨w1, w2, _⟩ := (xfer_bytes c cmd hl k (List.mem_range.1 hk) y).1 ⟨y1, y2⟩
        exact .inr ⟨y, y3, by rw [stores_get (by omega), ← e1]; exact y4.symm⟩
  | read addr n prot =>
    obtain ⟨cmd, h1, h3⟩ := ha
    obtain ⟨a1, a2, a3, a4, a5, a6⟩ := (C37_accept_iff ..).1 h1
    have e1 : cmd.address = addr.toNat := by rw [a6]
    have e2 : cmd.length = n.toNat := by rw [a6]
    obtain ⟨got, pd', f1, f2, f3⟩ := serve_reads M c hl slverr hg (readXfers c cmd) pd
    have hgl : got.length = cycles c cmd := by rw [f2]; simp [readXfers]
    have beat : ∀ k (hk : k < got.length),
        (((∀ i < c.lanes, f (boxOf c cmd k + i) ≠ none) ∧ got[k].2 = .okay ∧
          ∀ i < c.lanes, ∀ y, f (boxOf c cmd k + i) = some y → UInt8.ofNat (got[k].1 / 256 ^ i) = val st y) ∨
         ((∃ i < c.lanes, f (boxOf c cmd k + i) = none) ∧ got[k].2 = (if slverr then .slverr else .okay) ∧ got[k].1 = 0)) := by
      intro k hk
      obtain ⟨r, g1, g2⟩ := f3 k { addr := beatAddr c cmd k, prot := cmd.prot } (by
        rw [readXfers, List.getElem?_map, List.getElem?_range (by omega)]; rfl)
      rw [List.getElem?_eq_getElem hk] at g1
      cases g1
      simp only [beatAddr_word c cmd k] at g2
      exact g2
    have hres : readResult c cmd got = some (collect c cmd 0 got, Axi.lastNonOkay (got.map (·.2)), []) := by
      have := readResult_spec c cmd got [] hgl
      rw [List.append_nil] at this
      rw [this]
      have hfold : foldResp .okay (got.map (·.2)) = Axi.lastNonOkay (got.map (·.2)) := Axi.foldResp_last _ _
      rw [hfold]
    have hgot : got = (List.range' 0 (cycles c cmd)).map fun j => got.getD j (0, .okay) := by
      apply List.ext_getElem
      · simp [hgl]
      · intro k h1 h2
        simp [List.getD_eq_getElem?_getD, h1]
    have hdata : collect c cmd 0 got = (List.range n.toNat).map fun i =>
        UInt8.ofNat ((got.getD (beatOf c cmd (addr.toNat + i)) (0, .okay)).1 / 256 ^ ((addr.toNat + i) % c.lanes)) := by
      by_cases hz : cycles c cmd = 0
      · have hN := Axi.gCycles_zero (nb := c.lanes) (A := cmd.address) (N := cmd.length) hl hz
        have : n.toNat = 0 := by omega
        have hgz : got = [] := List.length_eq_zero_iff.1 (by omega)
        rw [hgz, this]; rfl
      · have := collect_rd c cmd hl (fun j => got.getD j (0, .okay)) (cycles c cmd) 0 (by omega) (by omega)
        rw [← hgot] at this
        rw [this]
        simp only [lo_zero, Nat.add_sub_cancel_left, List.range'_eq_map_range, List.map_map, e1, e2]
        rfl
    have loc : ∀ i, i < n.toNat → ∃ k, k < cycles c cmd ∧ beatOf c cmd (addr.toNat + i) = k ∧
        boxOf c cmd k = (addr.toNat + i) / c.lanes * c.lanes := by
      intro i hi
      have hle : addr.toNat / c.lanes ≤ (addr.toNat + i) / c.lanes := Nat.div_le_div_right (by omega)
      have hcov := Axi.gCycles_cover c.lanes cmd.address cmd.length hl
      rw [← cycles_eq] at hcov
      simp only [Axi.gBox, e1, e2] at hcov
      have h1 : (addr.toNat + i) / c.lanes < addr.toNat / c.lanes + cycles c cmd := by
        apply Nat.div_lt_of_lt_mul
        rw [Nat.mul_comm, Nat.add_mul]
        omega
      have hq : (addr.toNat + i) / c.lanes = addr.toNat / c.lanes + ((addr.toNat + i) / c.lanes - addr.toNat / c.lanes) := by omega
      refine ⟨(addr.toNat + i) / c.lanes - addr.toNat / c.lanes, by omega, by simp only [beatOf, e1], ?_⟩
      simp only [boxOf, Axi.gBox, e1]
      rw [← Nat.add_mul, ← hq]
    have hwm : ∀ i < n.toNat, (WordMapped c f (addr.toNat + i) ↔
        ∀ j < c.lanes, f (boxOf c cmd (beatOf c cmd (addr.toNat + i)) + j) ≠ none) := by
      intro i hi
      obtain ⟨k, hk, hbk, hbox⟩ := loc i hi
      rw [hbk, hbox]
      constructor
      · intro h j hj
        exact h _ ((AxiSys.word_of_byte hl).2 ⟨j, hj, rfl⟩)
      · intro h y hy
        obtain ⟨j, hj, rfl⟩ := (AxiSys.word_of_byte hl).1 hy
        exact h j hj
    have hresp : ∀ r ∈ got.map (·.2), ∃ k, ∃ hk : k < got.length, r = got[k].2 := by
      intro r hr
      obtain ⟨g, hg, rfl⟩ := List.mem_map.1 hr
      obtain ⟨k, hk, rfl⟩ := List.getElem_of_mem hg
      exact ⟨k, hk, rfl⟩
    have hgd : ∀ k (hk : k < got.length), got.getD k (0, .okay) = got[k] := by
      intro k hk
      simp [List.getD_eq_getElem?_getD, hk]
    refine ⟨got, st, pd', .data (collect c cmd 0 got) (Axi.lastNonOkay (got.map (·.2))), by rw [h3]; exact f1, hg, ?_, ?_, ?_, ?_⟩
    · simp only [Call.outcome, h1, hres]; rfl
    · refine ⟨_, _, rfl, by rw [hdata]; simp, ?_, ?_, ?_⟩
      · refine AxiSys.lastNonOkay_two ?_
        intro r hr
        obtain ⟨k, hk, rfl⟩ := hresp r hr
        rcases beat k hk with h | h
        · exact .inl h.2.1
        · rw [h.2.1]; cases slverr <;> simp
      · intro hN0
        rw [Axi.lastNonOkay_okay_iff]
        constructor
        · intro h
          by_cases hs : slverr = false
          · exact .inl hs
          refine .inr fun i hi => ?_
          rw [hwm i hi]
          obtain ⟨k, hk, hbk, _⟩ := loc i hi
          rw [hbk]
          rcases beat k (by omega) with h' | h'
          · exact h'.1
          · have := h _ (List.mem_map.2 ⟨got[k], List.getElem_mem (by omega), rfl⟩)
            rw [h'.2.1] at this
            simp [hs] at this
        · intro h r hr
          obtain ⟨k, hk, rfl⟩ := hresp r hr
          rcases h with h | h
          · rcases beat k hk with h' | h'
            · exact h'.2.1
            · rw [h'.2.1]; simp [h]
          have hkc : k < cycles c cmd := by omega
          have hlt := lo_lt_hi c cmd hl (by omega) k hkc
          have hb := bounds c cmd hl k hkc
          obtain ⟨_, hbt⟩ := beatOf_eq c cmd hl k (loOf c cmd k) hkc (Nat.le_refl _) hlt
          have hi : loOf c cmd k - addr.toNat < n.toNat := by omega
          have hsum : addr.toNat + (loOf c cmd k - addr.toNat) = loOf c cmd k := by omega
          have hm := (hwm _ hi).1 (h _ hi)
          rw [hsum, hbt] at hm
          rcases beat k hk with h' | ⟨⟨j, hj, hn⟩, _⟩
          · exact h'.2.1
          · exact absurd hn (hm j hj)
      · intro i hi
        obtain ⟨k, hk, hbk, hbox⟩ := loc i hi
        have hd : (collect c cmd 0 got)[i]? = some (UInt8.ofNat (got[k].1 / 256 ^ ((addr.toNat + i) % c.lanes))) := by
          rw [hdata]
          simp only [List.getElem?_map, List.getElem?_range hi, Option.map_some, hbk, hgd k (by omega)]
        have hmod := Nat.div_add_mod (addr.toNat + i) c.lanes
        rw [Nat.mul_comm] at hmod
        have hml := Nat.mod_lt (addr.toNat + i) hl
        have hbi : boxOf c cmd k + (addr.toNat + i) % c.lanes = addr.toNat + i := by rw [hbox]; exact hmod
        constructor
        · intro hw x hx
          rw [hd]
          have hm := (hwm i hi).1 hw
          rw [hbk] at hm
          rcases beat k (by omega) with h' | ⟨⟨j, hj, hn⟩, _⟩
          · rw [h'.2.2 _ hml x (by rw [hbi]; exact hx)]
          · exact absurd hn (hm j hj)
        · intro hw
          rw [hd]
          rw [hwm i hi, hbk] at hw
          rcases beat k (by omega) with h' | h'
          · exact absurd h'.1 hw
          · rw [h'.2.2]; simp
    · intro b x _ h; exact absurd rfl h
    · exact fun x => .inl rfl

/-- Part of a call. -/
theorem serve_some (M : Mapped t good f val) (c : Cfg) (hl : 0 < c.lanes) (slverr : Bool) (a : Call) (op : Op) (ha : a.makes c op)
    {st : σ} (hg : good st) (pd : Nat) (pre : List Xfer) (hp : pre <+: op.xs) :
    good (serveAll slverr (access t c.lanes true) pre (st, pd)).2.1 ∧
    ∀ x, val (serveAll slverr (access t c.lanes true) pre (st, pd)).2.1 x = val st x ∨
      ∃ b, f b = some x ∧ a.stores b = some (val (serveAll slverr (access t c.lanes true) pre (st, pd)).2.1 x) := by
  cases a with
  | write addr d prot =>
    obtain ⟨cmd, xs, h1, h2, h3⟩ := ha
    have hcmd := (C36_accept_iff ..).1 h1
    have e1 : cmd.address = addr.toNat := by rw [hcmd.2.2.2.2.2]
    have e2 : cmd.length = d.length := by rw [hcmd.2.2.2.2.2]
    rw [writeXfers_spec c _ d hl e2.symm] at h2
    have h2 := Except.ok.inj h2
    have h3' : op.xs = (List.range (cycles c cmd)).map fun k => .write (xAt c cmd d k) := by
      rw [h3, ← h2, List.map_map]; rfl
    obtain ⟨ks, hks, hpre⟩ : ∃ ks : List Nat, (∀ k ∈ ks, k < cycles c cmd) ∧ pre = ks.map fun k => .write (xAt c cmd d k) := by
      rw [List.prefix_iff_eq_take, h3', ← List.map_take] at hp
      exact ⟨_, fun k hk => List.mem_range.1 (List.mem_of_mem_take hk), hp⟩
    obtain ⟨rs, st', f1, f2, _, _, _, _, f7⟩ := serve_writes M c hl slverr cmd d e2.symm pd ks st hks hg
    rw [hpre, f1]
    refine ⟨f2, fun x => ?_⟩
    rcases f7 x with h | ⟨k, hk, y, y1, y2, y3, y4⟩
    · exact .inl h
    · obtain ⟨w1, w2, _⟩ := (xfer_bytes c cmd hl k (hks k hk) y).1 ⟨y1, y2⟩
      exact .inr ⟨y, y3, by rw [stores_get (by omega), ← e1]; exact y4.symm⟩
  | read addr n prot =>
    obtain ⟨cmd, h1, h3⟩ := ha
    obtain ⟨xs, hpre⟩ : ∃ xs : List RXfer, pre = xs.map .read := by
      rw [List.prefix_iff_eq_take, h3, ← List.map_take] at hp
      exact ⟨_, hp⟩
    obtain ⟨rs, pd', f1, _⟩ := serve_reads M c hl slverr hg xs pd
    rw [hpre, f1]
    exact ⟨hg, fun x => .inl rfl⟩

/-- Calls one after the other. -/
theorem serial_mapped (M : Mapped t good f val) (c : Cfg) (hl : 0 < c.lanes) (slverr : Bool) (call : Nat → Call) :
    ∀ (ops : List Op) (st : σ) (pd : Nat), good st → (∀ op ∈ ops, (call op.key).makes c op) →
      ∃ l st' pd' os, serial slverr (access t c.lanes true) ops (st, pd) = (l, (st', pd')) ∧ good st' ∧
        l.map (fun d => (call d.1.key).outcome c d.2) = os.map some ∧
        Runs c slverr f ((l.map fun d => call d.1.key).zip os) (val st) (val st')
  | [], st, pd, hg, _ => ⟨[], st, pd, [], rfl, hg, rfl, rfl⟩
  | op :: ops, st, pd, hg, h => by
    obtain ⟨rs, st1, pd1, o, e1, e2, e3, e4, e5⟩ := serve_call M c hl slverr (call op.key) op (h op (by simp)) hg pd
    obtain ⟨l, st2, pd2, os, f1, f2, f3, f4⟩ := serial_mapped M c hl slverr call ops st1 pd1 e2 (fun o ho => h o (by simp [ho]))
    exact ⟨(op, rs) :: l, st2, pd2, o :: os, by simp only [serial, e1, f1], f2, by simp only [List.map_cons, f3, e3], val st1, e4, e5, f4⟩

end Verif.Apb
