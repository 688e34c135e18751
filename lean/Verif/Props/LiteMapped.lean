import Verif.Spec.LiteMapped
import Verif.Proof.LiteMapped
import Verif.Props.LiteSystem
import Verif.Props.Mapped

/-!
# C105, C106: an AXI-lite master connected to a slave whose target has an address map

The target is a memory region, a window, an address space with several regions and holes, or anything else that is `Mapped`
(`Spec/Mapped.lean`, `Props/Mapped.lean`). Operations may lie anywhere, also outside the mapped addresses.
-/

namespace Verif.LiteOps

open Verif.Word

section mapped

variable {σ κ : Type} (c : Cfg) (t : Target σ) (s0 : σ) (evs : List RamEv) (good : σ → Prop) (f : Nat → Option κ)
  (val : σ → κ → UInt8)

/-- The hypotheses on a history: the target has the address map `f`, all operations come from accepted calls, and no two calls are the
same one. -/
structure MapCalls (wc : Nat → WCall) (rc : Nat → RCall) (n : Nat) : Prop where
  lanes : 0 < c.lanes
  map : Mapped t good f val
  init : good s0
  w : ∀ op ∈ (targetAt c t s0 evs n).w.m.issued, (wc op.key).makes c op
  r : ∀ op ∈ (targetAt c t s0 evs n).r.m.issued, (rc op.key).makes c op
  wNodup : (targetAt c t s0 evs n).w.m.issued.Nodup
  rNodup : (targetAt c t s0 evs n).r.m.issued.Nodup

variable {c t s0 evs good f val} {wc : Nat → WCall} {rc : Nat → RCall} {n : Nat}

local notation "S" => targetAt c t s0 evs

theorem mIssuedW_le {k n : Nat} (h : k ≤ n) : (S k).w.m.issued <+: (S n).w.m.issued := by
  have := (Duo.traceW (slaveWrite t c.lanes true) (slaveRead t c.lanes) s0 evs).seq.issued_le k (n - k)
  rwa [show k + (n - k) = n by omega] at this

theorem mIssuedR_le {k n : Nat} (h : k ≤ n) : (S k).r.m.issued <+: (S n).r.m.issued := by
  have := (Duo.traceR (slaveWrite t c.lanes true) (slaveRead t c.lanes) s0 evs).seq.issued_le k (n - k)
  rwa [show k + (n - k) = n by omega] at this

theorem MapCalls.mono {k : Nat} (H : MapCalls c t s0 evs good f val wc rc n) (hk : k ≤ n) :
    MapCalls c t s0 evs good f val wc rc k :=
  ⟨H.lanes, H.map, H.init, fun op ho => H.w op ((mIssuedW_le hk).subset ho), fun op ho => H.r op ((mIssuedR_le hk).subset ho),
    H.wNodup.sublist (mIssuedW_le hk).sublist, H.rNodup.sublist (mIssuedR_le hk).sublist⟩

/-- What can happen to the target in one step. -/
theorem MapCalls.step (H : MapCalls c t s0 evs good f val wc rc n) {τ : Nat} (hτ : τ < n) (hg : good (S τ).mem) :
    good (S (τ + 1)).mem ∧ ∀ x, val (S (τ + 1)).mem x = val (S τ).mem x ∨
      ∃ op, (Outstanding (S τ).w.m op ∧ (S τ).w.front = some op) ∧ ∃ b, (wc op.key).covers b ∧ f b = some x ∧
        some (val (S (τ + 1)).mem x) = (wc op.key).data[b - (wc op.key).address.toNat]? := by
  rcases Duo.change (slaveWrite t c.lanes true) (slaveRead t c.lanes) s0 evs τ
      (H.wNodup.sublist (mIssuedW_le (by omega)).sublist) (H.rNodup.sublist (mIssuedR_le (by omega)).sublist) with
    h | ⟨op, x, ho, hx, h⟩ | ⟨op, x, ho, hx, h⟩
  · have h' : (S (τ + 1)).mem = (S τ).mem := h
    rw [h']
    exact ⟨hg, fun x => .inl rfl⟩
  · obtain ⟨cmd, e1, e2, e3, _⟩ := WCall.makes_xs H.lanes (H.w op ((mIssuedW_le (by omega)).subset ho.1.1))
    rw [e3] at hx
    obtain ⟨k, hk, rfl⟩ := List.mem_map.1 hx
    rw [List.mem_range] at hk
    obtain ⟨r, st', f1, f2, _, _, _, f4⟩ := slaveWrite_mapped c cmd (wc op.key).data H.map H.lanes e2.symm k hk hg
    have h' : (S (τ + 1)).mem = st' := by
      refine Eq.trans h ?_
      show (slaveWrite t c.lanes true _ (S τ).mem).2 = st'
      rw [f1]
    rw [h']
    refine ⟨f2, fun x => ?_⟩
    rcases f4 x with g | ⟨y, y1, y2, y3, y4⟩
    · exact .inl g
    · have hb := bounds c cmd H.lanes k hk
      refine .inr ⟨op, ho, y, ⟨by omega, by omega⟩, y3, ?_⟩
      rw [y4, e1]
  · obtain ⟨r, f1, _⟩ := slaveRead_mapped c H.map H.lanes x hg
    have h' : (S (τ + 1)).mem = (S τ).mem := by
      refine Eq.trans h ?_
      show (slaveRead t c.lanes _ (S τ).mem).2 = _
      rw [f1]
    rw [h']
    exact ⟨hg, fun x => .inl rfl⟩

theorem MapCalls.mem_ok (H : MapCalls c t s0 evs good f val wc rc n) {τ : Nat} (hτ : τ ≤ n) : good (S τ).mem := by
  induction τ with
  | zero => exact H.init
  | succ τ ih => exact (H.step (by omega) (ih (by omega))).1

/-- See `C105_write`; also, the write was at the front then. -/
theorem MapCalls.write (H : MapCalls c t s0 evs good f val wc rc n) (op : Op WXfer) (got : List (Py Resp))
    (hr : (op, some got) ∈ (S n).w.m.results) :
    let A := (wc op.key).address.toNat
    let d := (wc op.key).data
    (∃ resp, (wc op.key).returns c got resp ∧ (resp = .okay ∨ resp = .slverr) ∧ (resp = .okay ↔ ∀ i < d.length, f (A + i) ≠ none)) ∧
    ∃ τ : Nat → Nat, ∀ i < d.length,
      τ i < n ∧ (Outstanding (S (τ i)).w.m op ∧ (S (τ i)).w.front = some op) ∧
      (XferMapped c f (wc op.key) (A + i) → ∀ x, f (A + i) = some x → some (val (S (τ i + 1)).mem x) = d[i]?) ∧
      ∀ j < d.length, (τ i < τ j ↔ (A + i) / c.lanes < (A + j) / c.lanes) := by
  intro A d
  obtain ⟨g1, ts, g2, g3, g4⟩ := (Duo.traceW (slaveWrite t c.lanes true) (slaveRead t c.lanes) s0 evs).served n H.wNodup op got hr
  have hiss : op ∈ (S n).w.m.issued := by
    obtain ⟨st, h1, h2⟩ := ((Duo.traceW (slaveWrite t c.lanes true) (slaveRead t c.lanes) s0 evs).seq.inv n).acct
    exact h1.mem_iff.2 (List.mem_append_left _ ((h2 op).2 ⟨_, hr⟩))
  obtain ⟨cmd, hacc, hxf⟩ := H.w op hiss
  have hcmd := (C36_accept_iff ..).1 hacc
  have e1 : cmd.address = A := by rw [hcmd.2.2.2.2.2]
  have e2 : cmd.length = d.length := by rw [hcmd.2.2.2.2.2]
  have e3 : op.xs = (List.range (cycles c cmd)).map (xAt c cmd d) := by
    rw [writeXfers_spec c _ d H.lanes e2.symm] at hxf
    exact (Except.ok.inj hxf).symm
  have hcy : op.xs.length = cycles c cmd := by rw [e3]; simp
  /- transfer `k` -/
  have beat : ∀ k (hk : k < cycles c cmd) (τ : Nat), ts[k]? = some τ → τ < n ∧
      (Outstanding (S τ).w.m op ∧ (S τ).w.front = some op) ∧ ∃ r, got[k]? = some (.ok r) ∧ (r = .okay ∨ r = .slverr) ∧
      (r = .okay ↔ ∀ y, loOf c cmd k ≤ y → y < hiOf c cmd k → f y ≠ none) ∧
      (r = .okay → ∀ y, loOf c cmd k ≤ y → y < hiOf c cmd k → ∀ x, f y = some x →
        some (val (S (τ + 1)).mem x) = d[y - cmd.address]?) := by
    intro k hk τ hτ
    have hg : k < got.length := by omega
    obtain ⟨p1, p2, p3⟩ := g4 k (xAt c cmd d k) got[k] τ (by rw [e3]; simp [hk]) (List.getElem?_eq_getElem hg) hτ
    obtain ⟨r, st', f1, f2, f3, f4, f5, _⟩ := slaveWrite_mapped c cmd d H.map H.lanes e2.symm k hk (H.mem_ok (τ := τ) (by omega))
    have p3' : (got[k], (S (τ + 1)).mem) = (.ok r, st') := by
      rw [← f1]; exact p3
    simp only [Prod.mk.injEq] at p3'
    refine ⟨p1, p2, r, ?_, f3, f4, ?_⟩
    · rw [List.getElem?_eq_getElem hg, p3'.1]
    · rw [p3'.2]; exact f5
  have hget : ∀ k, k < cycles c cmd → ts[k]? = some (ts.getD k 0) := by
    intro k hk
    have : k < ts.length := by omega
    rw [List.getElem?_eq_getElem this, List.getD_eq_getElem?_getD, List.getElem?_eq_getElem this]
    rfl
  /- the transfer of byte `i` -/
  have loc : ∀ i, i < d.length → ∃ k, k < cycles c cmd ∧ beatOf c cmd (A + i) = k ∧ loOf c cmd k ≤ A + i ∧
      A + i < hiOf c cmd k ∧ (A + i) / c.lanes = A / c.lanes + k := by
    intro i hi
    have hle : A / c.lanes ≤ (A + i) / c.lanes := Nat.div_le_div_right (by omega)
    have hcov := Axi.gCycles_cover c.lanes cmd.address cmd.length H.lanes
    rw [← cycles_eq] at hcov
    simp only [Axi.gBox, e1, e2] at hcov
    have h1 : (A + i) / c.lanes < A / c.lanes + cycles c cmd := by
      apply Nat.div_lt_of_lt_mul
      rw [Nat.mul_comm, Nat.add_mul]
      omega
    have hk : (A + i) / c.lanes - A / c.lanes < cycles c cmd := by omega
    have hq : (A + i) / c.lanes = A / c.lanes + ((A + i) / c.lanes - A / c.lanes) := by omega
    have hbk : beatOf c cmd (A + i) = (A + i) / c.lanes - A / c.lanes := by simp only [beatOf, e1]
    obtain ⟨z1, z2⟩ := (xfer_bytes c cmd H.lanes _ hk (A + i)).2 ⟨by omega, by omega, by rw [e1]; exact hq⟩
    exact ⟨_, hk, hbk, z1, z2, hq⟩
  refine ⟨?_, fun i => ts.getD (beatOf c cmd (A + i)) 0, ?_⟩
  · have hrs : ∃ rs : List Resp, got = rs.map .ok ∧ ∀ r ∈ rs, r = .okay ∨ r = .slverr := by
      have : ∀ g ∈ got, ∃ r, g = Except.ok r ∧ (r = .okay ∨ r = .slverr) := by
        intro g hg
        obtain ⟨k, hk, rfl⟩ := List.getElem_of_mem hg
        obtain ⟨_, _, r, q1, q2, _⟩ := beat k (by omega) _ (hget k (by omega))
        rw [List.getElem?_eq_getElem hk] at q1
        exact ⟨r, Option.some.inj q1, q2⟩
      clear beat g4 g1 hr
      induction got with
      | nil => exact ⟨[], rfl, by simp⟩
      | cons g l ih =>
        obtain ⟨r, hr, hr2⟩ := this g (by simp)
        obtain ⟨rs, h1, h2⟩ := ih fun g hg => this g (by simp [hg])
        refine ⟨r :: rs, by rw [hr, h1]; rfl, ?_⟩
        intro r' hr'
        rcases List.mem_cons.1 hr' with rfl | hr'
        · exact hr2
        · exact h2 r' hr'
    obtain ⟨rs, q1, q2⟩ := hrs
    have hlen : rs.length = cycles c cmd := by
      have := congrArg List.length q1
      rw [List.length_map] at this
      omega
    have hfold : foldResp .okay rs = Axi.lastNonOkay rs := Axi.foldResp_last _ _
    refine ⟨Axi.lastNonOkay rs, ⟨cmd, rs, hacc, q1, ?_⟩, AxiSys.lastNonOkay_two q2, ?_⟩
    · rw [writeResult, if_neg (by omega), List.take_of_length_le (by omega), List.drop_of_length_le (by omega), hfold]
    · rw [Axi.lastNonOkay_okay_iff]
      constructor
      · intro h i hi
        obtain ⟨k, hk, _, z1, z2, _⟩ := loc i hi
        obtain ⟨_, _, r, b1, b2, b3, _⟩ := beat k hk _ (hget k hk)
        rw [q1, List.getElem?_map] at b1
        obtain ⟨r', hr', hr2⟩ := Option.map_eq_some_iff.1 b1
        cases hr2
        exact b3.1 (h r (List.mem_of_getElem? hr')) _ z1 z2
      · intro h r hr
        obtain ⟨k, hk, rfl⟩ := List.getElem_of_mem hr
        obtain ⟨_, _, r, b1, b2, b3, _⟩ := beat k (by omega) _ (hget k (by omega))
        rw [q1, List.getElem?_map, List.getElem?_eq_getElem hk] at b1
        simp only [Option.map_some, Option.some.injEq, Except.ok.injEq] at b1
        rw [b1]
        refine b3.2 fun y y1 y2 => ?_
        have hb := bounds c cmd H.lanes k (by omega)
        have := h (y - A) (by omega)
        rwa [show A + (y - A) = y by omega] at this
  · intro i hi
    obtain ⟨k, hk, hbk, hlo, hhi, hq⟩ := loc i hi
    simp only [hbk]
    obtain ⟨p1, p2, r, _, _, p3, p4⟩ := beat k hk _ (hget k hk)
    refine ⟨p1, p2, ?_, ?_⟩
    · intro hx x hfx
      have hok : r = .okay := p3.2 fun y y1 y2 => by
        obtain ⟨z1, z2, z3⟩ := (xfer_bytes c cmd H.lanes k hk y).1 ⟨y1, y2⟩
        refine hx y ⟨by omega, show y < A + d.length by omega⟩ ?_
        rw [hq, z3, e1]
      have := p4 hok (A + i) hlo hhi x hfx
      rwa [e1, Nat.add_sub_cancel_left] at this
    · intro j hj
      obtain ⟨k', hk', hbk', _, _, hq'⟩ := loc j hj
      simp only [hbk', hq, hq']
      have hkl : k < ts.length := by omega
      have hkl' : k' < ts.length := by omega
      have hv : ts.getD k 0 = ts[k] := by simp [List.getD_eq_getElem?_getD, hkl]
      have hv' : ts.getD k' 0 = ts[k'] := by simp [List.getD_eq_getElem?_getD, hkl']
      rw [hv, hv']
      rw [List.pairwise_iff_getElem] at g3
      constructor
      · intro hlt
        rcases Nat.lt_trichotomy k k' with h | h | h
        · omega
        · subst h; omega
        · have := g3 k' k hkl' hkl h; omega
      · intro hlt
        exact g3 k k' hkl hkl' (by omega)

/-- **C105, writes.** When a write has completed, its caller is given OKAY if all its addresses are mapped, and SLVERR otherwise.
Each transfer was executed at an instant at which the write was outstanding, in ascending order; if all its addresses are mapped,
then its bytes are stored in the cells that they designate at that instant, whatever becomes of the other transfers. -/
theorem C105_write (H : MapCalls c t s0 evs good f val wc rc n) (op : Op WXfer) (got : List (Py Resp))
    (hr : (op, some got) ∈ (S n).w.m.results) :
    let A := (wc op.key).address.toNat
    let d := (wc op.key).data
    (∃ resp, (wc op.key).returns c got resp ∧ (resp = .okay ∨ resp = .slverr) ∧ (resp = .okay ↔ ∀ i < d.length, f (A + i) ≠ none)) ∧
    ∃ τ : Nat → Nat, ∀ i < d.length,
      τ i < n ∧ Outstanding (S (τ i)).w.m op ∧
      (XferMapped c f (wc op.key) (A + i) → ∀ x, f (A + i) = some x → some (val (S (τ i + 1)).mem x) = d[i]?) ∧
      ∀ j < d.length, (τ i < τ j ↔ (A + i) / c.lanes < (A + j) / c.lanes) := by
  obtain ⟨h1, τ, h2⟩ := H.write op got hr
  exact ⟨h1, τ, fun i hi => ⟨(h2 i hi).1, (h2 i hi).2.1.1, (h2 i hi).2.2⟩⟩

/-- **C105, reads.** When a read has completed, its caller gets the requested number of bytes. The response is OKAY if all bus words
that the read touches are entirely mapped, and SLVERR otherwise. Each transfer was executed at an instant at which the read was
outstanding, in ascending order; its bytes are what the cells contained then if its bus word is entirely mapped, and zero
otherwise. -/
theorem C105_read (H : MapCalls c t s0 evs good f val wc rc n) (op : Op RXfer) (got : List (Nat × Resp))
    (hr : (op, some got) ∈ (S n).r.m.results) :
    let A := (rc op.key).address.toNat
    let N := (rc op.key).length.toNat
    ∃ (data : Bytes) (resp : Resp), (rc op.key).returns c got data resp ∧ data.length = N ∧ (resp = .okay ∨ resp = .slverr) ∧
      (0 < N → (resp = .okay ↔ ∀ i < N, WordMapped c f (A + i))) ∧ ∃ τ : Nat → Nat, ∀ i < N,
      τ i < n ∧ Outstanding (S (τ i)).r.m op ∧
      (WordMapped c f (A + i) → ∀ x, f (A + i) = some x → data[i]? = some (val (S (τ i)).mem x)) ∧
      (¬ WordMapped c f (A + i) → data[i]? = some 0) ∧
      ∀ j < N, (τ i < τ j ↔ (A + i) / c.lanes < (A + j) / c.lanes) := by
  intro A N
  obtain ⟨g1, ts, g2, g3, g4⟩ := C75_reads (slaveWrite t c.lanes true) (slaveRead t c.lanes) s0 evs n H.rNodup op got hr
  have hiss : op ∈ (S n).r.m.issued := by
    obtain ⟨st, h1, h2⟩ := ((Duo.traceR (slaveWrite t c.lanes true) (slaveRead t c.lanes) s0 evs).seq.inv n).acct
    exact h1.mem_iff.2 (List.mem_append_left _ ((h2 op).2 ⟨_, hr⟩))
  obtain ⟨cmd, w0, e3⟩ := H.r op hiss
  obtain ⟨a1, a2, a3, a4, a5, a6⟩ := (C37_accept_iff ..).1 w0
  have e1 : cmd.address = A := by rw [a6]
  have e2 : cmd.length = N := by rw [a6]
  have hpos := H.lanes
  have hcy : op.xs.length = cycles c cmd := by rw [← e3]; simp [readXfers]
  have hget : ∀ k, k < cycles c cmd → ts[k]? = some (ts.getD k 0) := by
    intro k hk
    have : k < ts.length := by omega
    rw [List.getElem?_eq_getElem this, List.getD_eq_getElem?_getD, List.getElem?_eq_getElem this]
    rfl
  have beat : ∀ k (hk : k < got.length), ts.getD k 0 < n ∧ Outstanding (S (ts.getD k 0)).r.m op ∧
      (((∀ i < c.lanes, f (boxOf c cmd k + i) ≠ none) ∧ got[k].2 = .okay ∧
        ∀ i < c.lanes, ∀ y, f (boxOf c cmd k + i) = some y → UInt8.ofNat (got[k].1 / 256 ^ i) = val (S (ts.getD k 0)).mem y) ∨
       ((∃ i < c.lanes, f (boxOf c cmd k + i) = none) ∧ got[k].2 = .slverr ∧ got[k].1 = 0)) := by
    intro k hg
    have hk : k < cycles c cmd := by omega
    obtain ⟨p1, p2, p3⟩ := g4 k { addr := beatAddr c cmd k, prot := cmd.prot } got[k] _ (by
      rw [← e3, readXfers, List.getElem?_map, List.getElem?_range hk]; rfl) (List.getElem?_eq_getElem hg) (hget k hk)
    have hgood : good (S (ts.getD k 0)).mem := H.mem_ok (by omega)
    obtain ⟨r, f1, f2⟩ := slaveRead_mapped c H.map hpos { addr := beatAddr c cmd k, prot := cmd.prot } hgood
    have p3' : got[k] = r := congrArg Prod.fst (p3.trans f1)
    rw [p3']
    simp only [beatAddr_word c cmd k] at f2
    exact ⟨p1, p2, f2⟩
  have hgl : got.length = cycles c cmd := by omega
  have hres : readResult c cmd got = some (collect c cmd 0 got, Axi.lastNonOkay (got.map (·.2)), []) := by
    have := readResult_spec c cmd got [] hgl
    rw [List.append_nil] at this
    rw [this]
    have hfold : foldResp .okay (got.map (·.2)) = Axi.lastNonOkay (got.map (·.2)) := Axi.foldResp_last _ _
    rw [hfold]
  have hgot : got = (List.range' 0 (cycles c cmd)).map fun j => got.getD j (0, .okay) := by
    apply List.ext_getElem
    · simp [hgl]
    · intro k h1 h2
      simp [List.getD_eq_getElem?_getD, h1]
  have hdata : collect c cmd 0 got = (List.range N).map fun i =>
      UInt8.ofNat ((got.getD (beatOf c cmd (A + i)) (0, .okay)).1 / 256 ^ ((A + i) % c.lanes)) := by
    by_cases hz : cycles c cmd = 0
    · have hN := Axi.gCycles_zero (nb := c.lanes) (A := cmd.address) (N := cmd.length) hpos hz
      have : N = 0 := by omega
      have hgz : got = [] := List.length_eq_zero_iff.1 (by omega)
      rw [hgz, this]; rfl
    · have := collect_rd c cmd hpos (fun j => got.getD j (0, .okay)) (cycles c cmd) 0 (by omega) (by omega)
      rw [← hgot] at this
      rw [this]
      simp only [lo_zero, Nat.add_sub_cancel_left, List.range'_eq_map_range, List.map_map, e1, e2]
      rfl
  have loc : ∀ i, i < N → ∃ k, k < cycles c cmd ∧ beatOf c cmd (A + i) = k ∧ (A + i) / c.lanes = A / c.lanes + k ∧
      boxOf c cmd k = (A + i) / c.lanes * c.lanes := by
    intro i hi
    have hle : A / c.lanes ≤ (A + i) / c.lanes := Nat.div_le_div_right (by omega)
    have hcov := Axi.gCycles_cover c.lanes cmd.address cmd.length hpos
    rw [← cycles_eq] at hcov
    simp only [Axi.gBox, e1, e2] at hcov
    have h1 : (A + i) / c.lanes < A / c.lanes + cycles c cmd := by
      apply Nat.div_lt_of_lt_mul
      rw [Nat.mul_comm, Nat.add_mul]
      omega
    have hq : (A + i) / c.lanes = A / c.lanes + ((A + i) / c.lanes - A / c.lanes) := by omega
    refine ⟨(A + i) / c.lanes - A / c.lanes, by omega, by simp only [beatOf, e1], hq, ?_⟩
    simp only [boxOf, Axi.gBox, e1]
    rw [← Nat.add_mul, ← hq]
  have hwm : ∀ i < N, (WordMapped c f (A + i) ↔ ∀ j < c.lanes, f (boxOf c cmd (beatOf c cmd (A + i)) + j) ≠ none) := by
    intro i hi
    obtain ⟨k, hk, hbk, hq, hbox⟩ := loc i hi
    rw [hbk, hbox]
    constructor
    · intro h j hj
      exact h _ ((AxiSys.word_of_byte hpos).2 ⟨j, hj, rfl⟩)
    · intro h y hy
      obtain ⟨j, hj, rfl⟩ := (AxiSys.word_of_byte hpos).1 hy
      exact h j hj
  have hrespOf : ∀ k (hk : k < got.length), got[k].2 ∈ got.map (·.2) := fun k hk =>
    List.mem_map.2 ⟨got[k], List.getElem_mem hk, rfl⟩
  have hresp : ∀ r ∈ got.map (·.2), ∃ k, ∃ hk : k < got.length, r = got[k].2 := by
    intro r hr
    obtain ⟨g, hg, rfl⟩ := List.mem_map.1 hr
    obtain ⟨k, hk, rfl⟩ := List.getElem_of_mem hg
    exact ⟨k, hk, rfl⟩
  have hgd : ∀ k (hk : k < got.length), got.getD k (0, .okay) = got[k] := by
    intro k hk
    simp [List.getD_eq_getElem?_getD, hk]
  refine ⟨_, _, ⟨cmd, w0, hres⟩, by rw [hdata]; simp, ?_, ?_, fun i => ts.getD (beatOf c cmd (A + i)) 0, ?_⟩
  · refine AxiSys.lastNonOkay_two ?_
    intro r hr
    obtain ⟨k, hk, rfl⟩ := hresp r hr
    rcases (beat k hk).2.2 with h | h
    · exact .inl h.2.1
    · exact .inr h.2.1
  · intro hN0
    rw [Axi.lastNonOkay_okay_iff]
    constructor
    · intro h i hi
      rw [hwm i hi]
      obtain ⟨k, hk, hbk, _, _⟩ := loc i hi
      rw [hbk]
      rcases (beat k (by omega)).2.2 with h' | h'
      · exact h'.1
      · have := h _ (hrespOf k (by omega))
        rw [h'.2.1] at this
        cases this
    · intro h r hr
      obtain ⟨k, hk, rfl⟩ := hresp r hr
      have hkc : k < cycles c cmd := by omega
      have hlt := lo_lt_hi c cmd hpos (by omega) k hkc
      have hb := bounds c cmd hpos k hkc
      obtain ⟨_, hbt⟩ := beatOf_eq c cmd hpos k (loOf c cmd k) hkc (Nat.le_refl _) hlt
      have hi : loOf c cmd k - A < N := by omega
      have hsum : A + (loOf c cmd k - A) = loOf c cmd k := by omega
      have hm := (hwm _ hi).1 (h _ hi)
      rw [hsum, hbt] at hm
      rcases (beat k hk).2.2 with h' | ⟨⟨j, hj, hn⟩, _⟩
      · exact h'.2.1
      · exact absurd hn (hm j hj)
  · intro i hi
    have hw := hwm i hi
    obtain ⟨k, hk, hbk, hq, hbox⟩ := loc i hi
    rw [hbk] at hw
    simp only [hbk]
    have hkg : k < got.length := by omega
    obtain ⟨b1, b2, b3⟩ := beat k hkg
    have hgi : (collect c cmd 0 got)[i]? = some (UInt8.ofNat (got[k].1 / 256 ^ ((A + i) % c.lanes))) := by
      rw [hdata, List.getElem?_map, List.getElem?_range hi]
      simp only [Option.map_some, hbk, hgd k hkg]
    have hmod : boxOf c cmd k + (A + i) % c.lanes = A + i := by
      rw [hbox, Nat.mul_comm]; exact Nat.div_add_mod _ _
    refine ⟨b1, b2, ?_, ?_, ?_⟩
    · intro hwmi x hx
      rcases b3 with b | ⟨⟨j, hj, hn⟩, _⟩
      · rw [hgi, b.2.2 ((A + i) % c.lanes) (Nat.mod_lt _ hpos) x (by rw [hmod]; exact hx)]
      · exact absurd hn (hw.1 hwmi j hj)
    · intro hwmi
      rcases b3 with b | ⟨_, _, b⟩
      · exact absurd (hw.2 b.1) hwmi
      · rw [hgi, b, Nat.zero_div]; rfl
    · intro j hj
      obtain ⟨k', hk', hbk', hq', _⟩ := loc j hj
      simp only [hbk', hq, hq']
      have hkl : k < ts.length := by omega
      have hkl' : k' < ts.length := by omega
      have hv : ts.getD k 0 = ts[k] := by simp [List.getD_eq_getElem?_getD, hkl]
      have hv' : ts.getD k' 0 = ts[k'] := by simp [List.getD_eq_getElem?_getD, hkl']
      rw [hv, hv']
      rw [List.pairwise_iff_getElem] at g3
      constructor
      · intro hlt
        rcases Nat.lt_trichotomy k k' with h | h | h
        · omega
        · subst h; omega
        · have := g3 k' k hkl' hkl h; omega
      · intro hlt
        exact g3 k k' hkl hkl' (by omega)

theorem MapCalls.change (H : MapCalls c t s0 evs good f val wc rc n) (τ : Nat) (x : κ) (hτ : τ < n)
    (hne : val (S (τ + 1)).mem x ≠ val (S τ).mem x) :
    ∃ op, (Outstanding (S τ).w.m op ∧ (S τ).w.front = some op) ∧ ∃ b, (wc op.key).covers b ∧ f b = some x ∧
      (wc op.key).data[b - (wc op.key).address.toNat]? = some (val (S (τ + 1)).mem x) := by
  rcases (H.step hτ (H.mem_ok (by omega))).2 x with h | ⟨op, h1, b, h2, h3, h4⟩
  · exact absurd h hne
  · exact ⟨op, h1, b, h2, h3, h4.symm⟩

/-- **C105, nothing else.** A cell changes only at an instant at which a write covering the address that designates it is outstanding,
and to the byte that this write has for it. -/
theorem C105_changes (H : MapCalls c t s0 evs good f val wc rc n) (τ : Nat) (x : κ) (hτ : τ < n)
    (hne : val (S (τ + 1)).mem x ≠ val (S τ).mem x) :
    ∃ op, Outstanding (S τ).w.m op ∧ ∃ b, (wc op.key).covers b ∧ f b = some x ∧
      (wc op.key).data[b - (wc op.key).address.toNat]? = some (val (S (τ + 1)).mem x) := by
  obtain ⟨op, h1, h2⟩ := H.change τ x hτ hne
  exact ⟨op, h1.1, h2⟩

/-- From its completion on, the bytes of a write stay, unless another write covering them is issued later. -/
theorem MapCalls.stays (H : MapCalls c t s0 evs good f val wc rc n) (wop : Op WXfer) (wgot : List (Py Resp)) (k : Nat) (hk : k ≤ n)
    (hw : (wop, some wgot) ∈ (S k).w.m.results) (b : Nat) (x : κ) (hx : f b = some x) (hb : (wc wop.key).covers b)
    (hm : XferMapped c f (wc wop.key) b)
    (hlast : ∀ op ∈ (S n).w.m.issued, (wc op.key).covers b → op = wop ∨ Before (S n).w.m op wop)
    (q : Nat) (hq : k ≤ q) (hqn : q ≤ n) :
    some (val (S q).mem x) = (wc wop.key).data[b - (wc wop.key).address.toNat]? := by
  obtain ⟨hb1, hb2⟩ := hb
  obtain ⟨_, tw, W⟩ := (H.mono hk).write wop wgot hw
  obtain ⟨w1, ⟨w2, w0⟩, w3, _⟩ := W (b - (wc wop.key).address.toNat) (by omega)
  rw [show (wc wop.key).address.toNat + (b - (wc wop.key).address.toNat) = b by omega] at w3
  have w3 := w3 hm x hx
  generalize htw : tw (b - (wc wop.key).address.toNat) = a at *
  obtain ⟨d, rfl⟩ := Nat.exists_eq_add_of_le (show a + 1 ≤ q by omega)
  clear hq
  induction d with
  | zero => exact w3
  | succ d ih =>
    have ih := ih (by omega)
    by_cases hch : val (S (a + 1 + d + 1)).mem x = val (S (a + 1 + d)).mem x
    · rw [← Nat.add_assoc, hch]; exact ih
    · obtain ⟨op, ⟨o1, o0⟩, b', o2, o3, o4⟩ := H.change (a + 1 + d) x (by omega) hch
      have hbb : b' = b := H.map.inj _ _ _ o3 hx
      subst hbb
      rcases hlast op ((mIssuedW_le (by omega)).subset o1.1) o2 with heq | hbef
      · subst heq
        rw [← Nat.add_assoc, ← o4]
      · exfalso
        have := (Duo.traceW (slaveWrite t c.lanes true) (slaveRead t c.lanes) s0 evs).order o0 w0 (N := n)
          (by omega) (by omega) H.wNodup hbef
        omega

/-- **C106: a read returns what was written.** Let a write have completed by instant `k`, and a read be issued after `k` and have
completed. Address `b` of both: if its transfer of the write and its bus word are mapped, and every other write covering it was
issued before that write (complete or not, successful or not), the read returns that byte of the written data. -/
theorem C106_read_your_writes (H : MapCalls c t s0 evs good f val wc rc n) (wop : Op WXfer) (wgot : List (Py Resp)) (k : Nat)
    (hk : k ≤ n) (hw : (wop, some wgot) ∈ (S k).w.m.results)
    (rop : Op RXfer) (rgot : List (Nat × Resp)) (hlate : rop ∉ (S k).r.m.issued) (hr : (rop, some rgot) ∈ (S n).r.m.results)
    (b : Nat) (hb : (wc wop.key).covers b) (hm : XferMapped c f (wc wop.key) b) (hwm : WordMapped c f b)
    (hb3 : (rc rop.key).address.toNat ≤ b) (hb4 : b < (rc rop.key).address.toNat + (rc rop.key).length.toNat)
    (hlast : ∀ op ∈ (S n).w.m.issued, (wc op.key).covers b → op = wop ∨ Before (S n).w.m op wop) :
    ∃ data resp, (rc rop.key).returns c rgot data resp ∧
      data[b - (rc rop.key).address.toNat]? = (wc wop.key).data[b - (wc wop.key).address.toNat]? := by
  obtain ⟨data, resp, d1, d2, _, _, tr, R⟩ := C105_read H rop rgot hr
  obtain ⟨r1, r2, r3, _⟩ := R (b - (rc rop.key).address.toNat) (by omega)
  refine ⟨data, resp, d1, ?_⟩
  rw [show (rc rop.key).address.toNat + (b - (rc rop.key).address.toNat) = b by omega] at r3
  obtain ⟨x, hx⟩ := Option.ne_none_iff_exists'.1 (hwm b rfl)
  rw [r3 hwm x hx]
  refine H.stays wop wgot k hk hw b x hx hb hm hlast _ ?_ (by omega)
  rcases Nat.lt_or_ge k (tr (b - (rc rop.key).address.toNat)) with h | h
  · omega
  · exact absurd ((mIssuedR_le h).subset r2.1) hlate

/-- **C106: the last write prevails.** Among the writes covering an address, let `w` be the one issued last. When `w` has completed and
its transfer is mapped, the cell contains its byte, whatever the others did. -/
theorem C106_last_write (H : MapCalls c t s0 evs good f val wc rc n) (b : Nat) (x : κ) (hx : f b = some x)
    (l1 l2 : List (Op WXfer)) (w : Op WXfer) (he : (S n).w.m.issued = l1 ++ w :: l2) (h1 : (wc w.key).covers b)
    (h2 : ∀ op ∈ l2, ¬ (wc op.key).covers b) (got : List (Py Resp)) (hgot : (w, some got) ∈ (S n).w.m.results)
    (hm : XferMapped c f (wc w.key) b) :
    some (val (S n).mem x) = (wc w.key).data[b - (wc w.key).address.toNat]? := by
  refine H.stays w got n (Nat.le_refl _) hgot b x hx h1 hm ?_ n (Nat.le_refl _) (Nat.le_refl _)
  intro op hop hcov
  rw [he] at hop
  rcases List.mem_append.1 hop with hop | hop
  · refine .inr ?_
    unfold Before
    rw [he]
    exact (List.singleton_sublist.2 hop).append (List.singleton_sublist.2 List.mem_cons_self)
  · rcases List.mem_cons.1 hop with hop | hop
    · exact .inl hop
    · exact absurd hcov (h2 op hop)

/-- **C106: no write, no change.** A cell whose address no issued write covers is as it was at the beginning. -/
theorem C106_untouched (H : MapCalls c t s0 evs good f val wc rc n) (x : κ)
    (hno : ∀ op ∈ (S n).w.m.issued, ∀ b, f b = some x → ¬ (wc op.key).covers b) : val (S n).mem x = val s0 x := by
  have : ∀ q, q ≤ n → val (S q).mem x = val s0 x := by
    intro q
    induction q with
    | zero => intro _; rfl
    | succ q ih =>
      intro hq
      by_cases hch : val (S (q + 1)).mem x = val (S q).mem x
      · rw [hch]; exact ih (by omega)
      · obtain ⟨op, o1, b, o2, o3, _⟩ := C105_changes H q x (by omega) hch
        exact absurd o2 (hno op ((mIssuedW_le (by omega)).subset o1.1) b o3)
  exact this n (Nat.le_refl _)

/-- **C107 (partial).** If the address map consists of whole bus words, then a read of mapped addresses is given OKAY and what the cells
contained at instants at which it was outstanding. Missing: maps whose regions begin or end inside a bus word, for which it is
false (`C107_violated`). -/
theorem C107_mapped_read_partial (H : MapCalls c t s0 evs good f val wc rc n)
    (hwords : ∀ x y, x / c.lanes = y / c.lanes → f x ≠ none → f y ≠ none) (op : Op RXfer) (got : List (Nat × Resp))
    (hr : (op, some got) ∈ (S n).r.m.results) (hN : 0 < (rc op.key).length)
    (hmap : ∀ i < (rc op.key).length.toNat, f ((rc op.key).address.toNat + i) ≠ none) :
    ∃ data : Bytes, (rc op.key).returns c got data .okay ∧ data.length = (rc op.key).length.toNat ∧
      ∃ τ : Nat → Nat, ∀ i < (rc op.key).length.toNat, τ i < n ∧ Outstanding (S (τ i)).r.m op ∧
        ∀ x, f ((rc op.key).address.toNat + i) = some x → data[i]? = some (val (S (τ i)).mem x) := by
  obtain ⟨data, resp, h1, h2, _, h3, τ, h4⟩ := C105_read H op got hr
  have hw : ∀ i < (rc op.key).length.toNat, WordMapped c f ((rc op.key).address.toNat + i) :=
    fun i hi y hy => hwords _ y hy.symm (hmap i hi)
  have := (h3 (by omega)).2 hw
  subst this
  exact ⟨data, h1, h2, τ, fun i hi => ⟨(h4 i hi).1, (h4 i hi).2.1, (h4 i hi).2.2.1 (hw i hi)⟩⟩

end mapped

/-! ### A concrete history

The address space `exSpace` of `Props/Mapped.lean` (two memories and a hole from 8 on), a 4 byte wide bus: writes `[6, 10)` and `[4, 5)`,
read `[5, 10)`. The second write is issued before the first is completed; the read is issued after the first write has completed. -/

section example_

open Verif.AddressSpace (exSpace exHeap exMap exS)

def exT : Target Heap := Target.ofIface exSpace.toIface
def exWm : Nat → WCall
  | 0 => { address := 6, data := [1, 2, 3, 4] }
  | _ => { address := 4, data := [5] }
def exRm : Nat → RCall := fun _ => { address := 5, length := 5 }
def exWm0 : Op WXfer := ⟨0, [⟨6, 2, 0x02010000, 12⟩, ⟨8, 2, 0x0403, 3⟩]⟩
def exWm1 : Op WXfer := ⟨1, [⟨4, 2, 0x05, 1⟩]⟩
def exRm0 : Op RXfer := ⟨0, [⟨5, 2⟩, ⟨8, 2⟩]⟩

def exEvsM : List RamEv :=
  [.w (.reset false), .r (.reset false), .w (.master (.write exWm0)), .w (.master .take), .w .send, .w (.master (.write exWm1)),
   .w .serve, .w .send, .w .serve, .w .deliver, .w .deliver, .w (.master .respTake), .w (.master .respGet),
   .w (.master .respGet), .w (.master .respDone), .r (.master (.write exRm0)), .r (.master .take), .w (.master .take), .w .send,
   .r .send, .r .send, .r .serve, .w .serve, .r .serve, .r .deliver, .r .deliver, .r (.master .respTake), .r (.master .respGet),
   .r (.master .respGet), .r (.master .respDone), .w .deliver, .w (.master .respTake), .w (.master .respGet), .w (.master .respDone)]

def exRGotM : List (Nat × Resp) := [(0x02010707, .okay), (0, .slverr)]

theorem exIssuedM : (targetAt exC exT exHeap exEvsM 34).w.m.issued = [exWm0, exWm1] ∧
    (targetAt exC exT exHeap exEvsM 34).r.m.issued = [exRm0] := by decide +kernel

/-- The first write failed, the second one did not, the read failed. -/
theorem exResultsM : (targetAt exC exT exHeap exEvsM 34).w.m.results =
      [(exWm0, some [.ok .okay, .ok .slverr]), (exWm1, some [.ok .okay])] ∧
    (targetAt exC exT exHeap exEvsM 15).w.m.results = [(exWm0, some [.ok .okay, .ok .slverr])] ∧
    (targetAt exC exT exHeap exEvsM 34).r.m.results = [(exRm0, some exRGotM)] ∧
    (targetAt exC exT exHeap exEvsM 15).r.m.issued = [] := by
  refine ⟨?_, ?_, ?_, ?_⟩ <;> decide +kernel

theorem exMapCalls : MapCalls exC exT exHeap exEvsM (Good exS) exMap cell exWm exRm 34 := by
  obtain ⟨hW, hR⟩ := exIssuedM
  refine ⟨by decide, AddressSpace.exMapped, AddressSpace.exGood, ?_, ?_, ?_, ?_⟩
  · rw [hW]
    intro op hop
    rw [List.mem_cons, List.mem_singleton] at hop
    rcases hop with rfl | rfl
    · exact ⟨{ address := 6, length := 4, prot := 2 }, (C36_accept_iff ..).2 ⟨rfl, by decide, by decide, by decide,
        by simp [exWm, exWm0], rfl⟩, by decide +kernel⟩
    · exact ⟨{ address := 4, length := 1, prot := 2 }, (C36_accept_iff ..).2 ⟨rfl, by decide, by decide, by decide,
        by simp [exWm, exWm1], rfl⟩, by decide +kernel⟩
  · rw [hR]
    intro op hop
    rw [List.mem_singleton] at hop
    subst hop
    exact ⟨{ address := 5, length := 5, prot := 2 }, (C37_accept_iff ..).2 ⟨by decide, by decide, by decide, by decide,
        by simp [exRm], rfl⟩, by decide +kernel⟩
  · rw [hW]; decide
  · rw [hR]; decide

/-- C105 applies: the first write is given SLVERR … -/
example : ∃ resp, (exWm 0).returns exC [.ok .okay, .ok .slverr] resp ∧ resp = .slverr := by
  obtain ⟨⟨resp, h1, h2, h3⟩, _⟩ := C105_write exMapCalls exWm0 [.ok .okay, .ok .slverr] (by rw [exResultsM.1]; simp)
  refine ⟨resp, h1, h2.resolve_left fun h => ?_⟩
  exact h3.1 h 2 (by decide) (by decide)

/-- … and the read returns zeros for the addresses from 8 on. -/
example : ∃ data resp, (exRm 0).returns exC exRGotM data resp ∧ resp = .slverr ∧ data[4]? = some 0 := by
  obtain ⟨data, resp, h1, h2, h3, h4, τ, h5⟩ := C105_read exMapCalls exRm0 exRGotM (by rw [exResultsM.2.2.1]; simp)
  have hn : ¬ WordMapped exC exMap ((exRm 0).address.toNat + 4) := fun h => h 9 (by decide) (by decide)
  refine ⟨data, resp, h1, h3.resolve_left fun h => ?_, (h5 4 (by decide)).2.2.2.1 hn⟩
  exact hn ((h4 (by decide)).1 h 4 (by decide))

theorem exWord0 (b : Nat) (hb : b < 8) : WordMapped exC exMap b := by
  intro y hy h
  simp only [exMap] at h
  split at h
  · cases h
  · simp only [exC] at hy
    omega

/-- C106 applies to address 7, although the write failed and so did the read. -/
example : ∃ data resp, (exRm 0).returns exC exRGotM data resp ∧ data[2]? = some 2 :=
  C106_read_your_writes exMapCalls exWm0 [.ok .okay, .ok .slverr] 15 (by decide) (by rw [exResultsM.2.1]; simp) exRm0 exRGotM
    (by rw [exResultsM.2.2.2]; simp) (by rw [exResultsM.2.2.1]; simp) 7 ⟨by decide, by decide⟩
    (fun y _ hy => exWord0 7 (by omega) y hy) (exWord0 7 (by omega)) (by decide) (by decide) (by
      rw [exIssuedM.1]
      intro op hop h
      rw [List.mem_cons, List.mem_singleton] at hop
      rcases hop with rfl | rfl
      · exact .inl rfl
      · exact absurd h.2 (by decide))

/-- … and the second write prevails at address 4; memory 0 is untouched. -/
example : some (cell (targetAt exC exT exHeap exEvsM 34).mem (1, 0)) = some 5 ∧
    cell (targetAt exC exT exHeap exEvsM 34).mem (0, 0) = cell exHeap (0, 0) := by
  constructor
  · exact C106_last_write exMapCalls 4 (1, 0) rfl [exWm0] [] exWm1 exIssuedM.1 ⟨by decide, by decide⟩ (by simp) [.ok .okay]
      (by rw [exResultsM.1]; simp) (fun y _ hy => exWord0 4 (by omega) y hy)
  · refine C106_untouched exMapCalls (0, 0) ?_
    rw [exIssuedM.1]
    intro op hop b hb hc
    have hb0 : b = 0 := AddressSpace.exMapped.inj b 0 _ hb rfl
    subst hb0
    rw [List.mem_cons, List.mem_singleton] at hop
    rcases hop with rfl | rfl <;> exact absurd hc.1 (by decide)

/-! C107: a memory region of 6 bytes on a bus of 4 byte lanes. -/

def exW6 : Nat → WCall := fun _ => { address := 4, data := [1, 2] }
def exR6 : Nat → RCall := fun _ => { address := 4, length := 2 }
def exWop6 : Op WXfer := ⟨0, [⟨4, 2, 0x0201, 3⟩]⟩
def exRop6 : Op RXfer := ⟨0, [⟨4, 2⟩]⟩
def exEvs6 : List RamEv :=
  [.w (.reset false), .r (.reset false), .w (.master (.write exWop6)), .w (.master .take), .w .send, .w .serve, .w .deliver,
   .w (.master .respTake), .w (.master .respGet), .w (.master .respDone), .r (.master (.write exRop6)), .r (.master .take), .r .send,
   .r .serve, .r .deliver, .r (.master .respTake), .r (.master .respGet), .r (.master .respDone)]

/-- **C107 is false of the code**: the addresses 4 and 5 are mapped, the write to them is given OKAY and is stored, and then the
read of them is given SLVERR and zeros. -/
theorem C107_violated : ∃ (c : Cfg) (wc : Nat → WCall) (rc : Nat → RCall) (size : Nat) (h0 : Heap) (evs : List RamEv) (n : Nat)
    (wop : Op WXfer) (rop : Op RXfer) (got : List (Nat × Resp)) (data : Bytes),
    let t := Target.ofIface (memoryRegion size none 0)
    let f : Nat → Option (Nat × Nat) := fun x => if x < size then some (0, x) else none
    MapCalls c t h0 evs (Good fun _ => (false, size)) f cell wc rc n ∧
    (∀ i < (rc rop.key).length.toNat, f ((rc rop.key).address.toNat + i) ≠ none) ∧
    (∃ wgot, (wop, some wgot) ∈ (targetAt c t h0 evs n).w.m.results ∧ (wc wop.key).returns c wgot .okay) ∧
    (wc wop.key).address = (rc rop.key).address ∧ (wc wop.key).data = [1, 2] ∧
    cell (targetAt c t h0 evs n).mem (0, 4) = 1 ∧ cell (targetAt c t h0 evs n).mem (0, 5) = 2 ∧
    (rop, some got) ∈ (targetAt c t h0 evs n).r.m.results ∧ (rc rop.key).returns c got data .slverr ∧ data = [0, 0] := by
  refine ⟨exC, exW6, exR6, 6, fun _ => .buf (List.replicate 6 7), exEvs6, 18, exWop6, exRop6, [(0, .slverr)], [0, 0], ?_⟩
  have hW : (targetAt exC (Target.ofIface (memoryRegion 6 none 0)) (fun _ => .buf (List.replicate 6 7)) exEvs6 18).w.m.issued =
    [exWop6] := by decide +kernel
  have hR : (targetAt exC (Target.ofIface (memoryRegion 6 none 0)) (fun _ => .buf (List.replicate 6 7)) exEvs6 18).r.m.issued =
    [exRop6] := by decide +kernel
  have hWr : (targetAt exC (Target.ofIface (memoryRegion 6 none 0)) (fun _ => .buf (List.replicate 6 7)) exEvs6 18).w.m.results =
    [(exWop6, some [.ok .okay])] := by decide +kernel
  have hRr : (targetAt exC (Target.ofIface (memoryRegion 6 none 0)) (fun _ => .buf (List.replicate 6 7)) exEvs6 18).r.m.results =
    [(exRop6, some [(0, .slverr)])] := by decide +kernel
  have hc : cell (targetAt exC (Target.ofIface (memoryRegion 6 none 0)) (fun _ => .buf (List.replicate 6 7)) exEvs6 18).mem (0, 4) = 1 ∧
    cell (targetAt exC (Target.ofIface (memoryRegion 6 none 0)) (fun _ => .buf (List.replicate 6 7)) exEvs6 18).mem (0, 5) = 2 := by
    decide +kernel
  have H : MapCalls exC (Target.ofIface (memoryRegion 6 none 0)) (fun _ => .buf (List.replicate 6 7)) exEvs6
      (Good fun _ => (false, 6)) (fun x => if x < 6 then some (0, x) else none) cell exW6 exR6 18 := by
    refine ⟨by decide, (AddressSpace.C102_region (fun _ => (false, 6)) 6 none 0 (Nat.le_refl _)).1,
      fun k => ⟨⟨rfl, trivial⟩, rfl⟩, ?_, ?_, ?_, ?_⟩
    · rw [hW]; intro op hop; rw [List.mem_singleton] at hop; subst hop
      exact ⟨{ address := 4, length := 2, prot := 2 }, (C36_accept_iff ..).2 ⟨rfl, by decide, by decide, by decide,
        by simp [exW6], rfl⟩, by decide +kernel⟩
    · rw [hR]; intro op hop; rw [List.mem_singleton] at hop; subst hop
      exact ⟨{ address := 4, length := 2, prot := 2 }, (C37_accept_iff ..).2 ⟨by decide, by decide, by decide, by decide,
        by simp [exR6], rfl⟩, by decide +kernel⟩
    · rw [hW]; decide
    · rw [hR]; decide
  have m1 : (exWop6, some [.ok .okay]) ∈
      (targetAt exC (Target.ofIface (memoryRegion 6 none 0)) (fun _ => .buf (List.replicate 6 7)) exEvs6 18).w.m.results := by
    rw [hWr]; simp
  have m2 : (exRop6, some [(0, .slverr)]) ∈
      (targetAt exC (Target.ofIface (memoryRegion 6 none 0)) (fun _ => .buf (List.replicate 6 7)) exEvs6 18).r.m.results := by
    rw [hRr]; simp
  have hm : ∀ i < 2, (if 4 + i < 6 then some (0, 4 + i) else none) ≠ none := by
    intro i hi
    rw [if_pos (by omega)]
    exact Option.some_ne_none _
  obtain ⟨⟨resp, w1, _, w2⟩, _⟩ := C105_write H exWop6 _ m1
  have w3 := w2.2 hm
  obtain ⟨data, resp', r1, r2, r3, r4, τ, r5⟩ := C105_read H exRop6 _ m2
  have hn : ∀ i < 2, ¬ WordMapped exC (fun x => if x < 6 then some (0, x) else none) (4 + i) := by
    intro i hi h
    exact h 7 (by simp only [exC]; omega) rfl
  have r6 : resp' = .slverr := r3.resolve_left fun h => hn 0 (by omega) ((r4 (by decide)).1 h 0 (by decide))
  have r7 : data = [0, 0] := by
    have d0 := (r5 0 (by decide)).2.2.2.1 (hn 0 (by omega))
    have d1 := (r5 1 (by decide)).2.2.2.1 (hn 1 (by omega))
    have d2 : data.length = 2 := r2
    match data, d2, d0, d1 with
    | [a, b], _, d0, d1 => simp at d0 d1; rw [d0, d1]
  subst w3 r6 r7
  exact ⟨H, hm, ⟨_, m1, w1⟩, rfl, rfl, hc.1, hc.2, m2, r1, rfl⟩

end example_

end Verif.LiteOps
