import Verif.Props.AxiLite

/-!
# Transfers of word-wise operations on a RAM that others may access in between

An operation of an AXI-lite or APB master is a list of transfers, each of them performed at some instant on the RAM as it is
then. What the bytes of the whole operation are.
-/

namespace Verif.LiteOps

open Word

theorem store_at {m : FlatMem} {a : Nat} {d : Bytes} {x : Nat} (h : a ≤ x ∧ x < a + d.length) :
    some (m.store a d x) = d[x - a]? := by
  simp only [FlatMem.store, dif_pos h]
  rw [List.getElem?_eq_getElem]

theorem store_else {m : FlatMem} {a : Nat} {d : Bytes} {x : Nat} (h : ¬ (a ≤ x ∧ x < a + d.length)) :
    m.store a d x = m x := by
  simp only [FlatMem.store, dif_neg h]

/-- One write transfer on a RAM. -/
theorem write_one (c : Cfg) (hl : 0 < c.lanes) (cmd : Cmd) (d : Bytes) (hlen : d.length = cmd.length) (k : Nat)
    (hk : k < cycles c cmd) (m : Memory) (hm : m.WF) (hs : 0 < m.size) (hfit : cmd.address + cmd.length ≤ m.size) :
    ∃ m', slaveWrite ramTarget c.lanes true (xAt c cmd d k) m = (.ok .okay, m') ∧ m'.WF ∧ m'.size = m.size ∧
      m'.contents = m.contents.store (loOf c cmd k) (bytesOf c cmd d k) := by
  have hb := bounds c cmd hl k hk
  have hbl := bytesOf_length c cmd d hl hlen k hk
  have hp : xPairs c.lanes true (xAt c cmd d k) = pairsAt (loOf c cmd k) (bytesOf c cmd d k) := by
    rw [← strobed_xAt c cmd d hl hlen k hk]
    simp only [xPairs, if_true]
    congr 1
    exact beatAddr_word c cmd k
  have hlt : ∀ p ∈ pairsAt (loOf c cmd k) (bytesOf c cmd d k), p.1 < m.size := by
    intro p hp
    have := mem_pairsAt hp
    omega
  obtain ⟨m', e1, e2, e3, e4⟩ := slaveWrites_ram c.lanes true [xAt c cmd d k] m hm hs
    (by intro x hx; rw [List.mem_singleton] at hx; subst hx; exact xAt_data_lt c cmd d hl hlen k hk)
    (.inr (by simpa [hp] using hlt))
  refine ⟨m', ?_, e2, e3, ?_⟩
  · simp only [slaveWrites] at e1
    revert e1
    rcases slaveWrite ramTarget c.lanes true (xAt c cmd d k) m with ⟨r, st⟩
    cases r with
    | error e => intro e1; simp at e1
    | ok r => intro e1; simpa using e1
  · rw [e4]
    simp only [List.flatMap_cons, List.flatMap_nil, List.append_nil, hp]
    rw [modPairs_of_lt _ _ hlt, puts_pairsAt]

theorem read_one (c : Cfg) (x : RXfer) (m : Memory) (hm : m.WF) (hs : 0 < m.size) :
    slaveRead ramTarget c.lanes x m = ((Axi.ramWord c.lanes m (x.addr / c.lanes * c.lanes), .okay), m) := by
  obtain ⟨d, e1, e2, e3⟩ := ramTarget_read c.lanes (x.addr / c.lanes * c.lanes) m hm hs
  simp only [slaveRead, e1, Axi.ramWord]

/-- What a write transfer does to a byte. -/
theorem write_change {c : Cfg} (hl : 0 < c.lanes) {cmd : Cmd} {d : Bytes} (hlen : d.length = cmd.length) {k : Nat}
    (hk : k < cycles c cmd) {m : FlatMem} {b : Nat}
    (hne : m.store (loOf c cmd k) (bytesOf c cmd d k) b ≠ m b) :
    cmd.address ≤ b ∧ d[b - cmd.address]? = some (m.store (loOf c cmd k) (bytesOf c cmd d k) b) := by
  have hb := bounds c cmd hl k hk
  have hbl := bytesOf_length c cmd d hl hlen k hk
  by_cases hin : loOf c cmd k ≤ b ∧ b < loOf c cmd k + (bytesOf c cmd d k).length
  · refine ⟨by omega, ?_⟩
    rw [store_at hin]
    simp only [bytesOf]
    rw [List.getElem?_take, if_pos (by omega), List.getElem?_drop]
    congr 1
    omega
  · exact absurd (store_else hin) hne

theorem pick_get {ts : List Nat} {k : Nat} (h : k < ts.length) : ts[k]? = some (ts.getD k 0) := by
  rw [List.getElem?_eq_getElem h, List.getD_eq_getElem?_getD, List.getElem?_eq_getElem h]
  rfl

theorem pick_lt {ts : List Nat} (h : ts.Pairwise (· < ·)) {i j : Nat} (hi : i < ts.length) (hj : j < ts.length) :
    ts.getD i 0 < ts.getD j 0 ↔ i < j := by
  have hv : ts.getD i 0 = ts[i] := by simp [List.getD_eq_getElem?_getD, hi]
  have hv' : ts.getD j 0 = ts[j] := by simp [List.getD_eq_getElem?_getD, hj]
  rw [hv, hv']
  rw [List.pairwise_iff_getElem] at h
  constructor
  · intro hlt
    rcases Nat.lt_trichotomy i j with h1 | h1 | h1
    · exact h1
    · subst h1; omega
    · have := h j i hj hi h1; omega
  · exact fun hlt => h i j hi hj hlt

/-- The transfer of a byte. -/
theorem beatOf_spec {c : Cfg} (hl : 0 < c.lanes) {cmd : Cmd} {i : Nat} (hi : i < cmd.length) :
    beatOf c cmd (cmd.address + i) < cycles c cmd ∧
      (cmd.address + i) / c.lanes = cmd.address / c.lanes + beatOf c cmd (cmd.address + i) := by
  have hle : cmd.address / c.lanes ≤ (cmd.address + i) / c.lanes := Nat.div_le_div_right (by omega)
  constructor
  · have hcov := Axi.gCycles_cover c.lanes cmd.address cmd.length hl
    rw [← cycles_eq] at hcov
    simp only [Axi.gBox] at hcov
    simp only [beatOf]
    have h1 : (cmd.address + i) / c.lanes < cmd.address / c.lanes + cycles c cmd := by
      apply Nat.div_lt_of_lt_mul
      rw [Nat.mul_comm, Nat.add_mul]
      omega
    omega
  · simp only [beatOf]
    omega

/-- A write whose transfers were performed at the instants `ts`. -/
theorem word_write {c : Cfg} (hl : 0 < c.lanes) {cmd : Cmd} {d : Bytes} (hlen : d.length = cmd.length) {μ : Nat → Memory}
    {n sz : Nat} (hmem : ∀ t < n, (μ t).WF ∧ (μ t).size = sz) (hs : 0 < sz) (hfit : cmd.address + cmd.length ≤ sz)
    {P : Nat → Prop} {ts : List Nat} (htl : ts.length = cycles c cmd) (hts : ts.Pairwise (· < ·)) {resp : Nat → Py Resp}
    (hex : ∀ k < cycles c cmd, ∀ t, ts[k]? = some t → t < n ∧ P t ∧
      (resp k, μ (t + 1)) = slaveWrite ramTarget c.lanes true (xAt c cmd d k) (μ t)) :
    (∀ k < cycles c cmd, resp k = .ok .okay) ∧ ∃ t : Nat → Nat, ∀ i < d.length, t i < n ∧ P (t i) ∧
      some ((μ (t i + 1)).contents (cmd.address + i)) = d[i]? ∧
      ∀ j < d.length, (t i < t j ↔ (cmd.address + i) / c.lanes < (cmd.address + j) / c.lanes) := by
  have beat : ∀ k, k < cycles c cmd → ts.getD k 0 < n ∧ P (ts.getD k 0) ∧ resp k = .ok .okay ∧
      (μ (ts.getD k 0 + 1)).contents = (μ (ts.getD k 0)).contents.store (loOf c cmd k) (bytesOf c cmd d k) := by
    intro k hk
    obtain ⟨p1, p2, p3⟩ := hex k hk _ (pick_get (htl ▸ hk))
    obtain ⟨q1, q2⟩ := hmem _ p1
    obtain ⟨m', f1, f2, f3, f4⟩ := write_one c hl cmd d hlen k hk (μ (ts.getD k 0)) q1 (by omega) (by omega)
    rw [f1] at p3
    simp only [Prod.mk.injEq] at p3
    exact ⟨p1, p2, p3.1, by rw [p3.2, f4]⟩
  refine ⟨fun k hk => (beat k hk).2.2.1, fun i => ts.getD (beatOf c cmd (cmd.address + i)) 0, ?_⟩
  intro i hi
  obtain ⟨hk, hq⟩ := beatOf_spec hl (cmd := cmd) (i := i) (by omega)
  obtain ⟨p1, p2, _, p3⟩ := beat _ hk
  refine ⟨p1, p2, ?_, ?_⟩
  · have hmem' : (cmd.address + i, d[i]) ∈ pairsAt cmd.address d := by
      have hlen : i < (pairsAt cmd.address d).length := by rw [pairsAt_length]; exact hi
      have := List.getElem_mem hlen
      rwa [pairsAt_getElem] at this
    rw [← pairs_write c cmd d hl hlen] at hmem'
    obtain ⟨k, hk', hp⟩ := List.mem_flatMap.1 hmem'
    rw [List.mem_range] at hk'
    have hb := bounds c cmd hl k hk'
    have hbl := bytesOf_length c cmd d hl hlen k hk'
    have := mem_pairsAt hp
    simp only at this
    obtain ⟨b1, b2⟩ := beatOf_eq c cmd hl k (cmd.address + i) hk' (by omega) (by omega)
    simp only [b2] at p3 ⊢
    rw [p3, store_at (by omega)]
    simp only [bytesOf]
    rw [List.getElem?_take, if_pos (by omega), List.getElem?_drop]
    congr 1
    omega
  · intro j hj
    obtain ⟨hk', hq'⟩ := beatOf_spec hl (cmd := cmd) (i := j) (by omega)
    simp only
    rw [pick_lt hts (by omega) (by omega)]
    omega

/-- A read whose transfers were performed at the instants `ts`. -/
theorem word_read {c : Cfg} (hl : 0 < c.lanes) {cmd : Cmd} {μ : Nat → Memory} {n sz : Nat}
    (hmem : ∀ t < n, (μ t).WF ∧ (μ t).size = sz) (hs : 0 < sz) (hfit : cmd.address + cmd.length ≤ sz) {P : Nat → Prop}
    {ts : List Nat} (htl : ts.length = cycles c cmd) (hts : ts.Pairwise (· < ·)) {got : List (Nat × Resp)}
    (hgl : got.length = cycles c cmd) (hex : ∀ k < cycles c cmd, ∀ t r, ts[k]? = some t → got[k]? = some r → t < n ∧ P t ∧
      r = (slaveRead ramTarget c.lanes ⟨beatAddr c cmd k, cmd.prot⟩ (μ t)).1) :
    ∃ data : Bytes, readResult c cmd got = some (data, .okay, []) ∧ data.length = cmd.length ∧
      ∃ t : Nat → Nat, ∀ i < cmd.length, t i < n ∧ P (t i) ∧
        data[i]? = some ((μ (t i)).contents (cmd.address + i)) ∧
        ∀ j < cmd.length, (t i < t j ↔ (cmd.address + i) / c.lanes < (cmd.address + j) / c.lanes) := by
  have beat : ∀ k, k < cycles c cmd → ts.getD k 0 < n ∧ P (ts.getD k 0) ∧
      got[k]? = some (Axi.ramWord c.lanes (μ (ts.getD k 0)) (boxOf c cmd k), .okay) := by
    intro k hk
    have hg : k < got.length := by omega
    obtain ⟨p1, p2, p3⟩ := hex k hk _ got[k] (pick_get (htl ▸ hk)) (List.getElem?_eq_getElem hg)
    obtain ⟨q1, q2⟩ := hmem _ p1
    refine ⟨p1, p2, ?_⟩
    rw [read_one c { addr := beatAddr c cmd k, prot := cmd.prot } _ q1 (by omega)] at p3
    rw [List.getElem?_eq_getElem hg, p3, beatAddr_word c cmd k]
  let M : Nat → Memory := fun k => μ (ts.getD k 0)
  have hgot : got = (List.range' 0 (cycles c cmd)).map fun j => (Axi.ramWord c.lanes (M j) (boxOf c cmd j), Resp.okay) := by
    apply List.ext_getElem?
    intro k
    by_cases hk : k < cycles c cmd
    · rw [(beat k hk).2.2, List.getElem?_map, List.getElem?_range' (by omega)]
      simp [M]
    · rw [List.getElem?_eq_none (by omega), List.getElem?_eq_none (by simp; omega)]
  have hres : readResult c cmd got = some (collect c cmd 0 got, .okay, []) := by
    have := readResult_spec c cmd got [] (by omega)
    rw [List.append_nil] at this
    rw [this, Axi.foldResp_okay]
    intro r hr
    rw [hgot] at hr
    simp only [List.map_map, List.mem_map, Function.comp] at hr
    obtain ⟨_, _, rfl⟩ := hr
    rfl
  have hdata : collect c cmd 0 got =
      (List.range cmd.length).map fun i => (M (beatOf c cmd (cmd.address + i))).contents (cmd.address + i) := by
    by_cases hz : cycles c cmd = 0
    · have hN := Axi.gCycles_zero (nb := c.lanes) (A := cmd.address) (N := cmd.length) hl hz
      have : cmd.length = 0 := by omega
      rw [hgot, hz, this]; rfl
    · rw [hgot, collect_vals c cmd hl M sz (by
        intro j hj
        exact hmem _ (beat j hj).1) hs (.inr (by omega)) _ 0 (by omega) (by omega)]
      simp only [lo_zero, Nat.add_sub_cancel_left, List.range'_eq_map_range, List.map_map]
      apply List.map_congr_left
      intro i hi
      rw [List.mem_range] at hi
      simp only [Function.comp]
      rw [Nat.mod_eq_of_lt (by omega)]
  refine ⟨_, hres, by rw [hdata]; simp, fun i => ts.getD (beatOf c cmd (cmd.address + i)) 0, ?_⟩
  intro i hi
  obtain ⟨hk, hq⟩ := beatOf_spec hl (cmd := cmd) (i := i) hi
  refine ⟨(beat _ hk).1, (beat _ hk).2.1, ?_, ?_⟩
  · rw [hdata]
    rw [List.getElem?_map, List.getElem?_range hi]
    rfl
  · intro j hj
    obtain ⟨hk', hq'⟩ := beatOf_spec hl (cmd := cmd) (i := j) hj
    simp only
    rw [pick_lt hts (by omega) (by omega)]
    omega

end Verif.LiteOps
