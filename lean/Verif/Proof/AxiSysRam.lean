import Verif.Proof.AxiSystem

/-!
# A connected AXI system whose target is a RAM
-/

namespace Verif.AxiSys

open Verif.Axi Verif.AxiOps Verif.AxiOps.Master

/-! ## Beats and bytes -/

/-- The beat that carries the byte at `x`. -/
def beatNo (cmd : Cmd) (x : Nat) : Nat := x / 2 ^ cmd.size - cmd.address / 2 ^ cmd.size

theorem beatNo_eq {cmd : Cmd} {k x : Nat} (h1 : gBox (2 ^ cmd.size) cmd.address k ≤ x)
    (h2 : x < gBox (2 ^ cmd.size) cmd.address k + 2 ^ cmd.size) : beatNo cmd x = k := by
  unfold beatNo
  have : x / 2 ^ cmd.size = cmd.address / 2 ^ cmd.size + k := by
    simp only [gBox, ← Nat.add_mul] at h1 h2
    apply Nat.div_eq_of_lt_le
    · exact h1
    · rw [Nat.add_mul (_ + _) 1, Nat.one_mul]; exact h2
  omega

/-- The beat of a byte of the request. -/
theorem beatNo_spec {c : Cfg} {cmd : Cmd} (h : CmdOK c cmd) {x : Nat} (h1 : cmd.address ≤ x) (h2 : x < cmd.address + cmd.length) :
    beatNo cmd x < cyclesOf cmd ∧ loAt cmd (beatNo cmd x) ≤ x ∧ x < hiAt cmd (beatNo cmd x) ∧
      x / 2 ^ cmd.size = cmd.address / 2 ^ cmd.size + beatNo cmd x := by
  have hp := h.geo.nbPos
  have hle : cmd.address / 2 ^ cmd.size ≤ x / 2 ^ cmd.size := Nat.div_le_div_right h1
  have hq : x / 2 ^ cmd.size = cmd.address / 2 ^ cmd.size + beatNo cmd x := by unfold beatNo; omega
  have b1 : gBox (2 ^ cmd.size) cmd.address (beatNo cmd x) ≤ x := by
    simp only [gBox, ← Nat.add_mul, ← hq]; exact div_mul_le _ _
  have b2 : x < gBox (2 ^ cmd.size) cmd.address (beatNo cmd x) + 2 ^ cmd.size := by
    simp only [gBox, ← Nat.add_mul, ← hq]; exact lt_div_mul_add _ _ hp
  refine ⟨?_, ?_, ?_, hq⟩
  · have hc := gCycles_cover (2 ^ cmd.size) cmd.address cmd.length hp
    rw [cyclesOf_eq]
    apply Nat.lt_of_not_le
    intro hge
    have := gBox_mono (2 ^ cmd.size) cmd.address hge
    omega
  · simp only [loAt, gLo]; omega
  · simp only [hiAt, gHi, gBox_succ]; omega

/-- The extracted bytes: the byte at `x` comes from the beat that carries it. -/
theorem collect_vals {c : Cfg} {cmd : Cmd} (h : CmdOK c cmd) (rd : Nat → Nat) (rs : List RBeat) (k : Nat)
    (hr : ∀ i r, rs[i]? = some r → r.data = rd (k + i)) :
    collect c cmd k rs = (List.range' (loAt cmd k) (gBox (2 ^ cmd.size) cmd.address (k + rs.length) - loAt cmd k)).map
      fun x => UInt8.ofNat (rd (beatNo cmd x) / 256 ^ (x % c.lanes)) := by
  induction rs generalizing k with
  | nil =>
    have : gBox (2 ^ cmd.size) cmd.address k ≤ loAt cmd k := by simp only [loAt, gLo]; omega
    simp only [collect, List.length_nil, Nat.add_zero]
    rw [show gBox (2 ^ cmd.size) cmd.address k - loAt cmd k = 0 by omega]
    rfl
  | cons r rs ih =>
    have g := h.geo
    have hr0 := hr 0 r (by simp)
    simp only [Nat.add_zero] at hr0
    have h1 := div_mul_le (gBox (2 ^ cmd.size) cmd.address k) c.lanes
    have h2 := container_in_word (2 ^ cmd.size) c.lanes (gBox (2 ^ cmd.size) cmd.address k) g.nbPos g.lanesPos g.dvd
      (gBox_dvd _ _ k)
    have h4 := gAl_lt (2 ^ cmd.size) cmd.address g.nbPos
    have h0 := g.nbPos
    have h5 := gBox_succ (2 ^ cmd.size) cmd.address k
    have h6 := gBox_mono (2 ^ cmd.size) cmd.address (Nat.zero_le k)
    rw [gBox_zero] at h6
    have hlo : loAt cmd (k + 1) = gBox (2 ^ cmd.size) cmd.address (k + 1) := by
      simp only [loAt, gLo]; omega
    have hm := gBox_mono (2 ^ cmd.size) cmd.address (show k + 1 ≤ k + (rs.length + 1) by omega)
    have hlb : gBox (2 ^ cmd.size) cmd.address k ≤ loAt cmd k ∧ loAt cmd k ≤ gBox (2 ^ cmd.size) cmd.address (k + 1) := by
      simp only [loAt, gLo]; omega
    have hwd : wordAt c cmd k ≤ gBox (2 ^ cmd.size) cmd.address k := h1
    simp only [collect, List.length_cons]
    rw [ih (k + 1) (by intro i r' hi; rw [show k + 1 + i = k + (i + 1) by omega]; exact hr (i + 1) r' (by simpa using hi))]
    rw [hlo]
    have hsplit : List.range' (loAt cmd k) (gBox (2 ^ cmd.size) cmd.address (k + (rs.length + 1)) - loAt cmd k) =
        List.range' (loAt cmd k) (gBox (2 ^ cmd.size) cmd.address (k + 1) - loAt cmd k) ++
        List.range' (gBox (2 ^ cmd.size) cmd.address (k + 1))
          (gBox (2 ^ cmd.size) cmd.address (k + 1 + rs.length) - gBox (2 ^ cmd.size) cmd.address (k + 1)) := by
      have := List.range'_append_1 (s := loAt cmd k) (m := gBox (2 ^ cmd.size) cmd.address (k + 1) - loAt cmd k)
        (n := gBox (2 ^ cmd.size) cmd.address (k + 1 + rs.length) - gBox (2 ^ cmd.size) cmd.address (k + 1))
      rw [show loAt cmd k + (gBox (2 ^ cmd.size) cmd.address (k + 1) - loAt cmd k) =
        gBox (2 ^ cmd.size) cmd.address (k + 1) by omega] at this
      rw [this]
      congr 1
      rw [show k + 1 + rs.length = k + (rs.length + 1) by omega]
      omega
    rw [hsplit, List.map_append]
    congr 1
    rw [unpackLanes_eq, hr0]
    apply List.ext_getElem
    · simp only [List.length_map, List.length_range']; omega
    · intro i i1 i2
      simp only [List.length_map, List.length_range'] at i1 i2
      simp only [List.getElem_map, List.getElem_range', Nat.one_mul]
      have hx1 : gBox (2 ^ cmd.size) cmd.address k ≤ loAt cmd k + i := by omega
      have hx2 : loAt cmd k + i < gBox (2 ^ cmd.size) cmd.address k + 2 ^ cmd.size := by omega
      have hw : (loAt cmd k + i) / c.lanes * c.lanes = wordAt c cmd k := gWord_eq g hx1 hx2
      rw [beatNo_eq hx1 hx2, mod_eq_sub_word, hw]
      congr 3
      omega


/-! ## One beat on a RAM -/

/-- A beat of a write on a RAM. -/
theorem wroteBeat_ram {c : Cfg} {cmd : Cmd} {data : Bytes} {wuser : WUser} (h : CmdOK c cmd) (hlen : data.length = cmd.length)
    (hb : cmd.burst = .incr) {m m' : Memory} (hm : m.WF) (hs : 0 < m.size) (hfit : cmd.address + cmd.length ≤ m.size)
    {u k0 j : Nat} (hk : k0 + j < cyclesOf cmd) {l ok : Bool}
    (hw : WroteBeat c ramTarget (aAt c cmd u k0) j (wAt c cmd data wuser (k0 + j) l) m ok m') :
    ok = true ∧ m'.WF ∧ m'.size = m.size ∧
      m'.contents = m.contents.store (loAt cmd (k0 + j)) (bytesAt cmd data (k0 + j)) := by
  have hbw : beatWord c.lanes (aAt c cmd u k0) j = wordAt c cmd (k0 + j) := by
    simp only [beatWord, beatAddr_aAt c cmd u hb]; rfl
  have hst := strobed_wAt c cmd data wuser h hlen hk l
  have hbl := bytesAt_length c cmd data h hlen hk
  obtain ⟨b1, b2, b3, b4, b5, b6, b7⟩ := beat_bounds h.geo hk
  have hlt : ∀ p ∈ pairsAt (loAt cmd (k0 + j)) (bytesAt cmd data (k0 + j)), p.1 < m.size := by
    intro p hp
    have := mem_pairsAt hp
    rw [hbl] at this
    simp only [loAt, hiAt] at this
    omega
  obtain ⟨m2, e1, e2, e3, e4⟩ := attempt_ram c.lanes (aAt c cmd u k0) j (wAt c cmd data wuser (k0 + j) l) m hm hs
    (.inr (by rw [hbw, hst]; exact hlt))
  unfold WroteBeat at hw
  rw [e1] at hw
  simp only [Prod.mk.injEq] at hw
  obtain ⟨rfl, rfl⟩ := hw
  refine ⟨rfl, e2, e3, ?_⟩
  rw [e4, hbw, hst, modPairs_of_lt _ _ hlt, puts_pairsAt]

/-- A beat of a read on a RAM. -/
theorem readBeat_ram {c : Cfg} {a : ABeat} {k : Nat} {m m' : Memory} {r : RBeat} (hm : m.WF) (hs : 0 < m.size)
    (h : ReadBeat c ramTarget a k m r m') :
    r.resp = .okay ∧ r.data = ramWord c.lanes m (beatWord c.lanes a k) ∧ m' = m := by
  obtain ⟨d, e1, _, _⟩ := ramTarget_read c.lanes (beatWord c.lanes a k) m hm hs
  obtain ⟨_, _, h⟩ := h
  rw [e1] at h
  refine ⟨h.1, ?_, h.2.2⟩
  rw [h.2.1]
  simp only [ramWord, e1]

/-- The burst of a write that carries a given beat. -/
theorem segs_beat {c : Cfg} {cmd : Cmd} {data : Bytes} {wuser : WUser} {u : Nat} : ∀ k ≤ cyclesOf cmd,
    ∀ ds : List (Grp × List (Nat × Bool)),
      ds.map (fun d => (d.1.a, d.1.ws)) = (segs c cmd k).map (fun p => (aAt c cmd u p.1, segW c cmd data wuser p)) →
      (∀ d ∈ ds, d.2.length = d.1.ws.length) →
      (ds.flatMap (·.2)).length = cyclesOf cmd - k ∧
      ∀ K, k ≤ K → K < cyclesOf cmd → ∃ d ∈ ds, ∃ k0 j l τ ok, k0 + j = K ∧ d.1.a = aAt c cmd u k0 ∧
        d.1.ws[j]? = some (wAt c cmd data wuser K l) ∧ d.2[j]? = some (τ, ok) ∧
        (ds.flatMap (·.2))[K - k]? = some (τ, ok) := by
  refine segs_induction (blAt_bounds c cmd) ?_ ?_
  · intro ds hds _
    rw [segs_done] at hds
    simp only [List.map_nil, List.map_eq_nil_iff] at hds
    subst hds
    refine ⟨by simp, ?_⟩
    intro K h1 h2
    omega
  · intro k hk ih ds hds hl
    have hbl := blAt_bounds c cmd k hk
    rw [segs_step c cmd k hk] at hds
    cases ds with
    | nil => simp at hds
    | cons d ds =>
      simp only [List.map_cons, List.cons.injEq, Prod.mk.injEq] at hds
      obtain ⟨⟨ha, hws⟩, hds⟩ := hds
      obtain ⟨i1, i2⟩ := ih ds hds fun d hd => hl d (List.mem_cons_of_mem _ hd)
      have hlen : d.2.length = blAt c cmd k := by
        rw [hl d List.mem_cons_self, hws, segW_length]
      refine ⟨by simp only [List.flatMap_cons, List.length_append]; omega, ?_⟩
      intro K h1 h2
      by_cases hK : K < k + blAt c cmd k
      · have hj : K - k < d.2.length := by omega
        refine ⟨d, List.mem_cons_self, k, K - k, decide (K + 1 = k + blAt c cmd k), d.2[K - k].1, d.2[K - k].2, by omega, ha,
          ?_, ?_, ?_⟩
        · rw [hws, segW, List.getElem?_map, List.getElem?_range' (by simp only; omega)]
          simp only [Option.map_some, Nat.one_mul, show k + (K - k) = K by omega]
        · rw [List.getElem?_eq_getElem hj]
        · rw [List.flatMap_cons, List.getElem?_append_left hj, List.getElem?_eq_getElem hj]
      · obtain ⟨d', hd', k0, j, l, τ, ok, g1, g2, g3, g4, g5⟩ := i2 K (by omega) h2
        refine ⟨d', List.mem_cons_of_mem _ hd', k0, j, l, τ, ok, g1, g2, g3, g4, ?_⟩
        rw [List.flatMap_cons, List.getElem?_append_right (by omega), hlen,
          show K - k - blAt c cmd k = K - (k + blAt c cmd k) by omega]
        exact g5

/-- A burst of a write: where it starts, and which beats it carries. -/
theorem wGroups_beat {c : Cfg} {args : Nat → WArgs} {u : Nat} {op : Op} {cmd : Cmd}
    (ha : acceptWrite c (args op.key).req (args op.key).data (args op.key).wuser = .ok cmd) {g : Grp}
    (hg : g ∈ wGroups c args (u, op)) {j : Nat} {wb : WBeat} (hw : g.ws[j]? = some wb) :
    ∃ k0 l, g.a = aAt c cmd u k0 ∧ k0 + j < cyclesOf cmd ∧
      wb = wAt c cmd (args op.key).data (args op.key).wuser (k0 + j) l := by
  unfold wGroups at hg
  simp only [ha] at hg
  obtain ⟨q, hq, rfl⟩ := List.mem_map.1 hg
  have hm : q.1 ∈ segs c cmd 0 := by
    have := List.mem_map_of_mem (f := Prod.fst) hq
    rwa [List.zipIdx_map_fst] at this
  obtain ⟨b1, b2⟩ := mem_segs c cmd 0 (Nat.zero_le _) q.1 hm
  have hb := blAt_bounds c cmd q.1.1 b1
  simp only at hw
  have hj : j < q.1.2 := by
    have := (List.getElem?_eq_some_iff.1 hw).1
    simpa [segW_length] using this
  rw [segW, List.getElem?_map, List.getElem?_range' hj] at hw
  simp only [Option.map_some, Nat.one_mul, Option.some.injEq] at hw
  exact ⟨q.1.1, _, rfl, by omega, hw.symm⟩

end Verif.AxiSys
