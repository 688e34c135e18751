import Verif.Spec.Timed
import Verif.Proof.AddressSpace
import Verif.Props.MultiPort

/-!
# Accesses that take time: loops of address spaces, and bus masters
-/

namespace Verif

theorem Found.nil (V : Contents) (a : Int) (i j : Nat) : Found V a [] i j :=
  ⟨fun _ => i, by simp, by simp⟩

theorem Stored.nil (V : Contents) (a : Int) (i j : Nat) : Stored V a [] i j :=
  ⟨fun _ => i, by simp, by simp⟩

theorem Found.congr {V W : Contents} {a b : Int} {d : Bytes} {i j : Nat} (h : Found V a d i j)
    (he : ∀ t, ∀ k : Nat, k < d.length → W t (b + k) = V t (a + k)) : Found W b d i j := by
  obtain ⟨t, h1, h2⟩ := h
  refine ⟨t, h1, fun k hk => ?_⟩
  rw [he _ k hk]
  exact h2 k hk

theorem Stored.congr {V W : Contents} {a b : Int} {d : Bytes} {i j : Nat} (h : Stored V a d i j)
    (he : ∀ t, ∀ k : Nat, k < d.length → W t (b + k) = V t (a + k)) : Stored W b d i j := by
  obtain ⟨t, h1, h2⟩ := h
  refine ⟨t, h1, fun k hk => ?_⟩
  rw [he _ k hk]
  exact h2 k hk

theorem Found.append {V : Contents} {a : Int} {d e : Bytes} {i m j : Nat} (h1 : Found V a d i m)
    (h2 : Found V (a + d.length) e m j) (him : i ≤ m) (hmj : m ≤ j) : Found V a (d ++ e) i j := by
  obtain ⟨t, m1, f1⟩ := h1
  obtain ⟨s, m2, f2⟩ := h2
  refine ⟨fun k => if k < d.length then t k else s (k - d.length), ?_, ?_⟩
  · intro k l hkl hl
    rw [List.length_append] at hl
    by_cases hk' : k < d.length <;> by_cases hl' : l < d.length <;> simp only [hk', hl', if_true, if_false]
    · exact m1 k l hkl hl'
    · have := (f1 k hk').2.1
      have := (f2 (l - d.length) (by omega)).1
      omega
    · omega
    · exact m2 _ _ (by omega) (by omega)
  · intro k hk
    rw [List.length_append] at hk
    by_cases hk' : k < d.length <;> simp only [hk', if_true, if_false]
    · obtain ⟨g1, g2, g3⟩ := f1 k hk'
      exact ⟨g1, by omega, by rw [List.getElem?_append_left hk']; exact g3⟩
    · obtain ⟨g1, g2, g3⟩ := f2 (k - d.length) (by omega)
      refine ⟨by omega, g2, ?_⟩
      rw [List.getElem?_append_right (by omega), g3]
      congr 2
      omega

theorem Stored.append {V : Contents} {a : Int} {d e : Bytes} {i m j : Nat} (h1 : Stored V a d i m)
    (h2 : Stored V (a + d.length) e m j) (him : i ≤ m) (hmj : m ≤ j) : Stored V a (d ++ e) i j := by
  obtain ⟨t, m1, f1⟩ := h1
  obtain ⟨s, m2, f2⟩ := h2
  refine ⟨fun k => if k < d.length then t k else s (k - d.length), ?_, ?_⟩
  · intro k l hkl hl
    rw [List.length_append] at hl
    by_cases hk' : k < d.length <;> by_cases hl' : l < d.length <;> simp only [hk', hl', if_true, if_false]
    · exact m1 k l hkl hl'
    · have := (f1 k hk').2.1
      have := (f2 (l - d.length) (by omega)).1
      omega
    · omega
    · exact m2 _ _ (by omega) (by omega)
  · intro k hk
    rw [List.length_append] at hk
    by_cases hk' : k < d.length <;> simp only [hk', if_true, if_false]
    · obtain ⟨g1, g2, g3⟩ := f1 k hk'
      exact ⟨g1, by omega, by rw [List.getElem?_append_left hk']; exact g3⟩
    · obtain ⟨g1, g2, g3⟩ := f2 (k - d.length) (by omega)
      refine ⟨by omega, g2, ?_⟩
      rw [List.getElem?_append_right (by omega), g3]
      congr 2
      omega

namespace Dev

open AddressSpace

variable {σ : Type}

/-- What the loops of an address space rely on: the remaining entries are sorted and disjoint, and none ends before the current address. -/
structure Ahead (L : List (Entry σ)) (cur : Int) : Prop where
  sorted : L.Pairwise (fun a b => a.base ≤ b.base)
  apart : L.Pairwise EApart
  pos : ∀ e ∈ L, 0 < e.size
  ahead : ∀ e ∈ L, cur ≤ e.base + e.size

theorem Ahead.step {e : Entry σ} {L : List (Entry σ)} {cur m : Int} (h : Ahead (e :: L) cur) (hm : m ≤ e.size - (cur - e.base)) :
    Ahead L (cur + m) := by
  obtain ⟨h1, h2, h3, h4⟩ := h
  rw [List.pairwise_cons] at h1 h2
  refine ⟨h1.2, h2.2, fun x hx => h3 x (by simp [hx]), fun x hx => ?_⟩
  have a1 := h1.1 x hx
  have a2 := h2.1 x hx
  have a3 := h3 x (by simp [hx])
  unfold EApart at a2
  omega

theorem findRegions_ahead {s : AddressSpace σ} (hd : s.regions.Pairwise EApart) (hpos : ∀ e ∈ s.regions, 0 < e.size) {a n : Int}
    {L : List (Entry σ)} (h : s.findRegions a n = .ok L) :
    0 ≤ n ∧ Ahead L a ∧ (∀ e ∈ L, e ∈ s.regions) ∧ ∀ e ∈ s.regions, a < e.base + e.size → e.base < a + max n 1 → e ∈ L := by
  simp only [findRegions] at h
  split at h
  · cases h
  split at h
  · cases h
  cases h
  refine ⟨by omega, ⟨sorted_sortEntries _, apart_sortEntries _ (hd.filter _), ?_, ?_⟩, ?_, ?_⟩
  · intro e he
    rw [mem_sortEntries, List.mem_filter] at he
    exact hpos e he.1
  · intro e he
    rw [mem_sortEntries, List.mem_filter] at he
    have := he.2
    simp only [decide_eq_true_eq] at this
    omega
  · intro e he
    rw [mem_sortEntries, List.mem_filter] at he
    exact he.1
  · intro e he h1 h2
    rw [mem_sortEntries, List.mem_filter]
    exact ⟨he, by simp only [decide_eq_true_eq]; exact ⟨h1, h2⟩⟩

theorem segTarget_eq (e : Entry σ) (address : Int) : segTarget e address (address - e.base) = localAddr e address := by
  unfold segTarget localAddr
  split <;> simp_all

theorem readLoop_found {s : AddressSpace σ} {D : Entry σ → Dev} {V : Entry σ → Contents} {W : Contents} (hW : SeenThrough s V W)
    (hR : ∀ e ∈ s.regions, (D e).ReadsWhatIsThere (V e)) :
    ∀ (L : List (Entry σ)) (cur n : Int) (acc : Bytes) (i j : Nat) (o : Obj), Ahead L cur → (∀ e ∈ L, e ∈ s.regions) → 0 ≤ n →
      readLoop D L cur n acc i j (.ok o) →
      ∃ d, o = .bytes (acc ++ d) ∧ (d.length : Int) = n ∧ i ≤ j ∧ Found W cur d i j ∧
        ∀ x, cur ≤ x → x < cur + n → ∃ e ∈ L, e.base ≤ x ∧ x < e.base + e.size := by
  intro L
  induction L with
  | nil =>
    intro cur n acc i j o hA hL hn h
    simp only [readLoop] at h
    obtain ⟨rfl, h⟩ := h
    split at h
    · cases h
    · cases h
      have : n = 0 := by omega
      subst this
      exact ⟨[], by simp, by simp, Nat.le_refl _, Found.nil .., fun x _ _ => by omega⟩
  | cons e L ih =>
    intro cur n acc i j o hA hL hn h
    simp only [readLoop] at h
    split at h
    · cases h.2
    rename_i hb
    obtain ⟨m, x, hx, h⟩ := h
    cases x with
    | error er => cases h.2
    | ok ob =>
      simp only at h
      cases hob : ob.toBytes with
      | error er => rw [hob] at h; cases h.2
      | ok d =>
        rw [hob] at h
        simp only at h
        have he := hL e (by simp)
        have hah := hA.ahead e (by simp)
        obtain ⟨g1, g2, g3, g4⟩ := hR e he _ _ _ _ _ _ hx hob
        have hst := hA.step (m := min (e.size - (cur - e.base)) n) (by omega)
        obtain ⟨d', f1, f2, f3, f4, f5⟩ := ih _ _ _ _ _ _ hst (fun e he => hL e (by simp [he])) (by omega) h
        have hf : Found W cur d i m := by
          rw [segTarget_eq] at g4
          refine g4.congr fun t k hk => ?_
          rw [hW e he (cur + k) (by omega) (by omega) t]
          unfold localAddr
          cases e.offset <;> simp only
          congr 1
          omega
        refine ⟨d ++ d', by rw [f1, List.append_assoc], by rw [List.length_append]; omega, by omega, hf.append ?_ g3 f3, ?_⟩
        · rw [g2]; exact f4
        · intro x h1 h2
          by_cases hx : x < cur + min (e.size - (cur - e.base)) n
          · exact ⟨e, by simp, by omega, by omega⟩
          · obtain ⟨e', he', h3⟩ := f5 x (by omega) (by omega)
            exact ⟨e', by simp [he'], h3⟩

theorem writeLoop_stored {s : AddressSpace σ} {D : Entry σ → Dev} {V : Entry σ → Contents} {W : Contents} (hW : SeenThrough s V W)
    (hR : ∀ e ∈ s.regions, (D e).WritesWhatItSays (V e)) (data : Bytes) :
    ∀ (L : List (Entry σ)) (cur : Int) (start n : Nat) (i j : Nat) (r : Option Resp), Ahead L cur → (∀ e ∈ L, e ∈ s.regions) →
      start + n = data.length → writeLoop D L cur start n data i j (.ok r) →
      i ≤ j ∧ Stored W cur (data.drop start) i j ∧
        ∀ x, cur ≤ x → x < cur + n → ∃ e ∈ L, e.base ≤ x ∧ x < e.base + e.size := by
  intro L
  induction L with
  | nil =>
    intro cur start n i j r hA hL hn h
    simp only [writeLoop] at h
    obtain ⟨rfl, h⟩ := h
    split at h
    · cases h
    · have : n = 0 := by omega
      subst this
      rw [List.drop_of_length_le (by omega)]
      exact ⟨Nat.le_refl _, Stored.nil .., fun x _ _ => by omega⟩
  | cons e L ih =>
    intro cur start n i j r hA hL hn h
    simp only [writeLoop] at h
    split at h
    · cases h.2
    rename_i hb
    obtain ⟨m, x, hx, h⟩ := h
    cases x with
    | error er => cases h.2
    | ok rs =>
      simp only at h
      have he := hL e (by simp)
      have hah := hA.ahead e (by simp)
      obtain ⟨g1, g2⟩ := hR e he _ _ _ _ _ hx
      have hst := hA.step (m := min (e.size - (cur - e.base)) n) (by omega)
      obtain ⟨sg, hsg⟩ : ∃ sg : Nat, (sg : Int) = min (e.size - (cur - e.base)) n := ⟨(min (e.size - (cur - e.base)) n).toNat, by omega⟩
      rw [← hsg] at h hst
      rw [← hsg, segTarget_eq, Int.toNat_natCast, show ((start : Int) + (sg : Int)).toNat = start + sg by omega] at g2
      rw [show (start : Int) + (sg : Int) = ((start + sg : Nat) : Int) by omega, show (n : Int) - sg = ((n - sg : Nat) : Int) by omega] at h
      obtain ⟨f1, f2, f3⟩ := ih _ _ _ _ _ _ hst (fun e he => hL e (by simp [he])) (by omega) h
      have hsl : pySlice data start (start + sg) = (data.drop start).take sg := by
        unfold pySlice
        rw [List.drop_take, show start + sg - start = sg by omega]
      rw [hsl] at g2
      have hlen : ((data.drop start).take sg).length = sg := by
        rw [List.length_take, List.length_drop]; omega
      have hf : Stored W cur ((data.drop start).take sg) i m := by
        refine g2.congr fun t k hk => ?_
        rw [hlen] at hk
        rw [hW e he (cur + k) (by omega) (by omega) t]
        unfold localAddr
        cases e.offset <;> simp only
        congr 1
        omega
      refine ⟨by omega, ?_, ?_⟩
      · rw [← List.take_append_drop sg (data.drop start)]
        refine hf.append ?_ g1 f1
        rw [hlen, List.drop_drop]
        exact f2
      · intro x h1 h2
        by_cases hx : x < cur + sg
        · exact ⟨e, by simp, by omega, by omega⟩
        · obtain ⟨e', he', h3⟩ := f3 x (by omega) (by omega)
          exact ⟨e', by simp [he'], h3⟩

end Dev

/-! ### Bus masters -/

namespace Multi

/-- Nothing happens after the last event. -/
theorem at_min {σ : Type} (E : Ports σ) (st : σ) (evs : List MultiEv) (n : Nat) : at_ E st evs n = at_ E st evs (min n evs.length) := by
  simp only [at_]
  congr 1
  rcases Nat.le_total n evs.length with h | h
  · rw [Nat.min_eq_left h]
  · rw [Nat.min_eq_right h, List.take_of_length_le h, List.take_of_length_le (Nat.le_refl _)]

theorem RamCalls.all {E : Ports Memory} {m0 : Memory} {evs : List MultiEv} (H : RamCalls E m0 evs evs.length) (n : Nat) :
    RamCalls E m0 evs n := by
  rcases Nat.le_total n evs.length with h | h
  · exact H.mono h
  · have e : at_ E m0 evs n = at_ E m0 evs evs.length := by rw [at_min, Nat.min_eq_right h]
    exact ⟨H.ram, H.poke, H.ports, H.lite, H.apb, H.wf, H.size, e ▸ H.once, e ▸ H.incrW, e ▸ H.incrR, e ▸ H.makesW, e ▸ H.makesR,
      e ▸ H.makesA, e ▸ H.fitW, e ▸ H.fitR, fun t a d _ h1 => H.direct t a d (List.getElem?_eq_some_iff.1 h1).1 h1⟩

end Multi

namespace Far

variable {σ : Type}

/-- Instants of the simulation follow the events of the far system one by one. -/
def Paced (F : Far σ) : Prop := ∀ t, F.now (t + 1) = F.now t ∨ F.now (t + 1) = F.now t + 1

theorem Paced.mono {F : Far σ} (h : F.Paced) {i j : Nat} (hij : i ≤ j) : F.now i ≤ F.now j := by
  obtain ⟨e, rfl⟩ := Nat.exists_eq_add_of_le hij
  clear hij
  induction e with
  | zero => exact Nat.le_refl _
  | succ e ih => have := h (i + e); rw [← Nat.add_assoc]; omega

/-- Every event of the far system happens at an instant. -/
theorem Paced.instant {F : Far σ} (h : F.Paced) {i j τ : Nat} (h1 : F.now i ≤ τ) (h2 : τ < F.now j) (hij : i ≤ j) :
    ∃ t, i ≤ t ∧ t < j ∧ F.now t = τ ∧ F.now (t + 1) = τ + 1 := by
  obtain ⟨e, rfl⟩ := Nat.exists_eq_add_of_le hij
  clear hij
  induction e with
  | zero => simp only [Nat.add_zero] at h2; omega
  | succ e ih =>
    by_cases hc : τ < F.now (i + e)
    · obtain ⟨t, g1, g2, g3⟩ := ih hc
      exact ⟨t, g1, by omega, g3⟩
    · have := h (i + e)
      rw [← Nat.add_assoc] at h2
      exact ⟨i + e, by omega, by omega, by omega, by omega⟩

/-- Events at ascending times happen at ascending instants. -/
theorem Paced.instants {F : Far σ} (h : F.Paced) {i j N : Nat} {τ : Nat → Nat} (hij : i ≤ j)
    (h1 : ∀ k < N, F.now i ≤ τ k ∧ τ k < F.now j) (hm : ∀ k l, k ≤ l → l < N → τ k ≤ τ l) :
    ∃ t : Nat → Nat, (∀ k l, k ≤ l → l < N → t k ≤ t l) ∧
      ∀ k < N, i ≤ t k ∧ t k < j ∧ F.now (t k) = τ k ∧ F.now (t k + 1) = τ k + 1 := by
  have key : ∀ x, ∃ t, F.now i ≤ x → x < F.now j → i ≤ t ∧ t < j ∧ F.now t = x ∧ F.now (t + 1) = x + 1 := by
    intro x
    by_cases hx : F.now i ≤ x ∧ x < F.now j
    · obtain ⟨t, ht⟩ := h.instant hx.1 hx.2 hij
      exact ⟨t, fun _ _ => ht⟩
    · exact ⟨0, fun a b => absurd ⟨a, b⟩ hx⟩
  obtain ⟨g, hg⟩ := Classical.axiomOfChoice key
  refine ⟨fun k => g (τ k), ?_, fun k hk => hg _ (h1 k hk).1 (h1 k hk).2⟩
  intro k l hkl hl
  have a := hg _ (h1 k (by omega)).1 (h1 k (by omega)).2
  have b := hg _ (h1 l hl).1 (h1 l hl).2
  have c := hm k l hkl hl
  rcases Nat.lt_or_ge (g (τ l)) (g (τ k)) with hlt | hge
  · have : g (τ l) + 1 ≤ g (τ k) := hlt
    have := h.mono this
    omega
  · exact hge

/-- The contents of the memory behind the far slaves. -/
def contents (F : Far Memory) : Contents := fun t a => (F.at_ t).mem.contents a.toNat

theorem awaitRead_found {F : Far Memory} (hp : F.Paced) (H : ∀ n, Multi.RamCalls F.E F.st F.evs n) {x : Tx} {a n : Int} {i j : Nat}
    {o : Obj} {d : Bytes} (ha : ∀ t d r, x.gaveData F.E (F.at_ t) d r → 0 ≤ a ∧ 0 ≤ n) (hx : x.reads F.E = some (a.toNat, n.toNat))
    (h : F.awaitRead x i j (.ok o)) (hd : o.toBytes = .ok d) : 0 ≤ n ∧ (d.length : Int) = n ∧ i ≤ j ∧ Found F.contents a d i j := by
  obtain ⟨⟨h1, _⟩, h2, h⟩ := h
  rcases h with ⟨d', rs, hg, ho⟩ | ⟨_, ho⟩ <;> cases ho
  · cases hd
    obtain ⟨ha, hn⟩ := ha _ _ _ hg
    have hdone : x.done (F.at_ j) := by
      cases x <;> simp only [Tx.gaveData] at hg <;> first | cases hg; done | (obtain ⟨got, h, _⟩ := hg; exact ⟨got, h⟩)
    obtain ⟨g1, g2, τ, g3⟩ := (Multi.C116_read (H (F.now j)) x _ _ hx hdone).2 _ _ hg
    have hlen : (d.length : Int) = n := by omega
    refine ⟨hn, hlen, by omega, ?_⟩
    have hr : ∀ k < d.length, F.now i ≤ τ k ∧ τ k < F.now j := by
      intro k hk
      obtain ⟨f1, f2, _⟩ := g3 k (by omega)
      refine ⟨?_, f1⟩
      rcases Nat.lt_or_ge (τ k) (F.now i) with hlt | hge
      · exact absurd (Multi.issued_mono (H 0).ports (Nat.le_of_lt hlt) f2.1) h1
      · exact hge
    have hm : ∀ k l, k ≤ l → l < d.length → τ k ≤ τ l := by
      intro k l hkl hl
      have := ((g3 l (by omega)).2.2.2 k (by omega)).1
      have h' : (a.toNat + k) / x.unit F.E ≤ (a.toNat + l) / x.unit F.E := Nat.div_le_div_right (by omega)
      omega
    obtain ⟨t, t1, t2⟩ := hp.instants (by omega) hr hm
    refine ⟨t, t1, fun k hk => ?_⟩
    obtain ⟨a1, a2, a3, a4⟩ := t2 k hk
    refine ⟨a1, a2, ?_⟩
    rw [(g3 k (by omega)).2.2.1]
    simp only [contents, at_, a3]
    congr 3
    omega
  · cases hd

theorem awaitWrite_stored {F : Far Memory} (hp : F.Paced) (H : ∀ n, Multi.RamCalls F.E F.st F.evs n) {x : Tx} {a : Int} {d : Bytes}
    {i j : Nat} {r : Option Resp} (hfl : r = none → ¬ F.flushed x j) (ha : ∀ t r, x.gaveResp F.E (F.at_ t) r → 0 ≤ a)
    (hx : x.writes F.E = some (a.toNat, d)) (h : F.awaitWrite x i j (.ok r)) : i ≤ j ∧ Stored F.contents a d i j := by
  obtain ⟨⟨h1, _⟩, h2, h⟩ := h
  rcases h with ⟨rs, hg, ho⟩ | ⟨hf, ho⟩
  · have ha := ha _ _ hg
    have hdone : x.done (F.at_ j) := by
      cases x <;> simp only [Tx.gaveResp] at hg <;> first | cases hg; done | (obtain ⟨got, h, _⟩ := hg; exact ⟨got, h⟩)
    obtain ⟨_, _, τ, g3⟩ := Multi.C116_write (H (F.now j)) x _ _ hx hdone
    refine ⟨by omega, ?_⟩
    have hr : ∀ k < d.length, F.now i ≤ τ k ∧ τ k < F.now j := by
      intro k hk
      obtain ⟨f1, f2, _⟩ := g3 k (by omega)
      refine ⟨?_, f1⟩
      rcases Nat.lt_or_ge (τ k) (F.now i) with hlt | hge
      · exact absurd (Multi.issued_mono (H 0).ports (Nat.le_of_lt hlt) f2.1) h1
      · exact hge
    have hm : ∀ k l, k ≤ l → l < d.length → τ k ≤ τ l := by
      intro k l hkl hl
      have := ((g3 l (by omega)).2.2.2 k (by omega)).1
      have h' : (a.toNat + k) / x.unit F.E ≤ (a.toNat + l) / x.unit F.E := Nat.div_le_div_right (by omega)
      omega
    obtain ⟨t, t1, t2⟩ := hp.instants (by omega) hr hm
    refine ⟨t, t1, fun k hk => ?_⟩
    obtain ⟨a1, a2, a3, a4⟩ := t2 k hk
    refine ⟨a1, a2, ?_⟩
    rw [← (g3 k (by omega)).2.2.1]
    simp only [contents, at_, a4]
    congr 3
    omega
  · cases ho; exact absurd hf (hfl rfl)

end Far
end Verif
