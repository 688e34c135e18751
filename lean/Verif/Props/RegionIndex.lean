import Verif.Proof.RegionIndex

/-!
# C143: indexing a memory region

`I` is a `MemoryRegion` or a `SparseMemoryRegion` of `size` bytes over memory object `k`.
-/

namespace Verif.RegionIndex

open SparseMemory (Slice)

/-- A region object of `size` bytes over memory object `k`, which is at least that long. A `SparseMemoryRegion` has a sparse memory. -/
def IsRegion (S : Nat → Bool × Nat) (size k : Nat) (I : Iface Heap) : Prop :=
  size ≤ (S k).2 ∧ ∃ base, I = memoryRegion size base k ∨ (I = sparseMemoryRegion size base k ∧ (S k).1 = true)

theorem IsRegion.serves {S : Nat → Bool × Nat} {size k : Nat} {I : Iface Heap} (hI : IsRegion S size k I) : Serves S size k I := by
  obtain ⟨hs, base, rfl | ⟨rfl, hk⟩⟩ := hI
  · exact serves_memoryRegion S size base k hs
  · exact serves_sparseMemoryRegion S size base k hs hk

theorem getItem_contents (b : Backing) (hb : b.WF) (i : Nat) (hi : i < b.rawLen) : b.getItem i = .ok (b.contents i) := by
  cases b with
  | sparse m =>
    have h := SparseMemory.C03_getItem m hb.2 i
    rw [if_pos ⟨by omega, by exact_mod_cast hi⟩] at h
    simpa [Backing.getItem, Backing.contents, Memory.contents] using h
  | buf l =>
    simp only [Backing.rawLen] at hi
    simp only [Backing.getItem]
    rw [if_neg (by omega), if_neg (by omega)]
    simp only [Int.toNat_natCast]
    rw [List.getElem?_eq_getElem hi]
    simp [Backing.contents, Memory.contents, hi]

/-- **C143 (index read).** `region[a]` is the byte that `region.read(a, 1)` returns. -/
theorem C143_index_is_read (S : Nat → Bool × Nat) (size k : Nat) (I : Iface Heap) (hI : IsRegion S size k I) (h : Heap) (hg : Good S h)
    (a : Nat) (ha : a < size) : ∃ b, regionGetItem k a h = .ok b ∧ I.read a 1 h = (.ok [b], h) := by
  have hlen : size ≤ (h k).rawLen := by rw [← Backing.shape_snd, (hg k).2]; exact hI.1
  refine ⟨(h k).contents a, getItem_contents _ (hg k).1 a (by omega), ?_⟩
  have := hI.serves.read h hg a 1 ha (by omega)
  simpa [absHeap, FlatMem.load] using this

/-- **C143 (slice read).** `region[i:j]`, with Python's meaning of missing and negative bounds, is what `region.read` returns for that
window, for every non-empty window inside the region. -/
theorem C143_slice_is_read (S : Nat → Bool × Nat) (size k : Nat) (I : Iface Heap) (hI : IsRegion S size k I) (h : Heap) (hg : Good S h)
    (i j step : Option Int) (hs : step = none ∨ step = some 1) (lo hi : Nat) (hlo : lo = sliceBound i 0 (S k).2)
    (hhi : hi = sliceBound j (S k).2 (S k).2) (h1 : lo < hi) (h2 : hi ≤ size) :
    I.read lo (hi - lo : Nat) h = (regionGetSlice k ⟨i, j, step⟩ h, h) := by
  have hl : (h k).rawLen = (S k).2 := by rw [← Backing.shape_snd, (hg k).2]
  have hsz := hI.1
  rw [hI.serves.read h hg lo (hi - lo) (by omega) (by omega)]
  congr 1
  show _ = (h k).getKey _
  have hw := (hg k).1
  have hr : Except.ok (absHeap h k |>.load lo (hi - lo)) = (h k).getSlice lo ((lo : Int) + ((hi - lo : Nat) : Int)) :=
    (Backing.getSlice_ok (h k) hw lo (hi - lo) (by omega) (by omega)).symm
  rw [hr]
  generalize h k = b at hl hw
  rw [← hl] at hlo hhi hsz
  cases b with
  | sparse m =>
    simp only [Backing.rawLen] at hlo hhi
    have hm : m.WF := hw.2
    simp only [Backing.getKey, Backing.getSlice]
    have e1 := SparseMemory.C03_getSlice m hm i j step
    simp only at e1
    rw [← hlo, ← hhi, if_neg (by rcases hs with rfl | rfl <;> simp), if_pos hs] at e1
    rw [e1]
    have hlm : hi ≤ m.size := by simp only [Backing.rawLen] at hsz; omega
    have e2 := SparseMemory.C03_getSlice m hm (some lo) (some ((lo : Int) + ((hi - lo : Nat) : Int))) none
    simp only at e2
    have b1 : sliceBound (some (lo : Int)) 0 m.size = lo := by
      simp only [sliceBound]; rw [if_neg (by omega), if_neg (by omega)]; omega
    have b2 : sliceBound (some ((lo : Int) + ((hi - lo : Nat) : Int))) m.size m.size = hi := by
      simp only [sliceBound]; rw [if_neg (by omega), if_neg (by omega)]; omega
    rw [b1, b2, if_neg (by simp), if_pos (by simp)] at e2
    exact e2
  | buf l =>
    simp only [Backing.rawLen] at hlo hhi hsz
    simp only [Backing.getKey, Backing.getSlice]
    rw [positions_one l.length i j step hs, ← hlo, ← hhi]
    simp only
    have b1 : sliceBound (some (lo : Int)) 0 l.length = lo := by
      simp only [sliceBound]; rw [if_neg (by omega), if_neg (by omega)]; omega
    have b2 : sliceBound (some ((lo : Int) + ((hi - lo : Nat) : Int))) 0 l.length = lo + (hi - lo) := by
      simp only [sliceBound]; rw [if_neg (by omega), if_neg (by omega)]; omega
    rw [b1, b2, positions_slice l lo (hi - lo) (by omega)]

/-- **C143 (slice write).** `region[i:j] = v` is `region.write` of `v` to that window: the same outcome, and afterwards the same contents of
every memory. -/
theorem C143_slice_is_write (S : Nat → Bool × Nat) (size k : Nat) (I : Iface Heap) (hI : IsRegion S size k I) (h : Heap) (hg : Good S h)
    (i j step : Option Int) (hs : step = none ∨ step = some 1) (lo hi : Nat) (hlo : lo = sliceBound i 0 (S k).2)
    (hhi : hi = sliceBound j (S k).2 (S k).2) (v : Bytes) (hv : v.length = hi - lo) (h1 : lo < hi) (h2 : hi ≤ size) :
    regionSetSlice k ⟨i, j, step⟩ v h = I.write lo v h := by
  have hl : (h k).rawLen = (S k).2 := by rw [← Backing.shape_snd, (hg k).2]
  have hsz := hI.1
  have hsh := (hg k).2
  have hck : Iface.checkRange size (lo : Int) (v.length : Int) = .ok () :=
    checkRange_ok _ _ _ (by omega) (by omega) (by omega) (by omega)
  rw [← hl] at hlo hhi hsz
  have b1 : sliceBound (some (lo : Int)) 0 (h k).rawLen = lo := by
    simp only [sliceBound]; rw [if_neg (by omega), if_neg (by omega)]; omega
  have b2 : ∀ d, sliceBound (some ((lo : Int) + (v.length : Int))) d (h k).rawLen = lo + v.length := by
    intro d; simp only [sliceBound]; rw [if_neg (by omega), if_neg (by omega)]; omega
  cases hb : h k with
  | sparse m =>
    rw [hb] at hlo hhi b1 b2
    simp only [Backing.rawLen] at hlo hhi b1 b2
    have e1 : m.setSlice ⟨i, j, step⟩ v = m.write lo v := by
      rcases hs with rfl | rfl <;> simp only [SparseMemory.setSlice] <;>
        (rw [← hlo, ← hhi, if_pos (by simp), if_neg (by omega)])
    have e2 : m.setSlice ⟨some (lo : Int), some ((lo : Int) + (v.length : Int)), none⟩ v = m.write lo v := by
      simp only [SparseMemory.setSlice]
      rw [b1, b2, if_pos (by simp), if_neg (by omega)]
    obtain ⟨_, base, rfl | ⟨rfl, hk⟩⟩ := hI
    · simp only [regionSetSlice, memoryRegion, Iface.ofPrivate, hck, hb, Backing.setKey, Backing.setSlice, e1, e2]
    · simp only [regionSetSlice, sparseMemoryRegion, Iface.ofPrivate, hck, hb, Backing.setKey, e1]
  | buf l =>
    obtain ⟨_, base, rfl | ⟨rfl, hk⟩⟩ := hI
    · rw [hb] at hlo hhi b1 b2 hsz
      simp only [Backing.rawLen] at hlo hhi b1 b2 hsz
      simp only [regionSetSlice, memoryRegion, Iface.ofPrivate, hck, hb, Backing.setKey, Backing.setSlice]
      rw [positions_one l.length i j step hs, ← hlo, ← hhi, b1, b2]
      simp only [List.length_map, List.length_range]
      rw [if_neg (by omega), if_neg (by omega), ← hv, putAll_slice l v lo (by omega)]
    · rw [hb] at hsh; rw [← hsh] at hk; simp [Backing.shape] at hk

/-- **C143 (index write).** `region[a] = v` is `region.write(a, bytes([v]))`. -/
theorem C143_index_is_write (S : Nat → Bool × Nat) (size k : Nat) (I : Iface Heap) (hI : IsRegion S size k I) (h : Heap) (hg : Good S h)
    (a : Nat) (ha : a < size) (v : UInt8) : regionSetItem k a v.toNat h = I.write a [v] h := by
  have hl : (h k).rawLen = (S k).2 := by rw [← Backing.shape_snd, (hg k).2]
  have hsz := hI.1
  have hvb : toByte (v.toNat : Int) = .ok v := by
    unfold toByte
    have := v.toNat_lt
    rw [if_neg (by omega)]
    simp
  rw [← C143_slice_is_write S size k I hI h hg (some a) (some ((a + 1 : Nat) : Int)) none (Or.inl rfl) a (a + 1)
    (by simp only [sliceBound]; rw [if_neg (by omega), if_neg (by omega)]; omega)
    (by simp only [sliceBound]; rw [if_neg (by omega), if_neg (by omega)]; omega) [v] (by simp) (by omega) (by omega)]
  rw [← hl] at hsz
  cases hb : h k with
  | sparse m =>
    rw [hb] at hsz
    simp only [Backing.rawLen] at hsz
    simp only [regionSetItem, regionSetSlice, hb, Backing.setItem, Backing.setKey, SparseMemory.setItem, SparseMemory.setSlice, hvb]
    rw [if_neg (by omega), if_neg (by omega)]
    have b1 : sliceBound (some (a : Int)) 0 m.size = a := by
      simp only [sliceBound]; rw [if_neg (by omega), if_neg (by omega)]; omega
    have b2 : sliceBound (some ((a + 1 : Nat) : Int)) m.size m.size = a + 1 := by
      simp only [sliceBound]; rw [if_neg (by omega), if_neg (by omega)]; omega
    rw [b1, b2, if_pos (by simp), if_neg (by simp; omega)]
  | buf l =>
    rw [hb] at hsz
    simp only [Backing.rawLen] at hsz
    simp only [regionSetItem, regionSetSlice, hb, Backing.setItem, Backing.setKey, hvb]
    rw [positions_one l.length _ _ none (Or.inl rfl)]
    have b1 : sliceBound (some (a : Int)) 0 l.length = a := by
      simp only [sliceBound]; rw [if_neg (by omega), if_neg (by omega)]; omega
    have b2 : sliceBound (some ((a + 1 : Nat) : Int)) l.length l.length = a + 1 := by
      simp only [sliceBound]; rw [if_neg (by omega), if_neg (by omega)]; omega
    rw [b1, b2, show a + 1 - a = 1 by omega]
    rw [if_neg (by omega), if_neg (by omega)]
    simp [putAll]

/-- **C143 (every slice of a buffer).** With any step, `region[i:j:s]` has the bytes at the positions that the slice designates, in order.
`region[i:j:s] = v` is accepted exactly when `v` has as many bytes; then `region[i:j:s]` is `v` and the bytes at all other positions are
unchanged. Otherwise nothing changes. -/
theorem C143_stepped (k : Nat) (h : Heap) (l : Bytes) (hb : h k = .buf l) (s : Slice) (hs : s.step ≠ some 0) (v : Bytes) :
    ∃ ps, Designates l.length s ps ∧ (∀ p ∈ ps, p < l.length) ∧ regionGetSlice k s h = .ok (ps.map fun p => l.getD p 0) ∧
      if v.length = ps.length then
        ∃ l', regionSetSlice k s v h = (.ok (), h.set k (.buf l')) ∧ regionGetSlice k s (h.set k (.buf l')) = .ok v ∧
          l'.length = l.length ∧ ∀ q, q ∉ ps → l'[q]? = l[q]?
      else regionSetSlice k s v h = (.error .indexError, h) := by
  have h0 : s.step.getD 1 ≠ 0 := by
    cases hst : s.step with
    | none => simp
    | some x => intro hc; simp at hc; subst hc; exact hs hst
  obtain ⟨ps, hps, hd⟩ := positions_designates l.length s h0
  obtain ⟨hr, hn⟩ := positions_ok _ _ _ hps
  refine ⟨ps, hd, hr, by simp only [regionGetSlice, hb, Backing.getKey, hps], ?_⟩
  by_cases hv : v.length = ps.length
  · rw [if_pos hv]
    refine ⟨putAll ps v l, ?_, ?_, putAll_length _ _ _, fun q hq => putAll_other _ _ _ _ hq⟩
    · simp only [regionSetSlice, hb, Backing.setKey, hps]
      rw [if_neg (by omega)]
    · simp only [regionGetSlice, Heap.set, if_pos, Backing.getKey, putAll_length, hps]
      rw [putAll_at ps v l hn hr hv.symm]
  · rw [if_neg hv]
    simp only [regionSetSlice, hb, Backing.setKey, hps]
    rw [if_pos (by omega)]
    congr 1
    funext x; simp only [Heap.set]; split
    · rename_i hx; subst hx; exact hb.symm
    · rfl

/-- **C143 (refused).** An index assignment that raises changes no byte of any memory: an index outside the memory, or a value outside
`range(256)`. -/
theorem C143_refused (S : Nat → Bool × Nat) (h : Heap) (hg : Good S h) (k : Nat) (a v : Int) (e : PyErr)
    (he : (regionSetItem k a v h).1 = .error e) :
    Good S (regionSetItem k a v h).2 ∧ absHeap (regionSetItem k a v h).2 = absHeap h := by
  cases hb : h k with
  | sparse m =>
    have hw := (hg k).1
    have hsh := (hg k).2
    rw [hb] at hw hsh
    have hm : m.WF := hw.2
    obtain ⟨h1, h2, h3⟩ := SparseMemory.C03_setItem m hm a v
    simp only [regionSetItem, hb, Backing.setItem] at he ⊢
    split at h3
    · rw [h3.1] at he; cases he
    · refine ⟨hg.set k _ ⟨rfl, h1⟩ (by rw [← hsh]; simp [Backing.shape, h2]), ?_⟩
      funext x
      simp only [absHeap, Heap.set]
      split
      · rename_i hx; subst hx
        rw [hb]
        simp only [Backing.contents, Memory.contents]
        exact h3.2
      · rfl
  | buf l =>
    have key : (regionSetItem k a v h).2 = h := by
      have hset : h.set k (.buf l) = h := by
        funext x; simp only [Heap.set]; split
        · rename_i hx; subst hx; exact hb.symm
        · rfl
      simp only [regionSetItem, hb, Backing.setItem] at he ⊢
      generalize (if a < 0 then a + (l.length : Int) else a) = i at he ⊢
      by_cases hc : i < 0 ∨ i ≥ l.length
      · rw [if_pos hc] at he ⊢; exact hset
      · rw [if_neg hc] at he ⊢
        cases hv : toByte v with
        | error e' => exact hset
        | ok b => rw [hv] at he; simp only at he; cases he
    rw [key]
    exact ⟨hg, rfl⟩

/-- **C143 (negative index).** A negative index counts from the end of a buffer. -/
theorem C143_negative_partial (k : Nat) (h : Heap) (l : Bytes) (hb : h k = .buf l) (i : Nat) (hi : i < l.length) :
    regionGetItem k ((i : Int) - l.length) h = .ok l[i] := by
  have e : (if (i : Int) - l.length < 0 then (i : Int) - l.length + l.length else (i : Int) - l.length) = i := by
    rw [if_pos (by omega)]; omega
  simp only [regionGetItem, hb, Backing.getItem, e]
  rw [if_neg (by omega), Int.toNat_natCast, List.getElem?_eq_getElem hi]

/-- C143 is false of sparse memories, also for regions: a negative index raises `ValueError`. -/
theorem C143_negative_violated (k : Nat) (h : Heap) (m : SparseMemory) (hb : h k = .sparse m) (a : Int) (ha : a < 0) :
    regionGetItem k a h = .error .valueError := by
  simp only [regionGetItem, hb, Backing.getItem, SparseMemory.getItem, SparseMemory.read]
  rw [if_pos (Or.inl ha)]

theorem iterates_unique (get : Int → Py UInt8) {i : Nat} {r r' : Py Bytes} (h : Iterates get i r) (h' : Iterates get i r') : r = r' := by
  induction h generalizing r' with
  | stop h => cases h' with
    | stop _ => rfl
    | raise h2 he => rw [h] at h2; cases h2; exact absurd rfl he
    | item h2 _ => rw [h] at h2; cases h2
    | later h2 _ => rw [h] at h2; cases h2
  | raise h he => cases h' with
    | stop h2 => rw [h] at h2; cases h2; exact absurd rfl he
    | raise h2 _ => rw [h] at h2; cases h2; rfl
    | item h2 _ => rw [h] at h2; cases h2
    | later h2 _ => rw [h] at h2; cases h2
  | item h t ih => cases h' with
    | stop h2 => rw [h] at h2; cases h2
    | raise h2 _ => rw [h] at h2; cases h2
    | item h2 t2 => rw [h] at h2; cases h2; cases ih t2; rfl
    | later h2 t2 => have := ih t2; cases this
  | later h t ih => cases h' with
    | stop h2 => rw [h] at h2; cases h2
    | raise h2 _ => rw [h] at h2; cases h2
    | item h2 t2 => have := ih t2; cases this
    | later h2 t2 => have := ih t2; cases this; rfl

/-- **C143 (iteration).** Iterating over a region over a buffer gives exactly its bytes, which are also `bytes(region)` and what reading all of
it returns. -/
theorem C143_iterate_partial (size k : Nat) (base : Option Int) (h : Heap) (l : Bytes)
    (hb : h k = .buf l) (hl : l.length = size) (h0 : 0 < size) :
    (∀ r, Iterates (fun i => regionGetItem k i h) 0 r ↔ r = .ok l) ∧ regionBytes k h = some l ∧
      (memoryRegion size base k).read 0 size h = (.ok l, h) := by
  have hit : ∀ n i, n = l.length - i → i ≤ l.length → Iterates (fun i => regionGetItem k i h) i (.ok (l.drop i)) := by
    intro n
    induction n with
    | zero =>
      intro i hn hi
      rw [List.drop_eq_nil_of_le (by omega)]
      refine .stop ?_
      simp only [regionGetItem, hb, Backing.getItem]
      rw [if_neg (by omega), if_neg (by omega), List.getElem?_eq_none (by simp; omega)]
    | succ n ih =>
      intro i hn hi
      rw [List.drop_eq_getElem_cons (by omega)]
      refine .item ?_ (ih (i + 1) (by omega) (by omega))
      simp only [regionGetItem, hb, Backing.getItem]
      rw [if_neg (by omega), if_neg (by omega)]
      simp only [Int.toNat_natCast]
      rw [List.getElem?_eq_getElem (by omega)]
  have hi0 := hit l.length 0 (by omega) (by omega)
  rw [List.drop_zero] at hi0
  refine ⟨fun r => ⟨fun hr => iterates_unique _ hr hi0, fun hr => hr ▸ hi0⟩, by simp [regionBytes, hb], ?_⟩
  have hc : Iface.checkRange size 0 (size : Int) = .ok () := checkRange_ok _ _ _ (by omega) (by omega) (by omega) (by omega)
  simp only [memoryRegion, Iface.ofPrivate, hc, hb, Backing.getSlice]
  rw [show sliceBound (some (0 : Int)) 0 l.length = 0 by
    simp only [sliceBound]; rw [if_neg (by omega), if_neg (by omega)]; rfl]
  rw [show sliceBound (some (0 + (size : Int))) 0 l.length = l.length by
    simp only [sliceBound]; rw [if_neg (by omega), if_neg (by omega)]; omega]
  simp [pySlice]

/-- C143 is false of sparse memories: iterating over one, or over a region over one, always ends with `ValueError`, whatever it contains. -/
theorem C143_iterate_violated (k : Nat) (h : Heap) (m : SparseMemory) (hm : m.WF) (hb : h k = .sparse m) (r : Py Bytes) :
    Iterates (fun i => regionGetItem k i h) 0 r ↔ r = .error .valueError := by
  have get : ∀ i : Nat, regionGetItem k i h = if i < m.size then .ok (m.contents i) else .error .valueError := by
    intro i
    simp only [regionGetItem, hb, Backing.getItem]
    rw [SparseMemory.C03_getItem m hm i]
    by_cases hi : i < m.size
    · rw [if_pos (by omega), if_pos hi]; simp
    · rw [if_neg (by omega), if_neg hi]
  have hit : ∀ n i, n = m.size - i → Iterates (fun i => regionGetItem k i h) i (.error .valueError) := by
    intro n
    induction n with
    | zero =>
      intro i hn
      refine .raise ?_ (by simp)
      simp only [get]; rw [if_neg (by omega)]
    | succ n ih =>
      intro i hn
      refine .later (b := m.contents i) ?_ (ih (i + 1) (by omega))
      simp only [get]; rw [if_pos (by omega)]
  have h0 := hit m.size 0 (by omega)
  exact ⟨fun hr => iterates_unique _ hr h0, fun hr => hr ▸ h0⟩

/-! A concrete case: a buffer of eight bytes and a sparse memory. -/

/-- A heap for the examples. -/
def exHeap : Heap := fun k => if k = 0 then .buf [0, 1, 2, 3, 4, 5, 6, 7] else .sparse (SparseMemory.init 8192)

/-- Its shapes. -/
def exShape : Nat → Bool × Nat := fun k => if k = 0 then (false, 8) else (true, 8192)

theorem exGood : Good exShape exHeap := by
  intro k
  by_cases hk : k = 0
  · subst hk; exact ⟨⟨rfl, trivial⟩, rfl⟩
  · simp only [exHeap, exShape, if_neg hk]
    exact ⟨⟨rfl, SparseMemory.WF_reachable 8192 []⟩, rfl⟩

example : IsRegion exShape 8 0 (memoryRegion 8 (some 0) 0) := ⟨by decide, _, Or.inl rfl⟩
example : IsRegion exShape 8192 1 (sparseMemoryRegion 8192 none 1) := ⟨by decide, _, Or.inr ⟨rfl, rfl⟩⟩
example : regionGetSlice 0 ⟨some (-3), none, none⟩ exHeap = .ok [5, 6, 7] := by decide
example : regionGetSlice 0 ⟨none, none, some (-3)⟩ exHeap = .ok [7, 4, 1] := by decide
example : regionGetSlice 0 ⟨none, some 5, some 2⟩ (regionSetSlice 0 ⟨none, some 5, some 2⟩ [9, 8, 7] exHeap).2 = .ok [9, 8, 7] := by decide
example : ((memoryRegion 8 none 0).read 0 8 (regionSetSlice 0 ⟨some 2, some (-2), none⟩ [20, 21, 22, 23] exHeap).2).1 =
    .ok [0, 1, 20, 21, 22, 23, 6, 7] := by decide

end Verif.RegionIndex
