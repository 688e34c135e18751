import Verif.Spec.ByteWrite
import Verif.Props.Mapped
import Verif.Props.Memory

/-!
# C117: `write_byte`, and writing lists of integers
-/

namespace Verif

theorem toByte_ok (b : UInt8) : toByte (b.toNat : Int) = .ok b := by
  have := b.toNat_lt
  simp only [toByte]
  rw [if_neg (by omega)]
  simp

theorem pyBytes_map (d : Bytes) : pyBytes (d.map fun b => (b.toNat : Int)) = .ok d := by
  induction d with
  | nil => rfl
  | cons b d ih => simp only [List.map_cons, pyBytes, toByte_ok, ih]

theorem pyBytes_bad (v : Int) (h : v < 0 ∨ 256 ≤ v) : pyBytes [v] = .error .valueError := by
  simp only [pyBytes, toByte]
  rw [if_pos h]

theorem pySlice_map {α β : Type} (f : α → β) (l : List α) (i j : Nat) : pySlice (l.map f) i j = (pySlice l i j).map f := by
  simp [pySlice]

theorem SparseMemory.writeListLoop_eq (d : Bytes) : ∀ (n : Nat) (m : SparseMemory) (a o : Nat),
    m.writeListLoop a o n (d.map fun b => (b.toNat : Int)) = (.ok (), m.writeLoop a o n d) := by
  intro n
  induction n using Nat.strongRecOn with
  | ind n ih =>
    intro m a o
    rw [writeListLoop, writeLoop]
    split
    · rename_i h
      have : a % 4096 < 4096 := Nat.mod_lt _ (by decide)
      simp only [pySlice_map, pyBytes_map]
      exact ih _ (by omega) _ _ _
    · rfl

theorem SparseMemory.writeList_eq (m : SparseMemory) (a : Int) (d : Bytes) :
    m.writeList a (d.map fun b => (b.toNat : Int)) = m.write a d := by
  simp only [writeList, write, List.length_map, writeListLoop_eq]

theorem SparseMemory.contents_create (m : SparseMemory) (k : Nat) : (m.setSeg k (m.getBlock k)).contents = m.contents := by
  funext i
  simp only [contents, setSeg, getBlock]
  by_cases h : i - i % 4096 = k
  · subst h
    simp only [if_true]
    cases hs : m.segs (i - i % 4096) with
    | some b => rfl
    | none =>
      have : i % 4096 < 4096 := Nat.mod_lt _ (by decide)
      simp only [zeroBlock]
      rw [List.getElem?_replicate, if_pos this]
  · simp only [h, if_false]

theorem SparseMemory.getBlock_length (m : SparseMemory) (hm : m.WF) (k : Nat) : (m.getBlock k).length = 4096 := by
  simp only [getBlock]
  cases hs : m.segs k with
  | some b => exact hm k b hs
  | none => exact List.length_replicate

/-- One bad value: an exception, and no effect. -/
theorem SparseMemory.writeList_bad (m : SparseMemory) (hm : m.WF) (a v : Int) (h : v < 0 ∨ 256 ≤ v) :
    ∃ m', m.writeList a [v] = (.error .valueError, m') ∧ m'.WF ∧ m'.size = m.size ∧ m'.contents = m.contents := by
  simp only [writeList]
  split
  · exact ⟨m, rfl, hm, rfl, rfl⟩
  · split
    · exact ⟨m, rfl, hm, rfl, rfl⟩
    · have : a.toNat % 4096 < 4096 := Nat.mod_lt _ (by decide)
      rw [writeListLoop]
      simp only [List.length_singleton, Nat.lt_add_one, dite_true]
      rw [show min (4096 - a.toNat % 4096) 1 = 1 by omega, show pySlice [v] 0 (0 + 1) = [v] from rfl, pyBytes_bad v h]
      exact ⟨_, rfl, WF_setSeg _ hm _ _ (getBlock_length m hm _), rfl, contents_create m _⟩

namespace AddressSpace

theorem good_sparse {S : Nat → Bool × Nat} {h : Heap} (hg : Good S h) {k : Nat} (hk : (S k).1 = true) :
    ∃ m, h k = .sparse m ∧ m.WF ∧ S k = (true, m.size) := by
  obtain ⟨h1, h2⟩ := hg k
  cases hb : h k with
  | buf b => rw [hb] at h2; rw [← h2] at hk; simp [Backing.shape] at hk
  | sparse m =>
    rw [hb] at h1 h2
    exact ⟨m, rfl, h1.2, h2.symm⟩

theorem good_set_sparse {S : Nat → Bool × Nat} {h : Heap} (hg : Good S h) {k : Nat} {m' : SparseMemory} (hm : m'.WF)
    (hs : S k = (true, m'.size)) : Good S (h.set k (.sparse m')) :=
  hg.set k _ ⟨rfl, hm⟩ hs.symm

theorem cell_set {h : Heap} {k : Nat} {m m' : SparseMemory} (hk : h k = .sparse m) (hc : m'.contents = m.contents) (x : Nat × Nat) :
    cell (h.set k (.sparse m')) x = cell h x := by
  simp only [cell, absHeap, Heap.set]
  split
  · rename_i hx
    rw [hx, hk]
    simp only [Backing.contents, Memory.contents, hc]
  · rfl

/-- **C117, memory regions over sparse memories** accept lists. -/
theorem C117_region_partial (S : Nat → Bool × Nat) (size : Nat) (base : Option Int) (k : Nat) (hk : (S k).1 = true) :
    TakesLists (Good S) cell (memoryRegion size base k) (ListWrite.memoryRegion size k) ∧
    TakesLists (Good S) cell (sparseMemoryRegion size base k) (ListWrite.sparseMemoryRegion size k) := by
  refine ⟨⟨?_, ?_⟩, ⟨?_, ?_⟩⟩
  · intro h hg a d
    obtain ⟨m, e1, e2, e3⟩ := good_sparse hg hk
    simp only [ListWrite.memoryRegion, ListWrite.checked, memoryRegion, Iface.ofPrivate, List.length_map]
    cases Iface.checkRange size a d.length with
    | error e => exact ⟨rfl, hg⟩
    | ok u =>
      simp only [e1, Backing.setSliceList, pyBytes_map, Backing.setSlice]
      refine ⟨trivial, good_set_sparse hg ?_ ?_⟩
      · simp only [SparseMemory.setSlice]
        rw [if_pos (Or.inl trivial)]
        split
        · exact e2
        · exact SparseMemory.write_WF _ e2 _ _
      · simp only [SparseMemory.setSlice]
        rw [if_pos (Or.inl trivial)]
        split
        · exact e3
        · rw [SparseMemory.write_size _ e2]; exact e3
  · intro h hg a v hv
    obtain ⟨m, e1, e2, e3⟩ := good_sparse hg hk
    simp only [ListWrite.memoryRegion, ListWrite.checked]
    split
    · exact ⟨_, h, rfl, hg, fun _ => rfl⟩
    · simp only [e1, Backing.setSliceList, pyBytes_bad v hv]
      exact ⟨_, _, rfl, good_set_sparse hg e2 e3, cell_set e1 rfl⟩
  · intro h hg a d
    obtain ⟨m, e1, e2, e3⟩ := good_sparse hg hk
    simp only [ListWrite.sparseMemoryRegion, ListWrite.checked, sparseMemoryRegion, Iface.ofPrivate, List.length_map]
    cases Iface.checkRange size a d.length with
    | error e => exact ⟨rfl, hg⟩
    | ok u =>
      simp only [e1, SparseMemory.writeList_eq]
      refine ⟨trivial, good_set_sparse hg (SparseMemory.write_WF _ e2 _ _) ?_⟩
      rw [SparseMemory.write_size _ e2]; exact e3
  · intro h hg a v hv
    obtain ⟨m, e1, e2, e3⟩ := good_sparse hg hk
    simp only [ListWrite.sparseMemoryRegion, ListWrite.checked]
    split
    · exact ⟨_, h, rfl, hg, fun _ => rfl⟩
    · obtain ⟨m', f1, f2, f3, f4⟩ := SparseMemory.writeList_bad m e2 a v hv
      simp only [e1, f1]
      exact ⟨_, _, rfl, good_set_sparse hg f2 (by rw [f3]; exact e3), cell_set e1 f4⟩

variable {σ κ : Type} {P : σ → Prop} {val : σ → κ → UInt8}

/-- **C117, windows.** A window over an object that accepts lists accepts them. -/
theorem C117_window_partial {p : Iface σ} {w : ListWrite σ} (hp : TakesLists P val p w) (off : Int) (size : Nat) (base : Option Int) :
    TakesLists P val (p.window off size base) (w.window off size) := by
  refine ⟨?_, ?_⟩
  · intro st hst a d
    simp only [ListWrite.window, ListWrite.checked, Iface.window, Iface.ofPrivate, List.length_map]
    cases Iface.checkRange size a d.length with
    | error e => exact ⟨rfl, hst⟩
    | ok u =>
      cases Iface.getParentAddress size off a with
      | error e => exact ⟨rfl, hst⟩
      | ok x => exact hp.like_bytes st hst x d
  · intro st hst a v hv
    simp only [ListWrite.window, ListWrite.checked]
    split
    · exact ⟨_, st, rfl, hst, fun _ => rfl⟩
    · split
      · exact ⟨_, st, rfl, hst, fun _ => rfl⟩
      · exact hp.rejects st hst _ v hv

theorem spaceLoop_eq {w : Entry σ → ListWrite σ} (d : Bytes) : ∀ (es : List (Entry σ)),
    (∀ e ∈ es, TakesLists P val e.region (w e)) → ∀ (a s n : Int) (st : σ), P st →
    ListWrite.spaceLoop w es a s n (d.map fun b => (b.toNat : Int)) st = writeLoop es a s n d st ∧ P (writeLoop es a s n d st).2 := by
  intro es
  induction es with
  | nil =>
    intro _ a s n st hst
    refine ⟨rfl, ?_⟩
    simp only [writeLoop]
    split <;> exact hst
  | cons e es ih =>
    intro H a s n st hst
    have he := (H e (by simp)).like_bytes st hst (segTarget e a (a - e.base))
      (pySlice d s.toNat (s + min (e.size - (a - e.base)) n).toNat)
    simp only [ListWrite.spaceLoop, writeLoop, pySlice_map, he.1]
    by_cases hb : e.base > a
    · simp only [hb, if_true]; exact ⟨trivial, hst⟩
    · simp only [hb, if_false]
      rcases hr : e.region.write (segTarget e a (a - e.base)) (pySlice d s.toNat (s + min (e.size - (a - e.base)) n).toNat) st
        with ⟨_ | _, st'⟩
      · rw [hr] at he; exact ⟨rfl, he.2⟩
      · rw [hr] at he
        exact ih (fun x hx => H x (by simp [hx])) _ _ _ _ he.2

/-- **C117, address spaces.** An address space accepts lists if all registered regions do. -/
theorem C117_space_partial (s : AddressSpace σ) {w : Entry σ → ListWrite σ} (H : ∀ e ∈ s.regions, TakesLists P val e.region (w e)) :
    TakesLists P val s.toIface (ListWrite.space s w) := by
  refine ⟨?_, ?_⟩
  · intro st hst a d
    simp only [ListWrite.space, toIface, write, List.length_map]
    cases hf : s.findRegions a d.length with
    | error e => exact ⟨rfl, hst⟩
    | ok es =>
      have hmem : ∀ e ∈ es, e ∈ s.regions := by
        intro e he
        simp only [findRegions] at hf
        split at hf
        · cases hf
        · split at hf
          · cases hf
          · cases hf
            exact (List.mem_filter.1 ((mem_sortEntries _ _).1 he)).1
      cases es with
      | nil => exact ⟨rfl, hst⟩
      | cons e es => exact spaceLoop_eq d (e :: es) (fun x hx => H x (hmem x hx)) _ _ _ st hst
  · intro st hst a v hv
    simp only [ListWrite.space, List.length_singleton]
    cases hf : s.findRegions a (1 : Nat) with
    | error e => exact ⟨_, st, rfl, hst, fun _ => rfl⟩
    | ok es =>
      have hmem : ∀ e ∈ es, e ∈ s.regions ∧ a < e.base + e.size ∧ e.base < a + 1 := by
        intro e he
        simp only [findRegions] at hf
        split at hf
        · cases hf
        · split at hf
          · cases hf
          · cases hf
            have := List.mem_filter.1 ((mem_sortEntries _ _).1 he)
            simp only [decide_eq_true_eq] at this
            exact ⟨this.1, by omega, by omega⟩
      cases es with
      | nil => exact ⟨_, st, rfl, hst, fun _ => rfl⟩
      | cons e es =>
        obtain ⟨h1, h2, h3⟩ := hmem e (by simp)
        obtain ⟨er, st', r1, r2, r3⟩ := (H e h1).rejects st hst (segTarget e a (a - e.base)) v hv
        simp only [ListWrite.spaceLoop]
        rw [if_neg (by omega), show min (e.size - (a - e.base)) ((1 : Nat) : Int) = 1 by omega,
          show pySlice [v] (0 : Int).toNat ((0 : Int) + 1).toNat = [v] from rfl, r1]
        exact ⟨er, st', rfl, r2, r3⟩

/-- **C117.** On every interface object with an address map (regions, windows, address spaces: C102) that accepts lists (see above), `write_byte` to
a mapped address succeeds, the addressed cell then holds the byte, which `read` returns, and nothing else changes. A value outside of `range(256)`,
or an address that is not mapped, makes it fail, without effect on any cell. -/
theorem C117_write_byte_partial {p : Iface σ} {w : ListWrite σ} {f : Nat → Option κ} (M : Mapped (Target.ofIface p) P f val)
    (T : TakesLists P val p w) (st : σ) (hst : P st) (a : Nat) (v : Int) :
    (∀ k, f a = some k → 0 ≤ v → v < 256 → ∃ st', w.writeByte a v st = (.ok (), st') ∧ P st' ∧ ((val st' k).toNat : Int) = v ∧
      p.read a 1 st' = (.ok [val st' k], st') ∧ ∀ k', k' ≠ k → val st' k' = val st k') ∧
    (f a = none ∨ v < 0 ∨ 256 ≤ v → ∃ e st', w.writeByte a v st = (.error e, st') ∧ P st' ∧ ∀ k, val st' k = val st k) := by
  have hlist : 0 ≤ v → v < 256 → [v] = [UInt8.ofNat v.toNat].map fun b => (b.toNat : Int) := by
    intro h0 h1
    simp only [List.map_cons, List.map_nil, UInt8.toNat_ofNat']
    congr 1
    omega
  constructor
  · intro k hk h0 h1
    obtain ⟨st', e1, e2, e3, e4⟩ := M.write_ok st a [UInt8.ofNat v.toNat] hst (by simp) (by
      intro i hi
      simp only [List.length_singleton] at hi
      rw [show i = 0 by omega, Nat.add_zero, hk]; simp)
    have e3' : some (val st' k) = [UInt8.ofNat v.toNat][0]? := e3 0 (by simp) k hk
    simp only [List.getElem?_cons_zero, Option.some.injEq] at e3'
    refine ⟨st', ?_, e2, ?_, ?_, ?_⟩
    · simp only [ListWrite.writeByte]
      rw [hlist h0 h1, (T.like_bytes st hst a [UInt8.ofNat v.toNat]).1]
      exact e1
    · rw [e3', UInt8.toNat_ofNat']
      omega
    · obtain ⟨d, r1, r2, r3⟩ := M.read_ok st' a 1 e2 (by omega) (by
        intro i hi; rw [show i = 0 by omega, Nat.add_zero, hk]; simp)
      have r3' := r3 0 (by omega) k hk
      match d, r2, r3' with
      | [x], _, r3' =>
        simp only [List.getElem?_cons_zero, Option.some.injEq] at r3'
        subst r3'
        exact r1
    · intro k' hk'
      refine e4 k' ?_
      intro i hi
      simp only [List.length_singleton] at hi
      rw [show i = 0 by omega, Nat.add_zero, hk]
      simpa using fun h => hk' h.symm
  · intro h
    by_cases hv : v < 0 ∨ 256 ≤ v
    · exact T.rejects st hst a v hv
    · have hf : f a = none := h.resolve_right hv
      obtain ⟨e, st', e1, e2, e3⟩ := M.write_fail st a [UInt8.ofNat v.toNat] hst (by simp) ⟨0, by simp, hf⟩
      refine ⟨e, st', ?_, e2, ?_⟩
      · simp only [ListWrite.writeByte]
        rw [hlist (by omega) (by omega), (T.like_bytes st hst a [UInt8.ofNat v.toNat]).1]
        exact e1
      · intro k
        rcases e3 k with e3 | ⟨i, hi, e3, _⟩
        · exact e3
        · simp only [List.length_singleton] at hi
          rw [show i = 0 by omega, Nat.add_zero, hf] at e3
          cases e3

/-- **C117 is false of the code** for `MemoryRegion` objects with an `mmap`, which is what `MemoryRegion(size)` and `Pool.alloc_region(size)` make:
`write_byte` always raises `TypeError`. -/
theorem C117_violated (size k : Nat) (h : Heap) (b : Bytes) (hb : h k = .buf b) (a : Nat) (ha : a < size) (v : Int) :
    ∃ h', (ListWrite.memoryRegion size k).writeByte a v h = (.error .typeError, h') := by
  simp only [ListWrite.writeByte, ListWrite.memoryRegion, ListWrite.checked]
  rw [checkRange_ok _ _ _ (by omega) (by omega) (by simp) (by simp; omega)]
  simp only [hb, Backing.setSliceList]
  exact ⟨_, rfl⟩

example : (ListWrite.memoryRegion 8 0).writeByte 3 5 exHeap = (.error .typeError, exHeap.set 0 (exHeap 0)) := rfl

/-! A window of a space with a sparse memory at address 16. -/

def exBSpace : AddressSpace Heap := (AddressSpace.mk 64 none []).registerAll [⟨sparseMemoryRegion 32 none 0, 16, none, some 0⟩]
def exBS : Nat → Bool × Nat := fun _ => (true, 32)
def exBHeap : Heap := fun _ => .sparse (SparseMemory.init 32)

theorem exBGood : Good exBS exBHeap := fun _ => ⟨⟨rfl, SparseMemory.WF_init 32⟩, rfl⟩

theorem exBTakes : TakesLists (Good exBS) cell (exBSpace.toIface.window 8 16 none)
    ((ListWrite.space exBSpace fun _ => ListWrite.sparseMemoryRegion 32 0).window 8 16) := by
  refine C117_window_partial (C117_space_partial exBSpace ?_) 8 16 none
  intro e he
  rw [show exBSpace.regions = [⟨16, 32, some 0, { sparseMemoryRegion 32 none 0 with base := none }⟩] from rfl] at he
  simp only [List.mem_cons, List.not_mem_nil, or_false] at he
  subst he
  exact (C117_region_partial exBS 32 none 0 rfl).2

/-- The hypotheses of C117 are met. -/
example := C117_write_byte_partial (C102_region exBS 32 none 0 (by decide)).1 (C117_region_partial exBS 32 none 0 rfl).1 exBHeap exBGood 3 5
example := exBTakes.like_bytes exBHeap exBGood 9 [1, 2, 3]

end AddressSpace

/-- **C117, bus masters.** The masters convert the list with `bytes()` (axi_master.py 413, axil_master.py 198, apb.py 264), so `write_byte(a, v)` is
the same call as `write_words(a, [v], ws=1)`, for which see C112; and it is accepted for the same values. -/
theorem C117_masters (v : Int) (bo : ByteOrder) (d : Bytes) : pyBytes [v] = .ok d ↔ Memory.packWords bo 1 [v] = .ok d := by
  by_cases h : v < 0 ∨ 256 ≤ v
  · rw [pyBytes_bad v h]
    simp only [Memory.packWords, toBytes]
    rcases h with h | h
    · rw [if_pos h]; simp
    · rw [if_neg (by omega), if_pos (by omega)]; simp
  · simp only [pyBytes, toByte, Memory.packWords, toBytes]
    rw [if_neg h, if_neg (by omega), if_neg (by omega)]
    cases bo <;> simp [digitsLE]

/-- **C117, `Memory`** with a sparse memory: `write_byte` then `read_byte`. -/
theorem Memory.C117_memory_partial (m : Memory) (hm : m.WF) (s : SparseMemory) (hs : m.mem = .sparse s) (a : Nat) (ha : a < m.size) (v : Int)
    (h0 : 0 ≤ v) (h1 : v < 256) :
    ∃ m', m.writeByte a v = (.ok (), m') ∧ m'.readByte a = .ok (UInt8.ofNat v.toNat) ∧
      ∀ b : Nat, b < m.size → b ≠ a → m'.readByte b = m.readByte b := by
  obtain ⟨m', e1, e2, e3⟩ := C04_bytes_round_trip m hm a [UInt8.ofNat v.toNat] ha (by simp; omega)
  refine ⟨m', ?_, ?_, ?_⟩
  · rw [← e1]
    have : pyBytes [v] = .ok [UInt8.ofNat v.toNat] := by
      simp only [pyBytes, toByte]
      rw [if_neg (by omega)]
    simp only [writeByte, writeList, write, hs, Backing.setSliceList, this, Backing.setSlice, List.length_singleton]
  · simp only [readByte]
    rw [show m'.read a 1 = _ from e2]
    rfl
  · intro b hb hne
    simp only [readByte]
    rw [show m'.read b 1 = _ from e3 b 1 hb (by omega) (by simp; omega)]
    rfl

/-- A value that is not a byte is rejected without effect. -/
theorem Memory.C117_memory_rejects (m : Memory) (a : Int) (v : Int) (h : v < 0 ∨ 256 ≤ v) : ∃ e, m.writeByte a v = (.error e, m) := by
  simp only [writeByte, writeList]
  cases hm : m.mem with
  | sparse s => simp only [Backing.setSliceList, pyBytes_bad v h, ← hm]; exact ⟨_, rfl⟩
  | buf b => simp only [Backing.setSliceList, ← hm]; exact ⟨_, rfl⟩

/-- False of the code for `Memory` objects made with an `mmap`. -/
theorem Memory.C117_memory_violated (m : Memory) (b : Bytes) (hb : m.mem = .buf b) (a : Int) (v : Int) :
    m.writeByte a v = (.error .typeError, m) := by
  cases m
  simp only at hb
  subst hb
  rfl

example : ((Memory.mk 8 (.sparse (SparseMemory.init 8))).writeByte 3 5).1 = .ok () := by decide +kernel
example : ((Memory.mk 8 (.buf (List.replicate 8 0))).writeByte 3 5).1 = .error .typeError := rfl

end Verif
