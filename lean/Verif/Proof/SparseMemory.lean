import Verif.Model.SparseMemory
import Verif.Spec.FlatMem

/-!
# Lemmas about `SparseMemory`: abstraction to a flat byte array
-/

namespace Verif
namespace SparseMemory

/-- Every block of the dict has 4096 bytes. -/
def WF (m : SparseMemory) : Prop := ∀ k b, m.segs k = some b → b.length = 4096

/-- The flat contents of a sparse memory. -/
def contents (m : SparseMemory) : FlatMem := fun i =>
  match m.segs (i - i % 4096) with
  | some b => match b[i % 4096]? with
    | some v => v
    | none => 0
  | none => 0

theorem WF_init (size : Nat) : (init size).WF := by intro k b h; simp [init] at h

theorem contents_init (size : Nat) : (init size).contents = FlatMem.zero := by
  funext i; simp [contents, init, FlatMem.zero]

theorem WF_clear (m : SparseMemory) : m.clear.WF := by intro k b h; simp [clear] at h

theorem contents_clear (m : SparseMemory) : m.clear.contents = FlatMem.zero := by
  funext i; simp [contents, clear, FlatMem.zero]

theorem pySlice_length {α : Type} (l : List α) (a b : Nat) (h : b ≤ l.length) :
    (pySlice l a b).length = b - a := by
  simp [pySlice]; omega

theorem pySlice_getElem? {α : Type} (l : List α) (a b i : Nat) (h : a + i < b) :
    (pySlice l a b)[i]? = l[a + i]? := by
  simp [pySlice, List.getElem?_drop, h]

theorem pySlice_split {α : Type} (l : List α) (a b c : Nat) (h1 : a ≤ b) (h2 : b ≤ c) :
    pySlice l a c = pySlice l a b ++ pySlice l b c := by
  simp only [pySlice]
  apply List.ext_getElem?
  intro i
  simp only [List.getElem?_append, List.length_drop, List.length_take, List.getElem?_drop,
    List.getElem?_take]
  grind

theorem pySlice_full {α : Type} (l : List α) : pySlice l 0 l.length = l := by
  simp [pySlice]

theorem zeroBlock_length : zeroBlock.length = 4096 := List.length_replicate

theorem zeroBlock_get (i : Nat) (h : i < 4096) : zeroBlock[i]? = some 0 := by
  rw [zeroBlock, List.getElem?_replicate, if_pos h]

theorem readLoop_eq (m : SparseMemory) (hm : m.WF) (a n : Nat) :
    m.readLoop a n = m.contents.load a n := by
  fun_induction readLoop m a n with
  | case1 address length h bo ba bl blk ih1 =>
    rw [ih1]
    have hbo : bo < 4096 := Nat.mod_lt _ (by decide)
    have hle : bl ≤ length := Nat.min_le_right ..
    have hble : bo + bl ≤ 4096 := by
      have : bl ≤ 4096 - bo := Nat.min_le_left ..
      omega
    conv => rhs; rw [show length = bl + (length - bl) by omega, FlatMem.load_add]
    congr 1
    apply List.ext_getElem?
    intro i
    by_cases hi : i < bl
    · rw [pySlice_getElem? _ _ _ _ (by omega)]
      have hmod : (address + i) % 4096 = bo + i := by
        have : address % 4096 = bo := rfl
        omega
      have hba : address + i - (bo + i) = ba := by
        show address + i - (address % 4096 + i) = address - address % 4096
        omega
      rw [List.getElem?_eq_getElem (l := FlatMem.load _ _ _) (by rw [FlatMem.load_length]; exact hi),
        FlatMem.load_getElem]
      simp only [contents, hmod, hba]
      show (m.getBlock ba)[bo + i]? = _
      simp only [getBlock]
      cases hs : m.segs ba with
      | none => exact zeroBlock_get _ (by omega)
      | some b =>
        have := hm _ _ hs
        have hlt : bo + i < b.length := by omega
        simp [List.getElem?_eq_getElem hlt]
    · rw [List.getElem?_eq_none, List.getElem?_eq_none]
      · rw [FlatMem.load_length]; omega
      · simp only [pySlice, List.length_drop, List.length_take]; omega
  | case2 address length h =>
    have : length = 0 := by omega
    subst this; rfl

theorem read_ok (m : SparseMemory) (hm : m.WF) (a n : Nat) (h1 : a < m.size) (h2 : a + n ≤ m.size) :
    m.read a n = .ok (m.contents.load a n) := by
  simp only [read]
  rw [if_neg (by omega), if_neg (by omega), if_neg (by omega)]
  simp [readLoop_eq m hm]

theorem WF_setSeg (m : SparseMemory) (hm : m.WF) (k : Nat) (b : Bytes) (hb : b.length = 4096) :
    (m.setSeg k b).WF := by
  intro k' b' h
  simp only [setSeg] at h
  split at h
  · cases h; exact hb
  · exact hm _ _ h

theorem pySliceAssign_length {α : Type} (l : List α) (a b : Nat) (d : List α)
    (h1 : a ≤ b) (h2 : b ≤ l.length) (h3 : d.length = b - a) :
    (pySliceAssign l a b d).length = l.length := by
  simp [pySliceAssign]; omega

theorem pySliceAssign_getElem? {α : Type} (l : List α) (a b i : Nat) (d : List α)
    (h1 : a ≤ b) (h2 : b ≤ l.length) (h3 : d.length = b - a) :
    (pySliceAssign l a b d)[i]? = if a ≤ i ∧ i < b then d[i - a]? else l[i]? := by
  simp only [pySliceAssign, List.getElem?_append, List.length_append, List.length_take,
    List.getElem?_take, List.getElem?_drop]
  grind

theorem contents_setSeg (m : SparseMemory) (ba bo bl : Nat) (blk d : Bytes)
    (hba : ba % 4096 = 0) (hbo : bo + bl ≤ 4096) (hd : d.length = bl)
    (hblk : blk.length = 4096)
    (hold : ∀ j, j < 4096 → some (m.contents (ba + j)) = blk[j]?) :
    (m.setSeg ba (pySliceAssign blk bo (bo + bl) d)).contents = m.contents.store (ba + bo) d := by
  funext i
  simp only [contents, setSeg]
  have hi : i % 4096 < 4096 := Nat.mod_lt _ (by decide)
  by_cases hk : i - i % 4096 = ba
  · rw [if_pos hk]
    have hieq : i = ba + i % 4096 := by omega
    dsimp only
    rw [pySliceAssign_getElem? _ _ _ _ _ (by omega) (by omega) (by omega)]
    simp only [FlatMem.store]
    split
    · rename_i hb
      split at hb
      · rename_i hc
        rw [dif_pos (by omega)]
        have : i - (ba + bo) = i % 4096 - bo := by omega
        simp only [this]
        rw [List.getElem?_eq_getElem (by omega)] at hb
        exact (Option.some.inj hb).symm
      · rename_i hc
        rw [dif_neg (by omega)]
        have := hold (i % 4096) hi
        rw [hb, ← hieq] at this
        exact (Option.some.inj this).symm
    · rename_i hb
      exfalso
      split at hb
      · rw [List.getElem?_eq_getElem (by omega)] at hb; cases hb
      · rw [List.getElem?_eq_getElem (by omega)] at hb; cases hb
  · rw [if_neg hk]
    rw [FlatMem.store_other _ _ _ _ (by omega)]
    rfl

theorem block_old (m : SparseMemory) (hm : m.WF) (ba : Nat) (hba : ba % 4096 = 0) :
    (m.getBlock ba).length = 4096 ∧
      ∀ j, j < 4096 → some (m.contents (ba + j)) = (m.getBlock ba)[j]? := by
  simp only [getBlock]
  cases hs : m.segs ba with
  | none =>
    refine ⟨zeroBlock_length, ?_⟩
    intro j hj
    have h1 : (ba + j) % 4096 = j := by omega
    have h2 : ba + j - j = ba := by omega
    simp [contents, h1, hs, zeroBlock_get j hj]
  | some b =>
    have hb := hm _ _ hs
    refine ⟨by simpa using hb, ?_⟩
    intro j hj
    have h1 : (ba + j) % 4096 = j := by omega
    simp [contents, h1, hs, List.getElem?_eq_getElem (show j < b.length by omega)]

theorem writeLoop_spec (m : SparseMemory) (hm : m.WF) (a o n : Nat) (d : Bytes)
    (hd : o + n ≤ d.length) :
    (m.writeLoop a o n d).WF ∧ (m.writeLoop a o n d).size = m.size ∧
    (m.writeLoop a o n d).contents = m.contents.store a (pySlice d o (o + n)) := by
  fun_induction writeLoop m a o n d with
  | case1 m address offset length h bo ba bl blk0 blk ih =>
    have hbo : bo < 4096 := Nat.mod_lt _ (by decide)
    have hle : bl ≤ length := Nat.min_le_right ..
    have hble : bo + bl ≤ 4096 := by
      have : bl ≤ 4096 - bo := Nat.min_le_left ..
      omega
    have hba : ba % 4096 = 0 := by
      show (address - address % 4096) % 4096 = 0
      omega
    have hadd : ba + bo = address := by
      show address - address % 4096 + address % 4096 = address
      omega
    obtain ⟨hl, hold⟩ := block_old m hm ba hba
    have hsl : (pySlice d offset (offset + bl)).length = bl := by
      rw [pySlice_length _ _ _ (by omega)]; omega
    have hwf : (m.setSeg ba blk).WF := by
      apply WF_setSeg _ hm
      rw [pySliceAssign_length _ _ _ _ (by omega) (by rw [hl]; exact hble) (by omega)]; exact hl
    obtain ⟨i1, i2, i3⟩ := ih hwf (by omega)
    refine ⟨i1, by rw [i2]; rfl, ?_⟩
    rw [i3]
    rw [contents_setSeg m ba bo bl blk0 _ hba hble hsl hl hold, hadd]
    rw [pySlice_split d offset (offset + bl) (offset + length) (by omega) (by omega),
      FlatMem.store_append, hsl]
    rw [show offset + bl + (length - bl) = offset + length by omega]
  | case2 m address offset length h =>
    have : length = 0 := by omega
    subst this
    refine ⟨hm, rfl, ?_⟩
    have : pySlice d offset (offset + 0) = [] := by simp [pySlice]
    rw [this, FlatMem.store_nil]

theorem write_ok (m : SparseMemory) (hm : m.WF) (a : Nat) (d : Bytes)
    (h1 : a < m.size) (h2 : a + d.length ≤ m.size) :
    ∃ m', m.write a d = (.ok (), m') ∧ m'.WF ∧ m'.size = m.size ∧
      m'.contents = m.contents.store a d := by
  refine ⟨m.writeLoop a 0 d.length d, ?_, ?_⟩
  · simp only [write]
    rw [if_neg (by omega), if_neg (by omega)]
    simp
  · have := writeLoop_spec m hm a 0 d.length d (by omega)
    rwa [Nat.zero_add, pySlice_full] at this

/-- Out-of-range condition of `write`, on Python integers. -/
def writeBad (m : SparseMemory) (a : Int) (n : Nat) : Prop :=
  a < 0 ∨ a ≥ m.size ∨ a + n > m.size

theorem write_err (m : SparseMemory) (a : Int) (d : Bytes) (h : m.writeBad a d.length) :
    m.write a d = (.error .valueError, m) := by
  simp only [write]
  unfold writeBad at h
  split
  · rfl
  · split
    · rfl
    · omega

theorem write_good (m : SparseMemory) (hm : m.WF) (a : Int) (d : Bytes)
    (h : ¬ m.writeBad a d.length) :
    ∃ m', m.write a d = (.ok (), m') ∧ m'.WF ∧ m'.size = m.size ∧
      m'.contents = m.contents.store a.toNat d := by
  unfold writeBad at h
  have := write_ok m hm a.toNat d (by omega) (by omega)
  rwa [Int.toNat_of_nonneg (by omega)] at this

theorem write_size (m : SparseMemory) (hm : m.WF) (a : Int) (d : Bytes) :
    (m.write a d).2.size = m.size := by
  by_cases h : m.writeBad a d.length
  · rw [write_err m a d h]
  · obtain ⟨m', h1, _, h3, _⟩ := write_good m hm a d h
    rw [h1]; exact h3

theorem write_WF (m : SparseMemory) (hm : m.WF) (a : Int) (d : Bytes) :
    (m.write a d).2.WF := by
  by_cases h : m.writeBad a d.length
  · rw [write_err m a d h]; exact hm
  · obtain ⟨m', h1, h2, _⟩ := write_good m hm a d h
    rw [h1]; exact h2

/-- Creating a zero block changes nothing observable. -/
theorem contents_zeroBlock (m : SparseMemory) (k : Nat) (h : m.segs k = none) :
    (m.setSeg k zeroBlock).contents = m.contents := by
  funext i
  simp only [contents, setSeg]
  by_cases hk : i - i % 4096 = k
  · rw [if_pos hk, hk, h]
    have hi : i % 4096 < 4096 := Nat.mod_lt _ (by decide)
    simp [zeroBlock_get _ hi]
  · rw [if_neg hk]

theorem sliceBound_le (v : Option Int) (d n : Nat) (h : d ≤ n) : sliceBound v d n ≤ n := by
  unfold sliceBound
  split
  · exact h
  · split
    · split <;> omega
    · split <;> omega

end SparseMemory
end Verif
