import Verif.Model.Memory
import Verif.Proof.SparseMemory

/-!
# Lemmas: base-256 digits, word packing, flat contents of `Memory`
-/

namespace Verif

theorem digitsLE_length (ws n : Nat) : (digitsLE ws n).length = ws := by
  induction ws generalizing n with
  | zero => rfl
  | succ k ih => simp [digitsLE, ih]

theorem digitsLE_getElem (ws n i : Nat) (h : i < (digitsLE ws n).length) :
    (digitsLE ws n)[i] = UInt8.ofNat (n / 256 ^ i) := by
  induction ws generalizing n i with
  | zero => simp [digitsLE] at h
  | succ k ih =>
    cases i with
    | zero => simp [digitsLE]
    | succ j =>
      simp only [digitsLE, List.getElem_cons_succ]
      rw [ih, Nat.div_div_eq_div_mul, Nat.pow_succ, Nat.mul_comm]

theorem fromBytesLE_digitsLE (ws n : Nat) (h : n < 256 ^ ws) : fromBytesLE (digitsLE ws n) = n := by
  induction ws generalizing n with
  | zero => simp only [Nat.pow_zero] at h; simp only [digitsLE, fromBytesLE]; omega
  | succ k ih =>
    simp only [digitsLE, fromBytesLE]
    rw [ih]
    · simp; omega
    · rw [Nat.pow_succ] at h; omega

theorem fromBytesLE_lt (d : Bytes) : fromBytesLE d < 256 ^ d.length := by
  induction d with
  | nil => simp [fromBytesLE]
  | cons b bs ih =>
    simp only [fromBytesLE, List.length_cons, Nat.pow_succ]
    have := b.toNat_lt
    omega

theorem digitsLE_fromBytesLE (d : Bytes) : digitsLE d.length (fromBytesLE d) = d := by
  induction d with
  | nil => rfl
  | cons b bs ih =>
    simp only [fromBytesLE, List.length_cons, digitsLE]
    have hb := b.toNat_lt
    rw [show (b.toNat + 256 * fromBytesLE bs) / 256 = fromBytesLE bs by omega, ih]
    congr 1
    apply UInt8.toNat_inj.1
    simp

theorem fromBytes_toBytes (ws : Nat) (bo : ByteOrder) (w : Int) (d : Bytes)
    (h : toBytes ws bo w = .ok d) : d.length = ws ∧ 0 ≤ w ∧ w.toNat < 256 ^ ws ∧ (fromBytes bo d : Int) = w := by
  simp only [toBytes] at h
  split at h
  · cases h
  · split at h
    · cases h
    · cases h
      have hl : w.toNat < 256 ^ ws := by omega
      cases bo
      · refine ⟨digitsLE_length _ _, by omega, hl, ?_⟩
        simp only [fromBytes]
        rw [fromBytesLE_digitsLE _ _ hl]; omega
      · refine ⟨by simp [digitsLE_length], by omega, hl, ?_⟩
        simp only [fromBytes, List.reverse_reverse]
        rw [fromBytesLE_digitsLE _ _ hl]; omega

namespace Memory

theorem packWords_length (bo : ByteOrder) (ws : Nat) (words : List Int) (d : Bytes)
    (h : packWords bo ws words = .ok d) : d.length = words.length * ws := by
  induction words generalizing d with
  | nil => simp [packWords] at h; simp [← h]
  | cons w rest ih =>
    simp only [packWords] at h
    split at h
    · cases h
    · rename_i dw hw
      split at h
      · cases h
      · rename_i r hr
        cases h
        simp [ih r hr, (fromBytes_toBytes ws bo w dw hw).1, Nat.add_mul]; omega

theorem packWords_slice (bo : ByteOrder) (ws : Nat) (words : List Int) (d : Bytes)
    (h : packWords bo ws words = .ok d) (k : Nat) (hk : k < words.length) :
    toBytes ws bo words[k] = .ok (pySlice d (ws * k) (ws * (k + 1))) := by
  induction words generalizing d k with
  | nil => simp at hk
  | cons w rest ih =>
    simp only [packWords] at h
    split at h
    · cases h
    · rename_i dw hw
      split at h
      · cases h
      · rename_i r hr
        cases h
        have hl := (fromBytes_toBytes ws bo w dw hw).1
        cases k with
        | zero =>
          simp only [List.getElem_cons_zero, hw, Nat.mul_zero, Nat.zero_add, Nat.mul_one]
          simp [pySlice, ← hl]
        | succ j =>
          simp only [List.getElem_cons_succ]
          rw [ih r hr j (by simpa using hk)]
          simp only [pySlice]
          congr 1
          rw [List.take_append, List.drop_append]
          have e0 : List.drop (ws * (j + 1)) (List.take (ws * (j + 1 + 1)) dw) = [] := by
            apply List.drop_eq_nil_of_le
            rw [List.length_take, Nat.mul_succ ws j]; omega
          rw [e0]
          simp only [List.nil_append, List.length_take]
          have e1 : ws * (j + 1 + 1) - dw.length = ws * (j + 1) := by
            rw [Nat.mul_succ, hl]; omega
          have e2 : ws * (j + 1) - min (ws * (j + 1 + 1)) dw.length = ws * j := by
            rw [Nat.mul_succ ws (j+1), Nat.mul_succ ws j]; omega
          rw [e1, e2]

theorem packWords_error_iff (bo : ByteOrder) (ws : Nat) (words : List Int) :
    (∃ w ∈ words, w < 0 ∨ (256 : Int) ^ ws ≤ w) ↔ packWords bo ws words = .error .overflowError := by
  induction words with
  | nil => simp [packWords]
  | cons w rest ih =>
    have hcast : ((256 ^ ws : Nat) : Int) = (256 : Int) ^ ws := by simp
    simp only [packWords, List.mem_cons, exists_eq_or_imp]
    by_cases hw : w < 0 ∨ (256 : Int) ^ ws ≤ w
    · have : toBytes ws bo w = .error .overflowError := by
        simp only [toBytes]
        split
        · rfl
        · rw [if_pos (by omega)]
      simp [hw, this]
    · obtain ⟨d, hd⟩ : ∃ d, toBytes ws bo w = .ok d := by
        simp only [toBytes]
        rw [if_neg (by omega), if_neg (by omega)]
        exact ⟨_, rfl⟩
      simp only [hw, false_or, hd, ih]
      cases packWords bo ws rest with
      | error e => simp
      | ok r => simp

/-- The flat contents of a memory (bytes beyond the end of a buffer read as 0 here but are never
accessible). -/
def contents (m : Memory) : FlatMem :=
  match m.mem with
  | .sparse s => s.contents
  | .buf b => fun i => match b[i]? with
    | some v => v
    | none => 0

/-- Well-formedness: the size field agrees with the backing store; sparse blocks are full. -/
def WF (m : Memory) : Prop :=
  m.size = m.mem.rawLen ∧ match m.mem with
    | .sparse s => s.WF
    | .buf _ => True

theorem sliceBound_nat (a n d : Nat) (h : a ≤ n) : sliceBound (some (a : Int)) d n = a := by
  unfold sliceBound; dsimp only; split
  · omega
  · split <;> omega

theorem read_ok (m : Memory) (hm : m.WF) (a n : Nat) (h1 : a < m.size) (h2 : a + n ≤ m.size) :
    m.read a n = .ok (m.contents.load a n) := by
  obtain ⟨hs, hw⟩ := hm
  simp only [read, contents]
  cases hb : m.mem with
  | sparse s =>
    rw [hb] at hs hw
    simp only [Backing.rawLen] at hs
    simp only [Backing.getSlice, SparseMemory.getSlice]
    rw [← Int.natCast_add, sliceBound_nat a s.size _ (by omega), sliceBound_nat (a + n) s.size _ (by omega)]
    simp only [true_or, if_true]
    rw [show ((a + n : Nat) : Int) - (a : Int) = (n : Nat) by omega]
    exact SparseMemory.read_ok s hw a n (by omega) (by omega)
  | buf b =>
    rw [hb] at hs
    simp only [Backing.rawLen] at hs
    simp only [Backing.getSlice]
    rw [← Int.natCast_add, sliceBound_nat a b.length _ (by omega), sliceBound_nat (a + n) b.length _ (by omega)]
    congr 1
    apply List.ext_getElem?
    intro i
    by_cases hi : i < n
    · rw [SparseMemory.pySlice_getElem? _ _ _ _ (by omega)]
      rw [List.getElem?_eq_getElem (l := FlatMem.load _ _ _) (by rw [FlatMem.load_length]; exact hi),
        FlatMem.load_getElem]
      rw [List.getElem?_eq_getElem (by omega)]
    · rw [List.getElem?_eq_none, List.getElem?_eq_none]
      · rw [FlatMem.load_length]; omega
      · simp only [pySlice, List.length_drop, List.length_take]; omega

theorem write_ok (m : Memory) (hm : m.WF) (a : Nat) (d : Bytes) (h1 : a < m.size)
    (h2 : a + d.length ≤ m.size) :
    ∃ m', m.write a d = (.ok (), m') ∧ m'.WF ∧ m'.size = m.size ∧
      m'.contents = m.contents.store a d := by
  obtain ⟨hs, hw⟩ := hm
  simp only [write, contents, WF]
  cases hb : m.mem with
  | sparse s =>
    rw [hb] at hs hw
    simp only [Backing.rawLen] at hs
    simp only [Backing.setSlice, SparseMemory.setSlice]
    rw [← Int.natCast_add, sliceBound_nat a s.size _ (by omega),
      sliceBound_nat (a + d.length) s.size _ (by omega)]
    simp only [true_or, if_true]
    rw [if_neg (by omega)]
    obtain ⟨s', e1, e2, e3, e4⟩ := SparseMemory.write_ok s hw a d (by omega) (by omega)
    rw [e1]
    exact ⟨_, rfl, ⟨by simp only [Backing.rawLen]; omega, e2⟩, rfl, e4⟩
  | buf b =>
    rw [hb] at hs
    simp only [Backing.rawLen] at hs
    simp only [Backing.setSlice]
    rw [← Int.natCast_add, sliceBound_nat a b.length _ (by omega),
      sliceBound_nat (a + d.length) b.length _ (by omega)]
    rw [if_neg (by omega)]
    refine ⟨_, rfl, ⟨?_, trivial⟩, rfl, ?_⟩
    · simp only [Backing.rawLen]
      rw [SparseMemory.pySliceAssign_length _ _ _ _ (by omega) (by omega) (by omega)]; exact hs
    · funext i
      dsimp only
      rw [SparseMemory.pySliceAssign_getElem? _ _ _ _ _ (by omega) (by omega) (by omega)]
      simp only [FlatMem.store]
      by_cases hc : a ≤ i ∧ i < a + d.length
      · rw [if_pos hc, dif_pos hc, List.getElem?_eq_getElem (by omega)]
      · rw [if_neg hc, dif_neg hc]

end Memory
end Verif
