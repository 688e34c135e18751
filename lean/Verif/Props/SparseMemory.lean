import Verif.Proof.SparseMemory

/-!
# C01, C02, C03: `SparseMemory` is one flat byte array
-/

namespace Verif.SparseMemory

/-! ## Specification (independent of the model) -/

/-- The state-changing calls of the API. -/
inductive Op
  | write (address : Int) (data : Bytes)
  | clear

/-- Is `write(address, data)` admissible for a memory of `size` bytes? -/
def Admissible (size : Nat) (address : Int) (n : Nat) : Prop :=
  0 ≤ address ∧ address < size ∧ address + n ≤ size

instance (size : Nat) (a : Int) (n : Nat) : Decidable (Admissible size a n) := by
  unfold Admissible; infer_instance

/-- The byte at address `i` after the given history (most recent call first): the value most recently
written since the last `clear`, or 0. -/
def latest (size : Nat) : List Op → Nat → UInt8
  | [], _ => 0
  | .clear :: _, _ => 0
  | .write a d :: earlier, i =>
    if h : Admissible size a d.length ∧ a.toNat ≤ i ∧ i < a.toNat + d.length
    then d[i - a.toNat]'(by omega)
    else latest size earlier i

/-- Running a history (oldest call first) on the model; exceptions are caught by the caller. -/
def run (m : SparseMemory) : List Op → SparseMemory
  | [] => m
  | .write a d :: rest => run (m.write a d).2 rest
  | .clear :: rest => run m.clear rest

/-! ## Proofs -/

theorem latest_write (size : Nat) (a : Int) (d : Bytes) (h : List Op) :
    latest size (.write a d :: h) =
      if Admissible size a d.length then (FlatMem.store (latest size h) a.toNat d) else latest size h := by
  funext i
  by_cases ha : Admissible size a d.length
  · simp [latest, ha, FlatMem.store]
  · simp [latest, ha]

theorem not_writeBad (m : SparseMemory) (a : Int) (n : Nat) :
    ¬ m.writeBad a n ↔ Admissible m.size a n := by
  unfold writeBad Admissible; omega

theorem run_spec (ops : List Op) : ∀ (m : SparseMemory) (h : List Op), m.WF →
    m.contents = latest m.size h →
    (run m ops).WF ∧ (run m ops).size = m.size ∧
      (run m ops).contents = latest m.size (ops.reverse ++ h) := by
  induction ops with
  | nil => intro m h hm hc; exact ⟨hm, rfl, hc⟩
  | cons op rest ih =>
    intro m h hm hc
    cases op with
    | clear =>
      have := ih m.clear (.clear :: h) (WF_clear m) (by rw [contents_clear]; rfl)
      simpa [run, clear] using this
    | write a d =>
      simp only [run]
      by_cases hb : m.writeBad a d.length
      · rw [write_err m a d hb]
        have hna : ¬ Admissible m.size a d.length := by rw [← not_writeBad]; simpa using hb
        have := ih m (.write a d :: h) hm (by rw [latest_write, if_neg hna]; exact hc)
        simpa using this
      · obtain ⟨m', h1, h2, h3, h4⟩ := write_good m hm a d hb
        rw [h1]
        have hna : Admissible m.size a d.length := (not_writeBad m a d.length).1 hb
        have := ih m' (.write a d :: h) h2 (by rw [h3, latest_write, if_pos hna, h4, hc])
        rw [h3] at this
        simpa using this

/-- **C01.** After any history of `write`/`clear` calls on a fresh memory of any size, a `read` of any
in-range window returns the most recently written bytes (0 where nothing was written since the last
`clear`). -/
theorem C01_read_latest (size : Nat) (ops : List Op) (a n : Nat)
    (ha : a < size) (hn : a + n ≤ size) :
    (run (init size) ops).read a n
      = .ok ((List.range n).map fun i => latest size ops.reverse (a + i)) := by
  obtain ⟨h1, h2, h3⟩ := run_spec ops (init size) [] (WF_init size) (by rw [contents_init]; rfl)
  have hs : (init size).size = size := rfl
  rw [read_ok _ h1 a n (by omega) (by omega), h3, List.append_nil]
  rfl

/-- C01 is not vacuous: a history with a write that crosses a block boundary, a rejected write, a
`clear` and overlapping writes meets the hypotheses. -/
example : (run (init 10000)
      [.write 5 [9], .clear, .write 4094 [1, 2, 3, 4], .write 4096 [7], .write 9999 [1, 1]]).read 4093 6
    = .ok [0, 1, 2, 7, 4, 0] := by
  have := C01_read_latest 10000
    [.write 5 [9], .clear, .write 4094 [1, 2, 3, 4], .write 4096 [7], .write 9999 [1, 1]] 4093 6
    (by decide) (by decide)
  refine Eq.trans this ?_
  decide

/-- **C01, one step.** A successful `write` changes exactly the bytes it covers. -/
theorem C01_write_exact (m : SparseMemory) (hm : m.WF) (a : Nat) (d : Bytes)
    (h1 : a < m.size) (h2 : a + d.length ≤ m.size) :
    ∃ m', m.write a d = (.ok (), m') ∧ m'.size = m.size ∧
      (∀ b n : Nat, b < m.size → b + n ≤ m.size → (b + n ≤ a ∨ a + d.length ≤ b) →
        m'.read b n = m.read b n) ∧
      (m'.read a d.length = .ok d) := by
  obtain ⟨m', hw, hwf, hs, hc⟩ := write_ok m hm a d h1 h2
  refine ⟨m', hw, hs, ?_, ?_⟩
  · intro b n hb hbn hdis
    rw [read_ok m' hwf b n (by omega) (by omega), read_ok m hm b n hb hbn, hc,
      FlatMem.load_store_disjoint _ _ _ _ _ hdis]
  · rw [read_ok m' hwf a _ (by omega) (by omega), hc, FlatMem.load_store_same]

example : (init 8192).WF ∧ 4095 < (init 8192).size ∧ 4095 + [1, 2].length ≤ (init 8192).size :=
  ⟨WF_init _, by decide, by decide⟩

/-- **C02 (read).** `read` raises `ValueError` exactly on out-of-range arguments. -/
theorem C02_read_error_iff (m : SparseMemory) (a n : Int) :
    (∃ e, m.read a n = .error e) ↔ (a < 0 ∨ a ≥ m.size ∨ n < 0 ∨ a + n > m.size) := by
  simp only [read]
  constructor
  · intro ⟨e, h⟩
    split at h
    · omega
    · split at h
      · omega
      · split at h
        · omega
        · cases h
  · intro h
    split
    · exact ⟨_, rfl⟩
    · split
      · exact ⟨_, rfl⟩
      · split
        · exact ⟨_, rfl⟩
        · omega

/-- **C02 (read), kind of error.** The only exception `read` raises is `ValueError`. -/
theorem C02_read_error_kind (m : SparseMemory) (a n : Int) (e : PyErr) (h : m.read a n = .error e) :
    e = .valueError := by
  simp only [read] at h
  split at h
  · cases h; rfl
  · split at h
    · cases h; rfl
    · split at h
      · cases h; rfl
      · cases h

/-- **C02 (write).** `write` fails exactly on out-of-range arguments, with `ValueError`, and a failed
write leaves the memory object itself unchanged. -/
theorem C02_write_error_iff (m : SparseMemory) (a : Int) (d : Bytes) :
    ((a < 0 ∨ a ≥ m.size ∨ a + d.length > m.size) ∧ m.write a d = (.error .valueError, m)) ∨
    ((0 ≤ a ∧ a < m.size ∧ a + d.length ≤ m.size) ∧ (m.write a d).1 = .ok ()) := by
  by_cases h : m.writeBad a d.length
  · exact .inl ⟨h, write_err m a d h⟩
  · right
    unfold writeBad at h
    refine ⟨by omega, ?_⟩
    simp only [write]
    rw [if_neg (by omega), if_neg (by omega)]

/-- The boundary case named in C02: a zero-length access at `address == size` is rejected. -/
example : (init 16).read 16 0 = .error .valueError := by decide
example : (init 16).read (-1) 1 = .error .valueError := by decide
example : ((init 16).write 15 [1, 2]).1 = .error .valueError := by decide

/-- **C03 (index read).** `mem[i]` is the byte at `i`; out of range (also negative) raises. -/
theorem C03_getItem (m : SparseMemory) (hm : m.WF) (i : Int) :
    m.getItem i = if 0 ≤ i ∧ i < m.size then .ok (m.contents i.toNat) else .error .valueError := by
  simp only [getItem]
  split
  · rename_i e h
    have h2 := (C02_read_error_iff m i 1).1 ⟨e, h⟩
    rw [if_neg (by omega), C02_read_error_kind m i 1 e h]
  · rename_i d h
    have hr : 0 ≤ i ∧ i < m.size := by
      refine Classical.byContradiction fun hn => ?_
      obtain ⟨e, he⟩ := (C02_read_error_iff m i 1).2 (by omega)
      rw [he] at h; cases h
    rw [if_pos hr]
    have h3 := read_ok m hm i.toNat 1 (by omega) (by omega)
    rw [Int.toNat_of_nonneg hr.1] at h3
    rw [show ((1 : Nat) : Int) = 1 from rfl, h] at h3
    cases h3
    simp [FlatMem.load]

/-- **C03 (slice read).** `mem[i:j]` with step 1 (or omitted) is the window `[lo, hi)` obtained by Python's
clamping rules; it is rejected when `lo` is the end of the memory or the window is reversed, and any
other step is rejected. -/
theorem C03_getSlice (m : SparseMemory) (hm : m.WF) (start stop : Option Int) (step : Option Int) :
    let lo := sliceBound start 0 m.size
    let hi := sliceBound stop m.size m.size
    m.getSlice ⟨start, stop, step⟩ =
      if step = some 0 then .error .valueError
      else if step = none ∨ step = some 1 then
        if lo < m.size ∧ lo ≤ hi then .ok (m.contents.load lo (hi - lo)) else .error .valueError
      else .error .indexError := by
  intro lo hi
  simp only [getSlice]
  by_cases h0 : step = some 0
  · subst h0; simp
  · rw [if_neg h0]
    have hhi : hi ≤ m.size := sliceBound_le _ _ _ (Nat.le_refl _)
    split
    · exact absurd rfl h0
    · split
      · rename_i hs
        by_cases hc : lo < m.size ∧ lo ≤ hi
        · rw [if_pos hc, ← read_ok m hm lo (hi - lo) hc.1 (by omega)]
          rw [Int.ofNat_sub hc.2]
        · rw [if_neg hc]
          obtain ⟨e, he⟩ := (C02_read_error_iff m lo ((hi : Int) - lo)).2 (by omega)
          rw [he, C02_read_error_kind m _ _ e he]
      · rfl

/-- Python slice bounds: the clamping function on the cases a user meets. -/
theorem sliceBound_spec (n : Nat) (x : Int) (d : Nat) :
    sliceBound none d n = d ∧
    (0 ≤ x → x ≤ n → sliceBound (some x) d n = x.toNat) ∧
    (n < x → sliceBound (some x) d n = n) ∧
    (x < 0 → -n ≤ x → sliceBound (some x) d n = n - (-x).toNat) ∧
    (x < -n → sliceBound (some x) d n = 0) := by
  unfold sliceBound
  refine ⟨rfl, ?_, ?_, ?_, ?_⟩ <;> intros <;> dsimp only <;> split <;> (try split) <;> omega

/-- **C03 (index write).** `mem[i] = v` stores one byte; an out-of-range index or a value outside
`range(256)` raises `ValueError` and nothing readable changes. -/
theorem C03_setItem (m : SparseMemory) (hm : m.WF) (i v : Int) :
    (m.setItem i v).2.WF ∧ (m.setItem i v).2.size = m.size ∧
    if 0 ≤ i ∧ i < m.size ∧ 0 ≤ v ∧ v < 256 then
      (m.setItem i v).1 = .ok () ∧
        (m.setItem i v).2.contents = m.contents.store i.toNat [UInt8.ofNat v.toNat]
    else (m.setItem i v).1 = .error .valueError ∧ (m.setItem i v).2.contents = m.contents := by
  simp only [setItem]
  split
  · rw [if_neg (by omega)]; exact ⟨hm, rfl, rfl, rfl⟩
  · split
    · rw [if_neg (by omega)]; exact ⟨hm, rfl, rfl, rfl⟩
    · simp only [toByte]
      by_cases hv : v < 0 ∨ 256 ≤ v
      · rw [if_pos hv, if_neg (by omega)]
        dsimp only
        cases hsg : m.segs (i.toNat - i.toNat % 4096) with
        | some b => exact ⟨hm, rfl, rfl, rfl⟩
        | none =>
          exact ⟨WF_setSeg m hm _ _ zeroBlock_length, rfl, rfl, contents_zeroBlock m _ hsg⟩
      · rw [if_neg hv, if_pos (by omega)]
        dsimp only
        obtain ⟨m', h1, h2, h3, h4⟩ := write_good m hm i [UInt8.ofNat v.toNat]
          (by unfold writeBad; simp only [List.length_singleton]; omega)
        rw [h1]
        exact ⟨h2, h3, rfl, h4⟩

/-- **C03 (slice write).** `mem[i:j] = v` with step 1 replaces exactly the clamped window when the
length matches; a wrong length or any other step raises `IndexError` and the memory is unchanged. -/
theorem C03_setSlice (m : SparseMemory) (hm : m.WF) (start stop : Option Int) (step : Option Int)
    (v : Bytes) :
    let lo := sliceBound start 0 m.size
    let hi := sliceBound stop m.size m.size
    let r := m.setSlice ⟨start, stop, step⟩ v
    if step = some 0 then r = (.error .valueError, m)
    else if step = none ∨ step = some 1 then
      if (hi : Int) - lo ≠ v.length then r = (.error .indexError, m)
      else if lo < m.size then
        r.1 = .ok () ∧ r.2.WF ∧ r.2.size = m.size ∧ r.2.contents = m.contents.store lo v
      else r = (.error .valueError, m)
    else r = (.error .indexError, m) := by
  intro lo hi r
  have hhi : hi ≤ m.size := sliceBound_le _ _ _ (Nat.le_refl _)
  by_cases h0 : step = some 0
  · subst h0; rfl
  · rw [if_neg h0]
    have hr : r = if step = none ∨ step = some 1 then
        (if (hi : Int) - lo ≠ v.length then (.error .indexError, m) else m.write lo v)
        else (.error .indexError, m) := by
      show m.setSlice ⟨start, stop, step⟩ v = _
      simp only [setSlice]
      match step, h0 with
      | none, _ => rfl
      | some 0, h0 => exact absurd rfl h0
      | some (.ofNat (n + 1)), _ => rfl
      | some (.negSucc n), _ => rfl
    split
    · rename_i hs
      rw [if_pos hs] at hr
      split
      · rename_i hl; rw [if_pos hl] at hr; exact hr
      · rename_i hl
        rw [if_neg hl] at hr
        split
        · rename_i hlt
          obtain ⟨m', h1, h2, h3, h4⟩ := write_ok m hm lo v hlt (by omega)
          rw [h1] at hr; rw [hr]; exact ⟨rfl, h2, h3, h4⟩
        · rename_i hlt
          rw [hr, write_err m lo v (by unfold writeBad; omega)]
    · rename_i hs; rw [if_neg hs] at hr; exact hr

/-- Histories keep the invariant `WF` used as a hypothesis above, so the C03 theorems apply to every
memory a user can build. -/
theorem WF_reachable (size : Nat) (ops : List Op) : (run (init size) ops).WF :=
  (run_spec ops (init size) [] (WF_init size) (by rw [contents_init]; rfl)).1

example : ((run (init 16) [.write 3 [5, 6]]).getItem 4) = .ok 6 := by
  rw [C03_getItem _ (WF_reachable _ _)]
  obtain ⟨_, h2, h3⟩ := run_spec [.write 3 [5, 6]] (init 16) [] (WF_init 16)
    (by rw [contents_init]; rfl)
  rw [h2, h3]; decide

end Verif.SparseMemory
