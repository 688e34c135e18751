import Verif.Proof.Memory

/-!
# C04, C05: word accesses and construction of `Memory`
-/

namespace Verif.Memory

/-- **C04.** Words written with `write_words` are read back by `read_words`, for both byte orders, every
word size and every backing store; the bytes in between are the base-256 digits of the words, and no
other byte changes. -/
theorem C04_words_round_trip (m : Memory) (hm : m.WF) (a : Nat) (words : List Int) (bo : ByteOrder)
    (ws : Nat) (hw : ∀ w ∈ words, 0 ≤ w ∧ w < (256 : Int) ^ ws)
    (h1 : a < m.size) (h2 : a + words.length * ws ≤ m.size) :
    ∃ m', m.writeWords a words bo ws = (.ok (), m') ∧ m'.WF ∧ m'.size = m.size ∧
      (∃ l, m'.readWords a words.length bo ws = .ok l ∧ l.map (fun n : Nat => (n : Int)) = words) ∧
      (∀ k i (hk : k < words.length), i < ws →
        m'.contents (a + ws * k + i) = UInt8.ofNat
          (words[k].toNat / 256 ^ (match bo with | .little => i | .big => ws - 1 - i))) ∧
      (∀ j, j < a ∨ a + words.length * ws ≤ j → m'.contents j = m.contents j) := by
  obtain ⟨d, hd⟩ : ∃ d, packWords bo ws words = .ok d := by
    cases hp : packWords bo ws words with
    | ok d => exact ⟨d, rfl⟩
    | error e =>
      exfalso
      have hov : packWords bo ws words = .error .overflowError := by
        clear hw h1 h2
        induction words generalizing e with
        | nil => simp [packWords] at hp
        | cons w rest ih =>
          simp only [packWords] at hp ⊢
          cases ht : toBytes ws bo w with
          | error e' =>
            simp only [toBytes] at ht
            split at ht
            · cases ht; rfl
            · split at ht
              · cases ht; rfl
              · cases ht
          | ok d =>
            rw [ht] at hp
            cases hr : packWords bo ws rest with
            | error e' => simp [ih e' hr] at hr ⊢; exact hr.symm
            | ok r => simp [hr] at hp
      obtain ⟨w, hm', hbad⟩ := (packWords_error_iff bo ws words).2 hov
      have := hw w hm'
      omega
  have hl := packWords_length bo ws words d hd
  obtain ⟨m', e1, e2, e3, e4⟩ := write_ok m hm a d h1 (by omega)
  have hslice : ∀ k (hk : k < words.length),
      toBytes ws bo words[k] = .ok (pySlice d (ws * k) (ws * (k + 1))) :=
    fun k hk => packWords_slice bo ws words d hd k hk
  refine ⟨m', by simp only [writeWords, hd, e1], e2, e3, ?_, ?_, ?_⟩
  · refine ⟨unpackWords bo ws d words.length, ?_, ?_⟩
    · simp only [readWords]
      rw [read_ok m' e2 a _ (by omega) (by omega), e4, ← hl, FlatMem.load_store_same]
    · apply List.ext_getElem
      · simp [unpackWords]
      · intro k h3 h4
        simp only [unpackWords, List.map_map, List.getElem_map, List.getElem_range, Function.comp]
        exact (fromBytes_toBytes ws bo _ _ (hslice k h4)).2.2.2
  · intro k i hk hi
    have hb := hslice k hk
    have hin : ws * k + i < d.length := by
      rw [hl]
      have : ws * k + ws ≤ words.length * ws := by
        rw [← Nat.mul_succ, Nat.mul_comm]; exact Nat.mul_le_mul_right _ hk
      omega
    rw [e4, Nat.add_assoc, FlatMem.store_at _ _ _ _ hin]
    have hget : (pySlice d (ws * k) (ws * (k + 1)))[i]? = some d[ws * k + i] := by
      rw [SparseMemory.pySlice_getElem? _ _ _ _ (by rw [Nat.mul_succ]; omega),
        List.getElem?_eq_getElem hin]
    obtain ⟨hpl, h0, hlt, _⟩ := fromBytes_toBytes ws bo _ _ hb
    simp only [toBytes] at hb
    rw [if_neg (by omega), if_neg (by omega)] at hb
    have hb := Except.ok.inj hb
    rw [← hb] at hget
    cases bo with
    | little =>
      dsimp only at hget ⊢
      rw [List.getElem?_eq_getElem (by rw [digitsLE_length]; exact hi), digitsLE_getElem] at hget
      exact (Option.some.inj hget).symm
    | big =>
      dsimp only at hget ⊢
      rw [List.getElem?_eq_getElem (by rw [List.length_reverse, digitsLE_length]; exact hi),
        List.getElem_reverse, digitsLE_getElem, digitsLE_length] at hget
      exact (Option.some.inj hget).symm
  · intro j hj
    rw [e4, FlatMem.store_other _ _ _ _ (by omega)]

/-- A concrete case of C04's hypotheses: 3-byte big-endian words crossing a block boundary. -/
example : let m : Memory := ⟨8192, .sparse (SparseMemory.init 8192)⟩
    m.WF ∧ (∀ w ∈ [(0x010203 : Int), 0xffffff], 0 ≤ w ∧ w < (256 : Int) ^ 3) ∧ 4094 < m.size ∧
      4094 + [(0x010203 : Int), 0xffffff].length * 3 ≤ m.size :=
  ⟨⟨rfl, SparseMemory.WF_init _⟩, by decide, by decide, by decide⟩

/-- **C04, one word.** `write_word` (a list of one word) then `read_word` gives the word back, right up to the end of the
memory; `read_word` at any other disjoint place is not affected. -/
theorem C04_word_round_trip (m : Memory) (hm : m.WF) (a : Nat) (w : Int) (bo : ByteOrder) (ws : Nat)
    (hw : 0 ≤ w ∧ w < (256 : Int) ^ ws) (h1 : a < m.size) (h2 : a + ws ≤ m.size) :
    ∃ m', m.writeWords a [w] bo ws = (.ok (), m') ∧ m'.readWord a bo ws = .ok w.toNat ∧
      ∀ b : Nat, b < m.size → b + ws ≤ m.size → (b + ws ≤ a ∨ a + ws ≤ b) → m'.readWord b bo ws = m.readWord b bo ws := by
  obtain ⟨m', e1, e2, e3, ⟨l, e4, e5⟩, _, e6⟩ := C04_words_round_trip m hm a [w] bo ws
    (fun x hx => by rw [List.mem_singleton.mp hx]; exact hw) h1 (by simpa using h2)
  refine ⟨m', e1, ?_, ?_⟩
  · match l, e5 with
    | [n], e5 =>
      have hn : (n : Int) = w := by simpa using e5
      have h4 : m'.readWords a 1 bo ws = .ok [n] := e4
      simp only [readWord, h4, ← hn, List.getElem?_cons_zero, Int.toNat_natCast]
  · intro b hb hbn hdis
    have hr : m'.read b ((1 * ws : Nat) : Int) = m.read b ((1 * ws : Nat) : Int) := by
      rw [Nat.one_mul, read_ok m' e2 b ws (by omega) (by omega), read_ok m hm b ws hb hbn]
      congr 1
      simp only [FlatMem.load]
      apply List.map_congr_left
      intro i hi
      rw [List.mem_range] at hi
      exact e6 (b + i) (by simp only [List.length_singleton]; omega)
    simp only [readWord, readWords, hr]

example : (⟨4, .buf [1, 2, 3, 4]⟩ : Memory).WF ∧ 2 < 4 ∧ 2 + 2 ≤ 4 := ⟨⟨rfl, trivial⟩, by decide, by decide⟩

/-- **C04, overflow.** `write_words` raises `OverflowError`, leaving the memory untouched, exactly when some
word is negative or does not fit. -/
theorem C04_overflow (m : Memory) (a : Int) (words : List Int) (bo : ByteOrder) (ws : Nat)
    (h : ∃ w ∈ words, w < 0 ∨ (256 : Int) ^ ws ≤ w) :
    m.writeWords a words bo ws = (.error .overflowError, m) := by
  simp only [writeWords, (packWords_error_iff bo ws words).1 h]

example : ∃ w ∈ [(1 : Int), 65536], w < 0 ∨ (256 : Int) ^ 2 ≤ w := ⟨65536, by decide, by decide⟩

/-- **C04, bytes.** Plain `write` then `read` of an in-range window. -/
theorem C04_bytes_round_trip (m : Memory) (hm : m.WF) (a : Nat) (d : Bytes) (h1 : a < m.size)
    (h2 : a + d.length ≤ m.size) :
    ∃ m', m.write a d = (.ok (), m') ∧ m'.read a d.length = .ok d ∧
      (∀ b n : Nat, b < m.size → b + n ≤ m.size → (b + n ≤ a ∨ a + d.length ≤ b) →
        m'.read b n = m.read b n) := by
  obtain ⟨m', e1, e2, e3, e4⟩ := write_ok m hm a d h1 h2
  refine ⟨m', e1, ?_, ?_⟩
  · rw [read_ok m' e2 a _ (by omega) (by omega), e4, FlatMem.load_store_same]
  · intro b n hb hbn hdis
    rw [read_ok m' e2 b n (by omega) (by omega), read_ok m hm b n hb hbn, e4,
      FlatMem.load_store_disjoint _ _ _ _ _ hdis]

/-- **C05, exact.** Construction succeeds exactly below 2^63. -/
theorem C05_init_iff (size : Nat) :
    (∃ m, init size = .ok m ∧ m.WF ∧ m.size = size ∧ m.contents = FlatMem.zero) ↔ size < 2 ^ 63 := by
  have hi : init size = if size < 2 ^ 63 then .ok ⟨size, .sparse (SparseMemory.init size)⟩
      else .error .overflowError := by
    show (match pyLen size with
      | .ok n => Except.ok (ε := PyErr) (⟨n, .sparse (SparseMemory.init size)⟩ : Memory)
      | .error e => .error e) = _
    by_cases h : size < 2 ^ 63
    · simp only [pyLen, if_pos h]
    · simp only [pyLen, if_neg h]
  rw [hi]
  constructor
  · intro ⟨m, h, _⟩
    split at h
    · assumption
    · cases h
  · intro h
    rw [if_pos h]
    exact ⟨_, rfl, ⟨rfl, SparseMemory.WF_init size⟩, rfl, SparseMemory.contents_init size⟩

/-- **C05 is false of the code**: the default size `2**64` raises `OverflowError`. -/
theorem C05_violated : init = .error .overflowError := by rfl

/-- **C05, the part that holds**: every size below 2^63 can be constructed (missing: the documented default
2**64 and everything from 2^63 up, see `C05_violated`). -/
theorem C05_construct_partial (size : Nat) (h : size < 2 ^ 63) :
    ∃ m, init size = .ok m ∧ m.WF ∧ m.size = size ∧ m.contents = FlatMem.zero :=
  (C05_init_iff size).2 h

example : (65536 : Nat) < 2 ^ 63 := by decide

end Verif.Memory
