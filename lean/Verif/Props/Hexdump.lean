import Verif.Model.Hexdump
import Verif.Spec.Hexdump
import Verif.Proof.SparseMemory

/-!
# C60: hex dumps
-/

namespace Verif.Hexdump

theorem digitVal_digit (n : Nat) (h : n < 16) : digitVal (digit n) = some n := by
  have : ∀ n < 16, digitVal (digit n) = some n := by decide
  exact this n h

theorem digit_ne (n : Nat) (h : n < 16) : digit n ≠ ':' ∧ digit n ≠ ' ' ∧ digit n ≠ '\n' := by
  have : ∀ n < 16, digit n ≠ ':' ∧ digit n ≠ ' ' ∧ digit n ≠ '\n' := by decide
  exact this n h

theorem hex_mem (n : Nat) : ∀ c ∈ hex n, c ≠ ':' ∧ c ≠ ' ' ∧ c ≠ '\n' := by
  induction n using Nat.strongRecOn with
  | _ n ih =>
    intro c hc
    rw [hex] at hc
    split at hc
    · rename_i h; simp at hc; subst hc; exact digit_ne n h
    · rcases List.mem_append.1 hc with h | h
      · exact ih (n / 16) (by omega) c h
      · simp at h; subst h; exact digit_ne _ (Nat.mod_lt _ (by decide))

theorem hexVal_append (l : List Char) (c : Char) : hexVal (l ++ [c]) = match hexVal l, digitVal c with
    | some v, some d => some (16 * v + d)
    | _, _ => none := by
  unfold hexVal; rw [List.foldl_append]; rfl

theorem hexVal_hex (n : Nat) : hexVal (hex n) = some n := by
  induction n using Nat.strongRecOn with
  | _ n ih =>
    rw [hex]
    split
    · rename_i h
      show (match some 0, digitVal (digit n) with | some v, some d => some (16 * v + d) | _, _ => none) = _
      rw [digitVal_digit n h]; simp
    · rw [hexVal_append, ih (n / 16) (by omega), digitVal_digit _ (Nat.mod_lt _ (by decide))]
      simp; omega

theorem hexVal_zeros (k : Nat) (l : List Char) : hexVal (List.replicate k '0' ++ l) = hexVal l := by
  induction k with
  | zero => rfl
  | succ k ih => rw [List.replicate_succ, List.cons_append]; exact ih

theorem hexPad_val (w n : Nat) : hexVal (hexPad w n) = some n := by rw [hexPad, hexVal_zeros, hexVal_hex]

theorem hexPad_mem (w n : Nat) : ∀ c ∈ hexPad w n, c ≠ ':' ∧ c ≠ ' ' ∧ c ≠ '\n' := by
  intro c hc
  rcases List.mem_append.1 hc with h | h
  · rw [(List.mem_replicate.1 h).2]; decide
  · exact hex_mem n c h

theorem hexPad_byte (ch : UInt8) : hexPad 2 ch.toNat = [digit (ch.toNat / 16), digit (ch.toNat % 16)] := by
  have hlt : ch.toNat < 256 := ch.toNat_lt
  unfold hexPad
  by_cases h : ch.toNat < 16
  · rw [show hex ch.toNat = [digit ch.toNat] by rw [hex, dif_pos h], Nat.div_eq_of_lt h, Nat.mod_eq_of_lt h]; rfl
  · have : hex ch.toNat = [digit (ch.toNat / 16), digit (ch.toNat % 16)] := by
      rw [hex, dif_neg h, hex, dif_pos (by omega)]; rfl
    rw [this]; rfl

theorem columns_len (d : Bytes) : (columns d).1.length = 3 * d.length ∧ (columns d).2.length = d.length := by
  induction d with
  | nil => exact ⟨rfl, rfl⟩
  | cons ch d ih => simp only [columns, hexPad_byte]; simp; omega

theorem unhex_spaces (k : Nat) : unhex (List.replicate (3 * k) ' ') = some [] := by
  cases k with
  | zero => rfl
  | succ k =>
    rw [show 3 * (k + 1) = 3 * k + 1 + 1 + 1 by omega, List.replicate_succ, List.replicate_succ, List.replicate_succ, unhex]
    simp

theorem unhex_columns (d : Bytes) (k : Nat) : unhex ((columns d).1 ++ List.replicate (3 * k) ' ') = some d := by
  induction d with
  | nil => exact unhex_spaces k
  | cons ch d ih =>
    have hlt : ch.toNat < 256 := ch.toNat_lt
    simp only [columns, hexPad_byte, List.cons_append, List.nil_append]
    rw [unhex, if_neg (digit_ne _ (by omega)).2.1, ih, digitVal_digit _ (by omega), digitVal_digit _ (by omega)]
    simp only [Option.some.injEq, List.cons.injEq, and_true]
    rw [Nat.div_add_mod]; simp

theorem text_columns (d : Bytes) : (columns d).2 = d.map asText := by
  induction d with
  | nil => rfl
  | cons ch d ih =>
    simp only [columns, List.map_cons, ih]
    congr 1
    unfold shown asText
    have h1 : '!'.toNat = 33 := rfl
    have h2 : '~'.toNat = 126 := rfl
    rw [h1, h2]
    split <;> split <;> first | rfl | (exfalso; omega)

theorem takeWhile_label (a : List Char) (b : List Char) (h : ∀ c ∈ a, c ≠ ':') :
    (a ++ ':' :: b).takeWhile (· != ':') = a ∧ (a ++ ':' :: b).dropWhile (· != ':') = ':' :: b := by
  induction a with
  | nil => exact ⟨rfl, rfl⟩
  | cons c a ih =>
    have hc : (c != ':') = true := by simpa using h c (by simp)
    obtain ⟨i1, i2⟩ := ih (fun c hc => h c (by simp [hc]))
    exact ⟨by rw [List.cons_append, List.takeWhile_cons, hc, if_pos rfl, i1], by rw [List.cons_append, List.dropWhile_cons, hc, if_pos rfl, i2]⟩

/-- One line: the label, the bytes and the text can be read off. -/
theorem line_reads (d : Bytes) (off row : Nat) (h : d.length ≤ row) :
    label (line d off row) = some off ∧ bytesOf row (line d off row) = some d ∧ textOf row (line d off row) = d.map asText := by
  have hd : pySlice d 0 row = d := by rw [pySlice, List.take_of_length_le h]; rfl
  have hl : line d off row = hexPad 8 off ++ ':' :: (' ' :: (padRight (row * 3) (columns d).1 ++ ' ' :: (columns d).2)) := by
    simp only [line, hd]; simp
  obtain ⟨t1, t2⟩ := takeWhile_label (hexPad 8 off) (' ' :: (padRight (row * 3) (columns d).1 ++ ' ' :: (columns d).2))
    (fun c hc => (hexPad_mem 8 off c hc).1)
  have hp : padRight (row * 3) (columns d).1 = (columns d).1 ++ List.replicate (3 * (row - d.length)) ' ' := by
    unfold padRight; rw [(columns_len d).1]; congr 2; omega
  have hpl : (padRight (row * 3) (columns d).1).length = 3 * row := by
    rw [hp, List.length_append, List.length_replicate, (columns_len d).1]; omega
  refine ⟨?_, ?_, ?_⟩
  · rw [label, hl, t1, hexPad_val]
  · rw [bytesOf, hl, t2]
    simp only [List.drop_succ_cons, List.drop_zero]
    rw [List.take_left' hpl, hp, unhex_columns]
  · rw [textOf, hl, t2]
    simp only [List.drop_succ_cons, List.drop_zero]
    rw [List.drop_append, hpl]
    rw [List.drop_of_length_le (by omega), show 3 * row + 1 - 3 * row = 1 by omega]
    simp [text_columns]

/-- What the loop gives, row by row. -/
theorem loop_spec (get : Nat → Nat → Py Bytes) (D : Nat → Bytes) (stop row : Nat) (pre : Str) (offset : Nat) (ks : List Nat)
    (hget : ∀ k ∈ ks, get k (min (k + row) stop) = .ok (D k)) :
    loop get stop row pre offset ks = .ok (ks.map fun k => pre ++ line (D k) (k + offset) row) := by
  induction ks with
  | nil => rfl
  | cons k ks ih =>
    rw [loop, hget k (by simp), ih (fun k hk => hget k (by simp [hk]))]
    rfl

/-- A dump of an object whose slices are those of `data`. -/
theorem linesOf_spec (data : Bytes) (get : Nat → Nat → Py Bytes)
    (hget : ∀ a b, a < b → b ≤ data.length → get a b = .ok (pySlice data a b)) (start : Nat) (length : Option Nat)
    (row : Nat) (pre : Str) (offset : Nat) (hrow : 0 < row) (hlen : length ≠ some 0) :
    linesOf data.length get start length row pre offset =
      .ok ((List.range (((requested data start length).length + row - 1) / row)).map fun i =>
        pre ++ line (rowOf (requested data start length) row i) (start + i * row + offset) row) := by
  have hstop : stopOf data.length start length ≤ data.length ∧
      (requested data start length).length = stopOf data.length start length - start ∧
      ∀ i n, pySlice data (start + i) (min (start + i + n) (stopOf data.length start length)) = ((requested data start length).drop i).take n := by
    have gen : ∀ stop, (∀ i n, pySlice data (start + i) (min (start + i + n) stop) = (((data.take stop).drop start).drop i).take n) := by
      intro stop i n
      rw [pySlice, List.drop_drop, List.take_drop, List.take_take]
    cases length with
    | none =>
      refine ⟨Nat.le_refl _, by simp [requested, stopOf], fun i n => ?_⟩
      rw [gen]
      simp [stopOf, requested]
    | some n =>
      have hn : n ≠ 0 := fun h => hlen (by rw [h])
      have hs : stopOf data.length start (some n) = min (start + n) data.length := by simp [stopOf, hn]
      refine ⟨by rw [hs]; omega, by rw [hs]; simp [requested]; omega, fun i k => ?_⟩
      rw [gen, hs]
      congr 2
      show _ = (data.drop start).take n
      rw [List.take_drop]
      congr 1
      rw [← List.take_take, List.take_length]
  obtain ⟨h1, h2, h3⟩ := hstop
  unfold linesOf
  simp only [range]
  rw [if_neg (by omega)]
  simp only
  rw [loop_spec get (fun k => pySlice data k (min (k + row) (stopOf data.length start length)))]
  · rw [h2, List.map_map]
    congr 1
    apply List.map_congr_left
    intro i _
    simp only [Function.comp]
    rw [h3]; rfl
  · intro k hk
    obtain ⟨i, hi, rfl⟩ := List.mem_map.1 hk
    rw [List.mem_range] at hi
    have : i * row < stopOf data.length start length - start := by
      have h4 := (Nat.lt_div_iff_mul_lt hrow).1 hi
      have h5 : row * i = i * row := Nat.mul_comm _ _
      omega
    exact hget _ _ (by omega) (by omega)

/-- The rows of a list, one after another, are the list. -/
theorem rows_flatten (d : Bytes) (row : Nat) (hrow : 0 < row) :
    (((List.range ((d.length + row - 1) / row)).map (rowOf d row)).flatten) = d := by
  have key : ∀ m, (((List.range m).map (rowOf d row)).flatten) = d.take (m * row) := by
    intro m
    induction m with
    | zero => simp
    | succ m ih =>
      rw [List.range_succ, List.map_append, List.flatten_append, ih]
      simp only [List.map_cons, List.map_nil, List.flatten_cons, List.flatten_nil, List.append_nil, rowOf]
      rw [Nat.succ_mul, List.take_add]
  rw [key, List.take_of_length_le]
  have := Nat.div_add_mod (d.length + row - 1) row
  have h2 := Nat.mod_lt (d.length + row - 1) hrow
  rw [Nat.mul_comm]; omega

/-- What a reader sees in a list of lines that dump `d` from address `first` on. -/
structure Dumps (ls : List Str) (pre : Str) (row first : Nat) (d : Bytes) : Prop where
  /-- there is one line per row, the last of which may be short -/
  count : ls.length = (d.length + row - 1) / row
  /-- line `i` starts with the prefix, and is labelled with the address of its first byte; its hex column and its text column show
  row `i` -/
  each : ∀ (i : Nat) (l : Str), ls[i]? = some l → ∃ t, l = pre ++ t ∧ label t = some (first + i * row) ∧
    bytesOf row t = some (rowOf d row i) ∧ textOf row t = (rowOf d row i).map asText
  /-- the hex columns, one after another, are the data -/
  all : ls.flatMap (fun l => (bytesOf row (l.drop pre.length)).getD []) = d

theorem dumps_rows (pre : Str) (row first : Nat) (d : Bytes) (hrow : 0 < row) (off : Nat → Nat)
    (hoff : ∀ i, off i = first + i * row) :
    Dumps ((List.range ((d.length + row - 1) / row)).map fun i => pre ++ line (rowOf d row i) (off i) row) pre row first d := by
  have hr : ∀ i, (rowOf d row i).length ≤ row := fun i => by simp [rowOf]; omega
  refine ⟨by simp, fun i l hl => ?_, ?_⟩
  · rw [List.getElem?_map, List.getElem?_range] at hl
    · simp only [Option.map_some, Option.some.injEq] at hl
      obtain ⟨h1, h2, h3⟩ := line_reads (rowOf d row i) (off i) row (hr i)
      exact ⟨_, hl.symm, by rw [h1, hoff], h2, h3⟩
    · rcases Nat.lt_or_ge i ((d.length + row - 1) / row) with h | h
      · exact h
      · rw [List.getElem?_eq_none (by simpa using h)] at hl; simp at hl
  · conv => rhs; rw [← rows_flatten d row hrow]
    rw [List.flatMap_def, List.map_map]
    congr 1
    apply List.map_congr_left
    intro i _
    obtain ⟨-, h2, -⟩ := line_reads (rowOf d row i) (off i) row (hr i)
    simp only [Function.comp, List.drop_left, h2, Option.getD_some]

/-- **C60**: for all data, starts, lengths other than 0, row sizes other than 0, prefixes and offsets, `hexdump_lines` dumps the
requested slice. -/
theorem C60_lines (data : Bytes) (start : Nat) (length : Option Nat) (row : Nat) (pre : Str) (offset : Nat) (hrow : 0 < row)
    (hlen : length ≠ some 0) : ∃ ls, lines data start length row pre offset = .ok ls ∧
      Dumps ls pre row (start + offset) (requested data start length) := by
  refine ⟨_, linesOf_spec data _ (fun _ _ _ _ => rfl) start length row pre offset hrow hlen, ?_⟩
  exact dumps_rows pre row (start + offset) _ hrow _ (fun i => by omega)

/-- **C60**: row size 0 raises `ValueError`. -/
theorem C60_row_zero (data : Bytes) (start : Nat) (length : Option Nat) (pre : Str) (offset : Nat) :
    lines data start length 0 pre offset = .error .valueError := rfl

/-- A text split at its newlines. -/
def splitNL : Str → List Str
  | [] => [[]]
  | c :: s => if c = '\n' then [] :: splitNL s else match splitNL s with
    | l :: ls => (c :: l) :: ls
    | [] => [[c]]

theorem splitNL_append (l s : Str) (h : '\n' ∉ l) : splitNL (l ++ '\n' :: s) = l :: splitNL s := by
  induction l with
  | nil => simp [splitNL]
  | cons c l ih =>
    rw [List.cons_append, splitNL, if_neg (by simp at h; exact fun hh => h.1 hh.symm), ih (by simp at h; exact h.2)]

theorem splitNL_single (l : Str) (h : '\n' ∉ l) : splitNL l = [l] := by
  induction l with
  | nil => rfl
  | cons c l ih => rw [splitNL, if_neg (by simp at h; exact fun hh => h.1 hh.symm), ih (by simp at h; exact h.2)]

theorem splitNL_join (ls : List Str) (hne : ls ≠ []) (h : ∀ l ∈ ls, '\n' ∉ l) : splitNL (joinNL ls) = ls := by
  induction ls with
  | nil => exact absurd rfl hne
  | cons l ls ih =>
    cases ls with
    | nil => exact splitNL_single l (h l (by simp))
    | cons m ls =>
      rw [joinNL, splitNL_append l _ (h l (by simp)), ih (by simp) (fun l hl => h l (by simp [hl]))]
      simp

theorem line_noNL (d : Bytes) (off row : Nat) : '\n' ∉ line d off row := by
  have hcol : ∀ d : Bytes, '\n' ∉ (columns d).1 ∧ '\n' ∉ (columns d).2 := by
    intro d
    induction d with
    | nil => exact ⟨by simp [columns], by simp [columns]⟩
    | cons ch d ih =>
      have hlt : ch.toNat < 256 := ch.toNat_lt
      have hs : ('\n' : Char) ≠ shown ch := by
        have : ∀ n < 127, 32 < n → ('\n' : Char) ≠ Char.ofNat n := by decide
        unfold shown
        split
        · rename_i h; exact this _ h.2 h.1
        · decide
      refine ⟨?_, by simp only [columns, List.mem_cons, not_or]; exact ⟨hs, ih.2⟩⟩
      simp only [columns, List.mem_append, List.mem_cons, not_or]
      exact ⟨fun h => (hexPad_mem 2 _ _ h).2.2 rfl, by decide, ih.1⟩
  unfold line
  simp only [List.mem_append, List.mem_cons, not_or, padRight]
  refine ⟨⟨⟨fun h => (hexPad_mem 8 _ _ h).2.2 rfl, by decide, by decide, by simp⟩, (hcol _).1, ?_⟩, by decide, (hcol _).2⟩
  intro h
  exact absurd (List.mem_replicate.1 h).2 (by decide)

/-- **C60**: the lines of `hexdump_str`, if the prefix has no newline and there is something to show, are those of `hexdump_lines`. -/
theorem C60_str (data : Bytes) (start : Nat) (length : Option Nat) (row : Nat) (pre : Str) (offset : Nat) (hrow : 0 < row)
    (hlen : length ≠ some 0) (hpre : '\n' ∉ pre) (hne : requested data start length ≠ []) :
    ∃ s, str data start length row pre offset = .ok s ∧
      Dumps (splitNL s) pre row (start + offset) (requested data start length) := by
  have h := linesOf_spec data (fun a b => .ok (pySlice data a b)) (fun _ _ _ _ => rfl) start length row pre offset hrow hlen
  have hl : str data start length row pre offset = .ok (joinNL ((List.range (((requested data start length).length + row - 1) /
      row)).map fun i => pre ++ line (rowOf (requested data start length) row i) (start + i * row + offset) row)) := by
    rw [str, lines, h]
  refine ⟨_, hl, ?_⟩
  rw [splitNL_join]
  · exact dumps_rows pre row (start + offset) _ hrow _ (fun i => by omega)
  · intro h0
    have := congrArg List.length h0
    rw [List.length_map, List.length_range, List.length_nil] at this
    have hpos : 0 < (requested data start length).length := List.length_pos_iff.2 hne
    have h3 : 1 ≤ ((requested data start length).length + row - 1) / row := (Nat.le_div_iff_mul_le hrow).2 (by omega)
    omega
  · intro l hl
    obtain ⟨i, -, rfl⟩ := List.mem_map.1 hl
    rw [List.mem_append, not_or]
    exact ⟨hpre, line_noNL _ _ _⟩

-- 37 bytes from 3, in rows of 10.
example : lines ((List.range 40).map fun i => UInt8.ofNat (i + 30)) 3 (some 15) 10 "> ".toList 0x1000 = .ok
    ["> 00001003: 21 22 23 24 25 26 27 28 29 2a  !\"#$%&'()*".toList, "> 0000100d: 2b 2c 2d 2e 2f                 +,-./".toList] := by
  decide +kernel
example : (bytesOf 10 "0000100d: 2b 2c 2d 2e 2f                 +,-./".toList) = some [0x2b, 0x2c, 0x2d, 0x2e, 0x2f] ∧
    label "0000100d: 2b 2c 2d 2e 2f                 +,-./".toList = some 0x100d := by decide +kernel

/-- **C60** is false of the code for length 0: everything from `start` to the end is shown. -/
theorem C60_violated (data : Bytes) (start row : Nat) (pre : Str) (offset : Nat) :
    lines data start (some 0) row pre offset = lines data start none row pre offset ∧
    requested data start (some 0) = [] ∧
    lines [1, 2, 3] 1 (some 0) = .ok ["00000001: 02 03                                            ..".toList] :=
  ⟨rfl, by simp [requested], by decide +kernel⟩

/-- **C60**: `SparseMemory.hexdump_lines` dumps what `read` returns, labelled with its addresses, for every window that `read`
accepts, even an empty one. -/
theorem C60_sparse (m : SparseMemory) (address length : Nat) (pre : Str) (d : Bytes) (h : m.read address length = .ok d) :
    ∃ ls, m.hexdumpLines address length pre = .ok ls ∧ Dumps ls pre 16 address d := by
  obtain ⟨ls, h1, h2⟩ := C60_lines d 0 none 16 pre address (by decide) (by simp)
  refine ⟨ls, by rw [SparseMemory.hexdumpLines, h]; exact h1, ?_⟩
  rw [Nat.zero_add] at h2
  exact h2

/-- **C60**: so does `MemoryRegion.hexdump_lines`. -/
theorem C60_region (mem : Bytes) (address length : Nat) (pre : Str) :
    ∃ ls, regionHexdumpLines mem address length pre = .ok ls ∧
      Dumps ls pre 16 address ((mem.drop address).take length) := by
  obtain ⟨ls, h1, h2⟩ := C60_lines (pySlice mem address (address + length)) 0 none 16 pre address (by decide) (by simp)
  refine ⟨ls, h1, ?_⟩
  rw [Nat.zero_add] at h2
  have : requested (pySlice mem address (address + length)) 0 none = (mem.drop address).take length := by
    simp only [requested, List.drop_zero, pySlice]
    rw [List.take_drop]
  rw [this] at h2
  exact h2

/-- **C60**: `Memory.hexdump_lines` dumps what `Memory.read` returns, if the length is not 0 and the window lies in the memory. -/
theorem C60_memory (m : Memory) (address length : Nat) (pre : Str) (hlen : 0 < length)
    (hm : ∀ s, m.mem = .sparse s → s.WF) (hsz : m.mem.rawLen < 2 ^ 63) (hin : address + length ≤ m.mem.rawLen) :
    ∃ d ls, m.read address length = .ok d ∧ m.hexdumpLines address length pre = .ok ls ∧ Dumps ls pre 16 address d := by
  have hsb : ∀ z d n : Nat, z ≤ n → sliceBound (some (z : Int)) d n = z := by
    intro z d n hz
    simp only [sliceBound]
    rw [if_neg (by omega), if_neg (by omega)]
    rfl
  -- the bytes of the whole memory
  have hflat : ∃ data : Bytes, data.length = m.mem.rawLen ∧
      ∀ a b : Nat, a < b → b ≤ data.length → m.mem.getSlice a b = .ok (pySlice data a b) := by
    cases hmem : m.mem with
    | buf b =>
      refine ⟨b, rfl, fun x y hxy hy => ?_⟩
      simp only [Backing.getSlice]
      rw [hsb _ _ _ (by omega), hsb _ _ _ (by omega)]
    | sparse s =>
      have hwf := hm s hmem
      refine ⟨s.contents.load 0 s.size, by simp [Backing.rawLen, FlatMem.load], fun x y hxy hy => ?_⟩
      have hy' : y ≤ s.size := by simpa [FlatMem.load] using hy
      have h1 : (Backing.sparse s).getSlice x y = s.read (x : Int) ((y - x : Nat) : Int) := by
        simp only [Backing.getSlice, SparseMemory.getSlice]
        rw [if_pos (Or.inl trivial), hsb _ _ _ (by omega), hsb _ _ _ (by omega)]
        congr 1; omega
      rw [h1, SparseMemory.read_ok s hwf x (y - x) (by omega) (by omega)]
      congr 1
      have e1 : s.size = x + (y - x) + (s.size - y) := by omega
      rw [pySlice, e1, FlatMem.load_add, FlatMem.load_add, Nat.zero_add]
      rw [List.take_left' (by simp [FlatMem.load]; omega), List.drop_left' (by simp [FlatMem.load])]
  obtain ⟨data, hdl, hget⟩ := hflat
  have hr : m.read address length = .ok (requested data address (some length)) := by
    have : m.read address length = m.mem.getSlice (address : Int) ((address + length : Nat) : Int) := rfl
    rw [this, hget _ _ (by omega) (by omega)]
    simp only [requested, pySlice]
    rw [List.take_drop]
  refine ⟨_, (List.range (((requested data address (some length)).length + 16 - 1) / 16)).map fun i =>
      pre ++ line (rowOf (requested data address (some length)) 16 i) (address + i * 16 + 0) 16, hr, ?_, ?_⟩
  · rw [Memory.hexdumpLines, pyLen, if_pos hsz]
    simp only
    rw [← hdl]
    exact linesOf_spec data _ hget address (some length) 16 pre 0 (by decide) (by simp; omega)
  · exact dumps_rows pre 16 address _ (by decide) _ (fun i => by omega)

/-- **C60** is false of the code for `Memory.hexdump_lines` of length 0. -/
theorem C60_memory_violated : (Memory.mk 3 (.buf [1, 2, 3])).read 1 0 = .ok [] ∧
    (Memory.mk 3 (.buf [1, 2, 3])).hexdumpLines 1 0 = .ok ["00000001: 02 03                                            ..".toList] := by
  decide +kernel

-- The same dump of a sparse memory shows nothing.
example : ((SparseMemory.init 3).hexdumpLines 1 0) = .ok [] := by decide +kernel
example : ((SparseMemory.init 30).write 1 [1, 2, 3]).2.hexdumpLines 2 2 = .ok
    ["00000002: 02 03                                            ..".toList] := by decide +kernel

end Verif.Hexdump
