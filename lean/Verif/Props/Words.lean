import Verif.Model.Words
import Verif.Props.AxiSysMapped
import Verif.Props.LiteMapped
import Verif.Props.ApbMapped

/-!
# C111–C113: word accesses of interfaces and over the buses
-/

namespace Verif
open Memory

/-- If the bytes of the words from the `j`-th on were read, they are decoded to these words. -/
theorem unpack_pack {bo : ByteOrder} {ws : Nat} {words : List Int} {d data : Bytes} {j count : Nat} (hd : packWords bo ws words = .ok d)
    (hj : j + count ≤ words.length) (hlen : data.length = count * ws) (h : ∀ i < count * ws, data[i]? = d[ws * j + i]?) :
    (unpackWords bo ws data count).map (fun n : Nat => (n : Int)) = pySlice words j (j + count) := by
  apply List.ext_getElem?
  intro k
  rcases Nat.lt_or_ge k count with hk | hk
  · have e : pySlice data (ws * k) (ws * (k + 1)) = pySlice d (ws * (j + k)) (ws * (j + k + 1)) := by
      have h1 : ws * k + ws ≤ count * ws := by
        rw [← Nat.mul_succ, Nat.mul_comm]; exact Nat.mul_le_mul_right _ hk
      have h2 := packWords_length bo ws words d hd
      have h3 : ws * (j + k) + ws ≤ words.length * ws := by
        rw [← Nat.mul_succ, Nat.mul_comm]; exact Nat.mul_le_mul_right _ (by omega)
      apply List.ext_getElem?
      intro i
      rcases Nat.lt_or_ge i ws with hi | hi
      · rw [SparseMemory.pySlice_getElem? _ _ _ _ (by rw [Nat.mul_succ]; omega),
          SparseMemory.pySlice_getElem? _ _ _ _ (by rw [Nat.mul_succ]; omega), h _ (by omega), Nat.mul_add]
        congr 1; omega
      · rw [List.getElem?_eq_none (by simp [pySlice, Nat.mul_succ]; omega),
          List.getElem?_eq_none (by simp [pySlice, Nat.mul_succ]; omega)]
    have hk' : j + k < words.length := by omega
    rw [SparseMemory.pySlice_getElem? _ _ _ _ (by omega), List.getElem?_eq_getElem hk']
    simp only [unpackWords, List.map_map, List.getElem?_map, List.getElem?_range hk, Option.map_some, Function.comp, e]
    rw [(fromBytes_toBytes ws bo _ _ (packWords_slice bo ws words d hd _ hk')).2.2.2]
  · rw [List.getElem?_eq_none (by simp [unpackWords, hk]), List.getElem?_eq_none (by simp [pySlice]; omega)]

theorem packWords_ok (bo : ByteOrder) (ws : Nat) (words : List Int) (hw : ∀ w ∈ words, 0 ≤ w ∧ w < (256 : Int) ^ ws) :
    ∃ d, packWords bo ws words = .ok d := by
  induction words with
  | nil => exact ⟨[], rfl⟩
  | cons w rest ih =>
    obtain ⟨d, hd⟩ := ih fun x hx => hw x (by simp [hx])
    have := hw w (by simp)
    have hcast : ((256 ^ ws : Nat) : Int) = (256 : Int) ^ ws := by simp
    simp only [packWords, toBytes, hd]
    rw [if_neg (by omega), if_neg (by omega)]
    exact ⟨_, rfl⟩

/-- **C111.** On every interface with an address map (regions, windows, address spaces: C102), `write_words` to mapped addresses succeeds,
`read_words` then returns the words, the cells hold the digits of the words in the byte order asked for, and no other cell changes. -/
theorem C111_round_trip {σ κ : Type} {p : Iface σ} {good : σ → Prop} {f : Nat → Option κ} {val : σ → κ → UInt8}
    (M : Mapped (Target.ofIface p) good f val) (st : σ) (hst : good st) (a : Nat) (words : List Int) (bo : ByteOrder) (ws : Nat)
    (hws : 0 < ws) (hne : words ≠ []) (hw : ∀ w ∈ words, 0 ≤ w ∧ w < (256 : Int) ^ ws)
    (hmap : ∀ i < words.length * ws, f (a + i) ≠ none) :
    ∃ st', p.writeWords a words bo ws st = (.ok (), st') ∧ good st' ∧
      (∃ l, p.readWords a words.length bo ws st' = (.ok l, st') ∧ l.map (fun n : Nat => (n : Int)) = words) ∧
      (∀ k i x (hk : k < words.length), i < ws → f (a + ws * k + i) = some x → val st' x = UInt8.ofNat
        (words[k].toNat / 256 ^ (match bo with | .little => i | .big => ws - 1 - i))) ∧
      ∀ x, (∀ i < words.length * ws, f (a + i) ≠ some x) → val st' x = val st x := by
  obtain ⟨d, hd⟩ := packWords_ok bo ws words hw
  have hl := packWords_length bo ws words d hd
  have hpos : 1 ≤ words.length * ws := Nat.mul_pos (List.length_pos_iff.2 hne) hws
  obtain ⟨st', e1, e2, e3, e4⟩ := M.write_ok st a d hst (by omega) (by rwa [hl])
  obtain ⟨r, r1, r2, r3⟩ := M.read_ok st' a (words.length * ws) e2 hpos hmap
  refine ⟨st', ?_, e2, ⟨unpackWords bo ws r words.length, ?_, ?_⟩, ?_, ?_⟩
  · simp only [Iface.writeWords, hd]
    exact e1
  · have r1' : p.read a ((words.length * ws : Nat) : Int) st' = (.ok r, st') := r1
    simp only [Iface.readWords, r1']
  · rw [unpack_pack (j := 0) hd (by omega) r2 ?_]
    · simp [pySlice]
    · intro i hi
      obtain ⟨x, hx⟩ := Option.ne_none_iff_exists'.1 (hmap i hi)
      rw [r3 i hi x hx, e3 i (by omega) x hx, Nat.mul_zero, Nat.zero_add]
  · intro k i x hk hi hx
    have hin : ws * k + i < d.length := by
      rw [hl]
      have : ws * k + ws ≤ words.length * ws := by
        rw [← Nat.mul_succ, Nat.mul_comm]; exact Nat.mul_le_mul_right _ hk
      omega
    have hv := e3 (ws * k + i) hin x (by rw [← Nat.add_assoc]; exact hx)
    have hb := packWords_slice bo ws words d hd k hk
    have hget : (pySlice d (ws * k) (ws * (k + 1)))[i]? = some (val st' x) := by
      rw [SparseMemory.pySlice_getElem? _ _ _ _ (by rw [Nat.mul_succ]; omega), hv]
    obtain ⟨_, h0, hlt, _⟩ := fromBytes_toBytes ws bo _ _ hb
    simp only [toBytes] at hb
    rw [if_neg (by omega), if_neg (by omega)] at hb
    have hb := Except.ok.inj hb
    rw [← hb] at hget
    cases bo with
    | little =>
      dsimp only at hget ⊢
      rw [List.getElem?_eq_getElem (by rw [digitsLE_length]; exact hi), digitsLE_getElem] at hget
      exact (Option.some.inj hget).symm
    | big =>
      dsimp only at hget ⊢
      rw [List.getElem?_eq_getElem (by rw [List.length_reverse, digitsLE_length]; exact hi),
        List.getElem_reverse, digitsLE_getElem, digitsLE_length] at hget
      exact (Option.some.inj hget).symm
  · intro x hx
    exact e4 x fun i hi => hx i (by omega)

/-- **C111, errors.** A word that does not fit makes `write_words` raise `OverflowError` before anything is written. An access that touches an
unmapped address raises, too. -/
theorem C111_errors {σ κ : Type} {p : Iface σ} {good : σ → Prop} {f : Nat → Option κ} {val : σ → κ → UInt8}
    (M : Mapped (Target.ofIface p) good f val) (st : σ) (hst : good st) (a : Nat) (words : List Int) (bo : ByteOrder) (ws : Nat) :
    ((∃ w ∈ words, w < 0 ∨ (256 : Int) ^ ws ≤ w) → p.writeWords a words bo ws st = (.error .overflowError, st)) ∧
    ((∃ i < words.length * ws, f (a + i) = none) → ∃ e st', p.writeWords a words bo ws st = (.error e, st')) ∧
    ∀ count : Nat, (∃ i < count * ws, f (a + i) = none) → ∃ e, p.readWords a count bo ws st = (.error e, st) := by
  refine ⟨fun h => ?_, fun h => ?_, fun count h => ?_⟩
  · simp only [Iface.writeWords, (packWords_error_iff bo ws words).1 h]
  · simp only [Iface.writeWords]
    cases hp : packWords bo ws words with
    | error e => exact ⟨e, st, rfl⟩
    | ok d =>
      have hl := packWords_length bo ws words d hp
      obtain ⟨i, hi, hf⟩ := h
      obtain ⟨e, st', h1, _⟩ := M.write_fail st a d hst (by omega) ⟨i, by omega, hf⟩
      exact ⟨e, st', h1⟩
  · obtain ⟨i, hi, hf⟩ := h
    obtain ⟨e, h1⟩ := M.read_fail st a (count * ws) hst (by omega) ⟨i, hi, hf⟩
    have h1' : p.read a ((count * ws : Nat) : Int) st = (.error e, st) := h1
    exact ⟨e, by simp only [Iface.readWords, h1']⟩

/-- **C113, as far as it holds.** Full statement: a word access that fails is reported to the caller. Proved for memory interfaces, where it
raises. False for the bus masters, where the response is dropped (`Apb.C113_violated`). -/
theorem C113_interfaces_partial {σ κ : Type} {p : Iface σ} {good : σ → Prop} {f : Nat → Option κ} {val : σ → κ → UInt8}
    (M : Mapped (Target.ofIface p) good f val) (st : σ) (hst : good st) (a : Nat) (words : List Int) (bo : ByteOrder) (ws : Nat) :
    ((∃ i < words.length * ws, f (a + i) = none) → ∃ e st', p.writeWords a words bo ws st = (.error e, st')) ∧
    ∀ count : Nat, (∃ i < count * ws, f (a + i) = none) → ∃ e, p.readWords a count bo ws st = (.error e, st) :=
  (C111_errors M st hst a words bo ws).2

/-- Three big-endian words of 2 bytes across the two memories of `exSpace`. -/
example : ∃ st', AddressSpace.exSpace.toIface.writeWords (2 : Nat) [1, 0x203, 0x405] .big 2 AddressSpace.exHeap = (.ok (), st') ∧
    cell st' (1, 1) = 3 := by
  obtain ⟨st', h1, _, _, h2, _⟩ := C111_round_trip AddressSpace.exMapped AddressSpace.exHeap AddressSpace.exGood 2 [1, 0x203, 0x405] .big 2
    (by decide) (by decide) (by decide) (by decide)
  exact ⟨st', h1, by rw [h2 1 1 (1, 1) (by decide) (by decide) rfl]; rfl⟩

/-! ## AXI -/

namespace AxiSys
open Axi AxiOps

/-- **C112, AXI, RAM.** `write_words(a, words, byteorder, ws)` completed, then `read_words` of `count` of these words from the `j`-th on was called
and has completed: it returns these words, if no write that covers one of the bytes was issued after the first. -/
theorem C112_ram {c : Cfg} {wa : Nat → WArgs} {ra : Nat → Req} {m0 : Memory} {evs : List Ev} {n : Nat} (H : RamCalls c wa ra m0 evs n)
    (wop : Op) (wgot : List BBeat) (k : Nat) (hk : k ≤ n) (hw : (wop, some wgot) ∈ (ramAt c wa ra m0 evs k).w.m.results)
    (rop : Op) (rgot : List RBeat) (hlate : rop ∉ (ramAt c wa ra m0 evs k).r.m.issued)
    (hr : (rop, some rgot) ∈ (ramAt c wa ra m0 evs n).r.m.results)
    (a : Nat) (words : List Int) (bo : ByteOrder) (ws j count : Nat) (hww : (wa wop.key).ofWords a words bo ws)
    (hrw : (ra rop.key).ofWords (a + ws * j : Nat) count ws) (hj : j + count ≤ words.length)
    (hlast : ∀ op ∈ (ramAt c wa ra m0 evs n).w.m.issued, ∀ b, a + ws * j ≤ b → b < a + ws * j + count * ws → Covers wa op b →
      op = wop ∨ Before (ramAt c wa ra m0 evs n).w.m op wop) :
    ∃ data, returnsR c (ra rop.key) rgot data .okay ∧
      (wordsOf bo ws count (data, .okay)).map (fun n : Nat => (n : Int)) = pySlice words j (j + count) := by
  obtain ⟨hw1, hw2⟩ := hww
  obtain ⟨hr1, hr2⟩ := hrw
  obtain ⟨data, d1, d2, tr, R⟩ := C90_read H rop rgot hr
  rw [hr1, hr2] at R
  rw [hr2] at d2
  simp only [Int.toNat_natCast] at R d2
  refine ⟨data, d1, unpack_pack hw2 hj d2 fun i hi => ?_⟩
  obtain ⟨r1, r2, r3, _⟩ := R i hi
  have hl := packWords_length bo ws words _ hw2
  have hle : ws * j + count * ws ≤ words.length * ws := by
    rw [Nat.mul_comm ws j, ← Nat.add_mul]; exact Nat.mul_le_mul_right _ hj
  rw [r3]
  have := H.stays wop wgot k hk hw (a + ws * j + i) ⟨by rw [hw1]; simp; omega, by rw [hw1]; simp; omega⟩
    (fun op ho hc => hlast op ho _ (by omega) (by omega) hc) _ ?_ (Nat.le_of_lt r1)
  · rw [this, hw1]; congr 1; simp; omega
  · rcases Nat.lt_or_ge k (tr i) with h | h
    · omega
    · exact absurd ((H.issuedR h).1.subset r2.1) hlate

/-- **C112, AXI, mapped targets.** The same if the beats of the write and the bus words are mapped. -/
theorem C112_mapped {σ κ : Type} {c : Cfg} {wa : Nat → WArgs} {ra : Nat → Req} {t : Target σ} {s0 : σ} {evs : List Ev}
    {good : σ → Prop} {f : Nat → Option κ} {val : σ → κ → UInt8} {n : Nat} (H : MapCalls c wa ra t s0 evs good f val n)
    (wop : Op) (wgot : List BBeat) (k : Nat) (hk : k ≤ n) (hw : (wop, some wgot) ∈ (Sys.at c wa ra t s0 evs k).w.m.results)
    (rop : Op) (rgot : List RBeat) (hlate : rop ∉ (Sys.at c wa ra t s0 evs k).r.m.issued)
    (hr : (rop, some rgot) ∈ (Sys.at c wa ra t s0 evs n).r.m.results)
    (a : Nat) (words : List Int) (bo : ByteOrder) (ws j count : Nat) (hww : (wa wop.key).ofWords a words bo ws)
    (hrw : (ra rop.key).ofWords (a + ws * j : Nat) count ws) (hj : j + count ≤ words.length)
    (hm : ∀ b, a + ws * j ≤ b → b < a + ws * j + count * ws → BeatMapped c wa f wop b ∧ WordMapped c f b)
    (hlast : ∀ op ∈ (Sys.at c wa ra t s0 evs n).w.m.issued, ∀ b, a + ws * j ≤ b → b < a + ws * j + count * ws → Covers wa op b →
      op = wop ∨ Before (Sys.at c wa ra t s0 evs n).w.m op wop) :
    ∃ data resp, returnsR c (ra rop.key) rgot data resp ∧
      (wordsOf bo ws count (data, resp)).map (fun n : Nat => (n : Int)) = pySlice words j (j + count) := by
  obtain ⟨hw1, hw2⟩ := hww
  obtain ⟨hr1, hr2⟩ := hrw
  obtain ⟨data, resp, d1, d2, _, _, tr, R⟩ := C102_read H rop rgot hr
  rw [hr1, hr2] at R
  rw [hr2] at d2
  simp only [Int.toNat_natCast] at R d2
  refine ⟨data, resp, d1, unpack_pack hw2 hj d2 fun i hi => ?_⟩
  obtain ⟨r1, r2, r3, _⟩ := R i hi
  have hl := packWords_length bo ws words _ hw2
  have hle : ws * j + count * ws ≤ words.length * ws := by
    rw [Nat.mul_comm ws j, ← Nat.add_mul]; exact Nat.mul_le_mul_right _ hj
  obtain ⟨hb, hwm⟩ := hm (a + ws * j + i) (by omega) (by omega)
  obtain ⟨x, hx⟩ := Option.ne_none_iff_exists'.1 (hwm _ rfl)
  rw [r3 hwm x hx]
  have := H.stays wop wgot k hk hw (a + ws * j + i) x hx ⟨by rw [hw1]; simp; omega, by rw [hw1]; simp; omega⟩ hb
    (fun op ho hc => hlast op ho _ (by omega) (by omega) hc) _ ?_ (Nat.le_of_lt r1)
  · rw [this, hw1]; congr 1; simp; omega
  · rcases Nat.lt_or_ge k (tr i) with h | h
    · omega
    · exact absurd ((H.issuedR h).1.subset r2.1) hlate

/-! `write_words(2, [0x102, 0x304, 0x506], 'big')`, then `read_words(4, 2, 'big')`: on a RAM, and on the address space `exSpace`. -/

section example_
open Verif.AddressSpace (exSpace exHeap exMap exS)

def wordW : Nat → WArgs := fun _ => { req := { address := 2, length := 0 }, data := [1, 2, 3, 4, 5, 6] }
def wordR : Nat → Req := fun _ => { address := 4, length := 4 }
def wordW0 : Op := { key := 0, bursts := [0] }
def wordR0 : Op := { key := 0, bursts := [0] }
def wordEvs : List Ev :=
  [.w (.reset false), .r (.reset false), .w .write, .w .take, .w .sendAW, .w .slaveAW, .w .sendW, .w .slaveW, .w .sendW, .w .slaveW, .w .start,
   .w .slaveB, .w .deliver, .w (.workTake 0), .w (.workGet 0), .w (.workDone 0),
   .r .read, .r .take, .r .sendAR, .r .start, .r .slaveAR, .r .slaveR, .r .deliver, .r (.workTake 0), .r (.workGet 0), .r (.workDone 0)]

theorem wordRun : (ramAt exC wordW wordR exM wordEvs 16).w.m.results = [(wordW0, some [⟨0, .okay, 0⟩])] ∧
    (ramAt exC wordW wordR exM wordEvs 16).r.m.issued = [] ∧ (ramAt exC wordW wordR exM wordEvs 26).w.m.issued = [wordW0] ∧
    (ramAt exC wordW wordR exM wordEvs 26).r.m.issued = [wordR0] ∧
    (ramAt exC wordW wordR exM wordEvs 26).r.m.results = [(wordR0, some [⟨0, 0x06050403, .okay, true, 0⟩])] := by decide +kernel

theorem wordRunM : (Sys.at exC wordW wordR exT exHeap wordEvs 16).w.m.results = [(wordW0, some [⟨0, .okay, 0⟩])] ∧
    (Sys.at exC wordW wordR exT exHeap wordEvs 16).r.m.issued = [] ∧ (Sys.at exC wordW wordR exT exHeap wordEvs 26).w.m.issued = [wordW0] ∧
    (Sys.at exC wordW wordR exT exHeap wordEvs 26).r.m.issued = [wordR0] ∧
    (Sys.at exC wordW wordR exT exHeap wordEvs 26).r.m.results = [(wordR0, some [⟨0, 0x06050403, .okay, true, 0⟩])] := by decide +kernel

theorem wordIds : IdsFit exC wordW wordR := ⟨fun k => by simp [wordW], fun k => by simp [wordR]⟩

example : ∃ data, returnsR exC (wordR 0) [⟨0, 0x06050403, .okay, true, 0⟩] data .okay ∧
    (wordsOf .big 2 2 (data, .okay)).map (fun n : Nat => (n : Int)) = [0x304, 0x506] :=
  C112_ram (m0 := exM) (evs := wordEvs) (n := 26) ⟨exC_std, wordIds, ⟨rfl, trivial⟩, by decide, by rw [wordRun.2.2.1]; simp only [List.forall_mem_singleton]; decide,
      by rw [wordRun.2.2.2.1]; simp only [List.forall_mem_singleton]; decide⟩
    wordW0 [⟨0, .okay, 0⟩] 16 (by decide) (by rw [wordRun.1]; simp) wordR0 _ (by rw [wordRun.2.1]; simp) (by rw [wordRun.2.2.2.2]; simp)
    2 [0x102, 0x304, 0x506] .big 2 1 2 ⟨rfl, rfl⟩ ⟨rfl, rfl⟩ (by decide) (by rw [wordRun.2.2.1]; simp)

example : ∃ data resp, returnsR exC (wordR 0) [⟨0, 0x06050403, .okay, true, 0⟩] data resp ∧
    (wordsOf .big 2 2 (data, resp)).map (fun n : Nat => (n : Int)) = [0x304, 0x506] :=
  C112_mapped (t := exT) (evs := wordEvs) (n := 26) ⟨exC_std, wordIds, AddressSpace.exMapped, AddressSpace.exGood,
      by rw [wordRunM.2.2.1]; simp only [List.forall_mem_singleton]; decide,
      by rw [wordRunM.2.2.2.1]; simp only [List.forall_mem_singleton]; decide⟩
    wordW0 [⟨0, .okay, 0⟩] 16 (by decide) (by rw [wordRunM.1]; simp) wordR0 _ (by rw [wordRunM.2.1]; simp) (by rw [wordRunM.2.2.2.2]; simp)
    2 [0x102, 0x304, 0x506] .big 2 1 2 ⟨rfl, rfl⟩ ⟨rfl, rfl⟩ (by decide)
    (fun b h1 h2 => ⟨fun y _ hy => exWord0 b (by omega) y hy, exWord0 b (by omega)⟩) (by rw [wordRunM.2.2.1]; simp)

end example_

end AxiSys

/-! ## AXI-lite -/

namespace LiteOps
open Word

/-- **C112, AXI-lite, RAM.** As for AXI. -/
theorem C112_ram {c : Cfg} {m0 : Memory} {evs : List RamEv} {wc : Nat → WCall} {rc : Nat → RCall} {n : Nat} (H : Calls c m0 evs wc rc n)
    (wop : Op WXfer) (wgot : List (Py Resp)) (k : Nat) (hk : k ≤ n) (hw : (wop, some wgot) ∈ (ramAt c m0 evs k).w.m.results)
    (rop : Op RXfer) (rgot : List (Nat × Resp)) (hlate : rop ∉ (ramAt c m0 evs k).r.m.issued)
    (hr : (rop, some rgot) ∈ (ramAt c m0 evs n).r.m.results)
    (a : Nat) (words : List Int) (bo : ByteOrder) (ws j count : Nat) (hww : (wc wop.key).ofWords a words bo ws)
    (hrw : (rc rop.key).ofWords (a + ws * j : Nat) count ws) (hj : j + count ≤ words.length)
    (hlast : ∀ op ∈ (ramAt c m0 evs n).w.m.issued, ∀ b, a + ws * j ≤ b → b < a + ws * j + count * ws → (wc op.key).covers b →
      op = wop ∨ Before (ramAt c m0 evs n).w.m op wop) :
    ∃ data, (rc rop.key).returns c rgot data .okay ∧
      (wordsOf bo ws count (data, .okay)).map (fun n : Nat => (n : Int)) = pySlice words j (j + count) := by
  obtain ⟨hw1, hw2⟩ := hww
  obtain ⟨hr1, hr2⟩ := hrw
  obtain ⟨data, d1, d2, tr, R⟩ := C76_read H rop rgot hr
  rw [hr1, hr2] at R
  rw [hr2] at d2
  simp only [Int.toNat_natCast] at R d2
  refine ⟨data, d1, unpack_pack hw2 hj d2 fun i hi => ?_⟩
  obtain ⟨r1, r2, r3, _⟩ := R i hi
  have hl := packWords_length bo ws words _ hw2
  have hle : ws * j + count * ws ≤ words.length * ws := by
    rw [Nat.mul_comm ws j, ← Nat.add_mul]; exact Nat.mul_le_mul_right _ hj
  rw [r3]
  have := H.stays wop wgot k hk hw (a + ws * j + i) ⟨by rw [hw1]; simp; omega, by rw [hw1]; simp; omega⟩
    (fun op ho hc => hlast op ho _ (by omega) (by omega) hc) _ ?_ (Nat.le_of_lt r1)
  · rw [this, hw1]; congr 1; simp; omega
  · rcases Nat.lt_or_ge k (tr i) with h | h
    · omega
    · exact absurd ((issuedR_le h).subset r2.1) hlate

/-- **C112, AXI-lite, mapped targets.** As for AXI. -/
theorem C112_mapped {σ κ : Type} {c : Cfg} {t : Target σ} {s0 : σ} {evs : List RamEv} {good : σ → Prop} {f : Nat → Option κ}
    {val : σ → κ → UInt8} {wc : Nat → WCall} {rc : Nat → RCall} {n : Nat} (H : MapCalls c t s0 evs good f val wc rc n)
    (wop : Op WXfer) (wgot : List (Py Resp)) (k : Nat) (hk : k ≤ n) (hw : (wop, some wgot) ∈ (targetAt c t s0 evs k).w.m.results)
    (rop : Op RXfer) (rgot : List (Nat × Resp)) (hlate : rop ∉ (targetAt c t s0 evs k).r.m.issued)
    (hr : (rop, some rgot) ∈ (targetAt c t s0 evs n).r.m.results)
    (a : Nat) (words : List Int) (bo : ByteOrder) (ws j count : Nat) (hww : (wc wop.key).ofWords a words bo ws)
    (hrw : (rc rop.key).ofWords (a + ws * j : Nat) count ws) (hj : j + count ≤ words.length)
    (hm : ∀ b, a + ws * j ≤ b → b < a + ws * j + count * ws → XferMapped c f (wc wop.key) b ∧ WordMapped c f b)
    (hlast : ∀ op ∈ (targetAt c t s0 evs n).w.m.issued, ∀ b, a + ws * j ≤ b → b < a + ws * j + count * ws → (wc op.key).covers b →
      op = wop ∨ Before (targetAt c t s0 evs n).w.m op wop) :
    ∃ data resp, (rc rop.key).returns c rgot data resp ∧
      (wordsOf bo ws count (data, resp)).map (fun n : Nat => (n : Int)) = pySlice words j (j + count) := by
  obtain ⟨hw1, hw2⟩ := hww
  obtain ⟨hr1, hr2⟩ := hrw
  obtain ⟨data, resp, d1, d2, _, _, tr, R⟩ := C105_read H rop rgot hr
  rw [hr1, hr2] at R
  rw [hr2] at d2
  simp only [Int.toNat_natCast] at R d2
  refine ⟨data, resp, d1, unpack_pack hw2 hj d2 fun i hi => ?_⟩
  obtain ⟨r1, r2, r3, _⟩ := R i hi
  have hl := packWords_length bo ws words _ hw2
  have hle : ws * j + count * ws ≤ words.length * ws := by
    rw [Nat.mul_comm ws j, ← Nat.add_mul]; exact Nat.mul_le_mul_right _ hj
  obtain ⟨hb, hwm⟩ := hm (a + ws * j + i) (by omega) (by omega)
  obtain ⟨x, hx⟩ := Option.ne_none_iff_exists'.1 (hwm _ rfl)
  rw [r3 hwm x hx]
  have := H.stays wop wgot k hk hw (a + ws * j + i) x hx ⟨by rw [hw1]; simp; omega, by rw [hw1]; simp; omega⟩ hb
    (fun op ho hc => hlast op ho _ (by omega) (by omega) hc) _ ?_ (Nat.le_of_lt r1)
  · rw [this, hw1]; congr 1; simp; omega
  · rcases Nat.lt_or_ge k (tr i) with h | h
    · omega
    · exact absurd ((mIssuedR_le h).subset r2.1) hlate

/-! `write_words(2, [0x102, 0x304, 0x506], 'big')`, then `read_words(4, 2, 'big')`: on a RAM, and on the address space `exSpace`. -/

section example_
open Verif.AddressSpace (exSpace exHeap exMap exS)

def wordW : Nat → WCall := fun _ => { address := 2, data := [1, 2, 3, 4, 5, 6] }
def wordR : Nat → RCall := fun _ => { address := 4, length := 4 }
def wordW0 : Op WXfer := ⟨0, [⟨2, 2, 0x02010000, 12⟩, ⟨4, 2, 0x06050403, 15⟩]⟩
def wordR0 : Op RXfer := ⟨0, [⟨4, 2⟩]⟩
def wordEvs : List RamEv :=
  [.w (.reset false), .r (.reset false), .w (.master (.write wordW0)), .w (.master .take), .w .send, .w .serve, .w .send, .w .serve, .w .deliver,
   .w .deliver, .w (.master .respTake), .w (.master .respGet), .w (.master .respGet), .w (.master .respDone),
   .r (.master (.write wordR0)), .r (.master .take), .r .send, .r .serve, .r .deliver, .r (.master .respTake), .r (.master .respGet),
   .r (.master .respDone)]

theorem wordRun : (ramAt exC exM wordEvs 14).w.m.results = [(wordW0, some [.ok .okay, .ok .okay])] ∧
    (ramAt exC exM wordEvs 14).r.m.issued = [] ∧ (ramAt exC exM wordEvs 22).w.m.issued = [wordW0] ∧
    (ramAt exC exM wordEvs 22).r.m.issued = [wordR0] ∧
    (ramAt exC exM wordEvs 22).r.m.results = [(wordR0, some [(0x06050403, .okay)])] := by decide +kernel

theorem wordRunM : (targetAt exC exT exHeap wordEvs 14).w.m.results = [(wordW0, some [.ok .okay, .ok .okay])] ∧
    (targetAt exC exT exHeap wordEvs 14).r.m.issued = [] ∧ (targetAt exC exT exHeap wordEvs 22).w.m.issued = [wordW0] ∧
    (targetAt exC exT exHeap wordEvs 22).r.m.issued = [wordR0] ∧
    (targetAt exC exT exHeap wordEvs 22).r.m.results = [(wordR0, some [(0x06050403, .okay)])] := by decide +kernel

example : ∃ data, (wordR 0).returns exC [(0x06050403, .okay)] data .okay ∧
    (wordsOf .big 2 2 (data, .okay)).map (fun n : Nat => (n : Int)) = [0x304, 0x506] :=
  C112_ram (m0 := exM) (evs := wordEvs) (wc := wordW) (n := 22) ⟨by decide, ⟨rfl, trivial⟩, by decide, by rw [wordRun.2.2.1]; simp only [List.forall_mem_singleton]; exact ⟨⟨⟨2, 6, 2⟩, rfl, rfl⟩, by decide⟩,
      by rw [wordRun.2.2.2.1]; simp only [List.forall_mem_singleton]; exact ⟨⟨⟨4, 4, 2⟩, rfl, rfl⟩, by decide⟩, by rw [wordRun.2.2.1]; simp, by rw [wordRun.2.2.2.1]; simp⟩
    wordW0 [.ok .okay, .ok .okay] 14 (by decide) (by rw [wordRun.1]; simp) wordR0 _ (by rw [wordRun.2.1]; simp)
    (by rw [wordRun.2.2.2.2]; simp)
    2 [0x102, 0x304, 0x506] .big 2 1 2 ⟨rfl, rfl⟩ ⟨rfl, rfl⟩ (by decide) (by rw [wordRun.2.2.1]; simp)

example : ∃ data resp, (wordR 0).returns exC [(0x06050403, .okay)] data resp ∧
    (wordsOf .big 2 2 (data, resp)).map (fun n : Nat => (n : Int)) = [0x304, 0x506] :=
  C112_mapped (t := exT) (evs := wordEvs) (wc := wordW) (n := 22) ⟨by decide, AddressSpace.exMapped, AddressSpace.exGood,
      by rw [wordRunM.2.2.1]; simp only [List.forall_mem_singleton]; exact ⟨⟨2, 6, 2⟩, rfl, rfl⟩,
      by rw [wordRunM.2.2.2.1]; simp only [List.forall_mem_singleton]; exact ⟨⟨4, 4, 2⟩, rfl, rfl⟩, by rw [wordRunM.2.2.1]; simp, by rw [wordRunM.2.2.2.1]; simp⟩
    wordW0 [.ok .okay, .ok .okay] 14 (by decide) (by rw [wordRunM.1]; simp) wordR0 _ (by rw [wordRunM.2.1]; simp)
    (by rw [wordRunM.2.2.2.2]; simp)
    2 [0x102, 0x304, 0x506] .big 2 1 2 ⟨rfl, rfl⟩ ⟨rfl, rfl⟩ (by decide)
    (fun b h1 h2 => ⟨fun y _ hy => exWord0 b (by omega) y hy, exWord0 b (by omega)⟩) (by rw [wordRunM.2.2.1]; simp)

end example_

end LiteOps

/-! ## APB -/

namespace Apb
open Word

/-- **C112, APB, mapped targets.** As for AXI; operations complete in the order of the calls. -/
theorem C112_mapped {σ κ : Type} {c : Cfg} {slverr : Bool} {t : Target σ} {s0 : σ} {evs : List Ev} {good : σ → Prop}
    {f : Nat → Option κ} {val : σ → κ → UInt8} {call : Nat → Call} (H : MapCalls c slverr t s0 evs good f val call)
    (l1 l2 l3 : List (Op × List Rsp)) (w r : Op) (vs rs : List Rsp)
    (hd : (Sys.exec slverr (access t c.lanes true) s0 evs).m.done = l1 ++ (w, vs) :: l2 ++ (r, rs) :: l3)
    (a : Nat) (words : List Int) (bo : ByteOrder) (ws j count : Nat) (hww : (call w.key).ofWriteWords a words bo ws)
    (hrw : (call r.key).ofReadWords (a + ws * j : Nat) count ws) (hj : j + count ≤ words.length)
    (hm : ∀ b, a + ws * j ≤ b → b < a + ws * j + count * ws → (call w.key).XferMapped c f b ∧ WordMapped c f b)
    (hl2 : ∀ d ∈ l2, ∀ b, a + ws * j ≤ b → b < a + ws * j + count * ws → (call d.1.key).stores b = none) :
    ∃ data resp, (call r.key).outcome c rs = some (.data data resp) ∧
      (wordsOf bo ws count (data, resp)).map (fun n : Nat => (n : Int)) = pySlice words j (j + count) := by
  obtain ⟨d, p, hw1, hw2⟩ := hww
  obtain ⟨p', hr1⟩ := hrw
  have hl := packWords_length bo ws words _ hw2
  have hle : ws * j + count * ws ≤ words.length * ws := by
    rw [Nat.mul_comm ws j, ← Nat.add_mul]; exact Nat.mul_le_mul_right _ hj
  obtain ⟨data, resp, e1, e2⟩ : ∃ data resp, (call r.key).outcome c rs = some (.data data resp) ∧ data.length = count * ws := by
    obtain ⟨os, v, h1, h2, _⟩ := C109_results H
    rw [hd] at h1 h2
    obtain ⟨o1, o2, rfl, e1, e2, e3⟩ := zip_split (g := fun d : Op × List Rsp => call d.1.key) h1
    rw [e3] at h2
    obtain ⟨v1, g1, g2⟩ := Runs.append.1 h2
    cases o2 with
    | nil => simp at e2
    | cons ro o2 =>
    simp only [List.map_cons, List.cons.injEq] at e2
    obtain ⟨v4, g8, _⟩ := g2
    simp only [hr1] at g8
    obtain ⟨data, resp, q1, q2, _⟩ := g8
    exact ⟨data, resp, by rw [e2.1, q1], by rw [q2, Int.toNat_natCast]⟩
  refine ⟨data, resp, e1, unpack_pack hw2 hj e2 fun i hi => ?_⟩
  obtain ⟨hb, hwm⟩ := hm (a + ws * j + i) (by omega) (by omega)
  obtain ⟨u, hu⟩ : ∃ u, d[ws * j + i]? = some u := ⟨_, List.getElem?_eq_getElem (by omega)⟩
  have hs : (call w.key).stores (a + ws * j + i) = some u := by
    rw [hw1, Call.stores, Int.toNat_natCast, if_pos (by omega), ← hu]
    congr 1; omega
  obtain ⟨data', resp', q1, q2⟩ := C109_read_your_writes H l1 l2 l3 w r vs rs hd (a + ws * j + i) u hs hb hwm
    (fun d hd => hl2 d hd _ (by omega) (by omega)) _ _ _ hr1 (by rw [Int.toNat_natCast]; omega)
    (by rw [Int.toNat_natCast, Int.toNat_natCast]; omega)
  rw [e1] at q1
  cases q1
  rw [hu, ← q2, Int.toNat_natCast]
  congr 1; omega

theorem flatRun_keeps (b : Nat) (l : List Call) (m : FlatMem) (h : ∀ a ∈ l, a.stores b = none) : (flatRun l m).2 b = m b := by
  induction l generalizing m with
  | nil => rfl
  | cons a l ih =>
    simp only [flatRun]
    rw [ih _ fun x hx => h x (by simp [hx])]
    have ha := h a (by simp)
    cases a with
    | read => rfl
    | write ad d p =>
      simp only [Call.onFlat]
      refine FlatMem.store_other _ _ _ _ ?_
      simp only [Call.stores] at ha
      split at ha
      · rw [List.getElem?_eq_none_iff] at ha; omega
      · omega

/-- **C112, APB, RAM.** As for AXI; operations complete in the order of the calls. -/
theorem C112_ram {c : Cfg} {slverr : Bool} {m0 : Memory} {evs : List Ev} {call : Nat → Call} (H : Calls c slverr m0 evs call)
    (l1 l2 l3 : List (Op × List Rsp)) (w r : Op) (vs rs : List Rsp)
    (hd : (Sys.exec slverr (access ramTarget c.lanes true) m0 evs).m.done = l1 ++ (w, vs) :: l2 ++ (r, rs) :: l3)
    (a : Nat) (words : List Int) (bo : ByteOrder) (ws j count : Nat) (hww : (call w.key).ofWriteWords a words bo ws)
    (hrw : (call r.key).ofReadWords (a + ws * j : Nat) count ws) (hj : j + count ≤ words.length)
    (hl2 : ∀ d ∈ l2, ∀ b, a + ws * j ≤ b → b < a + ws * j + count * ws → (call d.1.key).stores b = none) :
    ∃ data, (call r.key).outcome c rs = some (.data data .okay) ∧
      (wordsOf bo ws count (data, .okay)).map (fun n : Nat => (n : Int)) = pySlice words j (j + count) := by
  obtain ⟨d, p, hw1, hw2⟩ := hww
  obtain ⟨p', hr1⟩ := hrw
  have hl := packWords_length bo ws words _ hw2
  have hle : ws * j + count * ws ≤ words.length * ws := by
    rw [Nat.mul_comm ws j, ← Nat.add_mul]; exact Nat.mul_le_mul_right _ hj
  have h1 := C41_results evs H
  simp only [hd] at h1
  generalize (Sys.exec slverr (access ramTarget c.lanes true) m0 evs).base.1.contents = m at h1
  simp only [List.map_append, List.map_cons, flatRun_append, List.append_assoc, List.cons_append] at h1
  have hlen : ∀ (l : List (Op × List Rsp)) (m : FlatMem), (l.map fun d => (call d.1.key).outcome c d.2).length =
      ((flatRun (l.map fun d => call d.1.key) m).1.map some).length := by
    intro l
    induction l with
    | nil => intro m; rfl
    | cons x l ih => intro m; simpa [flatRun] using ih _
  have h2 := (List.append_inj h1 (hlen l1 m)).2
  generalize (flatRun (l1.map fun d => call d.1.key) m).2 = m1 at h2
  simp only [flatRun, flatRun_append, List.map_cons, List.map_append, List.cons.injEq] at h2
  have h3 := (List.append_inj h2.2 (hlen l2 _)).2
  simp only [List.cons.injEq] at h3
  have h4 := h3.1
  rw [hw1, hr1] at h4
  simp only [Call.onFlat] at h4
  rw [hr1]
  refine ⟨_, h4, unpack_pack hw2 hj (by rw [FlatMem.load_length, Int.toNat_natCast]) fun i hi => ?_⟩
  rw [Int.toNat_natCast, Int.toNat_natCast, Int.toNat_natCast]
  simp only [FlatMem.load, List.getElem?_map, List.getElem?_range hi, Option.map_some]
  rw [flatRun_keeps _ _ _ (fun x hx => ?_), Nat.add_assoc, FlatMem.store_at _ _ _ _ (by omega), List.getElem?_eq_getElem]
  obtain ⟨y, hy, rfl⟩ := List.mem_map.1 hx
  exact hl2 y hy _ (by omega) (by omega)

/-! A history for C112 and C113 on `exSpace`: `write_words(1, [0x102, 0x304, 0x506], 'big')`, `read_words(3, 2, 'big')`, and
`write_dword(8, 7)`, `read_dword(8)` at an unmapped address. -/

section example_
open Verif.AddressSpace (exSpace exHeap exMap exS)

def wordCall : Nat → Call
  | 0 => .write 1 [1, 2, 3, 4, 5, 6] 2
  | 1 => .read 3 4 2
  | 2 => .write 8 [7, 0, 0, 0] 2
  | _ => .read 8 4 2
def wordOp0 : Op := ⟨0, [.write ⟨1, 2, 0x03020100, 14⟩, .write ⟨4, 2, 0x060504, 7⟩]⟩
def wordOp1 : Op := ⟨1, [.read ⟨3, 2⟩, .read ⟨4, 2⟩]⟩
def wordOp2 : Op := ⟨2, [.write ⟨8, 2, 7, 15⟩]⟩
def wordOp3 : Op := ⟨3, [.read ⟨8, 2⟩]⟩
def wordEvs : List Ev :=
  [.reset false, .edge false false false, .call wordOp0, .call wordOp1, .call wordOp2, .call wordOp3, .resume] ++
    List.replicate 20 (.edge false false false)

theorem wordRuns : (Sys.exec true (access mapT mapC.lanes true) exHeap wordEvs).m.issued = [wordOp0, wordOp1, wordOp2, wordOp3] ∧
    (Sys.exec true (access mapT mapC.lanes true) exHeap wordEvs).m.done =
      [(wordOp0, [(0, .okay), (0, .okay)]), (wordOp1, [(0x03020107, .okay), (0x07060504, .okay)]), (wordOp2, [(0x07060504, .slverr)]),
       (wordOp3, [(0, .slverr)])] := by
  refine ⟨?_, ?_⟩ <;> decide +kernel

theorem wordCalls : MapCalls mapC true mapT exHeap wordEvs (Good exS) exMap cell wordCall := by
  refine ⟨by decide, AddressSpace.exMapped, AddressSpace.exGood, ?_⟩
  rw [wordRuns.1]
  intro op hop
  simp only [List.mem_cons, List.not_mem_nil, or_false] at hop
  rcases hop with rfl | rfl | rfl | rfl
  · exact ⟨⟨1, 6, 2⟩, _, rfl, rfl, rfl⟩
  · exact ⟨⟨3, 4, 2⟩, rfl, rfl⟩
  · exact ⟨⟨8, 4, 2⟩, _, rfl, rfl, rfl⟩
  · exact ⟨⟨8, 4, 2⟩, rfl, rfl⟩

/-- C112 applies. -/
example : ∃ data resp, (wordCall 1).outcome mapC [(0x03020107, .okay), (0x07060504, .okay)] = some (.data data resp) ∧
    (wordsOf .big 2 2 (data, resp)).map (fun n : Nat => (n : Int)) = [0x304, 0x506] :=
  C112_mapped wordCalls [] [] [(wordOp2, [(0x07060504, .slverr)]), (wordOp3, [(0, .slverr)])] wordOp0 wordOp1 _ _ wordRuns.2 1 [0x102, 0x304, 0x506] .big 2 1 2
    ⟨[1, 2, 3, 4, 5, 6], 2, rfl, rfl⟩ ⟨2, rfl⟩ (by decide)
    (fun b h1 h2 => ⟨fun y _ hy => mapWord b (by omega) y hy, mapWord b (by omega)⟩) (by simp)

/-- **C113 is false of the code**: `write_dword(8, 7)` and `read_dword(8)` return `None` and 0 although both accesses failed - the same as
for a memory that contains 0. -/
theorem C113_violated : ∃ (c : Cfg) (call : Nat → Call) (t : Target Heap) (h0 : Heap) (f : Nat → Option (Nat × Nat)) (evs : List Ev)
    (l : List (Op × List Rsp)) (w r : Op) (vs rs : List Rsp) (data : Bytes),
    MapCalls c true t h0 evs (Good exS) f cell call ∧
    (Sys.exec true (access t c.lanes true) h0 evs).m.done = l ++ [(w, vs), (r, rs)] ∧ f 8 = none ∧
    (call w.key).ofWriteWords 8 [7] .little 4 ∧ (call r.key).ofReadWords 8 1 4 ∧
    (call w.key).outcome c vs = some (.written .slverr) ∧ wroteWords .slverr = wroteWords .okay ∧
    (call r.key).outcome c rs = some (.data data .slverr) ∧ wordsOf .little 4 1 (data, .slverr) = [0] :=
  ⟨mapC, wordCall, mapT, exHeap, exMap, wordEvs, [(wordOp0, [(0, .okay), (0, .okay)]), (wordOp1, [(0x03020107, .okay), (0x07060504, .okay)])], wordOp2, wordOp3,
    [(0x07060504, .slverr)], [(0, .slverr)], [0, 0, 0, 0], wordCalls, wordRuns.2, by decide, ⟨[7, 0, 0, 0], 2, rfl, rfl⟩, ⟨2, rfl⟩,
    by decide +kernel, rfl, by decide +kernel, by decide +kernel⟩

end example_

end Apb
end Verif
