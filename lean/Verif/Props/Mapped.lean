import Verif.Proof.MappedSpace
import Verif.Props.AddressSpace

/-!
# C102: memory regions, windows and address spaces are address maps

`Mapped` (`Spec/Mapped.lean`) is what C102 and C103 require of the target of a slave. The targets that the library provides meet it.
A cell is a byte of a memory: number of the memory, and offset in it.
-/

namespace Verif.AddressSpace

open Verif

/-- **C102, memory regions.** -/
theorem C102_region (S : Nat → Bool × Nat) (size : Nat) (base : Option Int) (k : Nat) (hS : size ≤ (S k).2) :
    Mapped (Target.ofIface (memoryRegion size base k)) (Good S) (fun x => if x < size then some (k, x) else none) cell ∧
    ((S k).1 = true →
      Mapped (Target.ofIface (sparseMemoryRegion size base k)) (Good S) (fun x => if x < size then some (k, x) else none) cell) := by
  have hf : (fun x : Nat => regionMap size k x) = fun x => if x < size then some (k, x) else none := by
    funext x
    simp only [regionMap]
    split <;> split <;> first | rfl | omega
  rw [← hf]
  exact ⟨mapped_memoryRegion S size base k hS, mapped_sparseMemoryRegion S size base k hS⟩

/-- **C102, windows.** A window over a lawful interface object (`C16_lawful`) in which no byte of memory appears twice. -/
theorem C102_window (S : Nat → Bool × Nat) (p : Iface Heap) (f : ByteMap) (hp : Law S p f) (off size : Nat) (base : Option Int)
    (h : off + size ≤ p.size) (inj : ∀ (x y : Nat) k, f x = some k → f y = some k → x = y) :
    Mapped (Target.ofIface (p.window off size base)) (Good S) (fun x => if x < size then f ((x + off : Nat) : Int) else none) cell :=
  mapped_window S p f hp off size base h inj

/-- **C102, address spaces.** Any registration history, with entries inside the space (`C16_spaceMap_spec` says which byte an address
designates), in which no byte of memory appears twice. -/
theorem C102_space (S : Nat → Bool × Nat) (size : Nat) (base : Option Int) (regs : List (Reg Heap)) (F : Entry Heap → ByteMap)
    (hok : ∀ e ∈ ((AddressSpace.mk size base []).registerAll regs).regions, EntryOK S F e)
    (hin : ∀ e ∈ ((AddressSpace.mk size base []).registerAll regs).regions, e.base + e.size ≤ size)
    (inj : ∀ (x y : Nat) k, spaceMap ((AddressSpace.mk size base []).registerAll regs).regions F x = some k →
      spaceMap ((AddressSpace.mk size base []).registerAll regs).regions F y = some k → x = y) :
    Mapped (Target.ofIface ((AddressSpace.mk size base []).registerAll regs).toIface) (Good S)
      (fun x => spaceMap ((AddressSpace.mk size base []).registerAll regs).regions F x) cell := by
  obtain ⟨hinv, hsz, -⟩ := registerAll_inv regs (AddressSpace.mk size base []) ⟨by simp, by simp⟩
  refine mapped_space S F _ hinv hok ?_ inj
  rw [hsz]
  exact hin

/-- The hypothesis that no byte of memory appears twice is needed: two regions over the same memory, and a write that covers both
addresses of a byte stores only one of its values (the other one reads back wrong). -/
theorem C102_alias : ∃ (regs : List (Reg Heap)) (h h' : Heap), let s := (AddressSpace.mk 64 none []).registerAll regs
    s.write 0 [1, 2] h = (.ok (), h') ∧ s.read 0 2 h' = (.ok [2, 2], h') := by
  refine ⟨[⟨memoryRegion 1 none 0, 0, none, some 0⟩, ⟨memoryRegion 1 none 0, 1, none, some 0⟩], fun _ => .buf [0],
    (((AddressSpace.mk 64 none []).registerAll [⟨memoryRegion 1 none 0, 0, none, some 0⟩,
      ⟨memoryRegion 1 none 0, 1, none, some 0⟩]).write 0 [1, 2] fun _ => .buf [0]).2, ?_⟩
  exact ⟨rfl, rfl⟩

/-! A concrete space: the addresses `0 … 3` and `4 … 7` are two memories registered out of order, the others are not mapped. -/

def exRegs : List (Reg Heap) := [⟨memoryRegion 4 none 1, 4, none, some 0⟩, ⟨memoryRegion 4 none 0, 0, none, some 0⟩]
def exSpace : AddressSpace Heap := (AddressSpace.mk 64 none []).registerAll exRegs
def exF (e : Entry Heap) : ByteMap := if e.base = 4 then regionMap 4 1 else regionMap 4 0
def exS : Nat → Bool × Nat := fun _ => (false, 8)
def exHeap : Heap := fun _ => .buf (List.replicate 8 7)
def exMap : Nat → Option (Nat × Nat) := fun x => if x < 8 then some (x / 4, x % 4) else none

theorem exRegions : exSpace.regions = [⟨4, 4, some 0, { memoryRegion 4 none 1 with base := none }⟩,
    ⟨0, 4, some 0, { memoryRegion 4 none 0 with base := none }⟩] := rfl

theorem exMap_eq : (fun x : Nat => spaceMap exSpace.regions exF x) = exMap := by
  funext x
  rw [exRegions]
  simp only [spaceMap, List.find?, owns, exMap]
  by_cases h1 : 4 ≤ x ∧ x < 8
  · rw [decide_eq_true (by omega)]
    simp only [exF, if_true, localAddr, regionMap]
    rw [if_pos (by omega), if_pos (by omega)]
    congr 2 <;> omega
  · rw [decide_eq_false (by omega)]
    by_cases h2 : x < 4
    · rw [decide_eq_true (by omega)]
      simp only [exF, localAddr]
      rw [if_neg (by omega), if_pos (by omega)]
      simp only [regionMap]
      rw [if_pos (by omega)]
      congr 2 <;> omega
    · rw [decide_eq_false (by omega), if_neg (by omega)]

theorem exMapped : Mapped (Target.ofIface exSpace.toIface) (Good exS) exMap cell := by
  have h := C102_space exS 64 none exRegs exF ?_ ?_ ?_
  · rw [← exMap_eq]; exact h
  · intro e he
    rw [show ((AddressSpace.mk 64 none []).registerAll exRegs).regions = _ from exRegions] at he
    simp only [List.mem_cons, List.not_mem_nil, or_false] at he
    rcases he with rfl | rfl
    · exact ⟨by decide, by decide, by decide, law_memoryRegion exS 4 none 1 (by decide)⟩
    · exact ⟨by decide, by decide, by decide, law_memoryRegion exS 4 none 0 (by decide)⟩
  · intro e he
    rw [show ((AddressSpace.mk 64 none []).registerAll exRegs).regions = _ from exRegions] at he
    simp only [List.mem_cons, List.not_mem_nil, or_false] at he
    rcases he with rfl | rfl <;> decide
  · intro x y k hx hy
    have hx' := (congrFun exMap_eq x).symm.trans hx
    have hy' := (congrFun exMap_eq y).symm.trans hy
    simp only [exMap] at hx' hy'
    split at hx'
    · split at hy'
      · simp only [Option.some.injEq] at hx' hy'
        rw [← hx'] at hy'
        simp only [Prod.mk.injEq] at hy'
        omega
      · cases hy'
    · cases hx'

theorem exGood : Good exS exHeap := by
  intro k
  exact ⟨⟨rfl, trivial⟩, rfl⟩

/-- The window of the last 6 bytes of a memory of 8. -/
example : Mapped (Target.ofIface ((memoryRegion 8 none 1).window (2 : Nat) (6 : Nat) none)) (Good exS)
    (fun x => if x < 6 then regionMap 8 1 ((x + 2 : Nat) : Int) else none) cell :=
  C102_window exS (memoryRegion 8 none 1) _ (law_memoryRegion exS 8 none 1 (by decide)) 2 6 none (by decide)
    (regionMap_inj 8 1)

end Verif.AddressSpace
