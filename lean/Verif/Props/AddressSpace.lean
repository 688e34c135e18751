import Verif.Proof.AddressSpace
import Verif.Props.Buddy

/-!
# C12–C19, C62, C63: windows, regions, address spaces and pools
-/

namespace Verif

/-! ## Specification -/

/-- The accesses that must be accepted. -/
def InRange (size : Nat) (address length : Int) : Prop :=
  0 ≤ address ∧ address < size ∧ 0 ≤ length ∧ address + length ≤ size

instance (size : Nat) (a n : Int) : Decidable (InRange size a n) := by unfold InRange; infer_instance

/-- A chain of nested `create_window(offset, size)` calls starting from `root`. -/
def nest {σ : Type} (root : Iface σ) : List (Int × Option Int) → Py (Iface σ)
  | [] => .ok root
  | (offset, size) :: rest =>
    match root.createWindow offset size with
    | .error e => .error e
    | .ok w => nest w rest

/-- The length of the window asked for: to the end of the parent if no positive size is given. -/
def windowSize (parentSize : Nat) (offset : Int) : Option Int → Int
  | none => parentSize - offset
  | some s => if s ≤ 0 then parentSize - offset else s

/-- Sum of the offsets of a chain. -/
def totalOffset : List (Int × Option Int) → Int
  | [] => 0
  | (o, _) :: rest => o + totalOffset rest

/-! ## C12 -/

/-- **C12 (read).** An access through a `MemoryInterface` reaches the implementation `rd` iff it is in range;
otherwise it is `ValueError` and the store (hence the implementation) is not touched. -/
theorem C12_read {σ : Type} (size : Nat) (base : Option Int) (rt : Bool)
    (rd : Int → Int → σ → Py Bytes × σ) (wr : Int → Bytes → σ → Py Unit × σ) (a n : Int) (st : σ) :
    (InRange size a n → (Iface.ofPrivate size base rt rd wr).read a n st = rd a n st) ∧
    (¬ InRange size a n → (Iface.ofPrivate size base rt rd wr).read a n st = (.error .valueError, st)) := by
  constructor
  · intro h
    simp only [Iface.ofPrivate]
    rw [checkRange_ok _ _ _ h.1 h.2.1 h.2.2.1 h.2.2.2]
  · intro h
    simp only [Iface.ofPrivate]
    rw [checkRange_err _ _ _ (by unfold InRange at h; omega)]

/-- **C12 (write).** -/
theorem C12_write {σ : Type} (size : Nat) (base : Option Int) (rt : Bool)
    (rd : Int → Int → σ → Py Bytes × σ) (wr : Int → Bytes → σ → Py Unit × σ) (a : Int) (d : Bytes) (st : σ) :
    (InRange size a d.length → (Iface.ofPrivate size base rt rd wr).write a d st = wr a d st) ∧
    (¬ InRange size a d.length →
      (Iface.ofPrivate size base rt rd wr).write a d st = (.error .valueError, st)) := by
  constructor
  · intro h
    simp only [Iface.ofPrivate]
    rw [checkRange_ok _ _ _ h.1 h.2.1 h.2.2.1 h.2.2.2]
  · intro h
    simp only [Iface.ofPrivate]
    rw [checkRange_err _ _ _ (by unfold InRange at h; omega)]

example : InRange 16 12 4 ∧ ¬ InRange 16 16 0 ∧ ¬ InRange 16 12 5 ∧ ¬ InRange 16 (-1) 1 := by decide

theorem getAbsoluteAddress_ok {σ : Type} (p : Iface σ) (a : Int) (h0 : 0 ≤ a) (h1 : a < p.size) :
    p.getAbsoluteAddress a = .ok (p.base.map (a + ·)) := by
  simp only [Iface.getAbsoluteAddress]
  cases p.base with
  | none => rfl
  | some b =>
    simp only
    rw [checkRange_ok _ _ _ h0 h1 (by omega) (by omega)]
    rfl

theorem createWindow_core {σ : Type} (p : Iface σ) (offset n : Int) :
    (InRange p.size offset n →
      (match Iface.checkRange p.size offset n with
        | .error e => .error e
        | .ok () => match p.getAbsoluteAddress offset with
          | .error e => .error e
          | .ok base => .ok (p.window offset n.toNat base) : Py (Iface σ))
        = .ok (p.window offset n.toNat (p.base.map (offset + ·)))) ∧
    (¬ InRange p.size offset n → Iface.checkRange p.size offset n = .error .valueError) := by
  constructor
  · intro h
    rw [checkRange_ok _ _ _ h.1 h.2.1 h.2.2.1 h.2.2.2]
    simp only
    rw [getAbsoluteAddress_ok p offset h.1 h.2.1]
  · intro h
    rw [checkRange_err _ _ _ (by unfold InRange at h; omega)]

theorem createWindow_spec {σ : Type} (p : Iface σ) (offset : Int) (size : Option Int) :
    let n : Int := windowSize p.size offset size
    (InRange p.size offset n →
      p.createWindow offset size = .ok (p.window offset n.toNat (p.base.map (offset + ·)))) ∧
    (¬ InRange p.size offset n → p.createWindow offset size = .error .valueError) := by
  have aux : ∀ z : Int, windowSize p.size offset size = z →
      p.createWindow offset size = (match Iface.checkRange p.size offset z with
        | .error e => .error e
        | .ok () => match p.getAbsoluteAddress offset with
          | .error e => .error e
          | .ok base => .ok (p.window offset z.toNat base)) := by
    intro z hz
    cases size with
    | none => simp only [windowSize] at hz; subst hz; rfl
    | some s =>
      simp only [windowSize] at hz
      by_cases hs : s ≤ 0
      · rw [if_pos hs] at hz
        subst hz
        simp only [Iface.createWindow, if_pos (show s = 0 ∨ s < 0 by omega)]; rfl
      · rw [if_neg hs] at hz
        subst hz
        simp only [Iface.createWindow, if_neg (show ¬ (s = 0 ∨ s < 0) by omega)]; rfl
  intro n
  rw [aux n rfl]
  have := createWindow_core p offset n
  refine ⟨this.1, fun h => by rw [this.2 h]⟩

/-- **C12 (create_window).** With an explicit positive size the window is created iff its range is in range;
with no size (or a non-positive one) iff the offset is. Otherwise `ValueError`. -/
theorem C12_create_window {σ : Type} (p : Iface σ) (offset : Int) (size : Option Int) :
    let n : Int := windowSize p.size offset size
    (InRange p.size offset n → ∃ w, p.createWindow offset size = .ok w ∧ (w.size : Int) = n) ∧
    (¬ InRange p.size offset n → p.createWindow offset size = .error .valueError) := by
  intro n
  have := createWindow_spec p offset size
  refine ⟨fun h => ⟨_, this.1 h, ?_⟩, this.2⟩
  show (n.toNat : Int) = n
  have := h.2.2.1
  omega

/-- **C12 (create_window_pool).** -/
theorem C12_create_window_pool {σ : Type} (p : Iface σ) (offset size : Option Int) :
    let o : Int := match offset with
      | none => 0
      | some o => o
    let n : Int := match size with
      | none => p.size - o
      | some s => s
    (InRange p.size o n → ∃ w, WindowPool.create p offset size = .ok w ∧ (w.win.size : Int) = n) ∧
    (¬ InRange p.size o n → WindowPool.create p offset size = .error .valueError) := by
  have aux : ∀ o n : Int, (match offset with
      | none => (0 : Int)
      | some o => o) = o → (match size with
      | none => (p.size : Int) - o
      | some s => s) = n →
      WindowPool.create p offset size = (match Iface.checkRange p.size o n with
        | .error e => .error e
        | .ok () => match p.getAbsoluteAddress o with
          | .error e => .error e
          | .ok base => .ok { win := p.window o n.toNat base, allocator := Buddy.init n.toNat }) := by
    intro o n ho hn
    subst ho
    subst hn
    cases offset <;> cases size <;> rfl
  intro o n
  rw [aux o n rfl rfl]
  constructor
  · intro h
    refine ⟨{ win := p.window o n.toNat (p.base.map (o + ·)), allocator := Buddy.init n.toNat }, ?_, ?_⟩
    · rw [checkRange_ok _ _ _ h.1 h.2.1 h.2.2.1 h.2.2.2]
      simp only
      rw [getAbsoluteAddress_ok p o h.1 h.2.1]
    · show (n.toNat : Int) = n
      have := h.2.2.1
      omega
  · intro h
    rw [checkRange_err _ _ _ (by unfold InRange at h; omega)]

/-! ## C13 -/

/-- **C13.** Any chain of nested windows of any depth is a confined translated view of the root: the total
offset and size stay inside the root, an in-range access is the same access on the root at the summed
offset, and every other access is `ValueError` and leaves the store alone. -/
theorem C13_window_is_view {σ : Type} (chain : List (Int × Option Int)) :
    ∀ (root w : Iface σ), nest root chain = .ok w →
      (∀ a n st, (0 < chain.length ∨ InRange w.size a n) →
        w.read a n st = if InRange w.size a n then root.read (a + totalOffset chain) n st
          else (.error .valueError, st)) ∧
      (∀ a d st, (0 < chain.length ∨ InRange w.size a (d.length : Nat)) →
        w.write a d st = if InRange w.size a (d.length : Nat) then root.write (a + totalOffset chain) d st
          else (.error .valueError, st)) ∧
      0 ≤ totalOffset chain ∧ totalOffset chain + w.size ≤ root.size := by
  induction chain with
  | nil =>
    intro root w h
    simp only [nest] at h
    cases h
    refine ⟨?_, ?_, by simp [totalOffset], by simp [totalOffset]⟩
    · intro a n st h
      rw [if_pos (by simpa using h)]; simp [totalOffset]
    · intro a d st h
      rw [if_pos (by simpa using h)]; simp [totalOffset]
  | cons p rest ih =>
    obtain ⟨o, s⟩ := p
    intro root w h
    simp only [nest] at h
    have hcw := createWindow_spec root o s
    simp only at hcw
    generalize windowSize root.size o s = n at hcw
    by_cases hr : InRange root.size o n
    · rw [hcw.1 hr] at h
      simp only at h
      obtain ⟨i1, i2, i3, i4⟩ := ih _ w h
      have hsz : ((root.window o n.toNat (root.base.map (o + ·))).size : Int) = n := by
        show (n.toNat : Int) = n
        have := hr.2.2.1; omega
      rw [hsz] at i4
      refine ⟨?_, ?_, ?_, ?_⟩
      · intro a m st _
        by_cases ha : InRange w.size a m
        · rw [if_pos ha, i1 a m st (Or.inr ha), if_pos ha, window_read, if_pos]
          · congr 1; simp only [totalOffset]; omega
          · unfold InRange at *; omega
        · rw [if_neg ha]
          cases rest with
          | nil =>
            simp only [nest] at h
            cases h
            rw [window_read, if_neg]
            exact ha
          | cons q r => rw [i1 a m st (Or.inl (by simp)), if_neg ha]
      · intro a d st _
        by_cases ha : InRange w.size a (d.length : Nat)
        · rw [if_pos ha, i2 a d st (Or.inr ha), if_pos ha, window_write, if_pos]
          · congr 1; simp only [totalOffset]; omega
          · unfold InRange at *; omega
        · rw [if_neg ha]
          cases rest with
          | nil =>
            simp only [nest] at h
            cases h
            rw [window_write, if_neg]
            intro hc
            exact ha ⟨hc.1, hc.2.1, by omega, hc.2.2⟩
          | cons q r => rw [i2 a d st (Or.inl (by simp)), if_neg ha]
      · have := hr.1; simp only [totalOffset]; omega
      · have := hr.2.2.2; simp only [totalOffset]; omega
    · rw [hcw.2 hr] at h; cases h

/-- **C13 (confinement).** Whatever is written through a chain of windows over a memory, no byte of the memory
outside the window's range changes, and no other memory changes, whether or not the write is accepted. -/
theorem C13_confined (S : Nat → Bool × Nat) (h : Heap) (hg : Good S h) (size k : Nat) (base : Option Int)
    (hS : size ≤ (S k).2) (chain : List (Int × Option Int)) (w : Iface Heap) (hc : 0 < chain.length)
    (hw : nest (memoryRegion size base k) chain = .ok w) (a : Int) (d : Bytes) (hd : 1 ≤ d.length) :
    ∀ k' (j : Nat), (k' ≠ k ∨ (j : Int) < totalOffset chain ∨ totalOffset chain + w.size ≤ j) →
      absHeap (w.write a d h).2 k' j = absHeap h k' j := by
  intro k' j hj
  obtain ⟨_, h2, h3, h4⟩ := C13_window_is_view chain _ w hw
  rw [h2 a d h (Or.inl hc)]
  by_cases hr : InRange w.size a (d.length : Nat)
  · rw [if_pos hr]
    obtain ⟨hr1, hr2, hr3, hr4⟩ := hr
    have h4' : totalOffset chain + w.size ≤ size := h4
    have hrange : a + totalOffset chain + d.length ≤ ((memoryRegion size base k).size : Int) := by
      show _ ≤ (size : Int); omega
    obtain ⟨r, h', e1, e2, e3, -, -⟩ := (law_memoryRegion S size base k hS).write h hg
      (a + totalOffset chain) d (by omega) hd hrange
    rw [e1]
    simp only
    rw [e3]
    obtain ⟨b, hb⟩ := Int.eq_ofNat_of_zero_le (show 0 ≤ a + totalOffset chain by omega)
    rw [hb, routeWrite_region size k d b _ (by omega)]
    simp only
    by_cases hk : k' = k
    · subst hk
      rw [if_pos rfl]
      rw [FlatMem.store_other _ _ _ _ (by omega)]
    · rw [if_neg hk]
  · rw [if_neg hr]

/-- A three-level chain over a 64-byte memory exists and is non-trivial. -/
example : ∃ w, nest (memoryRegion 64 (some 0x1000) 0) [(16, some 32), (4, none), (8, some 8)] = .ok w ∧
    w.size = 8 ∧ w.base = some 0x101c := ⟨_, rfl, rfl, rfl⟩

/-! ## C14 -/

theorem nest_base {σ : Type} (chain : List (Int × Option Int)) : ∀ (root w : Iface σ),
    nest root chain = .ok w → w.base = root.base.map (totalOffset chain + ·) := by
  induction chain with
  | nil =>
    intro root w h
    simp only [nest] at h; cases h
    cases root.base <;> simp [totalOffset]
  | cons p rest ih =>
    obtain ⟨o, s⟩ := p
    intro root w h
    simp only [nest] at h
    have hcw := createWindow_spec root o s
    simp only at hcw
    generalize windowSize root.size o s = n at hcw
    by_cases hr : InRange root.size o n
    · rw [hcw.1 hr] at h
      have := ih _ w h
      rw [this]
      show (root.base.map (o + ·)).map _ = _
      cases root.base with
      | none => rfl
      | some b => simp only [Option.map_some, totalOffset]; congr 1; omega
    · rw [hcw.2 hr] at h; cases h

/-- **C14.** Through any chain of windows, `get_absolute_address(a)` is the root's absolute address of the
translated address; when the root has a base it is rejected exactly when `a` is outside the window, and
when the root has none the answer is always `None`. -/
theorem C14_absolute_address {σ : Type} (chain : List (Int × Option Int)) (root w : Iface σ)
    (h : nest root chain = .ok w) (a : Int) :
    (root.base = none → w.getAbsoluteAddress a = .ok none ∧
      root.getAbsoluteAddress (a + totalOffset chain) = .ok none) ∧
    (∀ b, root.base = some b →
      (0 ≤ a ∧ a < w.size → w.getAbsoluteAddress a = .ok (some (a + totalOffset chain + b)) ∧
        root.getAbsoluteAddress (a + totalOffset chain) = w.getAbsoluteAddress a) ∧
      (¬ (0 ≤ a ∧ a < w.size) → w.getAbsoluteAddress a = .error .valueError)) := by
  have hb := nest_base chain root w h
  obtain ⟨-, -, h3, h4⟩ := C13_window_is_view chain root w h
  constructor
  · intro hn
    rw [hn] at hb
    exact ⟨by simp [Iface.getAbsoluteAddress, hb], by simp [Iface.getAbsoluteAddress, hn]⟩
  · intro b hs
    rw [hs] at hb
    constructor
    · intro ha
      rw [getAbsoluteAddress_ok w a ha.1 ha.2, hb,
        getAbsoluteAddress_ok root _ (by omega) (by omega), hs]
      simp only [Option.map_some]
      constructor
      · congr 2; omega
      · congr 2; omega
    · intro ha
      simp only [Iface.getAbsoluteAddress, hb, Option.map_some]
      rw [checkRange_err _ _ _ (by omega)]

/-- **C14.** `get_parent_address(a)` of a window, followed by the parent's `get_absolute_address`, does the same as `get_absolute_address(a)` of the
window: the same address, or `ValueError` exactly for the addresses outside the window. -/
theorem C14_parent_address {σ : Type} (p w : Iface σ) (offset : Int) (size : Option Int) (b : Int) (hb : p.base = some b)
    (h : p.createWindow offset size = .ok w) (a : Int) :
    w.getAbsoluteAddress a =
      match Iface.getParentAddress w.size offset a with
      | .error e => .error e
      | .ok a' => p.getAbsoluteAddress a' := by
  have hn : nest p [(offset, size)] = .ok w := by simp only [nest, h]
  have h14 := (C14_absolute_address [(offset, size)] p w hn a).2 b hb
  simp only [totalOffset, Int.add_zero] at h14
  by_cases ha : 0 ≤ a ∧ a < w.size
  · rw [Iface.getParentAddress, if_neg (by omega)]
    exact (h14.1 ha).2.symm
  · rw [Iface.getParentAddress, if_pos (by omega)]
    exact h14.2 ha

example : ∃ w, (memoryRegion 64 (some 0x1000) 0).createWindow 16 (some 32) = .ok w ∧ w.size = 32 ∧
    Iface.getParentAddress w.size 16 31 = .ok 47 ∧ w.getAbsoluteAddress 31 = .ok (some 0x102f) := ⟨_, rfl, rfl, rfl, rfl⟩

example : ∃ w, nest (memoryRegion 64 (some 0x1000) 0) [(16, some 32), (4, none)] = .ok w ∧
    w.getAbsoluteAddress 3 = .ok (some 0x1017) := ⟨_, rfl, rfl⟩

namespace AddressSpace

/-! ## C15, C63: registration -/

/-- Arguments of a `register_region` call. -/
structure Reg (σ : Type) where
  region : Iface σ
  base : Int
  size : Option Int
  offset : Option Int

/-- A history of `register_region` calls; rejected calls raise and are caught by the user. -/
def registerAll {σ : Type} (s : AddressSpace σ) : List (Reg σ) → AddressSpace σ
  | [] => s
  | r :: rest => registerAll (s.registerRegion r.region r.base r.size r.offset).2 rest

theorem registerAll_inv {σ : Type} (regs : List (Reg σ)) : ∀ (s : AddressSpace σ),
    (s.regions.Pairwise EApart ∧ ∀ e ∈ s.regions, 0 ≤ e.base ∧ e.base < s.size ∧ 0 ≤ e.size) →
    ((s.registerAll regs).regions.Pairwise EApart ∧ (s.registerAll regs).size = s.size ∧
      ∀ e ∈ (s.registerAll regs).regions, 0 ≤ e.base ∧ e.base < s.size ∧ 0 ≤ e.size) := by
  induction regs with
  | nil => intro s h; exact ⟨h.1, rfl, h.2⟩
  | cons r rest ih =>
    intro s h
    simp only [registerAll]
    obtain ⟨sz, hsz⟩ : ∃ z : Int, r.size.getD r.region.size = z := ⟨_, rfl⟩
    have hs := registerRegion_spec s r.region r.base r.size r.offset sz hsz
    rcases hs with ⟨_, e⟩ | ⟨⟨h1, h2, h3, h4⟩, b, e⟩
    · rw [e]; exact ih s h
    · rw [e]
      have := ih { s with regions := s.regions ++ [⟨r.base, sz, r.offset, { r.region with base := b }⟩] } ?_
      · exact this
      · dsimp only
        constructor
        · rw [List.pairwise_append]
          refine ⟨h.1, by simp, ?_⟩
          intro x hx y hy
          simp only [List.mem_singleton] at hy
          subst hy
          have g1 := h4 x hx
          have g2 := h.2 x hx
          simp only [EApart]
          omega
        · intro e he
          rcases List.mem_append.1 he with he | he
          · exact h.2 e he
          · simp only [List.mem_singleton] at he
            subst he
            exact ⟨h1, h2, h3⟩

/-- **C15 (no overlap).** After any history of `register_region` calls, failed ones included, no address
belongs to two registered regions. -/
theorem C15_regions_disjoint {σ : Type} (size : Nat) (base : Option Int) (regs : List (Reg σ)) :
    let s := (AddressSpace.mk size base []).registerAll regs
    ∀ i j (hi : i < s.regions.length) (hj : j < s.regions.length), i ≠ j →
      ¬ ∃ x : Int, (s.regions[i].base ≤ x ∧ x < s.regions[i].base + s.regions[i].size) ∧
        (s.regions[j].base ≤ x ∧ x < s.regions[j].base + s.regions[j].size) := by
  intro s i j hi hj hij
  have h := (registerAll_inv regs (AddressSpace.mk size base []) ⟨by simp, by simp⟩).1
  rintro ⟨x, h1, h2⟩
  rw [List.pairwise_iff_getElem] at h
  rcases Nat.lt_or_gt_of_ne hij with hlt | hlt
  · have := h i j hi hj hlt
    simp only [EApart] at this
    change s.regions[i].base + s.regions[i].size ≤ s.regions[j].base ∨
      s.regions[j].base + s.regions[j].size ≤ s.regions[i].base at this
    omega
  · have := h j i hj hi hlt
    simp only [EApart] at this
    change s.regions[j].base + s.regions[j].size ≤ s.regions[i].base ∨
      s.regions[i].base + s.regions[i].size ≤ s.regions[j].base at this
    omega

/-- **C15 (acceptance).** In any state, a registration of `[base, base+n)` (`n` defaults to the region's
size) is rejected, without any change, iff `base` is outside the space, `n` is negative, or the range
(taken as at least one byte) shares an address with an existing region. -/
theorem C15_rejected_iff {σ : Type} (s : AddressSpace σ) (hpos : ∀ e ∈ s.regions, 0 < e.size)
    (r : Reg σ) :
    let n : Int := r.size.getD r.region.size
    let Bad := r.base < 0 ∨ r.base ≥ s.size ∨ n < 0 ∨
        ∃ e ∈ s.regions, ∃ x : Int, (e.base ≤ x ∧ x < e.base + e.size) ∧
          (r.base ≤ x ∧ x < r.base + max n 1)
    (Bad → s.registerRegion r.region r.base r.size r.offset = (.error .valueError, s)) ∧
    (¬ Bad → (s.registerRegion r.region r.base r.size r.offset).1 = .ok () ∧
      ∃ reg, (s.registerRegion r.region r.base r.size r.offset).2 =
        { s with regions := s.regions ++ [⟨r.base, n, r.offset, reg⟩] }) := by
  intro n Bad
  have hs := registerRegion_spec s r.region r.base r.size r.offset n rfl
  have hbad : Bad ↔ ¬ (0 ≤ r.base ∧ r.base < s.size ∧ 0 ≤ n ∧
        ∀ e ∈ s.regions, ¬ (r.base < e.base + e.size ∧ e.base < r.base + max n 1)) := by
    constructor
    · rintro (h | h | h | ⟨e, he, x, h1, h2⟩) hc
      · omega
      · omega
      · omega
      · exact hc.2.2.2 e he ⟨by omega, by omega⟩
    · intro hc
      by_cases g1 : r.base < 0
      · exact Or.inl g1
      · by_cases g2 : r.base ≥ s.size
        · exact Or.inr (Or.inl g2)
        · by_cases g3 : n < 0
          · exact Or.inr (Or.inr (Or.inl g3))
          · refine Or.inr (Or.inr (Or.inr ?_))
            apply Classical.byContradiction
            intro hne
            apply hc
            refine ⟨by omega, by omega, by omega, ?_⟩
            rintro e he ⟨h1, h2⟩
            have := hpos e he
            exact hne ⟨e, he, max e.base r.base, ⟨by omega, by omega⟩, by omega, by omega⟩
  rw [hbad]
  rcases hs with ⟨h1, h2⟩ | ⟨h1, b, h2⟩
  · exact ⟨fun _ => h2, fun h => absurd h1 h⟩
  · exact ⟨fun h => absurd h1 h, fun _ => by rw [h2]; exact ⟨rfl, _, rfl⟩⟩

/-- **C63.** Every registered region starts inside the space, but the code does not check that it ends there:
a 16-byte region is accepted at the last address of a 16-byte space, and an access through the space
beyond its own size then succeeds. -/
theorem C63_violated :
    let s := ((AddressSpace.mk 16 none [] : AddressSpace Heap).registerRegion (memoryRegion 16 none 0) 15)
    s.1 = .ok () ∧
    (s.2.write 15 [1, 2, 3] (fun _ => .buf [0, 0, 0, 0, 0])).1 = .ok () ∧
    ¬ InRange 16 15 3 := by
  refine ⟨rfl, ?_, by decide⟩
  rfl

/-- **C63 (partial).** Every registered region starts inside the space. Missing: that it also ends inside,
which is false (`C63_violated`). -/
theorem C63_base_in_range_partial {σ : Type} (size : Nat) (base : Option Int) (regs : List (Reg σ)) :
    ∀ e ∈ ((AddressSpace.mk size base []).registerAll regs).regions,
      0 ≤ e.base ∧ e.base < size ∧ 0 ≤ e.size :=
  (registerAll_inv regs (AddressSpace.mk size base []) ⟨by simp, by simp⟩).2.2

example : (((AddressSpace.mk 64 none [] : AddressSpace Heap).registerAll
    [⟨memoryRegion 16 none 0, 16, none, some 0⟩, ⟨memoryRegion 16 none 1, 24, none, some 0⟩,
     ⟨memoryRegion 8 none 2, 0, none, some 0⟩]).regions.map fun e => (e.base, e.size))
    = [(16, 16), (0, 8)] := by decide

/-! ## C16, C17: routing

`Law S I f` says that interface `I` serves any in-range access of at least one byte exactly as the byte map
`f` prescribes (`routeRead`/`routeWrite` of `Spec.Routing`); `spaceMap` composes the byte maps of the
regions: the byte at `x` is looked up in the (only) region whose range contains `x`, at `x - base + offset`
(`x` itself when the offset is `None`). -/

/-- **C16/C17 (composition).** If every region obeys its byte map and every entry has nonzero size and fits
its region, then an address space built by any registration history serves every access (of any length,
spanning any number of regions, starting inside the space) exactly as the composed byte map prescribes:
it succeeds iff every byte is mapped; reads return the owning regions' bytes and change nothing; writes
change exactly the owning bytes; and a rejected write has written exactly the bytes before the hole. -/
theorem C16_C17_space_routes (S : Nat → Bool × Nat) (size : Nat) (base : Option Int) (regs : List (Reg Heap))
    (F : Entry Heap → ByteMap)
    (hok : ∀ e ∈ ((AddressSpace.mk size base []).registerAll regs).regions, EntryOK S F e)
    (h : Heap) (hg : Good S h) (a : Int) (ha : 0 ≤ a ∧ a < size) :
    let s := (AddressSpace.mk size base []).registerAll regs
    let f := spaceMap s.regions F
    (∀ n : Nat, 1 ≤ n →
      (∀ d, routeRead f (absHeap h) a n = some d → s.read a n h = (.ok d, h)) ∧
      (routeRead f (absHeap h) a n = none → ∃ e, s.read a n h = (.error e, h))) ∧
    (∀ d : Bytes, 1 ≤ d.length →
      absHeap (s.write a d h).2 = (routeWrite f a d (absHeap h)).2 ∧ Good S (s.write a d h).2 ∧
      ((s.write a d h).1 = .ok () ↔ (routeWrite f a d (absHeap h)).1 = true)) := by
  intro s f
  obtain ⟨hinv, hsz, -⟩ := registerAll_inv regs (AddressSpace.mk size base []) ⟨by simp, by simp⟩
  have hsz' : s.size = size := hsz
  constructor
  · intro n hn
    obtain ⟨r, e1, e2⟩ := space_read S F s hinv hok h hg a n ha.1 (by omega) hn
    constructor
    · intro d hd
      rw [hd] at e2
      rw [e1, e2]
    · intro hd
      rw [hd] at e2
      obtain ⟨e, rfl⟩ := e2
      exact ⟨e, e1⟩
  · intro d hd
    obtain ⟨r, h', e1, e2, e3, e4, e5⟩ := space_write S F s hinv hok h hg a d ha.1 (by omega) hd
    rw [e1]
    refine ⟨e3, e2, ?_, e4⟩
    intro hr
    cases hc : (routeWrite f a d (absHeap h)).1 with
    | true => rfl
    | false =>
      obtain ⟨e, he⟩ := e5 hc
      have hr' : r = .ok () := hr
      rw [he] at hr'
      cases hr'

/-- Memory regions, sparse memory regions, windows over lawful interfaces and address spaces of lawful
regions are all lawful, so `C16_C17_space_routes` applies to arbitrarily nested maps. -/
theorem C16_lawful (S : Nat → Bool × Nat) :
    (∀ size base k, size ≤ (S k).2 → Law S (memoryRegion size base k) (regionMap size k)) ∧
    (∀ size base k, size ≤ (S k).2 → (S k).1 = true →
      Law S (sparseMemoryRegion size base k) (regionMap size k)) ∧
    (∀ (p : Iface Heap) f (off size : Nat) base, Law S p f → off + size ≤ p.size →
      Law S (p.window off size base) (fun x => f (x + off))) ∧
    (∀ size base (regs : List (Reg Heap)) F,
      (∀ e ∈ ((AddressSpace.mk size base []).registerAll regs).regions, EntryOK S F e) →
      Law S ((AddressSpace.mk size base []).registerAll regs).toIface
        (spaceMap ((AddressSpace.mk size base []).registerAll regs).regions F)) := by
  refine ⟨fun size base k h => law_memoryRegion S size base k h,
    fun size base k h1 h2 => law_sparseMemoryRegion S size base k h1 h2,
    fun p f off size base h1 h2 => law_window S p f h1 off size base h2, ?_⟩
  intro size base regs F h
  exact law_space S F _ (registerAll_inv regs (AddressSpace.mk size base []) ⟨by simp, by simp⟩).1 h

/-- **C16 (who owns a byte).** The composed byte map sends `x` to the byte of the region covering it, and is
undefined exactly where no region (or the region itself) maps it. -/
theorem C16_spaceMap_spec {σ : Type} (size : Nat) (base : Option Int) (regs : List (Reg σ))
    (F : Entry σ → ByteMap) (x : Int) :
    let s := (AddressSpace.mk size base []).registerAll regs
    (∀ e ∈ s.regions, e.base ≤ x → x < e.base + e.size →
      spaceMap s.regions F x = F e (match e.offset with
        | none => x
        | some o => x - e.base + o)) ∧
    ((∀ e ∈ s.regions, ¬ (e.base ≤ x ∧ x < e.base + e.size)) → spaceMap s.regions F x = none) := by
  intro s
  obtain ⟨hinv, -, -⟩ := registerAll_inv regs (AddressSpace.mk size base []) ⟨by simp, by simp⟩
  constructor
  · intro e he h1 h2
    exact spaceMap_owner s.regions F hinv e he x (by simp [owns, h1, h2])
  · intro h
    apply spaceMap_hole
    intro e he
    simp only [owns, decide_eq_false_iff_not]
    exact h e he

/-- **C17 (zero length).** A zero-length access inside the space succeeds iff the start address is inside a
region, provided that region accepts the zero-length access; it never changes a memory. -/
theorem C17_zero_length_read {σ : Type} (s : AddressSpace σ) (st : σ) (a : Int) :
    (∀ e ∈ s.regions, ¬ (e.base ≤ a ∧ a < e.base + e.size)) →
      (∀ e ∈ s.regions, 0 < e.size) → ∃ er, s.read a 0 st = (.error er, st) := by
  intro h hp
  by_cases h1 : a < 0 ∨ a ≥ s.size
  · exact ⟨_, by simp only [read, findRegions, if_pos h1]; rfl⟩
  · have hf : s.regions.filter (fun e => decide (a < e.base + e.size ∧ e.base < a + max 0 1)) = [] := by
      rw [List.filter_eq_nil_iff]
      intro e he
      have := h e he
      simp only [decide_eq_true_eq]
      omega
    refine ⟨.exception, ?_⟩
    simp only [read, findRegions, if_neg h1]
    rw [if_neg (by omega), hf]
    rfl

/-- Out-of-space accesses are `ValueError` with no effect. -/
theorem C17_out_of_space {σ : Type} (s : AddressSpace σ) (st : σ) (a : Int) (h : a < 0 ∨ a ≥ s.size) :
    (∀ n, s.read a n st = (.error .valueError, st)) ∧
    (∀ d, s.write a d st = (.error .valueError, st)) := by
  constructor
  · intro n; simp only [read, findRegions, if_pos h]
  · intro d; simp only [write, findRegions, if_pos h]

/-- The hypotheses of the routing theorem are met by a map with two adjacent regions registered out of
order, one of them with an offset, a hole, and a window: `F` sends each entry to its memory. -/
example :
    let regs : List (Reg Heap) := [⟨memoryRegion 8 none 1, 4, some 4, some 2⟩, ⟨memoryRegion 4 none 0, 0, none, some 0⟩]
    let s := (AddressSpace.mk 64 none []).registerAll regs
    let h : Heap := fun _ => .buf [10, 11, 12, 13, 14, 15, 16, 17]
    s.read 2 4 h = (.ok [12, 13, 12, 13], h) ∧ (s.read 2 7 h).1 = .error .exception ∧
    (s.write 2 [1, 2, 3, 4, 5, 6, 7] h).1 = .error .exception := by
  refine ⟨rfl, rfl, rfl⟩

example :
    let regs : List (Reg Heap) := [⟨memoryRegion 8 none 1, 4, some 4, some 2⟩, ⟨memoryRegion 4 none 0, 0, none, some 0⟩]
    let s := (AddressSpace.mk 64 none []).registerAll regs
    let S : Nat → Bool × Nat := fun _ => (false, 8)
    ∃ F, ∀ e ∈ s.regions, EntryOK S F e := by
  intro regs s S
  refine ⟨fun e => if e.base = 4 then regionMap 8 1 else regionMap 4 0, ?_⟩
  intro e he
  have hs : s.regions = [⟨4, 4, some 2, { memoryRegion 8 none 1 with base := none }⟩,
    ⟨0, 4, some 0, { memoryRegion 4 none 0 with base := none }⟩] := rfl
  rw [hs] at he
  simp only [List.mem_cons, List.not_mem_nil, or_false] at he
  rcases he with rfl | rfl
  · refine ⟨by decide, by decide, by decide, ?_⟩
    exact law_memoryRegion S 8 none 1 (by decide)
  · refine ⟨by decide, by decide, by decide, ?_⟩
    exact law_memoryRegion S 4 none 0 (by decide)

end AddressSpace

/-! ## C19 -/

/-- **C19 (partial).** For interfaces whose `read` returns a response object, `read_byte(a)` is the byte
returned by `read(a, 1)`. Missing: interfaces returning plain bytes, where it is false (`C19_violated`). -/
theorem C19_read_byte_partial {σ : Type} (p : Iface σ) (hp : p.respTuple = true) (a : Int) (b : UInt8)
    (st st' : σ) (h : p.read a 1 st = (.ok [b], st')) : p.readByte a st = (.ok b, st') := by
  simp [Iface.readByte, h, hp]

example : ∃ p : Iface Unit, p.respTuple = true ∧ p.read 5 1 () = (.ok [7], ()) :=
  ⟨{ size := 16, base := none, respTuple := true, read := fun _ _ st => (.ok [7], st)
     write := fun _ _ st => (.ok (), st) }, rfl, rfl⟩

/-- **C19 is false of the code**: for every interface returning plain bytes (memory regions, windows over them,
address spaces) a successful one-byte read makes `read_byte` raise `AttributeError`. -/
theorem C19_violated_everywhere {σ : Type} (p : Iface σ) (hp : p.respTuple = false) (a : Int) (d : Bytes)
    (st st' : σ) (h : p.read a 1 st = (.ok d, st')) : p.readByte a st = (.error .attributeError, st') := by
  simp [Iface.readByte, h, hp]

/-- Concrete witness for the failure of C19. -/
theorem C19_violated : ∃ (p : Iface Heap) (h : Heap), p.read 0 1 h = (.ok [9], h) ∧
    (p.readByte 0 h).1 = .error .attributeError :=
  ⟨memoryRegion 4 none 0, fun _ => .buf [9, 0, 0, 0], rfl, rfl⟩

/-! ## C62: peripheral regions -/

/-- **C62 (partial).** A coroutine peripheral that does not raise `TypeError` is executed exactly once per
access and its outcome is the outcome of the access. Missing: plain (non-async) peripherals. -/
theorem C62_async_once_partial {σ : Type} (obj : Peripheral σ) (h : obj.isAsync = true) (size : Nat)
    (base : Option Int) (a : Int) (d : Bytes) (st : σ) (hr : InRange size a d.length)
    (hne : (obj.writeM a d st).1 ≠ .error .typeError) :
    (peripheralRegion obj size base).write a d st = obj.writeM a d st := by
  unfold peripheralRegion
  rw [(C12_write size base false _ _ a d st).1 hr]
  simp only [Peripheral.attempt, h]
  cases hw : obj.writeM a d st with
  | mk r st' =>
    cases r with
    | ok v => rfl
    | error e =>
      rw [hw] at hne
      cases e <;> first | rfl | (exact absurd rfl hne)

/-- **C62 is false of the code** for plain peripherals: each access runs the method twice. -/
theorem C62_violated (size : Nat) (a : Int) (d : Bytes) (hr : InRange size a d.length) :
    let obj : Peripheral (List (Int × Bytes)) :=
      { isAsync := false, readM := fun _ _ st => (.ok [], st), writeM := fun a d st => (.ok (), st ++ [(a, d)]) }
    (peripheralRegion obj size none).write a d [] = (.ok (), [(a, d), (a, d)]) := by
  intro obj
  unfold peripheralRegion
  rw [(C12_write size none false _ _ a d _).1 hr]
  rfl

example : InRange 8 2 [1, 2].length := by decide

/-! ## C18: pools -/

namespace Buddy

theorem exec_append (ops ops' : List Op) : ∀ s live, exec s live (ops ++ ops') =
    exec (exec s live ops).1 (exec s live ops).2 ops' := by
  induction ops with
  | nil => intros; rfl
  | cons op rest ih =>
    intro s live
    cases op with
    | alloc n =>
      simp only [List.cons_append, exec]
      split <;> exact ih _ _
    | free a =>
      simp only [List.cons_append, exec]
      split <;> exact ih _ _

theorem after_snoc_alloc_ok (size m : Nat) (ops : List Op) (n : Int) (a : Nat) (s' : Buddy)
    (h : (after size m ops).1.alloc n = (.ok a, s')) :
    after size m (ops ++ [.alloc n]) =
      (s', (a, ceilPow2 (max n.toNat m)) :: (after size m ops).2) := by
  have hm := (inv_after size m ops).min_eq
  unfold after at *
  rw [exec_append]
  simp only [exec, h, hm]

theorem after_snoc_alloc_err (size m : Nat) (ops : List Op) (n : Int) (e : PyErr) (s' : Buddy)
    (h : (after size m ops).1.alloc n = (.error e, s')) :
    after size m (ops ++ [.alloc n]) = (s', (after size m ops).2) := by
  unfold after at *
  rw [exec_append]
  simp only [exec, h]

end Buddy

namespace Pool

/-- A history of `alloc_region(size)` calls, recording the ranges `(base, size)` of the regions handed out. -/
def run {σ : Type} (mk : Nat → Iface σ) (p : Pool σ) (granted : List (Nat × Nat)) :
    List Int → Pool σ × List (Nat × Nat)
  | [] => (p, granted)
  | n :: rest =>
    match p.allocRegion mk n with
    | (.ok b, p') => run mk p' ((b, n.toNat) :: granted) rest
    | (.error _, p') => run mk p' granted rest

/-- What is known about a pool used only through `alloc_region`. -/
structure PInv {σ : Type} (size : Nat) (ops : List Buddy.Op) (p : Pool σ) (granted : List (Nat × Nat)) :
    Prop where
  alloc : p.allocator = (Buddy.after size 1 ops).1
  size_eq : p.space.size = size
  entries : ∀ e ∈ p.space.regions, ∃ g ∈ granted, e.base = g.1 ∧ e.size = g.2
  live : ∀ g ∈ granted, (g.1, Buddy.ceilPow2 g.2) ∈ (Buddy.after size 1 ops).2 ∧
    g.2 ≤ Buddy.ceilPow2 g.2 ∧ Buddy.ceilPow2 g.2 ∣ g.1
  apart : granted.Pairwise Buddy.Apart

theorem ceil_ge (n : Nat) : n ≤ Buddy.ceilPow2 n := (Buddy.ceilPow2_spec n).1

theorem step_inv {σ : Type} (mk : Nat → Iface σ) (hmk : ∀ n, (mk n).size = n) (size : Nat)
    (ops : List Buddy.Op) (p : Pool σ) (granted : List (Nat × Nat)) (h : PInv size ops p granted) (n : Int) :
    (∃ e p', p.allocRegion mk n = (.error e, p') ∧ PInv size (ops ++ [.alloc n]) p' granted ∧
      ((∃ e' a', p.allocator.alloc n = (.error e', a')) ∨
        ∃ a s', p.allocator.alloc n = (.ok a, s') ∧ size ≤ a)) ∨
    (∃ b p', p.allocRegion mk n = (.ok b, p') ∧
      PInv size (ops ++ [.alloc n]) p' ((b, n.toNat) :: granted)) := by
  cases hal : p.allocator.alloc n with
  | mk r s' =>
    cases r with
    | error e =>
      left
      refine ⟨e, { p with allocator := s' }, by simp only [allocRegion, hal], ?_, Or.inl ⟨_, _, rfl⟩⟩
      have hal' := hal
      rw [h.alloc] at hal'
      have haf := Buddy.after_snoc_alloc_err size 1 ops n e s' hal'
      refine ⟨by rw [haf], h.size_eq, h.entries, ?_, h.apart⟩
      rw [haf]; exact h.live
    | ok a =>
      have hal' := hal
      rw [h.alloc] at hal'
      have haf := Buddy.after_snoc_alloc_ok size 1 ops n a s' hal'
      obtain ⟨c1, c2, c3⟩ := Buddy.C06_alloc_aligned_disjoint size 1 ops n a s' hal'
      have hn : 1 ≤ n := by
        apply Classical.byContradiction
        intro hc
        have : (Buddy.after size 1 ops).1.alloc n = (.error .valueError, (Buddy.after size 1 ops).1) := by
          simp only [Buddy.alloc]; rw [if_pos (by omega)]
        rw [this] at hal'; cases hal'
      have hmax : max n.toNat 1 = n.toNat := by omega
      rw [hmax] at haf c1 c2 c3
      have hlive : ∀ g ∈ granted, (g.1, Buddy.ceilPow2 g.2) ∈ (Buddy.after size 1 (ops ++ [.alloc n])).2 ∧
          g.2 ≤ Buddy.ceilPow2 g.2 ∧ Buddy.ceilPow2 g.2 ∣ g.1 := by
        intro g hg
        rw [haf]
        exact ⟨List.mem_cons_of_mem _ (h.live g hg).1, (h.live g hg).2⟩
      have hap : ∀ g ∈ granted, Buddy.Apart (a, n.toNat) g := by
        intro g hg
        have := c3 _ (h.live g hg).1
        have := ceil_ge g.2
        have := ceil_ge n.toNat
        unfold Buddy.Apart at *
        dsimp only at *
        omega
      have hreg := AddressSpace.registerRegion_spec p.space (mk n.toNat) a none (some 0) (n.toNat : Int)
        (by simp [hmk])
      rcases hreg with ⟨g1, g2⟩ | ⟨g1, b, g2⟩
      · left
        refine ⟨_, { space := p.space, allocator := s' }, by simp only [allocRegion, hal, g2]; rfl, ?_, Or.inr ⟨_, _, rfl, ?_⟩⟩
        · exact ⟨by rw [haf], h.size_eq, h.entries, hlive, h.apart⟩
        · apply Classical.byContradiction
          intro hc
          apply g1
          refine ⟨by omega, by rw [h.size_eq]; omega, by omega, ?_⟩
          rintro e he ⟨x1, x2⟩
          obtain ⟨g, hg, hb, hs⟩ := h.entries e he
          have := hap g hg
          unfold Buddy.Apart at this
          dsimp only at this
          omega
      · right
        refine ⟨a, _, by simp only [allocRegion, hal, g2]; rfl, ?_⟩
        refine ⟨by rw [haf], h.size_eq, ?_, ?_, ?_⟩
        · intro e he
          dsimp only at he
          rcases List.mem_append.1 he with he | he
          · obtain ⟨g, hg, hb⟩ := h.entries e he
            exact ⟨g, List.mem_cons_of_mem _ hg, hb⟩
          · simp only [List.mem_singleton] at he
            subst he
            exact ⟨(a, n.toNat), by simp, rfl, rfl⟩
        · intro g hg
          rcases List.mem_cons.1 hg with rfl | hg
          · exact ⟨by rw [haf]; simp, ceil_ge _, c2⟩
          · exact hlive g hg
        · exact List.pairwise_cons.2 ⟨hap, h.apart⟩

theorem run_inv {σ : Type} (mk : Nat → Iface σ) (hmk : ∀ n, (mk n).size = n) (size : Nat) (ns : List Int) :
    ∀ ops p granted, PInv size ops p granted →
      ∃ ops', PInv size ops' (run mk p granted ns).1 (run mk p granted ns).2 := by
  induction ns with
  | nil => intro ops p g h; exact ⟨ops, h⟩
  | cons n rest ih =>
    intro ops p g h
    simp only [run]
    rcases step_inv mk hmk size ops p g h n with ⟨e, p', h1, h2, -⟩ | ⟨b, p', h1, h2⟩
    · rw [h1]; exact ih _ _ _ h2
    · rw [h1]; exact ih _ _ _ h2

theorem inv_init {σ : Type} (size : Nat) (base : Option Int) :
    PInv size [] (init base size : Pool σ) [] :=
  ⟨rfl, rfl, by simp [init], by simp, by simp⟩

/-- **C18 (pool regions).** After any history of `alloc_region` calls on a new pool the regions handed out are
pairwise disjoint and naturally aligned. -/
theorem C18_pool_disjoint_aligned {σ : Type} (mk : Nat → Iface σ) (hmk : ∀ n, (mk n).size = n) (size : Nat)
    (base : Option Int) (ns : List Int) :
    let granted := (run mk (init base size) [] ns).2
    granted.Pairwise Buddy.Apart ∧ ∀ g ∈ granted, Buddy.ceilPow2 g.2 ∣ g.1 := by
  obtain ⟨ops, h⟩ := run_inv mk hmk size ns [] (init base size) [] (inv_init size base)
  exact ⟨h.apart, fun g hg => (h.live g hg).2.2⟩

/-- **C18 (no spurious failure), partial.** On a pool whose size is a power of two, `alloc_region(n)` fails only
when the allocator itself reports an invalid size or no space. Missing: other pool sizes
(`C18_pool_violated`). -/
theorem C18_pool_never_overlaps_partial {σ : Type} (mk : Nat → Iface σ) (hmk : ∀ n, (mk n).size = n) (k : Nat)
    (base : Option Int) (ns : List Int) (n : Int) (e : PyErr) (p' : Pool σ) :
    let p := (run mk (init base (2 ^ k)) [] ns).1
    p.allocRegion mk n = (.error e, p') → ∃ e' a', p.allocator.alloc n = (.error e', a') := by
  intro p hfail
  obtain ⟨ops, h⟩ := run_inv mk hmk (2 ^ k) ns [] (init base (2 ^ k)) [] (inv_init (2 ^ k) base)
  rcases step_inv mk hmk (2 ^ k) ops _ _ h n with ⟨e', p'', h1, h2, h3 | ⟨a, s', h3, h4⟩⟩ | ⟨b, p'', h1, -⟩
  · exact h3
  · exfalso
    rw [h.alloc] at h3
    have haf := Buddy.after_snoc_alloc_ok (2 ^ k) 1 ops n a s' h3
    have := Buddy.C10_in_size_partial k 1 (ops ++ [.alloc n]) (a, Buddy.ceilPow2 (max n.toNat 1))
      (by rw [haf]; simp)
    have hp : 1 ≤ Buddy.ceilPow2 (max n.toNat 1) := by
      have := ceil_ge (max n.toNat 1); omega
    dsimp only at this
    omega
  · change p.allocRegion mk n = _ at h1
    rw [h1] at hfail; cases hfail

/-- **C18 is false of the code for other sizes**: on a pool of 9 bytes, after `alloc_region(8)`, the call
`alloc_region(8)` is granted address 8 by the allocator, registered past the end of the pool; on a pool
of 5 bytes, after requests of 4, 1 and 1 bytes, the allocator's next block is refused by the address space with
`ValueError` and leaked. -/
theorem C18_pool_violated :
    let mk : Nat → Iface Heap := fun n => memoryRegion n none 0
    (∃ g ∈ (run mk (init none 9) [] [8, 8]).2, ¬ g.1 + g.2 ≤ 9) ∧
    (let p := (run mk (init none 5) [] [4, 1, 1]).1
     (p.allocRegion mk 1).1 = .error .valueError ∧ ∃ a s', p.allocator.alloc 1 = (.ok a, s')) := by
  refine ⟨⟨(8, 8), by decide, by decide⟩, ?_⟩
  refine ⟨by decide, ?_⟩
  exact ⟨_, _, rfl⟩

example : (run (fun n => (memoryRegion n none 0 : Iface Heap)) (init none 64) [] [5, 16, 0, 100, 3]).2
    = [(8, 3), (16, 16), (0, 5)] := by decide

end Pool

namespace WindowPool

/-- A history of `alloc_window(size)` calls, recording offset, size and the window. -/
def run {σ : Type} (p : WindowPool σ) (granted : List (Nat × Nat × Iface σ)) :
    List Int → WindowPool σ × List (Nat × Nat × Iface σ)
  | [] => (p, granted)
  | n :: rest =>
    match p.allocWindow n with
    | (.ok (o, w), p') => run p' ((o, n.toNat, w) :: granted) rest
    | (.error _, p') => run p' granted rest

structure WInv {σ : Type} (win : Iface σ) (ops : List Buddy.Op) (p : WindowPool σ)
    (granted : List (Nat × Nat × Iface σ)) : Prop where
  alloc : p.allocator = (Buddy.after win.size 1 ops).1
  win_eq : p.win = win
  live : ∀ g ∈ granted, (g.1, Buddy.ceilPow2 g.2.1) ∈ (Buddy.after win.size 1 ops).2 ∧
    Buddy.ceilPow2 g.2.1 ∣ g.1 ∧ g.1 + g.2.1 ≤ win.size ∧ g.2.2.size = g.2.1 ∧
    nest win [((g.1 : Int), some (g.2.1 : Int))] = .ok g.2.2
  apart : granted.Pairwise (fun x y => Buddy.Apart (x.1, x.2.1) (y.1, y.2.1))

theorem step_inv {σ : Type} (win : Iface σ) (ops : List Buddy.Op) (p : WindowPool σ)
    (granted : List (Nat × Nat × Iface σ)) (h : WInv win ops p granted) (n : Int) :
    (∃ e p', p.allocWindow n = (.error e, p') ∧ WInv win (ops ++ [.alloc n]) p' granted ∧
      ((∃ e' a', p.allocator.alloc n = (.error e', a')) ∨
        ∃ a s', p.allocator.alloc n = (.ok a, s') ∧ (win.size : Int) < a + n)) ∨
    (∃ o w p', p.allocWindow n = (.ok (o, w), p') ∧
      WInv win (ops ++ [.alloc n]) p' ((o, n.toNat, w) :: granted)) := by
  cases hal : p.allocator.alloc n with
  | mk r s' =>
    cases r with
    | error e =>
      left
      refine ⟨e, { p with allocator := s' }, by simp only [allocWindow, hal], ?_, Or.inl ⟨_, _, rfl⟩⟩
      have hal' := hal
      rw [h.alloc] at hal'
      have haf := Buddy.after_snoc_alloc_err win.size 1 ops n e s' hal'
      refine ⟨by rw [haf], h.win_eq, ?_, h.apart⟩
      rw [haf]; exact h.live
    | ok a =>
      have hal' := hal
      rw [h.alloc] at hal'
      have haf := Buddy.after_snoc_alloc_ok win.size 1 ops n a s' hal'
      obtain ⟨c1, c2, c3⟩ := Buddy.C06_alloc_aligned_disjoint win.size 1 ops n a s' hal'
      have hn : 1 ≤ n := by
        apply Classical.byContradiction
        intro hc
        have : (Buddy.after win.size 1 ops).1.alloc n = (.error .valueError, (Buddy.after win.size 1 ops).1) := by
          simp only [Buddy.alloc]; rw [if_pos (by omega)]
        rw [this] at hal'; cases hal'
      have hmax : max n.toNat 1 = n.toNat := by omega
      rw [hmax] at haf c1 c2 c3
      have hlive : ∀ g ∈ granted, (g.1, Buddy.ceilPow2 g.2.1) ∈ (Buddy.after win.size 1 (ops ++ [.alloc n])).2 ∧
          Buddy.ceilPow2 g.2.1 ∣ g.1 ∧ g.1 + g.2.1 ≤ win.size ∧ g.2.2.size = g.2.1 ∧
          nest win [((g.1 : Int), some (g.2.1 : Int))] = .ok g.2.2 := by
        intro g hg
        rw [haf]
        exact ⟨List.mem_cons_of_mem _ (h.live g hg).1, (h.live g hg).2⟩
      have hap : ∀ g ∈ granted, Buddy.Apart (a, n.toNat) (g.1, g.2.1) := by
        intro g hg
        have := c3 _ (h.live g hg).1
        have := Pool.ceil_ge g.2.1
        have := Pool.ceil_ge n.toNat
        unfold Buddy.Apart at *
        dsimp only at *
        omega
      have hcw := createWindow_spec p.win a (some n)
      simp only [windowSize, if_neg (show ¬ n ≤ 0 by omega)] at hcw
      by_cases hr : InRange p.win.size a n
      · right
        refine ⟨a, _, { p with allocator := s' }, by simp only [allocWindow, hal, hcw.1 hr]; rfl, ?_⟩
        refine ⟨by rw [haf], h.win_eq, ?_, ?_⟩
        · intro g hg
          rcases List.mem_cons.1 hg with rfl | hg
          · refine ⟨by rw [haf]; simp, c2, ?_, rfl, ?_⟩
            · have := hr.2.2.2; rw [h.win_eq] at this; dsimp only; omega
            · dsimp only
              rw [← h.win_eq, show ((n.toNat : Nat) : Int) = n by omega]
              simp only [nest, hcw.1 hr]
          · exact hlive g hg
        · exact List.pairwise_cons.2 ⟨hap, h.apart⟩
      · left
        refine ⟨_, { p with allocator := s' }, by simp only [allocWindow, hal, hcw.2 hr]; rfl, ?_, Or.inr ⟨_, _, rfl, ?_⟩⟩
        · exact ⟨by rw [haf], h.win_eq, hlive, h.apart⟩
        · unfold InRange at hr; rw [h.win_eq] at hr; omega

theorem run_inv {σ : Type} (win : Iface σ) (ns : List Int) : ∀ ops p granted, WInv win ops p granted →
    ∃ ops', WInv win ops' (run p granted ns).1 (run p granted ns).2 := by
  induction ns with
  | nil => intro ops p g h; exact ⟨ops, h⟩
  | cons n rest ih =>
    intro ops p g h
    simp only [run]
    rcases step_inv win ops p g h n with ⟨e, p', h1, h2, -⟩ | ⟨o, w, p', h1, h2⟩
    · rw [h1]; exact ih _ _ _ h2
    · rw [h1]; exact ih _ _ _ h2

theorem inv_create {σ : Type} (parent : Iface σ) (offset size : Option Int) (p : WindowPool σ)
    (h : create parent offset size = .ok p) : WInv p.win [] p [] := by
  refine ⟨?_, rfl, by simp, by simp⟩
  simp only [create] at h
  split at h
  · cases h
  · split at h
    · cases h
    · cases h; rfl

/-- **C18 (window pools).** After any history of `alloc_window` calls on a new window pool, the windows handed
out are views (in the sense of C13) of pairwise disjoint, naturally aligned ranges inside the pool. -/
theorem C18_windows_disjoint_aligned {σ : Type} (parent : Iface σ) (offset size : Option Int)
    (p : WindowPool σ) (h : create parent offset size = .ok p) (ns : List Int) :
    let granted := (run p [] ns).2
    granted.Pairwise (fun x y => Buddy.Apart (x.1, x.2.1) (y.1, y.2.1)) ∧
    ∀ g ∈ granted, Buddy.ceilPow2 g.2.1 ∣ g.1 ∧ g.1 + g.2.1 ≤ p.win.size ∧
      nest p.win [((g.1 : Int), some (g.2.1 : Int))] = .ok g.2.2 := by
  obtain ⟨ops, hi⟩ := run_inv p.win ns [] p [] (inv_create parent offset size p h)
  refine ⟨hi.apart, fun g hg => ?_⟩
  obtain ⟨-, h2, h3, -, h5⟩ := hi.live g hg
  exact ⟨h2, h3, h5⟩

/-- **C18 (no spurious failure), partial.** On a window pool whose size is a power of two, `alloc_window(n)`
fails only when the allocator itself fails. Missing: other sizes (`C18_windows_violated`). -/
theorem C18_windows_never_fail_partial {σ : Type} (parent : Iface σ) (offset size : Option Int)
    (p : WindowPool σ) (h : create parent offset size = .ok p) (k : Nat) (hk : p.win.size = 2 ^ k)
    (ns : List Int) (n : Int) (e : PyErr) (p' : WindowPool σ)
    (hf : (run p [] ns).1.allocWindow n = (.error e, p')) :
    ∃ e' a', (run p [] ns).1.allocator.alloc n = (.error e', a') := by
  obtain ⟨ops, hi⟩ := run_inv p.win ns [] p [] (inv_create parent offset size p h)
  rcases step_inv p.win ops _ _ hi n with ⟨e', p'', h1, h2, h3 | ⟨a, s', h3, h4⟩⟩ | ⟨b, w, p'', h1, -⟩
  · exact h3
  · exfalso
    rw [hi.alloc, hk] at h3
    have haf := Buddy.after_snoc_alloc_ok (2 ^ k) 1 ops n a s' h3
    have := Buddy.C10_in_size_partial k 1 (ops ++ [.alloc n]) (a, Buddy.ceilPow2 (max n.toNat 1))
      (by rw [haf]; simp)
    dsimp only at this
    have := Pool.ceil_ge (max n.toNat 1)
    rw [hk] at h4
    have h5 : ((2 ^ k : Nat) : Int) < a + n := h4
    omega
  · rw [h1] at hf; cases hf

/-- **C18 is false of the code for other sizes**: a 10-byte window pool whose allocator grants the block `[8,16)`
for the second 8-byte request, which `create_window` then rejects; the block stays allocated. -/
theorem C18_windows_violated : ∃ p : WindowPool Heap,
    create (memoryRegion 16 none 0) none (some 10) = .ok p ∧
    ((run p [] [8]).1.allocWindow 8).1 = .error .valueError ∧
    (∃ a s', (run p [] [8]).1.allocator.alloc 8 = (.ok a, s')) := by
  refine ⟨_, rfl, rfl, ?_⟩
  exact ⟨_, _, rfl⟩

end WindowPool
end Verif
