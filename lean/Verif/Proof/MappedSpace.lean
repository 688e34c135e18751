import Verif.Proof.Mapped
import Verif.Props.AddressSpace

/-!
# Regions, windows and address spaces are targets with an address map
-/

namespace Verif

/-! ## Byte-by-byte routing -/

theorem routeRead_mapped {f : ByteMap} {H : AHeap} : ∀ (n : Nat) (a : Int), (∀ i : Nat, i < n → f (a + i) ≠ none) →
    ∃ d, routeRead f H a n = some d ∧ d.length = n ∧ ∀ i : Nat, i < n → ∀ k, f (a + i) = some k → d[i]? = some (H k.1 k.2) := by
  intro n
  induction n with
  | zero => intro a _; exact ⟨[], rfl, rfl, by intro i hi; omega⟩
  | succ n ih =>
    intro a h
    have h0 := h 0 (by omega)
    simp only [Int.natCast_zero, Int.add_zero] at h0
    obtain ⟨⟨k, j⟩, hf⟩ := Option.ne_none_iff_exists'.1 h0
    obtain ⟨d, e1, e2, e3⟩ := ih (a + 1) fun i hi => by
      rw [show a + 1 + (i : Int) = a + ((i + 1 : Nat) : Int) by omega]; exact h (i + 1) (by omega)
    refine ⟨H k j :: d, by simp only [routeRead, hf, e1], by simp [e2], ?_⟩
    intro i hi x hx
    cases i with
    | zero =>
      simp only [Int.natCast_zero, Int.add_zero, hf, Option.some.injEq] at hx
      subst hx; rfl
    | succ i =>
      rw [show a + ((i + 1 : Nat) : Int) = a + 1 + (i : Int) by omega] at hx
      rw [List.getElem?_cons_succ]
      exact e3 i (by omega) x hx

theorem routeRead_unmapped {f : ByteMap} {H : AHeap} : ∀ (n : Nat) (a : Int), (∃ i : Nat, i < n ∧ f (a + i) = none) →
    routeRead f H a n = none := by
  intro n
  induction n with
  | zero => rintro a ⟨i, hi, _⟩; omega
  | succ n ih =>
    rintro a ⟨i, hi, h⟩
    cases hf : f a with
    | none => simp only [routeRead, hf]
    | some k =>
      cases i with
      | zero => simp only [Int.natCast_zero, Int.add_zero, hf] at h; cases h
      | succ i =>
        rw [show a + ((i + 1 : Nat) : Int) = a + 1 + (i : Int) by omega] at h
        simp only [routeRead, hf, ih (a + 1) ⟨i, by omega, h⟩]

theorem routeWrite_fst {f : ByteMap} : ∀ (d : Bytes) (a : Int) (H : AHeap),
    (routeWrite f a d H).1 = true ↔ ∀ i : Nat, i < d.length → f (a + i) ≠ none := by
  intro d
  induction d with
  | nil => intro a H; simp [routeWrite]
  | cons x d ih =>
    intro a H
    cases hf : f a with
    | none =>
      simp only [routeWrite, hf, Bool.false_eq_true, false_iff]
      intro h
      have := h 0 (by simp)
      simp only [Int.natCast_zero, Int.add_zero] at this
      exact this hf
    | some k =>
      obtain ⟨k, j⟩ := k
      simp only [routeWrite, hf]
      rw [ih]
      constructor
      · intro h i hi
        cases i with
        | zero => simp only [Int.natCast_zero, Int.add_zero, hf]; simp
        | succ i =>
          rw [show a + ((i + 1 : Nat) : Int) = a + 1 + (i : Int) by omega]
          exact h i (by simpa using hi)
      · intro h i hi
        rw [show a + 1 + (i : Int) = a + ((i + 1 : Nat) : Int) by omega]
        exact h (i + 1) (by simpa using hi)

/-- Each byte is unchanged or one of the written ones. -/
theorem routeWrite_snd {f : ByteMap} (k j : Nat) : ∀ (d : Bytes) (a : Int) (H : AHeap),
    (routeWrite f a d H).2 k j = H k j ∨
      ∃ i : Nat, i < d.length ∧ f (a + i) = some (k, j) ∧ some ((routeWrite f a d H).2 k j) = d[i]? := by
  intro d
  induction d with
  | nil => intro a H; exact .inl rfl
  | cons x d ih =>
    intro a H
    cases hf : f a with
    | none => exact .inl (by simp only [routeWrite, hf])
    | some p =>
      obtain ⟨k', j'⟩ := p
      simp only [routeWrite, hf]
      rcases ih (a + 1) (H.put k' j' x) with h | ⟨i, hi, h1, h2⟩
      · by_cases hk : k = k' ∧ j = j'
        · obtain ⟨rfl, rfl⟩ := hk
          refine .inr ⟨0, by simp, by simp [hf], ?_⟩
          rw [h]; simp [AHeap.put]
        · left
          rw [h]; simp [AHeap.put, hk]
      · refine .inr ⟨i + 1, by simpa using hi, ?_, ?_⟩
        · rw [show a + ((i + 1 : Nat) : Int) = a + 1 + (i : Int) by omega]; exact h1
        · rw [List.getElem?_cons_succ]; exact h2

/-- A write to mapped addresses, none of which designate the same byte. -/
theorem routeWrite_at {f : ByteMap} (k j : Nat) : ∀ (d : Bytes) (a : Int) (H : AHeap),
    (∀ i : Nat, i < d.length → f (a + i) ≠ none) →
    (∀ i i' : Nat, i < d.length → i' < d.length → f (a + i) = some (k, j) → f (a + i') = some (k, j) → i = i') →
    ∀ i : Nat, i < d.length → f (a + i) = some (k, j) → some ((routeWrite f a d H).2 k j) = d[i]? := by
  intro d
  induction d with
  | nil => intro a H _ _ i hi; simp at hi
  | cons x d ih =>
    intro a H hm hinj i hi hk
    have h0 := hm 0 (by simp)
    simp only [Int.natCast_zero, Int.add_zero] at h0
    obtain ⟨⟨k', j'⟩, hf⟩ := Option.ne_none_iff_exists'.1 h0
    simp only [routeWrite, hf]
    have sh : ∀ n : Nat, a + 1 + (n : Int) = a + ((n + 1 : Nat) : Int) := by intro n; omega
    cases i with
    | zero =>
      simp only [Int.natCast_zero, Int.add_zero, hf, Option.some.injEq, Prod.mk.injEq] at hk
      obtain ⟨rfl, rfl⟩ := hk
      rcases routeWrite_snd k' j' d (a + 1) (H.put k' j' x) with h | ⟨i, hi, h1, _⟩
      · rw [h]; simp [AHeap.put]
      · exfalso
        have := hinj (i + 1) 0 (by simpa using hi) (by simp) (by rw [← sh]; exact h1) (by simp [hf])
        omega
    | succ i =>
      rw [List.getElem?_cons_succ]
      refine ih (a + 1) _ ?_ ?_ i (by simpa using hi) (by rw [sh]; exact hk)
      · intro i hi; rw [sh]; exact hm (i + 1) (by simpa using hi)
      · intro i i' hi hi' h1 h2
        rw [sh] at h1 h2
        have := hinj (i + 1) (i' + 1) (by simpa using hi) (by simpa using hi') h1 h2
        omega

/-! ## Interfaces -/

/-- What a memory object contains. -/
def cell (h : Heap) (k : Nat × Nat) : UInt8 := absHeap h k.1 k.2

/-- An interface object that follows a byte map on all accesses. -/
theorem mapped_of_route {S : Nat → Bool × Nat} {I : Iface Heap} {f : ByteMap}
    (inj : ∀ (x y : Nat) k, f x = some k → f y = some k → x = y)
    (hr : ∀ h, Good S h → ∀ a n : Nat, 1 ≤ n → ∃ r, I.read a n h = (r, h) ∧ Matches r (routeRead f (absHeap h) a n))
    (hw : ∀ h, Good S h → ∀ (a : Nat) (d : Bytes), 1 ≤ d.length → ∃ r h', I.write a d h = (r, h') ∧ Good S h' ∧
      ((routeWrite f a d (absHeap h)).1 = true → r = .ok () ∧ absHeap h' = (routeWrite f a d (absHeap h)).2) ∧
      ((routeWrite f a d (absHeap h)).1 = false → (∃ e, r = .error e) ∧
        (absHeap h' = (routeWrite f a d (absHeap h)).2 ∨ absHeap h' = absHeap h))) :
    Mapped (Target.ofIface I) (Good S) (fun x => f x) cell where
  inj := inj
  read_ok := by
    intro h a n hg hn hm
    obtain ⟨r, e1, e2⟩ := hr h hg a n hn
    obtain ⟨d, g1, g2, g3⟩ := routeRead_mapped (f := f) (H := absHeap h) n a fun i hi => by
      have := hm i hi; rwa [Int.natCast_add] at this
    rw [g1] at e2
    have e2 : r = .ok d := e2
    subst e2
    refine ⟨d, e1, g2, fun i hi k hk => g3 i hi k ?_⟩
    rwa [Int.natCast_add] at hk
  read_fail := by
    rintro h a n hg hn ⟨i, hi, hm⟩
    obtain ⟨r, e1, e2⟩ := hr h hg a n hn
    rw [routeRead_unmapped n a ⟨i, hi, by rwa [Int.natCast_add] at hm⟩] at e2
    obtain ⟨e, rfl⟩ := e2
    exact ⟨e, e1⟩
  write_ok := by
    intro h a d hg hd hm
    obtain ⟨r, h', e1, e2, e3, _⟩ := hw h hg a d hd
    have hm' : ∀ i : Nat, i < d.length → f ((a : Int) + i) ≠ none := fun i hi => by
      have := hm i hi; rwa [Int.natCast_add] at this
    obtain ⟨rfl, e4⟩ := e3 ((routeWrite_fst d a _).2 hm')
    refine ⟨h', e1, e2, ?_, ?_⟩
    · intro i hi k hk
      simp only [cell, e4]
      refine routeWrite_at k.1 k.2 d a _ hm' ?_ i hi (by rwa [Int.natCast_add] at hk)
      intro i i' _ _ h1 h2
      rw [← Int.natCast_add] at h1 h2
      have := inj _ _ _ h1 h2
      omega
    · intro k hk
      simp only [cell, e4]
      rcases routeWrite_snd (f := f) k.1 k.2 d a (absHeap h) with h | ⟨i, hi, h1, _⟩
      · exact h
      · exact absurd (by rwa [Int.natCast_add]) (hk i hi)
  write_fail := by
    rintro h a d hg hd ⟨i, hi, hm⟩
    obtain ⟨r, h', e1, e2, _, e3⟩ := hw h hg a d hd
    have hf : (routeWrite f a d (absHeap h)).1 = false := by
      rw [Bool.eq_false_iff]
      intro hc
      exact (routeWrite_fst d a _).1 hc i hi (by rwa [Int.natCast_add] at hm)
    obtain ⟨⟨e, rfl⟩, e4⟩ := e3 hf
    refine ⟨e, h', e1, e2, ?_⟩
    intro k
    rcases e4 with e3 | e3
    · simp only [cell, e3]
      rcases routeWrite_snd (f := f) k.1 k.2 d a (absHeap h) with h | ⟨i, hi, h1, h2⟩
      · exact .inl h
      · exact .inr ⟨i, hi, by rwa [Int.natCast_add], h2⟩
    · exact .inl (by simp only [cell, e3])

/-- A byte map, restricted to the addresses below `size`. -/
def ByteMap.below (f : ByteMap) (size : Nat) : ByteMap := fun x => if x < size then f x else none

/-- An interface object that checks the range of accesses first. -/
theorem mapped_of_law {S : Nat → Bool × Nat} {I : Iface Heap} {f : ByteMap} (law : Law S I f)
    (inj : ∀ (x y : Nat) k, x < I.size → y < I.size → f x = some k → f y = some k → x = y)
    (hr : ∀ h (a n : Nat), ¬ a + n ≤ I.size → ∃ e, I.read a n h = (.error e, h))
    (hw : ∀ h (a : Nat) (d : Bytes), ¬ a + d.length ≤ I.size → ∃ e, I.write a d h = (.error e, h)) :
    Mapped (Target.ofIface I) (Good S) (fun x => f.below I.size x) cell := by
  have hin : ∀ (a n : Nat), a + n ≤ I.size → ∀ i : Nat, i < n → f ((a : Int) + i) = f.below I.size ((a : Int) + i) := by
    intro a n h i hi
    rw [ByteMap.below, if_pos (by omega)]
  refine mapped_of_route ?_ ?_ ?_
  · intro x y k h1 h2
    simp only [ByteMap.below] at h1 h2
    split at h1
    · split at h2
      · exact inj x y k (by omega) (by omega) h1 h2
      · cases h2
    · cases h1
  · intro h hg a n hn
    by_cases hle : a + n ≤ I.size
    · obtain ⟨r, e1, e2⟩ := law.read h hg a n (by omega) hn (by omega)
      exact ⟨r, e1, by rwa [← routeRead_congr n a a (hin a n hle)]⟩
    · obtain ⟨e, he⟩ := hr h a n hle
      refine ⟨_, he, ?_⟩
      rw [routeRead_unmapped n a ⟨n - 1, by omega, by rw [ByteMap.below, if_neg (by omega)]⟩]
      exact ⟨e, rfl⟩
  · intro h hg a d hd
    by_cases hle : a + d.length ≤ I.size
    · obtain ⟨r, h', e1, e2, e3, e4, e5⟩ := law.write h hg a d (by omega) hd (by omega)
      rw [routeWrite_congr d a a (absHeap h) (hin a d.length hle)] at e3 e4 e5
      exact ⟨r, h', e1, e2, fun ht => ⟨e4 ht, e3⟩, fun hf => ⟨e5 hf, .inl e3⟩⟩
    · obtain ⟨e, he⟩ := hw h a d hle
      refine ⟨_, h, he, hg, ?_, fun _ => ⟨⟨e, rfl⟩, .inr rfl⟩⟩
      intro ht
      exfalso
      exact (routeWrite_fst d a _).1 ht (d.length - 1) (by omega) (by rw [ByteMap.below, if_neg (by omega)])

theorem regionMap_below (size k : Nat) : (regionMap size k).below size = regionMap size k := by
  funext x
  simp only [ByteMap.below, regionMap]
  split <;> split <;> first | rfl | omega

theorem regionMap_inj (size k : Nat) (x y : Nat) (p : Nat × Nat) (h1 : regionMap size k x = some p) (h2 : regionMap size k y = some p) :
    x = y := by
  simp only [regionMap] at h1 h2
  split at h1
  · split at h2
    · simp only [Option.some.injEq] at h1 h2
      rw [← h1] at h2
      simp only [Prod.mk.injEq] at h2
      omega
    · cases h2
  · cases h1

theorem mapped_memoryRegion (S : Nat → Bool × Nat) (size : Nat) (base : Option Int) (k : Nat) (hS : size ≤ (S k).2) :
    Mapped (Target.ofIface (memoryRegion size base k)) (Good S) (fun x => regionMap size k x) cell := by
  have := mapped_of_law (law_memoryRegion S size base k hS) (fun x y p _ _ => regionMap_inj size k x y p)
    (fun h a n hn => ⟨.valueError, (C12_read size base false _ _ a n h).2 fun hc => hn (by have := hc.2.2.2; show a + n ≤ size; omega)⟩)
    (fun h a d hn => ⟨.valueError, (C12_write size base false _ _ a d h).2 fun hc => hn (by have := hc.2.2.2; show a + d.length ≤ size; omega)⟩)
  rwa [show (memoryRegion size base k).size = size from rfl, regionMap_below] at this

theorem mapped_sparseMemoryRegion (S : Nat → Bool × Nat) (size : Nat) (base : Option Int) (k : Nat) (hS : size ≤ (S k).2)
    (hk : (S k).1 = true) :
    Mapped (Target.ofIface (sparseMemoryRegion size base k)) (Good S) (fun x => regionMap size k x) cell := by
  have := mapped_of_law (law_sparseMemoryRegion S size base k hS hk) (fun x y p _ _ => regionMap_inj size k x y p)
    (fun h a n hn => ⟨.valueError, (C12_read size base false _ _ a n h).2 fun hc => hn (by have := hc.2.2.2; show a + n ≤ size; omega)⟩)
    (fun h a d hn => ⟨.valueError, (C12_write size base false _ _ a d h).2 fun hc => hn (by have := hc.2.2.2; show a + d.length ≤ size; omega)⟩)
  rwa [show (sparseMemoryRegion size base k).size = size from rfl, regionMap_below] at this

/-- A window over an interface object that follows a byte map. -/
theorem mapped_window (S : Nat → Bool × Nat) (p : Iface Heap) (f : ByteMap) (hp : Law S p f) (off size : Nat) (base : Option Int)
    (h : off + size ≤ p.size) (inj : ∀ (x y : Nat) k, f x = some k → f y = some k → x = y) :
    Mapped (Target.ofIface (p.window off size base)) (Good S) (fun x => if x < size then f ((x + off : Nat) : Int) else none) cell := by
  have := mapped_of_law (law_window S p f hp off size base h)
    (fun x y k _ _ h1 h2 => by
      rw [← Int.natCast_add] at h1 h2
      have := inj _ _ _ h1 h2
      omega)
    (fun h a n hn => ⟨.valueError, by
      rw [window_read, if_neg]; intro hc; exact hn (by show a + n ≤ size; omega)⟩)
    (fun h a d hn => ⟨.valueError, by
      rw [window_write, if_neg]; intro hc; exact hn (by show a + d.length ≤ size; omega)⟩)
  have he : (fun x : Nat => ByteMap.below (fun x : Int => f (x + off)) (p.window off size base).size x) =
      fun x : Nat => if x < size then f ((x + off : Nat) : Int) else none := by
    funext x
    show (if (x : Int) < (size : Int) then f (x + off) else none) = _
    rw [Int.natCast_add]
    split <;> split <;> first | rfl | omega
  rwa [he] at this

namespace AddressSpace

/-- An address space whose regions lie inside it. -/
theorem mapped_space (S : Nat → Bool × Nat) (F : Entry Heap → ByteMap) (s : AddressSpace Heap)
    (hd : s.regions.Pairwise EApart) (hok : ∀ e ∈ s.regions, EntryOK S F e) (hin : ∀ e ∈ s.regions, e.base + e.size ≤ s.size)
    (inj : ∀ (x y : Nat) k, spaceMap s.regions F x = some k → spaceMap s.regions F y = some k → x = y) :
    Mapped (Target.ofIface s.toIface) (Good S) (fun x => spaceMap s.regions F x) cell := by
  have hout : ∀ x : Int, (s.size : Int) ≤ x → spaceMap s.regions F x = none := by
    intro x hx
    apply spaceMap_hole
    intro e he
    have := hin e he
    simp only [owns, decide_eq_false_iff_not]
    omega
  refine mapped_of_route inj ?_ ?_
  · intro h hg a n hn
    by_cases ha : a < s.size
    · exact space_read S F s hd hok h hg a n (by omega) (by omega) hn
    · refine ⟨_, (C17_out_of_space s h a (by omega)).1 n, ?_⟩
      rw [routeRead_unmapped n a ⟨0, hn, hout _ (by omega)⟩]
      exact ⟨_, rfl⟩
  · intro h hg a d hdl
    by_cases ha : a < s.size
    · obtain ⟨r, h', e1, e2, e3, e4, e5⟩ := space_write S F s hd hok h hg a d (by omega) (by omega) hdl
      exact ⟨r, h', e1, e2, fun ht => ⟨e4 ht, e3⟩, fun hf => ⟨e5 hf, .inl e3⟩⟩
    · refine ⟨_, h, (C17_out_of_space s h a (by omega)).2 d, hg, ?_, fun _ => ⟨⟨_, rfl⟩, .inr rfl⟩⟩
      intro ht
      exact absurd (hout _ (by omega)) ((routeWrite_fst d a _).1 ht 0 hdl)

end AddressSpace

end Verif
