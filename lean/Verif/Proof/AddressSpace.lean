import Verif.Model.AddressSpace
import Verif.Proof.Memory
import Verif.Spec.Routing

/-!
# Lemmas about `AddressSpace`, windows and regions
-/

namespace Verif

/-! ## Heap abstraction -/

namespace Backing

/-- Flat contents of a memory object. -/
def contents (b : Backing) : FlatMem := (Memory.mk b.rawLen b).contents

/-- Well-formed memory object. -/
def WF (b : Backing) : Prop := (Memory.mk b.rawLen b).WF

/-- Kind (sparse or buffer) and length; never changed by accesses. -/
def shape : Backing → Bool × Nat
  | .sparse m => (true, m.size)
  | .buf b => (false, b.length)

theorem shape_snd (b : Backing) : b.shape.2 = b.rawLen := by cases b <;> rfl

theorem getSlice_ok (b : Backing) (hb : b.WF) (a n : Nat) (h1 : a < b.rawLen) (h2 : a + n ≤ b.rawLen) :
    b.getSlice a ((a : Int) + (n : Int)) = .ok (b.contents.load a n) :=
  Memory.read_ok (Memory.mk b.rawLen b) hb a n h1 h2

theorem setSlice_ok (b : Backing) (hb : b.WF) (a : Nat) (d : Bytes) (h1 : a < b.rawLen)
    (h2 : a + d.length ≤ b.rawLen) :
    ∃ b', b.setSlice a ((a : Int) + (d.length : Int)) d = (.ok (), b') ∧ b'.WF ∧ b'.shape = b.shape ∧
      b'.contents = b.contents.store a d := by
  obtain ⟨m', e1, e2, e3, e4⟩ := Memory.write_ok (Memory.mk b.rawLen b) hb a d h1 h2
  simp only [Memory.write] at e1
  have e1a := (Prod.mk.inj e1).1
  have e1b := (Prod.mk.inj e1).2
  refine ⟨(b.setSlice a ((a : Int) + (d.length : Int)) d).2, ?_, ?_⟩
  · rw [← e1a]
  · subst e1b
    dsimp only at e2 e3 e4
    have hlen : (b.setSlice a ((a : Int) + (d.length : Int)) d).2.rawLen = b.rawLen := by
      have := e2.1; dsimp only at this; exact this.symm
    refine ⟨?_, ?_, ?_⟩
    · unfold WF; rw [hlen]; exact e2
    · have hk : (b.setSlice a ((a : Int) + (d.length : Int)) d).2.shape.1 = b.shape.1 := by
        cases b with
        | sparse m => rfl
        | buf l =>
          simp only [setSlice]
          split <;> rfl
      apply Prod.ext
      · exact hk
      · rw [shape_snd, shape_snd]; exact hlen
    · unfold contents; rw [hlen]; exact e4

end Backing

/-- Abstract heap. -/
def absHeap (h : Heap) : AHeap := fun k => (h k).contents

/-- All memory objects are well-formed and have the given shapes. -/
def Good (S : Nat → Bool × Nat) (h : Heap) : Prop := ∀ k, (h k).WF ∧ (h k).shape = S k

theorem Good.set {S : Nat → Bool × Nat} {h : Heap} (hg : Good S h) (k : Nat) (b : Backing) (hb : b.WF)
    (hs : b.shape = S k) : Good S (h.set k b) := by
  intro i
  simp only [Heap.set]
  by_cases hi : i = k
  · subst hi; simp [hb, hs]
  · simp [hi, hg i]

/-- A successful model result matches `some`, an exception matches `none`. -/
def Matches {α : Type} (r : Py α) (o : Option α) : Prop :=
  match o with
  | some v => r = .ok v
  | none => ∃ e, r = .error e

/-- An interface serves every in-range access as the byte map `f` prescribes. -/
structure Law (S : Nat → Bool × Nat) (I : Iface Heap) (f : ByteMap) : Prop where
  read : ∀ h, Good S h → ∀ (a : Int) (n : Nat), 0 ≤ a → 1 ≤ n → a + n ≤ I.size →
    ∃ r, I.read a n h = (r, h) ∧ Matches r (routeRead f (absHeap h) a n)
  write : ∀ h, Good S h → ∀ (a : Int) (d : Bytes), 0 ≤ a → 1 ≤ d.length → a + d.length ≤ I.size →
    ∃ r h', I.write a d h = (r, h') ∧ Good S h' ∧
      absHeap h' = (routeWrite f a d (absHeap h)).2 ∧
      ((routeWrite f a d (absHeap h)).1 = true → r = .ok ()) ∧
      ((routeWrite f a d (absHeap h)).1 = false → ∃ e, r = .error e)

/-! ## Routing lemmas -/

theorem routeRead_congr {f g : ByteMap} {H : AHeap} : ∀ (n : Nat) (a b : Int),
    (∀ i : Nat, i < n → f (a + i) = g (b + i)) → routeRead f H a n = routeRead g H b n := by
  intro n
  induction n with
  | zero => intros; rfl
  | succ n ih =>
    intro a b h
    have h0 := h 0 (by omega)
    simp only [Int.natCast_zero, Int.add_zero] at h0
    have := ih (a + 1) (b + 1) (by
      intro i hi
      have := h (i + 1) (by omega)
      rw [show a + 1 + (i : Int) = a + ((i + 1 : Nat) : Int) by omega,
        show b + 1 + (i : Int) = b + ((i + 1 : Nat) : Int) by omega]
      exact this)
    simp only [routeRead, h0, this]

theorem routeRead_add {f : ByteMap} {H : AHeap} : ∀ (n m : Nat) (a : Int),
    routeRead f H a (n + m) = (routeRead f H a n).bind fun d =>
      (routeRead f H (a + n) m).map fun e => d ++ e := by
  intro n
  induction n with
  | zero => intro m a; simp [routeRead]
  | succ n ih =>
    intro m a
    rw [show n + 1 + m = (n + m) + 1 by omega]
    simp only [routeRead]
    rw [ih m (a + 1)]
    cases f a with
    | none => rfl
    | some kj =>
      obtain ⟨k, j⟩ := kj
      simp only
      cases routeRead f H (a + 1) n with
      | none => rfl
      | some d =>
        simp only [Option.bind_some]
        rw [show a + ((n + 1 : Nat) : Int) = a + 1 + (n : Int) by omega]
        cases routeRead f H (a + 1 + n) m <;> rfl

theorem routeWrite_congr {f g : ByteMap} : ∀ (d : Bytes) (a b : Int) (H : AHeap),
    (∀ i : Nat, i < d.length → f (a + i) = g (b + i)) → routeWrite f a d H = routeWrite g b d H := by
  intro d
  induction d with
  | nil => intros; rfl
  | cons x d ih =>
    intro a b H h
    have h0 := h 0 (by simp)
    simp only [Int.natCast_zero, Int.add_zero] at h0
    have := fun H => ih (a + 1) (b + 1) H (by
      intro i hi
      have := h (i + 1) (by simp; omega)
      rw [show a + 1 + (i : Int) = a + ((i + 1 : Nat) : Int) by omega,
        show b + 1 + (i : Int) = b + ((i + 1 : Nat) : Int) by omega]
      exact this)
    simp only [routeWrite, h0, this]

theorem routeWrite_append {f : ByteMap} : ∀ (d e : Bytes) (a : Int) (H : AHeap),
    routeWrite f a (d ++ e) H =
      if (routeWrite f a d H).1 then routeWrite f (a + d.length) e (routeWrite f a d H).2
      else routeWrite f a d H := by
  intro d
  induction d with
  | nil => intro e a H; simp [routeWrite]
  | cons x d ih =>
    intro e a H
    simp only [List.cons_append, routeWrite]
    obtain hfa | ⟨⟨k, j⟩, hfa⟩ := Option.eq_none_or_eq_some (f a)
    · simp only [hfa]; simp
    · simp only [hfa]
      rw [ih]
      rw [show a + ((x :: d).length : Int) = a + 1 + (d.length : Int) by simp; omega]

/-! ## Memory regions satisfy the law -/

/-- Byte map of a memory region over object `k`. -/
def regionMap (size k : Nat) : ByteMap := fun x => if 0 ≤ x ∧ x < size then some (k, x.toNat) else none

theorem routeRead_region (size k : Nat) (H : AHeap) : ∀ (n : Nat) (a : Nat), a + n ≤ size →
    routeRead (regionMap size k) H a n = some ((H k).load a n) := by
  intro n
  induction n with
  | zero => intro a _; simp [routeRead, FlatMem.load]
  | succ n ih =>
    intro a h
    have hf : regionMap size k (a : Int) = some (k, a) := by
      simp only [regionMap]; rw [if_pos (by omega)]; simp
    simp only [routeRead, hf]
    have := ih (a + 1) (by omega)
    rw [show ((a : Int) + 1) = ((a + 1 : Nat) : Int) by omega, this]
    simp only
    rw [show n + 1 = 1 + n by omega, FlatMem.load_add]
    simp [FlatMem.load]

theorem routeWrite_region (size k : Nat) : ∀ (d : Bytes) (a : Nat) (H : AHeap), a + d.length ≤ size →
    routeWrite (regionMap size k) a d H = (true, fun k' => if k' = k then (H k).store a d else H k') := by
  intro d
  induction d with
  | nil =>
    intro a H _
    simp only [routeWrite, FlatMem.store_nil]
    congr 1
    funext k'
    by_cases h : k' = k
    · subst h; simp
    · simp [h]
  | cons x d ih =>
    intro a H h
    simp only [List.length_cons] at h
    have hf : regionMap size k (a : Int) = some (k, a) := by
      simp only [regionMap]; rw [if_pos (by omega)]; simp
    simp only [routeWrite, hf]
    rw [show ((a : Int) + 1) = ((a + 1 : Nat) : Int) by omega, ih _ _ (by omega)]
    congr 1
    funext k'
    by_cases hk : k' = k
    · subst hk
      simp only [if_true]
      have : (H k').store a (x :: d) = ((H k').store a [x]).store (a + 1) d := by
        have := FlatMem.store_append (H k') a [x] d
        simpa using this
      rw [this]
      congr 1
      funext j
      simp only [AHeap.put, FlatMem.store, List.length_singleton]
      by_cases hj : j = a
      · subst hj; simp
      · simp only [hj, and_false, if_false]
        rw [dif_neg (by omega)]
    · funext j; simp [hk, AHeap.put]

theorem checkRange_ok (size : Nat) (a n : Int) (h1 : 0 ≤ a) (h2 : a < size) (h3 : 0 ≤ n)
    (h4 : a + n ≤ size) : Iface.checkRange size a n = .ok () := by
  simp only [Iface.checkRange]
  rw [if_neg (by omega), if_neg (by omega), if_neg (by omega)]

theorem checkRange_err (size : Nat) (a n : Int) (h : a < 0 ∨ a ≥ size ∨ n < 0 ∨ a + n > size) :
    Iface.checkRange size a n = .error .valueError := by
  simp only [Iface.checkRange]
  split
  · rfl
  · split
    · rfl
    · split
      · rfl
      · omega

/-- A region object of `size` bytes over memory object `k`: every access inside it is served from that object. -/
structure Serves (S : Nat → Bool × Nat) (size k : Nat) (I : Iface Heap) : Prop where
  len : I.size = size
  read : ∀ h, Good S h → ∀ a n : Nat, a < size → a + n ≤ size → I.read a n h = (.ok ((absHeap h k).load a n), h)
  write : ∀ h, Good S h → ∀ (a : Nat) (d : Bytes), a < size → a + d.length ≤ size →
    ∃ b, I.write a d h = (.ok (), h.set k b) ∧ b.WF ∧ b.shape = S k ∧ b.contents = (absHeap h k).store a d
  readOut : ∀ h (a n : Int), ¬ (0 ≤ a ∧ a < size ∧ 0 ≤ n ∧ a + n ≤ size) → I.read a n h = (.error .valueError, h)
  writeOut : ∀ h (a : Int) (d : Bytes), ¬ (0 ≤ a ∧ a < size ∧ a + d.length ≤ size) → I.write a d h = (.error .valueError, h)

theorem Serves.law {S : Nat → Bool × Nat} {size k : Nat} {I : Iface Heap} (hs : Serves S size k I) : Law S I (regionMap size k) := by
  have hI := hs.len
  refine ⟨?_, ?_⟩
  · intro h hg a n h0 h1 h2
    obtain ⟨a, rfl⟩ := Int.eq_ofNat_of_zero_le h0
    rw [routeRead_region size k _ n a (by omega)]
    exact ⟨_, hs.read h hg a n (by omega) (by omega), rfl⟩
  · intro h hg a d h0 h1 h2
    obtain ⟨a, rfl⟩ := Int.eq_ofNat_of_zero_le h0
    rw [routeWrite_region size k d a _ (by omega)]
    obtain ⟨b, e1, e2, e3, e4⟩ := hs.write h hg a d (by omega) (by omega)
    refine ⟨_, _, e1, hg.set k b e2 e3, ?_, fun _ => rfl, fun hc => by simp at hc⟩
    funext k'
    simp only [absHeap, Heap.set]
    by_cases hk : k' = k
    · subst hk; simp [e4, absHeap]
    · simp [hk]

theorem serves_memoryRegion (S : Nat → Bool × Nat) (size : Nat) (base : Option Int) (k : Nat)
    (hS : size ≤ (S k).2) : Serves S size k (memoryRegion size base k) := by
  have hlen : ∀ h, Good S h → size ≤ (h k).rawLen := by
    intro h hg; rw [← Backing.shape_snd, (hg k).2]; exact hS
  refine ⟨rfl, ?_, ?_, ?_, ?_⟩
  · intro h hg a n h1 h2
    simp only [memoryRegion, Iface.ofPrivate]
    rw [checkRange_ok _ _ _ (by omega) (by omega) (by omega) (by omega)]
    have := hlen h hg
    simp only
    rw [Backing.getSlice_ok (h k) (hg k).1 a n (by omega) (by omega)]
    rfl
  · intro h hg a d h1 h2
    simp only [memoryRegion, Iface.ofPrivate]
    rw [checkRange_ok _ _ _ (by omega) (by omega) (by omega) (by omega)]
    have := hlen h hg
    obtain ⟨b', e1, e2, e3, e4⟩ := Backing.setSlice_ok (h k) (hg k).1 a d (by omega) (by omega)
    refine ⟨b', by simp only [e1], e2, by rw [e3, (hg k).2], e4⟩
  · intro h a n hn
    simp only [memoryRegion, Iface.ofPrivate]
    rw [checkRange_err _ _ _ (by omega)]
  · intro h a d hn
    simp only [memoryRegion, Iface.ofPrivate]
    rw [checkRange_err _ _ _ (by omega)]

theorem serves_sparseMemoryRegion (S : Nat → Bool × Nat) (size : Nat) (base : Option Int) (k : Nat)
    (hS : size ≤ (S k).2) (hk : (S k).1 = true) : Serves S size k (sparseMemoryRegion size base k) := by
  have hsp : ∀ h, Good S h → ∃ m, h k = .sparse m ∧ m.WF ∧ size ≤ m.size ∧ S k = (true, m.size) := by
    intro h hg
    obtain ⟨h1, h2⟩ := hg k
    cases hb : h k with
    | buf b => rw [hb] at h2; rw [← h2] at hk; simp [Backing.shape] at hk
    | sparse m =>
      rw [hb] at h1 h2
      refine ⟨m, rfl, h1.2, ?_, h2.symm⟩
      rw [← h2] at hS; exact hS
  refine ⟨rfl, ?_, ?_, ?_, ?_⟩
  · intro h hg a n h1 h2
    obtain ⟨m, hm, hwf, hsz, _⟩ := hsp h hg
    simp only [sparseMemoryRegion, Iface.ofPrivate]
    rw [checkRange_ok _ _ _ (by omega) (by omega) (by omega) (by omega)]
    simp only [hm]
    rw [SparseMemory.read_ok m hwf a n (by omega) (by omega)]
    simp [absHeap, hm, Backing.contents, Memory.contents]
  · intro h hg a d h1 h2
    obtain ⟨m, hm, hwf, hsz, hS'⟩ := hsp h hg
    simp only [sparseMemoryRegion, Iface.ofPrivate]
    rw [checkRange_ok _ _ _ (by omega) (by omega) (by omega) (by omega)]
    obtain ⟨m', e1, e2, e3, e4⟩ := SparseMemory.write_ok m hwf a d (by omega) (by omega)
    simp only [hm, e1]
    refine ⟨.sparse m', rfl, ⟨rfl, e2⟩, ?_, ?_⟩
    · rw [hS', ← e3]; rfl
    · simp [absHeap, hm, Backing.contents, Memory.contents, e4]
  · intro h a n hn
    simp only [sparseMemoryRegion, Iface.ofPrivate]
    rw [checkRange_err _ _ _ (by omega)]
  · intro h a d hn
    simp only [sparseMemoryRegion, Iface.ofPrivate]
    rw [checkRange_err _ _ _ (by omega)]

theorem law_memoryRegion (S : Nat → Bool × Nat) (size : Nat) (base : Option Int) (k : Nat)
    (hS : size ≤ (S k).2) : Law S (memoryRegion size base k) (regionMap size k) := (serves_memoryRegion S size base k hS).law

theorem law_sparseMemoryRegion (S : Nat → Bool × Nat) (size : Nat) (base : Option Int) (k : Nat)
    (hS : size ≤ (S k).2) (hk : (S k).1 = true) : Law S (sparseMemoryRegion size base k) (regionMap size k) :=
  (serves_sparseMemoryRegion S size base k hS hk).law

/-! ## Windows -/

theorem window_read {σ : Type} (p : Iface σ) (off : Int) (size : Nat) (base : Option Int)
    (a n : Int) (st : σ) :
    (p.window off size base).read a n st =
      if 0 ≤ a ∧ a < size ∧ 0 ≤ n ∧ a + n ≤ size then p.read (a + off) n st
      else (.error .valueError, st) := by
  simp only [Iface.window, Iface.ofPrivate]
  by_cases h : 0 ≤ a ∧ a < size ∧ 0 ≤ n ∧ a + n ≤ size
  · rw [checkRange_ok _ _ _ h.1 h.2.1 h.2.2.1 h.2.2.2, if_pos h]
    simp only [Iface.getParentAddress]
    rw [if_neg (by omega)]
  · rw [checkRange_err _ _ _ (by omega), if_neg h]

theorem window_write {σ : Type} (p : Iface σ) (off : Int) (size : Nat) (base : Option Int)
    (a : Int) (d : Bytes) (st : σ) :
    (p.window off size base).write a d st =
      if 0 ≤ a ∧ a < size ∧ a + d.length ≤ size then p.write (a + off) d st
      else (.error .valueError, st) := by
  simp only [Iface.window, Iface.ofPrivate]
  by_cases h : 0 ≤ a ∧ a < size ∧ a + d.length ≤ size
  · rw [checkRange_ok _ _ _ h.1 h.2.1 (by omega) h.2.2, if_pos h]
    simp only [Iface.getParentAddress]
    rw [if_neg (by omega)]
  · rw [checkRange_err _ _ _ (by omega), if_neg h]

theorem law_window (S : Nat → Bool × Nat) (p : Iface Heap) (f : ByteMap) (hp : Law S p f)
    (off : Nat) (size : Nat) (base : Option Int) (h : off + size ≤ p.size) :
    Law S (p.window off size base) (fun x => f (x + off)) := by
  refine ⟨?_, ?_⟩
  · intro hh hg a n h0 h1 h2
    have h2' : a + n ≤ size := h2
    rw [window_read, if_pos (by omega)]
    obtain ⟨r, e1, e2⟩ := hp.read hh hg (a + off) n (by omega) h1 (by omega)
    refine ⟨r, e1, ?_⟩
    rw [routeRead_congr n a (a + off) (g := f) (by intro i _; congr 1; omega)]
    exact e2
  · intro hh hg a d h0 h1 h2
    have h2' : a + d.length ≤ size := h2
    rw [window_write, if_pos (by omega)]
    rw [routeWrite_congr d a (a + off) (g := f) _ (by intro i _; congr 1; omega)]
    exact hp.write hh hg (a + off) d (by omega) h1 (by omega)

/-! ## Sorting -/

namespace AddressSpace

variable {σ : Type}

/-- Ranges share no address. -/
def EApart (x y : Entry σ) : Prop := x.base + x.size ≤ y.base ∨ y.base + y.size ≤ x.base

theorem mem_insertEntry (x y : Entry σ) (l : List (Entry σ)) :
    y ∈ insertEntry x l ↔ y = x ∨ y ∈ l := by
  induction l with
  | nil => simp [insertEntry]
  | cons z l ih =>
    simp only [insertEntry]
    split
    · simp
    · simp only [List.mem_cons, ih]; grind

theorem mem_sortEntries (y : Entry σ) (l : List (Entry σ)) : y ∈ sortEntries l ↔ y ∈ l := by
  induction l with
  | nil => simp [sortEntries]
  | cons x l ih => simp [sortEntries, mem_insertEntry, ih]

theorem sorted_insertEntry (x : Entry σ) (l : List (Entry σ))
    (h : l.Pairwise (fun a b => a.base ≤ b.base)) :
    (insertEntry x l).Pairwise (fun a b => a.base ≤ b.base) := by
  induction l with
  | nil => simp [insertEntry]
  | cons z l ih =>
    rw [List.pairwise_cons] at h
    simp only [insertEntry]
    split
    · rename_i hle
      simp only [entryLe, decide_eq_true_eq] at hle
      rw [List.pairwise_cons]
      refine ⟨?_, List.pairwise_cons.2 h⟩
      intro a ha
      rcases List.mem_cons.1 ha with rfl | ha
      · omega
      · have := h.1 a ha; omega
    · rename_i hle
      simp only [entryLe, decide_eq_true_eq] at hle
      rw [List.pairwise_cons]
      refine ⟨?_, ih h.2⟩
      intro a ha
      rcases (mem_insertEntry x a l).1 ha with rfl | ha
      · omega
      · exact h.1 a ha

theorem sorted_sortEntries (l : List (Entry σ)) :
    (sortEntries l).Pairwise (fun a b => a.base ≤ b.base) := by
  induction l with
  | nil => simp [sortEntries]
  | cons x l ih => exact sorted_insertEntry x _ ih

theorem apart_insertEntry (x : Entry σ) (l : List (Entry σ)) (h : l.Pairwise EApart)
    (hx : ∀ y ∈ l, EApart x y) : (insertEntry x l).Pairwise EApart := by
  induction l with
  | nil => simp [insertEntry]
  | cons z l ih =>
    simp only [insertEntry]
    split
    · rw [List.pairwise_cons]; exact ⟨hx, h⟩
    · rw [List.pairwise_cons] at h ⊢
      refine ⟨?_, ih h.2 (fun y hy => hx y (List.mem_cons_of_mem _ hy))⟩
      intro a ha
      rcases (mem_insertEntry x a l).1 ha with rfl | ha
      · have := hx z (by simp); unfold EApart at *; omega
      · exact h.1 a ha

theorem apart_sortEntries (l : List (Entry σ)) (h : l.Pairwise EApart) :
    (sortEntries l).Pairwise EApart := by
  induction l with
  | nil => simp [sortEntries]
  | cons x l ih =>
    rw [List.pairwise_cons] at h
    apply apart_insertEntry x _ (ih h.2)
    intro y hy; exact h.1 y ((mem_sortEntries y l).1 hy)

/-! ## Routing of an address space -/

/-- Does the entry cover address `x`? -/
def owns (e : Entry σ) (x : Int) : Bool := decide (e.base ≤ x ∧ x < e.base + e.size)

/-- Address inside the region for address `x` of the space. -/
def localAddr (e : Entry σ) (x : Int) : Int :=
  match e.offset with
  | none => x
  | some o => x - e.base + o

/-- The byte map of an address space, given the byte maps `F` of its regions. -/
def spaceMap (regions : List (Entry σ)) (F : Entry σ → ByteMap) : ByteMap := fun x =>
  match regions.find? (fun e => owns e x) with
  | none => none
  | some e => F e (localAddr e x)

theorem spaceMap_owner (regions : List (Entry σ)) (F : Entry σ → ByteMap)
    (hd : regions.Pairwise EApart) (e : Entry σ) (he : e ∈ regions) (x : Int) (hx : owns e x = true) :
    spaceMap regions F x = F e (localAddr e x) := by
  have : regions.find? (fun e => owns e x) = some e := by
    induction regions with
    | nil => cases he
    | cons z l ih =>
      rw [List.pairwise_cons] at hd
      rw [List.find?_cons]
      by_cases hz : owns z x = true
      · rw [hz]
        rcases List.mem_cons.1 he with rfl | he
        · rfl
        · exfalso
          have := hd.1 e he
          simp only [EApart, owns, decide_eq_true_eq] at *
          omega
      · simp only [hz]
        rcases List.mem_cons.1 he with rfl | he
        · exact absurd hx hz
        · exact ih hd.2 he
  simp [spaceMap, this]

theorem spaceMap_hole (regions : List (Entry σ)) (F : Entry σ → ByteMap) (x : Int)
    (h : ∀ e ∈ regions, owns e x = false) : spaceMap regions F x = none := by
  have : regions.find? (fun e => owns e x) = none := by
    rw [List.find?_eq_none]; intro e he; simp [h e he]
  simp [spaceMap, this]

theorem localAddr_add (e : Entry σ) (x i : Int) : localAddr e (x + i) = localAddr e x + i := by
  unfold localAddr; split <;> omega

/-- Requirements on the entries of a space: positive size, room inside the region, and the region obeys
its byte map. -/
def EntryOK (S : Nat → Bool × Nat) (F : Entry Heap → ByteMap) (e : Entry Heap) : Prop :=
  0 < e.size ∧ 0 ≤ localAddr e e.base ∧ localAddr e e.base + e.size ≤ e.region.size ∧ Law S e.region (F e)

/-- The invariant of the access loops: `L` is exactly the set of entries meeting `[cur, cur + n)`. -/
structure LoopInv (regions L : List (Entry Heap)) (cur : Int) (n : Nat) : Prop where
  sorted : L.Pairwise (fun a b => a.base ≤ b.base)
  apart : L.Pairwise EApart
  complete : 1 ≤ n → ∀ e ∈ regions, cur < e.base + e.size → e.base < cur + n → e ∈ L
  sound : ∀ e ∈ L, 1 ≤ n ∧ e ∈ regions ∧ cur < e.base + e.size ∧ e.base < cur + n

theorem LoopInv.step {regions rest : List (Entry Heap)} {e : Entry Heap} {cur : Int} {n m : Nat}
    (h : LoopInv regions (e :: rest) cur n) (hpos : ∀ e ∈ regions, 0 < e.size)
    (hb : e.base ≤ cur) (hm : (m : Int) = min (e.size - (cur - e.base)) n) :
    LoopInv regions rest (cur + m) (n - m) := by
  obtain ⟨h1, h2, h3, h4⟩ := h
  rw [List.pairwise_cons] at h1 h2
  refine ⟨h1.2, h2.2, ?_, ?_⟩
  · intro hn x hx hx1 hx2
    have := h3 (by omega) x hx (by omega) (by omega)
    rcases List.mem_cons.1 this with rfl | hr
    · omega
    · exact hr
  · intro x hx
    obtain ⟨g0, g1, g2, g3⟩ := h4 x (List.mem_cons_of_mem _ hx)
    have ga := h2.1 x hx
    have gs := h1.1 x hx
    have gp := hpos x g1
    have gp' := hpos e (h4 e (by simp)).2.1
    simp only [EApart] at ga
    exact ⟨by omega, g1, by omega, by omega⟩

theorem readLoop_route (S : Nat → Bool × Nat) (F : Entry Heap → ByteMap) (regions : List (Entry Heap))
    (hd : regions.Pairwise EApart) (hok : ∀ e ∈ regions, EntryOK S F e) (h : Heap) (hg : Good S h) :
    ∀ (L : List (Entry Heap)) (cur : Int) (n : Nat) (acc : Bytes), LoopInv regions L cur n →
    ∃ r, readLoop L cur n acc h = (r, h) ∧
      Matches r ((routeRead (spaceMap regions F) (absHeap h) cur n).map (acc ++ ·)) := by
  have hpos : ∀ e ∈ regions, 0 < e.size := fun e he => (hok e he).1
  intro L
  induction L with
  | nil =>
    intro cur n acc hinv
    simp only [readLoop]
    cases n with
    | zero => refine ⟨_, by rw [if_neg (by omega)], ?_⟩; simp [routeRead, Matches]
    | succ n =>
      refine ⟨_, by rw [if_pos (by omega)], ?_⟩
      have hh : spaceMap regions F cur = none := by
        apply spaceMap_hole
        intro e he
        simp only [owns, decide_eq_false_iff_not]
        intro hc
        have := hinv.complete (by omega) e he (by omega) (by omega)
        cases this
      simp [routeRead, hh, Matches]
  | cons e rest ih =>
    intro cur n acc hinv
    obtain ⟨hn1, he, he1, he2⟩ := hinv.sound e (by simp)
    obtain ⟨hp, hl0, hroom, hlaw⟩ := hok e he
    simp only [readLoop]
    by_cases hb : e.base > cur
    · rw [if_pos hb]
      refine ⟨_, rfl, ?_⟩
      have hh : spaceMap regions F cur = none := by
        apply spaceMap_hole
        intro x hx
        simp only [owns, decide_eq_false_iff_not]
        intro hc
        have hxm := hinv.complete (by omega) x hx (by omega) (by omega)
        rcases List.mem_cons.1 hxm with rfl | hxm
        · omega
        · have := (List.pairwise_cons.1 hinv.sorted).1 x hxm; omega
      obtain ⟨n, rfl⟩ : ∃ n', n = n' + 1 := ⟨n - 1, by omega⟩
      simp [routeRead, hh, Matches]
    · rw [if_neg hb]
      obtain ⟨m, hm⟩ : ∃ m : Nat, (m : Int) = min (e.size - (cur - e.base)) n :=
        ⟨(min (e.size - (cur - e.base)) n).toNat, by omega⟩
      have hm1 : 1 ≤ m := by omega
      have hstep := hinv.step hpos (by omega) hm
      have hla : segTarget e cur (cur - e.base) = localAddr e cur := by
        unfold localAddr segTarget; cases e.offset <;> simp
      have hlc : localAddr e cur = localAddr e e.base + (cur - e.base) := by
        rw [← localAddr_add]; congr 1; omega
      rw [hla, ← hm]
      obtain ⟨r, e1, e2⟩ := hlaw.read h hg (localAddr e cur) m (by omega) hm1 (by omega)
      rw [e1]
      have hcong : routeRead (spaceMap regions F) (absHeap h) cur m
          = routeRead (F e) (absHeap h) (localAddr e cur) m := by
        apply routeRead_congr
        intro i hi
        rw [spaceMap_owner regions F hd e he (cur + i) (by simp only [owns, decide_eq_true_eq]; omega),
          localAddr_add]
      have hsplit := routeRead_add (f := spaceMap regions F) (H := absHeap h) m (n - m) cur
      rw [show m + (n - m) = n by omega, hcong] at hsplit
      cases hrr : routeRead (F e) (absHeap h) (localAddr e cur) m with
      | none =>
        rw [hrr] at e2 hsplit
        obtain ⟨er, rfl⟩ := e2
        simp only
        refine ⟨_, rfl, ?_⟩
        rw [hsplit]; simp [Matches]
      | some d =>
        rw [hrr] at e2 hsplit
        simp only [Matches] at e2
        subst e2
        simp only
        obtain ⟨r, g1, g2⟩ := ih (cur + m) (n - m) (acc ++ d) hstep
        rw [show ((n - m : Nat) : Int) = (n : Int) - m by omega] at g1
        refine ⟨r, g1, ?_⟩
        rw [hsplit]
        simp only [Option.bind_some, Option.map_map]
        have hfun : (fun x => acc ++ x) ∘ (fun e => d ++ e) = (acc ++ d ++ ·) := by
          funext x; simp
        rw [hfun]; exact g2

theorem writeLoop_route (S : Nat → Bool × Nat) (F : Entry Heap → ByteMap) (regions : List (Entry Heap))
    (hd : regions.Pairwise EApart) (hok : ∀ e ∈ regions, EntryOK S F e) (data : Bytes) :
    ∀ (L : List (Entry Heap)) (cur : Int) (start n : Nat) (h : Heap), Good S h →
    start + n = data.length → LoopInv regions L cur n →
    ∃ r h', writeLoop L cur start n data h = (r, h') ∧ Good S h' ∧
      absHeap h' = (routeWrite (spaceMap regions F) cur (data.drop start) (absHeap h)).2 ∧
      ((routeWrite (spaceMap regions F) cur (data.drop start) (absHeap h)).1 = true → r = .ok ()) ∧
      ((routeWrite (spaceMap regions F) cur (data.drop start) (absHeap h)).1 = false →
        ∃ e, r = .error e) := by
  have hpos : ∀ e ∈ regions, 0 < e.size := fun e he => (hok e he).1
  intro L
  induction L with
  | nil =>
    intro cur start n h hg hlen hinv
    simp only [writeLoop]
    cases n with
    | zero =>
      have : data.drop start = [] := List.drop_eq_nil_of_le (by omega)
      rw [this]
      refine ⟨_, h, by rw [if_neg (by omega)], hg, rfl, fun _ => rfl, ?_⟩
      simp [routeWrite]
    | succ n =>
      have hh : spaceMap regions F cur = none := by
        apply spaceMap_hole
        intro e he
        simp only [owns, decide_eq_false_iff_not]
        intro hc
        have := hinv.complete (by omega) e he (by omega) (by omega)
        cases this
      obtain ⟨x, tl, hx⟩ : ∃ x tl, data.drop start = x :: tl := by
        cases hc : data.drop start with
        | nil => have := congrArg List.length hc; simp at this; omega
        | cons x tl => exact ⟨x, tl, rfl⟩
      rw [hx]
      refine ⟨_, h, by rw [if_pos (by omega)], hg, ?_, ?_, fun _ => ⟨_, rfl⟩⟩
      · simp [routeWrite, hh]
      · simp [routeWrite, hh]
  | cons e rest ih =>
    intro cur start n h hg hlen hinv
    obtain ⟨hn1, he, he1, he2⟩ := hinv.sound e (by simp)
    obtain ⟨hp, hl0, hroom, hlaw⟩ := hok e he
    simp only [writeLoop]
    by_cases hb : e.base > cur
    · rw [if_pos hb]
      have hh : spaceMap regions F cur = none := by
        apply spaceMap_hole
        intro x hx
        simp only [owns, decide_eq_false_iff_not]
        intro hc
        have hxm := hinv.complete (by omega) x hx (by omega) (by omega)
        rcases List.mem_cons.1 hxm with rfl | hxm
        · omega
        · have := (List.pairwise_cons.1 hinv.sorted).1 x hxm; omega
      obtain ⟨x, tl, hx⟩ : ∃ x tl, data.drop start = x :: tl := by
        cases hc : data.drop start with
        | nil => have := congrArg List.length hc; simp at this; omega
        | cons x tl => exact ⟨x, tl, rfl⟩
      rw [hx]
      refine ⟨_, h, rfl, hg, ?_, ?_, fun _ => ⟨_, rfl⟩⟩
      · simp [routeWrite, hh]
      · simp [routeWrite, hh]
    · rw [if_neg hb]
      obtain ⟨m, hm⟩ : ∃ m : Nat, (m : Int) = min (e.size - (cur - e.base)) n :=
        ⟨(min (e.size - (cur - e.base)) n).toNat, by omega⟩
      have hm1 : 1 ≤ m := by omega
      have hstep := hinv.step hpos (by omega) hm
      have hla : segTarget e cur (cur - e.base) = localAddr e cur := by
        unfold localAddr segTarget; cases e.offset <;> simp
      have hlc : localAddr e cur = localAddr e e.base + (cur - e.base) := by
        rw [← localAddr_add]; congr 1; omega
      rw [hla, ← hm]
      have hsl : pySlice data (start : Int).toNat ((start : Int) + (m : Int)).toNat
          = (data.drop start).take m := by
        rw [show ((start : Int) + (m : Int)).toNat = start + m by omega, Int.toNat_natCast, pySlice]
        rw [List.drop_take]; congr 1; omega
      rw [hsl]
      have hl : ((data.drop start).take m).length = m := by simp; omega
      obtain ⟨r, h1, e1, e2, e3, e4, e5⟩ := hlaw.write h hg (localAddr e cur)
        ((data.drop start).take m) (by omega) (by omega) (by omega)
      rw [e1]
      have hcong : ∀ H, routeWrite (spaceMap regions F) cur ((data.drop start).take m) H
          = routeWrite (F e) (localAddr e cur) ((data.drop start).take m) H := by
        intro H
        apply routeWrite_congr
        intro i hi
        rw [hl] at hi
        rw [spaceMap_owner regions F hd e he (cur + i) (by simp only [owns, decide_eq_true_eq]; omega),
          localAddr_add]
      have hsplit := routeWrite_append (f := spaceMap regions F) ((data.drop start).take m)
        (data.drop (start + m)) cur (absHeap h)
      have hcat : (data.drop start).take m ++ data.drop (start + m) = data.drop start := by
        rw [← List.drop_drop]; exact List.take_append_drop _ _
      rw [hcat, hcong, hl] at hsplit
      cases hrr : (routeWrite (F e) (localAddr e cur) ((data.drop start).take m) (absHeap h)).1 with
      | false =>
        obtain ⟨er, rfl⟩ := e5 hrr
        rw [hrr] at hsplit
        simp only
        refine ⟨_, h1, rfl, e2, by rw [hsplit]; simpa using e3, ?_, fun _ => ⟨_, rfl⟩⟩
        rw [hsplit]; simp [hrr]
      | true =>
        have := e4 hrr
        subst this
        rw [hrr] at hsplit
        simp only
        obtain ⟨r, h2, g1, g2, g3, g4, g5⟩ := ih (cur + m) (start + m) (n - m) h1 e2 (by omega) hstep
        rw [show ((n - m : Nat) : Int) = (n : Int) - m by omega,
          show ((start + m : Nat) : Int) = (start : Int) + m by omega] at g1
        rw [e3] at g3 g4 g5
        rw [if_pos rfl] at hsplit
        rw [hsplit]
        exact ⟨r, h2, g1, g2, g3, g4, g5⟩

theorem findRegions_inv (s : AddressSpace Heap) (hd : s.regions.Pairwise EApart) (a : Int) (n : Nat)
    (h0 : 0 ≤ a) (h1 : a < s.size) (hn : 1 ≤ n) :
    ∃ L, s.findRegions a n = .ok L ∧ LoopInv s.regions L a n := by
  refine ⟨_, by
    simp only [findRegions]
    rw [if_neg (by omega), if_neg (by omega)], ?_⟩
  have hmax : max (n : Int) 1 = n := by omega
  rw [hmax]
  refine ⟨sorted_sortEntries _, apart_sortEntries _ (hd.filter _), ?_, ?_⟩
  · intro _ e he h3 h4
    rw [mem_sortEntries, List.mem_filter]
    exact ⟨he, by simpa using ⟨h3, h4⟩⟩
  · intro e he
    rw [mem_sortEntries, List.mem_filter] at he
    exact ⟨hn, he.1, by simpa using he.2⟩

theorem space_read (S : Nat → Bool × Nat) (F : Entry Heap → ByteMap) (s : AddressSpace Heap)
    (hd : s.regions.Pairwise EApart) (hok : ∀ e ∈ s.regions, EntryOK S F e) (h : Heap) (hg : Good S h)
    (a : Int) (n : Nat) (h0 : 0 ≤ a) (h1 : a < s.size) (hn : 1 ≤ n) :
    ∃ r, s.read a n h = (r, h) ∧ Matches r (routeRead (spaceMap s.regions F) (absHeap h) a n) := by
  obtain ⟨L, e1, e2⟩ := findRegions_inv s hd a n h0 h1 hn
  obtain ⟨r, g1, g2⟩ := readLoop_route S F s.regions hd hok h hg L a n [] e2
  simp only [List.nil_append, Option.map_id'] at g2
  simp only [read, e1]
  cases L with
  | nil =>
    simp only [readLoop] at g1
    rw [if_pos (by omega)] at g1
    simp only
    exact ⟨_, rfl, by rw [← (Prod.mk.inj g1).1] at g2; exact g2⟩
  | cons x l => exact ⟨r, g1, g2⟩

theorem space_write (S : Nat → Bool × Nat) (F : Entry Heap → ByteMap) (s : AddressSpace Heap)
    (hd : s.regions.Pairwise EApart) (hok : ∀ e ∈ s.regions, EntryOK S F e) (h : Heap) (hg : Good S h)
    (a : Int) (d : Bytes) (h0 : 0 ≤ a) (h1 : a < s.size) (hn : 1 ≤ d.length) :
    ∃ r h', s.write a d h = (r, h') ∧ Good S h' ∧
      absHeap h' = (routeWrite (spaceMap s.regions F) a d (absHeap h)).2 ∧
      ((routeWrite (spaceMap s.regions F) a d (absHeap h)).1 = true → r = .ok ()) ∧
      ((routeWrite (spaceMap s.regions F) a d (absHeap h)).1 = false → ∃ e, r = .error e) := by
  obtain ⟨L, e1, e2⟩ := findRegions_inv s hd a d.length h0 h1 hn
  have key := writeLoop_route S F s.regions hd hok d L a 0 d.length h hg (by omega) e2
  rw [List.drop_zero] at key
  simp only [write, e1]
  cases L with
  | nil =>
    simp only [writeLoop] at key
    rw [if_pos (by omega)] at key
    exact key
  | cons x l => exact key

theorem law_space (S : Nat → Bool × Nat) (F : Entry Heap → ByteMap) (s : AddressSpace Heap)
    (hd : s.regions.Pairwise EApart) (hok : ∀ e ∈ s.regions, EntryOK S F e) :
    Law S s.toIface (spaceMap s.regions F) := by
  refine ⟨?_, ?_⟩
  · intro h hg a n h0 h1 h2
    have : a + n ≤ s.size := h2
    exact space_read S F s hd hok h hg a n h0 (by omega) h1
  · intro h hg a d h0 h1 h2
    have : a + d.length ≤ s.size := h2
    exact space_write S F s hd hok h hg a d h0 (by omega) h1

/-! ## Registration -/

theorem registerRegion_spec (s : AddressSpace σ) (region : Iface σ) (base : Int) (size : Option Int)
    (offset : Option Int) (sz : Int) (hsz : size.getD region.size = sz) :
    (¬ (0 ≤ base ∧ base < s.size ∧ 0 ≤ sz ∧
        ∀ e ∈ s.regions, ¬ (base < e.base + e.size ∧ e.base < base + max sz 1)) ∧
      s.registerRegion region base size offset = (.error .valueError, s)) ∨
    ((0 ≤ base ∧ base < s.size ∧ 0 ≤ sz ∧
        ∀ e ∈ s.regions, ¬ (base < e.base + e.size ∧ e.base < base + max sz 1)) ∧
      ∃ b, s.registerRegion region base size offset =
        (.ok (), { s with regions := s.regions ++ [⟨base, sz, offset, { region with base := b }⟩] })) := by
  have hsz : s.registerRegion region base size offset = s.registerRegion region base (some sz) offset := by
    subst hsz
    cases size <;> rfl
  rw [hsz]
  simp only [registerRegion]
  by_cases h1 : base < 0 ∨ base ≥ s.size
  · left
    refine ⟨by omega, ?_⟩
    simp only [findRegions, if_pos h1]
  · by_cases h2 : sz < 0
    · left
      refine ⟨by omega, ?_⟩
      simp only [findRegions, if_neg h1, if_pos h2]
    · simp only [findRegions, if_neg h1, if_neg h2]
      cases hl : sortEntries (s.regions.filter fun e =>
          decide (base < e.base + e.size ∧ e.base < base + max sz 1)) with
      | cons x l =>
        left
        refine ⟨?_, rfl⟩
        intro hc
        have hx : x ∈ sortEntries (s.regions.filter fun e =>
          decide (base < e.base + e.size ∧ e.base < base + max sz 1)) := by rw [hl]; simp
        rw [mem_sortEntries, List.mem_filter] at hx
        exact hc.2.2.2 x hx.1 (by simpa using hx.2)
      | nil =>
        right
        refine ⟨⟨by omega, by omega, by omega, ?_⟩, ?_⟩
        · intro e he hc
          have hx : e ∈ sortEntries (s.regions.filter fun e =>
            decide (base < e.base + e.size ∧ e.base < base + max sz 1)) := by
            rw [mem_sortEntries, List.mem_filter]; exact ⟨he, by simpa using hc⟩
          rw [hl] at hx; cases hx
        · by_cases ho : offset = some 0
          · simp only [if_pos ho, getAbsoluteAddress]
            cases hb : s.base with
            | none => exact ⟨none, rfl⟩
            | some b =>
              simp only
              rw [checkRange_ok _ _ _ (by omega) (by omega) (by omega) (by omega)]
              exact ⟨_, rfl⟩
          · simp only [if_neg ho]
            exact ⟨_, rfl⟩

end AddressSpace
end Verif
