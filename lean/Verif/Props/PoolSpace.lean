import Verif.Props.AddressSpace

/-!
# C129: pools in an address space
-/

namespace Verif
namespace AddressSpace

variable {σ : Type}

/-! ## One region of a space -/

theorem find_single (s : AddressSpace σ) (l1 l2 : List (Entry σ)) (e : Entry σ) (hs : s.regions = l1 ++ e :: l2)
    (h1 : ∀ f ∈ l1 ++ l2, EApart e f) (a n : Int) (ha : 0 ≤ a) (hn : 0 ≤ n) (hlt : a < e.size) (hle : a + n ≤ e.size)
    (hb : 0 ≤ e.base + a ∧ e.base + a < s.size) : s.findRegions (e.base + a) n = .ok [e] := by
  unfold findRegions
  rw [if_neg (by omega), if_neg (by omega)]
  have hf : ∀ l : List (Entry σ), (∀ f ∈ l, EApart e f) →
      l.filter (fun f => decide (e.base + a < f.base + f.size ∧ f.base < e.base + a + max n 1)) = [] := by
    intro l hl
    rw [List.filter_eq_nil_iff]
    intro f hm
    have := hl f hm
    simp only [EApart] at this
    simp only [decide_eq_true_eq]
    omega
  simp only
  rw [hs, List.filter_append, List.filter_cons, hf l1 (fun f hm => h1 f (by simp [hm])), hf l2 (fun f hm => h1 f (by simp [hm])),
    if_pos (by simp only [decide_eq_true_eq]; omega)]
  rfl

/-- An access inside one region goes to that region. -/
theorem access_single (s : AddressSpace σ) (l1 l2 : List (Entry σ)) (e : Entry σ) (hs : s.regions = l1 ++ e :: l2) (ho : e.offset = some 0)
    (h1 : ∀ f ∈ l1 ++ l2, EApart e f) (a : Int) (ha : 0 ≤ a) (hlt : a < e.size) (hb : 0 ≤ e.base + a ∧ e.base + a < s.size) (st : σ) :
    (∀ n, 0 ≤ n → a + n ≤ e.size → s.read (e.base + a) n st = e.region.read a n st) ∧
    (∀ d : Bytes, a + (d.length : Int) ≤ e.size → s.write (e.base + a) d st = e.region.write a d st) := by
  constructor
  · intro n hn hle
    unfold read
    rw [find_single s l1 l2 e hs h1 a n ha hn hlt hle hb]
    simp only [readLoop]
    rw [if_neg (by omega), segTarget, ho]
    simp only
    rw [show e.base + a - e.base + 0 = a by omega, show min (e.size - (e.base + a - e.base)) n = n by omega]
    rcases e.region.read a n st with ⟨r | r, st'⟩
    · rfl
    · simp
  · intro d hle
    unfold write
    rw [find_single s l1 l2 e hs h1 a d.length ha (by omega) hlt hle hb]
    simp only [writeLoop]
    rw [if_neg (by omega), segTarget, ho]
    simp only
    rw [show e.base + a - e.base + 0 = a by omega, show min (e.size - (e.base + a - e.base)) (d.length : Int) = d.length by omega]
    have : pySlice d (0 : Int).toNat (0 + (d.length : Int)).toNat = d := by
      simp [pySlice]
    rw [this]
    rcases e.region.write a d st with ⟨r | r, st'⟩
    · rfl
    · simp

/-- An access that does not touch one region does not depend on it. -/
theorem access_other (s t : AddressSpace σ) (l1 l2 : List (Entry σ)) (e e' : Entry σ) (hs : s.regions = l1 ++ e :: l2)
    (ht : t.regions = l1 ++ e' :: l2) (hsz : t.size = s.size) (he : e'.base = e.base ∧ e'.size = e.size) (a : Int) (st : σ) :
    (∀ n, ¬(a < e.base + e.size ∧ e.base < a + max n 1) → s.read a n st = t.read a n st) ∧
    (∀ d : Bytes, ¬(a < e.base + e.size ∧ e.base < a + max (d.length : Int) 1) → s.write a d st = t.write a d st) := by
  have hf : ∀ n, ¬(a < e.base + e.size ∧ e.base < a + max n 1) → s.findRegions a n = t.findRegions a n := by
    intro n hn
    unfold findRegions
    simp only
    have hd : decide (a < e.base + e.size ∧ e.base < a + max n 1) = false := by simpa using hn
    rw [hsz, hs, ht, List.filter_append, List.filter_append, List.filter_cons, List.filter_cons, he.1, he.2, hd]
    rfl
  constructor
  · intro n hn; unfold read; rw [hf n hn]
  · intro d hn; unfold write; rw [hf _ hn]

theorem registerRegion_base (s s' : AddressSpace σ) (region : Iface σ) (base : Int) (size : Option Int)
    (h : s.registerRegion region base size = (.ok (), s')) : 0 ≤ base ∧ base < s.size ∧ 0 ≤ size.getD region.size ∧
    (∀ e ∈ s.regions, ¬(base < e.base + e.size ∧ e.base < base + max (size.getD region.size) 1)) ∧
    s' = { s with regions := s.regions ++ [⟨base, size.getD region.size, some 0, { region with base := s.base.map fun x => base + x }⟩] } := by
  rcases registerRegion_spec s region base size (some 0) _ rfl with ⟨_, h2⟩ | ⟨h1, b, h2⟩
  · rw [h2] at h; simp at h
  · refine ⟨h1.1, h1.2.1, h1.2.2.1, h1.2.2.2, ?_⟩
    have h3 := h
    rw [h2] at h
    simp only [Prod.mk.injEq, true_and] at h
    subst h
    unfold registerRegion at h3
    simp only [↓reduceIte] at h3
    have hg : s.getAbsoluteAddress base = .ok (s.base.map fun x => base + x) := by
      unfold getAbsoluteAddress
      cases s.base with
      | none => rfl
      | some x => simp only; rw [checkRange_ok _ _ _ (by omega) (by omega) (by omega) (by omega)]; rfl
    rw [hg] at h3
    revert h3
    cases size <;> (simp only [Option.getD_none, Option.getD_some]; split <;> intro h3 <;> simp_all)

/-! ## Creating a pool -/

/-- The space is as a history of `register_region` calls leaves it. -/
def Tidy (s : AddressSpace σ) : Prop := s.regions.Pairwise EApart ∧ ∀ e ∈ s.regions, 0 ≤ e.base ∧ e.base < s.size ∧ 0 ≤ e.size

theorem createPool_cases (s : AddressSpace σ) (base size : Option Int) (b n : Int) (hb : b = base.getD 0) (hn : n = size.getD (s.size - b)) :
    (¬(0 ≤ b ∧ b < s.size ∧ 0 ≤ n ∧ b + n ≤ s.size ∧ ∀ e ∈ s.regions, ¬(b < e.base + e.size ∧ e.base < b + max n 1)) ∧
      s.createPool base size = (.error .valueError, s)) ∨
    ((0 ≤ b ∧ b < s.size ∧ 0 ≤ n ∧ b + n ≤ s.size ∧ ∀ e ∈ s.regions, ¬(b < e.base + e.size ∧ e.base < b + max n 1)) ∧
      ∃ r, s.createPool base size = (.ok (Pool.init (s.base.map fun x => b + x) n.toNat),
        { s with regions := s.regions ++ [⟨b, n, some 0, { ((Pool.init (some b) n.toNat : Pool σ).space.toIface) with base := r }⟩] })) := by
  have e1 : s.createPool base size = s.createPool (some b) (some n) := by
    subst hb; subst hn; cases base <;> cases size <;> rfl
  rw [e1]
  unfold createPool
  simp only
  by_cases hc : 0 ≤ b ∧ b < s.size ∧ 0 ≤ n ∧ b + n ≤ s.size
  · rw [checkRange_ok _ _ _ (by omega) (by omega) (by omega) (by omega)]
    simp only
    rcases registerRegion_spec s (Pool.init (some b) n.toNat : Pool σ).space.toIface b (some n) (some 0) n rfl with ⟨h1, h2⟩ | ⟨h1, r, h2⟩
    · left
      rw [h2]
      exact ⟨fun hh => h1 ⟨hh.1, hh.2.1, hh.2.2.1, hh.2.2.2.2⟩, rfl⟩
    · right
      refine ⟨⟨hc.1, hc.2.1, hc.2.2.1, hc.2.2.2, h1.2.2.2⟩, r, ?_⟩
      rw [h2]
      simp only [getAbsoluteAddress]
      cases hsb : s.base with
      | none => rfl
      | some x =>
        simp only
        rw [checkRange_ok _ _ _ (by omega) (by omega) (by omega) (by omega)]
        rfl
  · left
    refine ⟨fun hh => hc ⟨hh.1, hh.2.1, hh.2.2.1, hh.2.2.2.1⟩, ?_⟩
    have : Iface.checkRange s.size b n = .error .valueError := by
      unfold Iface.checkRange
      split
      · rfl
      · split
        · rfl
        · rw [if_pos (by omega)]
    rw [this]

/-- **C129.** `create_pool(base, size)` — `base` defaults to 0, `size` to the rest of the space — raises `ValueError` and changes nothing
exactly if the range is not inside the space or overlaps a region; otherwise it makes an empty pool of that size and registers it. -/
theorem C129_create_iff (s : AddressSpace σ) (base size : Option Int) (b n : Int) (hb : b = base.getD 0) (hn : n = size.getD (s.size - b)) :
    let Good := 0 ≤ b ∧ b < s.size ∧ 0 ≤ n ∧ b + n ≤ s.size ∧ ∀ e ∈ s.regions, ¬(b < e.base + e.size ∧ e.base < b + max n 1)
    (¬Good → s.createPool base size = (.error .valueError, s)) ∧
    (Good → ∃ p s', s.createPool base size = (.ok p, s') ∧ (p.space.size : Int) = n ∧ p.space.regions = [] ∧ p.allocator = Buddy.init n.toNat ∧
      s'.size = s.size ∧ s'.regions.map (fun e => (e.base, e.size, e.offset)) = s.regions.map (fun e => (e.base, e.size, e.offset)) ++ [(b, n, some 0)]) := by
  intro Good
  rcases createPool_cases s base size b n hb hn with ⟨h1, h2⟩ | ⟨h1, r, h2⟩
  · exact ⟨fun _ => h2, fun hg => absurd hg h1⟩
  · refine ⟨fun hg => absurd h1 hg, fun _ => ⟨_, _, h2, ?_, rfl, rfl, rfl, by simp⟩⟩
    show ((n.toNat : Nat) : Int) = n
    omega

theorem registerAll_prefix (regs : List (Reg σ)) : ∀ s : AddressSpace σ, ∃ l, (s.registerAll regs).regions = s.regions ++ l := by
  induction regs with
  | nil => intro s; exact ⟨[], by simp [registerAll]⟩
  | cons r rest ih =>
    intro s
    obtain ⟨l, hl⟩ := ih (s.registerRegion r.region r.base r.size r.offset).2
    simp only [registerAll, hl]
    rcases registerRegion_spec s r.region r.base r.size r.offset _ rfl with ⟨_, h2⟩ | ⟨_, b, h2⟩
    · rw [h2]; exact ⟨l, rfl⟩
    · rw [h2]; exact ⟨_, List.append_assoc _ _ _⟩

theorem apart_symm {e f : Entry σ} (h : EApart e f) : EApart f e := by
  simp only [EApart] at h ⊢; omega

theorem apart_others {l1 l2 : List (Entry σ)} {e : Entry σ} (h : (l1 ++ e :: l2).Pairwise EApart) : ∀ f ∈ l1 ++ l2, EApart e f := by
  intro f hf
  rw [List.pairwise_append, List.pairwise_cons] at h
  rcases List.mem_append.1 hf with hf | hf
  · exact apart_symm (h.2.2 f hf e (by simp))
  · exact h.2.1.1 f hf

/-- A space in which a pool was created and then other things were registered. -/
theorem pool_entry (s s' : AddressSpace σ) (ht : Tidy s) (base size : Option Int) (p : Pool σ) (h : s.createPool base size = (.ok p, s'))
    (regs : List (Reg σ)) : ∃ l2 : List (Entry σ), ∃ r, (s'.registerAll regs).regions = s.regions ++ ⟨base.getD 0, p.space.size, some 0, r⟩ :: l2 ∧
      (s'.registerAll regs).size = s.size ∧ (s'.registerAll regs).regions.Pairwise EApart ∧ 0 ≤ base.getD 0 ∧ base.getD 0 < s.size ∧
      base.getD 0 + p.space.size ≤ s.size ∧ p.space.base = s.base.map fun x => base.getD 0 + x := by
  rcases createPool_cases s base size _ _ rfl rfl with ⟨_, h2⟩ | ⟨h1, r, h2⟩
  · rw [h2] at h; simp at h
  · rw [h2] at h
    simp only [Prod.mk.injEq, Except.ok.injEq] at h
    obtain ⟨rfl, rfl⟩ := h
    have hsz : (((Pool.init (s.base.map fun x => base.getD 0 + x) (size.getD (s.size - base.getD 0)).toNat : Pool σ).space.size : Nat) : Int) =
        size.getD (s.size - base.getD 0) := by
      show (((size.getD (s.size - base.getD 0)).toNat : Nat) : Int) = _
      omega
    obtain ⟨l, hl⟩ := registerAll_prefix regs { s with regions := s.regions ++ [⟨base.getD 0, size.getD (s.size - base.getD 0), some 0,
      { ((Pool.init (some (base.getD 0)) (size.getD (s.size - base.getD 0)).toNat : Pool σ).space.toIface) with base := r }⟩] }
    have hinv := registerAll_inv regs { s with regions := s.regions ++ [⟨base.getD 0, size.getD (s.size - base.getD 0), some 0,
      { ((Pool.init (some (base.getD 0)) (size.getD (s.size - base.getD 0)).toNat : Pool σ).space.toIface) with base := r }⟩] } (by
        refine ⟨?_, fun e he => ?_⟩
        · rw [List.pairwise_append]
          refine ⟨ht.1, by simp, fun e he f hf => ?_⟩
          simp only [List.mem_singleton] at hf
          subst hf
          have := h1.2.2.2.2 e he
          have := ht.2 e he
          simp only [EApart]
          omega
        · simp only [List.mem_append, List.mem_singleton] at he
          rcases he with he | rfl
          · exact ht.2 e he
          · exact ⟨h1.1, h1.2.1, h1.2.2.1⟩)
    refine ⟨l, { ((Pool.init (some (base.getD 0)) (size.getD (s.size - base.getD 0)).toNat : Pool σ).space.toIface) with base := r },
      ?_, hinv.2.1, hinv.1, h1.1, h1.2.1, ?_, rfl⟩
    · rw [hl, hsz, List.append_assoc]; rfl
    · rw [hsz]; exact h1.2.2.2.1

theorem modify_mid (l1 l2 : List (Entry σ)) (e : Entry σ) (f : Entry σ → Entry σ) :
    (l1 ++ e :: l2).modify l1.length f = l1 ++ f e :: l2 := by
  induction l1 with
  | nil => rfl
  | cons a l ih => simp [List.modify_succ_cons, ih]

theorem tidy_all (regs : List (Reg σ)) (size : Nat) (base : Option Int) : Tidy (registerAll ⟨size, base, []⟩ regs) := by
  have := registerAll_inv regs ⟨size, base, []⟩ ⟨List.Pairwise.nil, by simp⟩
  exact ⟨this.1, by rw [this.2.1]; exact this.2.2⟩

/-- **C129.** A pool created in an address space, with whatever was registered in the space afterwards and whatever has happened to the pool
(`q` is the pool as it is now): an access to the pool's range is the same access to the pool, at the address less its base; an access that
does not touch the range does not depend on the pool. -/
theorem C129_reach (s s' : AddressSpace σ) (regs0 : List (Reg σ)) (hs0 : s = registerAll ⟨s.size, s.base, []⟩ regs0) (base size : Option Int) (p q : Pool σ) (h : s.createPool base size = (.ok p, s'))
    (regs : List (Reg σ)) (t : AddressSpace σ) (htt : t = (s'.registerAll regs).setPool s.regions.length q) (st : σ) :
    (∀ a : Int, 0 ≤ a → a < p.space.size →
      (∀ n, 0 ≤ n → a + n ≤ p.space.size → t.read (base.getD 0 + a) n st = q.space.read a n st) ∧
      (∀ d : Bytes, a + (d.length : Int) ≤ p.space.size → t.write (base.getD 0 + a) d st = q.space.write a d st)) ∧
    (∀ a : Int, (∀ n, ¬(a < base.getD 0 + p.space.size ∧ base.getD 0 < a + max n 1) → t.read a n st = (s'.registerAll regs).read a n st) ∧
      (∀ d : Bytes, ¬(a < base.getD 0 + p.space.size ∧ base.getD 0 < a + max (d.length : Int) 1) →
        t.write a d st = (s'.registerAll regs).write a d st)) := by
  have ht : Tidy s := by rw [hs0]; exact tidy_all _ _ _
  obtain ⟨l2, r, e1, e2, e3, e4, e5, e6, -⟩ := pool_entry s s' ht base size p h regs
  have htr : t.regions = s.regions ++ ⟨base.getD 0, p.space.size, some 0, q.space.toIface⟩ :: l2 := by
    rw [htt, setPool, e1]; exact modify_mid _ _ _ _
  have hts : t.size = s.size := by rw [htt]; exact e2
  rw [e1] at e3
  constructor
  · intro a ha hlt
    exact access_single t s.regions l2 ⟨base.getD 0, p.space.size, some 0, q.space.toIface⟩ htr rfl (fun f hf => apart_others e3 f hf) a ha hlt
      (by simp only [hts]; omega) st
  · intro a
    exact access_other t (s'.registerAll regs) s.regions l2 ⟨base.getD 0, p.space.size, some 0, q.space.toIface⟩ _ htr e1 (e2.trans hts.symm) ⟨rfl, rfl⟩ a st

/-! ## Regions of a pool -/

/-- A history of `alloc_region(size)` calls on a pool, each with what makes its region (a fresh object for each call), recording offset, size
and region of what was handed out. -/
def fill (p : Pool σ) (granted : List (Nat × Nat × Iface σ)) : List (Int × (Nat → Iface σ)) → Pool σ × List (Nat × Nat × Iface σ)
  | [] => (p, granted)
  | (n, make) :: rest =>
    match p.allocRegion make n with
    | (.ok b, p') => fill p' ((b, n.toNat, make n.toNat) :: granted) rest
    | (.error _, p') => fill p' granted rest

/-- What a history of `alloc_region` calls leaves. -/
structure Filled (size : Nat) (base : Option Int) (q : Pool σ) (granted : List (Nat × Nat × Iface σ)) : Prop where
  size_eq : q.space.size = size
  base_eq : q.space.base = base
  tidy : Tidy q.space
  entries : ∀ g ∈ granted, (⟨g.1, g.2.1, some 0, { g.2.2 with base := base.map fun x => (g.1 : Int) + x }⟩ : Entry σ) ∈ q.space.regions

theorem filled_run (size : Nat) (base : Option Int) (ns : List (Int × (Nat → Iface σ))) (hmk : ∀ c ∈ ns, ∀ n, (c.2 n).size = n) :
    ∀ (q : Pool σ) (granted : List (Nat × Nat × Iface σ)), Filled size base q granted → Filled size base (fill q granted ns).1 (fill q granted ns).2 := by
  induction ns with
  | nil => intro q granted h; exact h
  | cons c rest ih =>
    obtain ⟨n, make⟩ := c
    intro q granted h
    have hm := hmk (n, make) (by simp)
    simp only at hm
    replace ih := ih (fun c hc => hmk c (by simp [hc]))
    simp only [fill, Pool.allocRegion]
    rcases hal : q.allocator.alloc n with ⟨e | b, al⟩
    · exact ih _ _ ⟨h.size_eq, h.base_eq, h.tidy, h.entries⟩
    · rcases hr : q.space.registerRegion (make n.toNat) b with ⟨e | u, sp⟩
      · simp only [hr]
        have hsp : sp = q.space := by
          rcases registerRegion_spec q.space (make n.toNat) b none (some 0) _ rfl with ⟨_, h2⟩ | ⟨_, _, h2⟩
          · rw [h2] at hr; simp at hr; exact hr.2.symm
          · rw [h2] at hr; simp at hr
        rw [hsp]
        exact ih _ _ ⟨h.size_eq, h.base_eq, h.tidy, h.entries⟩
      · simp only [hr]
        obtain ⟨r1, r2, r3, r4, rfl⟩ := registerRegion_base _ _ _ _ _ hr
        rw [Option.getD_none, hm] at *
        refine ih _ _ ⟨h.size_eq, h.base_eq, ⟨?_, ?_⟩, ?_⟩
        · simp only [List.pairwise_append]
          refine ⟨h.tidy.1, by simp, fun e he f hf => ?_⟩
          simp only [List.mem_singleton] at hf
          subst hf
          have := r4 e he
          have := h.tidy.2 e he
          simp only [EApart]
          omega
        · intro e he
          simp only [List.mem_append, List.mem_singleton] at he
          rcases he with he | rfl
          · exact h.tidy.2 e he
          · exact ⟨r1, r2, r3⟩
        · intro g hg
          rcases List.mem_cons.1 hg with rfl | hg
          · simp [h.base_eq, hm]
          · simp [h.entries g hg]

/-- **C129.** What `alloc_region` hands out of a pool of an address space is reached through the address space, and its absolute address is
the absolute address of the place where it is reached. `(o, k, r)` is an offset in the pool, a size and a region that were granted. -/
theorem C129_regions (s s' : AddressSpace σ) (regs0 : List (Reg σ)) (hs0 : s = registerAll ⟨s.size, s.base, []⟩ regs0)
    (base size : Option Int) (p : Pool σ) (h : s.createPool base size = (.ok p, s')) (regs : List (Reg σ))
    (calls : List (Int × (Nat → Iface σ))) (hmk : ∀ c ∈ calls, ∀ n, (c.2 n).size = n) (q : Pool σ) (granted : List (Nat × Nat × Iface σ))
    (hq : fill p [] calls = (q, granted)) (t : AddressSpace σ) (htt : t = (s'.registerAll regs).setPool s.regions.length q)
    (o k : Nat) (r : Iface σ) (hg : (o, k, r) ∈ granted) (st : σ) :
    (∃ e ∈ q.space.regions, e.base = o ∧ e.size = k ∧ e.region = { r with base := s.base.map fun x => base.getD 0 + o + x }) ∧
    ∀ a : Nat, a < k → o + a < p.space.size →
      (∀ n : Nat, a + n ≤ k → o + a + n ≤ p.space.size → t.read (base.getD 0 + o + a) n st = r.read a n st) ∧
      (∀ d : Bytes, a + d.length ≤ k → o + a + d.length ≤ p.space.size → t.write (base.getD 0 + o + a) d st = r.write a d st) := by
  have ht : Tidy s := by rw [hs0]; exact tidy_all _ _ _
  obtain ⟨-, -, -, -, -, -, -, -, eb⟩ := pool_entry s s' ht base size p h regs
  have hp : p.space.regions = [] := by
    rcases createPool_cases s base size _ _ rfl rfl with ⟨_, h2⟩ | ⟨h1, r, h2⟩
    · rw [h2] at h; simp at h
    · rw [h2] at h
      simp only [Prod.mk.injEq, Except.ok.injEq] at h
      rw [← h.1]; rfl
  have hf : Filled p.space.size p.space.base q granted := by
    have := filled_run p.space.size p.space.base calls hmk p [] ⟨rfl, rfl, ⟨by rw [hp]; exact List.Pairwise.nil, by rw [hp]; simp⟩, by simp⟩
    rw [hq] at this; exact this
  have hm := hf.entries _ hg
  simp only at hm
  refine ⟨⟨_, hm, rfl, rfl, ?_⟩, ?_⟩
  · rw [eb]
    cases s.base with
    | none => rfl
    | some x =>
      simp only [Option.map_some]
      rw [show (o : Int) + (base.getD 0 + x) = base.getD 0 + o + x by omega]
  · intro a ha hsz
    obtain ⟨l1, l2, hl⟩ := List.append_of_mem hm
    have hr := (C129_reach s s' regs0 hs0 base size p q h regs t htt st).1 (o + a) (by omega) (by omega)
    have hx := access_single q.space l1 l2 _ hl rfl (apart_others (hl ▸ hf.tidy.1)) a (by omega) (by simp only; omega)
      (by simp only [hf.size_eq]; omega) st
    constructor
    · intro n hn hn'
      rw [Int.add_assoc, hr.1 n (by omega) (by omega)]
      exact hx.1 n (by omega) (by simp only; omega)
    · intro d hn hn'
      rw [Int.add_assoc, hr.2 d (by omega)]
      exact hx.2 d (by simp only; omega)

/-- A space of 64 bytes at 0x1000 with a region at 0, a pool of 32 bytes at 16, then a region at 48; three regions are taken from the pool. -/
example :
    let s := (AddressSpace.mk 64 (some 0x1000) []).registerAll [⟨(memoryRegion 8 none 0 : Iface Heap), 0, none, some 0⟩]
    let s' := (s.createPool (some 16) (some 32)).2
    (∃ p, s.createPool (some 16) (some 32) = (.ok p, s') ∧
      (fill p [] [(5, fun n => memoryRegion n none 1), (16, fun n => memoryRegion n none 2), (3, fun n => memoryRegion n none 3)]).2.map
        (fun g => (g.1, g.2.1)) = [(8, 3), (16, 16), (0, 5)]) ∧
    (∃ p, s.createPool (some 16) = (.ok p, (s.createPool (some 16)).2) ∧ p.space.size = 48) ∧
    (s.createPool).1.toOption.isNone ∧ (s.createPool (some 60) (some 8)).1.toOption.isNone := by
  refine ⟨⟨_, rfl, by decide⟩, ⟨_, rfl, rfl⟩, by decide, by decide⟩

example :
    let s := (AddressSpace.mk 64 (some 0x1000) []).registerAll [⟨(memoryRegion 8 none 0 : Iface Heap), 0, none, some 0⟩]
    ∃ p s', s.createPool (some 16) (some 32) = (.ok p, s') ∧
      let q := (fill p [] [(5, fun n => memoryRegion n none 1), (16, fun n => memoryRegion n none 2)]).1
      let t := (s'.registerAll [⟨memoryRegion 8 none 4, 48, none, some 0⟩]).setPool 1 q
      let h : Heap := fun i => .buf (List.replicate 16 (UInt8.ofNat (10 * i)))
      (t.read 34 3 h).1 = .ok [20, 20, 20] ∧ (t.read 20 1 h).1 = .ok [10] ∧ (t.read 21 1 h).1 = .error .exception ∧
        (t.read 50 2 h).1 = .ok [40, 40] ∧ q.space.regions.map (fun e => e.region.base) = [some 0x1010, some 0x1020] :=
  ⟨_, _, rfl, by refine ⟨rfl, rfl, rfl, rfl, rfl⟩⟩

end AddressSpace
end Verif
