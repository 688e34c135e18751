import Verif.Proof.Buddy

/-!
# C06–C11: the buddy allocator
-/

namespace Verif.Buddy

/-! ## Specification -/

/-- Calls of the API. -/
inductive Op
  | alloc (n : Int)
  | free (a : Int)

/-- The block length granted for a request: see `ceilPow2_spec`. -/
def ceilPow2 (m : Nat) : Nat := 2 ^ bitLength (m - 1)

/-- Run a history. The second component is what a user of the API knows: the list of blocks
`(address, length)` returned by successful `alloc` calls and not yet successfully freed. -/
def exec (s : Buddy) (live : List (Nat × Nat)) : List Op → Buddy × List (Nat × Nat)
  | [] => (s, live)
  | .alloc n :: rest =>
    match s.alloc n with
    | (.ok a, s') => exec s' ((a, ceilPow2 (max n.toNat s.minAlloc)) :: live) rest
    | (.error _, s') => exec s' live rest
  | .free a :: rest =>
    match s.free a with
    | (.ok _, s') => exec s' (live.filter fun p => (p.1 : Int) ≠ a) rest
    | (.error _, s') => exec s' live rest

/-- The state and live blocks after a history on a fresh allocator. -/
def after (size minAlloc : Nat) (ops : List Op) : Buddy × List (Nat × Nat) :=
  exec (init size minAlloc) [] ops

/-- Blocks `(address, length)` sharing no address. -/
def Apart (x y : Nat × Nat) : Prop := x.1 + x.2 ≤ y.1 ∨ y.1 + y.2 ≤ x.1

/-- The free blocks `(address, length)` recorded in the free lists. -/
def freeBlocks (s : Buddy) : List (Nat × Nat) :=
  (List.range s.freeLists.length).flatMap fun b => (FL s.freeLists b).map fun a => (a, 2 ^ b)

/-- Exponent of the arena size. -/
def arenaBits (size : Nat) : Nat := bitLength (size - 1)

/-! ## Arithmetic of `ceilPow2` -/

theorem bitLength_le_iff (m k : Nat) : bitLength m ≤ k ↔ m < 2 ^ k := by
  unfold bitLength
  split
  · rename_i h; subst h
    simp [Nat.pow_pos]
  · rename_i h
    rw [Nat.succ_le_iff, Nat.log2_lt h]

/-- `ceilPow2 m` is the least power of two that is at least `m`. -/
theorem ceilPow2_spec (m : Nat) : m ≤ ceilPow2 m ∧ ∀ k, m ≤ 2 ^ k → ceilPow2 m ≤ 2 ^ k := by
  constructor
  · have := (bitLength_le_iff (m - 1) (bitLength (m - 1))).1 (Nat.le_refl _)
    unfold ceilPow2; omega
  · intro k hk
    have hpos : 0 < 2 ^ k := Nat.pow_pos (by decide)
    exact Nat.pow_le_pow_right (by decide) ((bitLength_le_iff _ _).2 (by omega))

example : ceilPow2 5 = 8 ∧ ceilPow2 8 = 8 ∧ ceilPow2 1 = 1 := by decide

/-! ## The invariant carried by `exec` -/

/-- Live blocks as exponents. -/
def toLen (p : Nat × Nat) : Nat × Nat := (p.1, 2 ^ p.2)

structure Inv (size minAlloc : Nat) (r : Buddy × List (Nat × Nat)) : Prop where
  size_eq : r.1.size = size
  min_eq : r.1.minAlloc = minAlloc
  rep : ∃ t, Rep r.1 (arenaBits size) t
  live : r.2.Perm (r.1.allocations.map toLen)

theorem inv_init (size minAlloc : Nat) : Inv size minAlloc (init size minAlloc, []) :=
  ⟨rfl, rfl, ⟨.free, rep_init size minAlloc⟩, List.Perm.refl _⟩

theorem inv_exec (size minAlloc : Nat) (ops : List Op) : ∀ s live, Inv size minAlloc (s, live) →
    Inv size minAlloc (exec s live ops) := by
  induction ops with
  | nil => intro s live h; exact h
  | cons op rest ih =>
    intro s live h
    obtain ⟨hs, hm, ⟨t, hr⟩, hl⟩ := h
    dsimp only at hs hm hr hl
    cases op with
    | alloc n =>
      simp only [exec]
      by_cases hn : 1 ≤ n ∧ n ≤ s.size
      · rcases alloc_spec hr n hn.1 hn.2 with ⟨block, t', s', e1, e2, e3, e4, _, e6⟩ | ⟨e1, _⟩
        · rw [e1]
          apply ih
          refine ⟨by dsimp only; omega, by dsimp only; omega, ⟨t', e2⟩, ?_⟩
          refine (List.Perm.cons _ hl).trans ?_
          have := (e6.map toLen).symm
          simpa [toLen, ceilPow2, reqBucket] using this
        · rw [e1]; exact ih _ _ ⟨hs, hm, ⟨t, hr⟩, hl⟩
      · have : s.alloc n = (.error .valueError, s) := by
          simp only [alloc]; rw [if_pos (by omega)]
        rw [this]; exact ih _ _ ⟨hs, hm, ⟨t, hr⟩, hl⟩
    | free a =>
      simp only [exec]
      by_cases ha : 0 ≤ a
      · obtain ⟨a, rfl⟩ := Int.eq_ofNat_of_zero_le ha
        have hf := free_spec hr a
        by_cases hex : ∃ b, (a, b) ∈ s.allocations
        · obtain ⟨t', s', e1, e2, e3, e4, e5⟩ := hf.1 hex
          rw [e1]
          apply ih
          refine ⟨by dsimp only; omega, by dsimp only; omega, ⟨t', e2⟩, ?_⟩
          dsimp only
          rw [e5]
          refine (hl.filter _).trans ?_
          rw [List.filter_map]
          apply List.Perm.of_eq
          congr 1
          apply List.filter_congr
          intro x _
          simp only [toLen, Function.comp]
          apply decide_eq_decide.2; omega
        · rw [hf.2 (fun b hb => hex ⟨b, hb⟩)]
          exact ih _ _ ⟨hs, hm, ⟨t, hr⟩, hl⟩
      · have : s.free a = (.error .valueError, s) := by
          simp only [free]; rw [if_pos (by omega)]
        rw [this]; exact ih _ _ ⟨hs, hm, ⟨t, hr⟩, hl⟩

theorem inv_after (size minAlloc : Nat) (ops : List Op) :
    Inv size minAlloc (after size minAlloc ops) :=
  inv_exec size minAlloc ops _ _ (inv_init size minAlloc)

theorem Inv.mem_live {size minAlloc : Nat} {r : Buddy × List (Nat × Nat)} (h : Inv size minAlloc r)
    {a L : Nat} : (a, L) ∈ r.2 ↔ ∃ b, L = 2 ^ b ∧ (a, b) ∈ r.1.allocations := by
  rw [h.live.mem_iff, List.mem_map]
  constructor
  · rintro ⟨⟨a', b⟩, hm, he⟩
    simp only [toLen] at he
    cases he
    exact ⟨b, rfl, hm⟩
  · rintro ⟨b, rfl, hm⟩
    exact ⟨(a, b), hm, rfl⟩

/-! ## C06 -/

/-- **C06.** After any history, a successful `alloc(n)` returns a block whose length is the least power of two
covering `max(n, min_alloc)`, aligned to that length, and disjoint from every live block. -/
theorem C06_alloc_aligned_disjoint (size minAlloc : Nat) (ops : List Op) (n : Int) (a : Nat) (s' : Buddy)
    (h : (after size minAlloc ops).1.alloc n = (.ok a, s')) :
    let len := ceilPow2 (max n.toNat minAlloc)
    n ≤ len ∧ len ∣ a ∧ ∀ y ∈ (after size minAlloc ops).2, Apart (a, len) y := by
  intro len
  have hinv := inv_after size minAlloc ops
  generalize after size minAlloc ops = r at *
  obtain ⟨t, hr⟩ := hinv.rep
  have hn : 1 ≤ n ∧ n ≤ r.1.size := by
    refine Classical.byContradiction fun hc => ?_
    have : r.1.alloc n = (.error .valueError, r.1) := by
      simp only [alloc]; rw [if_pos (by omega)]
    rw [this] at h; cases h
  rcases alloc_spec hr n hn.1 hn.2 with ⟨block, t', s1, e1, e2, _, _, ⟨bk, hbk, hmem⟩, _⟩ | ⟨e1, _⟩
  · rw [e1] at h
    cases h
    have hlen : len = 2 ^ r.1.reqBucket n.toNat := by
      show ceilPow2 (max n.toNat minAlloc) = _
      rw [← hinv.min_eq]; rfl
    have hle : len ≤ 2 ^ bk := by rw [hlen]; exact Nat.pow_le_pow_right (by decide) hbk
    have hrange := leaf_range t _ 0 _ hr.fits (Nat.dvd_zero _) hmem
    refine ⟨?_, ?_, ?_⟩
    · have := (ceilPow2_spec (max n.toNat minAlloc)).1
      show n ≤ (ceilPow2 (max n.toNat minAlloc) : Nat)
      omega
    · rw [hlen]
      exact Nat.dvd_trans (Nat.pow_dvd_pow 2 hbk) hrange.2.1
    · rintro ⟨c, L⟩ hy
      obtain ⟨b, rfl, hb⟩ := hinv.mem_live.1 hy
      have := disj_of_mem (pairwise_of_rep hr) hmem (hr.mem_used.1 hb) (by simp)
      simp only [Disj] at this
      simp only [Apart]
      omega
  · rw [e1] at h; cases h

/-- **C06, live blocks.** At all times the live blocks are pairwise disjoint. -/
theorem C06_live_pairwise_disjoint (size minAlloc : Nat) (ops : List Op) :
    (after size minAlloc ops).2.Pairwise Apart := by
  have hinv := inv_after size minAlloc ops
  generalize after size minAlloc ops = r at *
  obtain ⟨t, hr⟩ := hinv.rep
  have h1 : (r.1.allocations.map toLen).Pairwise Apart := by
    have hu : ((t.leaves (arenaBits size) 0).filterMap usedAt).Pairwise
        (fun x y => Apart (toLen x) (toLen y)) := by
      rw [List.pairwise_filterMap]
      refine (pairwise_of_rep hr).imp ?_
      intro x y hxy x' hx y' hy
      simp only [usedAt] at hx hy
      split at hx
      · split at hy
        · cases hx; cases hy; exact hxy
        · cases hy
      · cases hx
    rw [List.pairwise_map]
    refine hr.used.symm.pairwise hu ?_
    intro x y h; simp only [Apart] at *; omega
  refine hinv.live.symm.pairwise h1 ?_
  intro x y h; simp only [Apart] at *; omega

/-- Hypotheses of C06 are met: three live blocks after a free, then a fourth allocation. -/
example : ((after 64 4 [.alloc 8, .alloc 3, .alloc 16, .free 8]).1.alloc 5).1 = .ok 8 ∧
    (after 64 4 [.alloc 8, .alloc 3, .alloc 16, .free 8]).2 = [(16, 16), (0, 8)] := by decide

/-! ## C07 -/

/-- **C07.** After any history the free blocks and live blocks are pairwise disjoint (so none is duplicated),
lie in the arena `[0, 2^k)`, and cover it. -/
theorem C07_partition (size minAlloc : Nat) (ops : List Op) :
    let r := after size minAlloc ops
    (freeBlocks r.1 ++ r.2).Pairwise Apart ∧
    (∀ x ∈ freeBlocks r.1 ++ r.2, x.1 + x.2 ≤ 2 ^ arenaBits size) ∧
    (∀ z, z < 2 ^ arenaBits size → ∃ x ∈ freeBlocks r.1 ++ r.2, x.1 ≤ z ∧ z < x.1 + x.2) := by
  intro r
  have hinv : Inv size minAlloc r := inv_after size minAlloc ops
  have hlive : r.2.Pairwise Apart := C06_live_pairwise_disjoint size minAlloc ops
  generalize r = r at *
  obtain ⟨t, hr⟩ := hinv.rep
  have hfree : ∀ a L, (a, L) ∈ freeBlocks r.1 ↔
      ∃ b, L = 2 ^ b ∧ (true, a, b) ∈ t.leaves (arenaBits size) 0 := by
    intro a L
    simp only [freeBlocks, List.mem_flatMap, List.mem_range, List.mem_map]
    constructor
    · rintro ⟨b, hb, a', ha', he⟩
      cases he
      exact ⟨b, rfl, hr.mem_free.1 ha'⟩
    · rintro ⟨b, rfl, hm⟩
      have := leaf_range t _ 0 _ hr.fits (Nat.dvd_zero _) hm
      exact ⟨b, by rw [hr.len]; simp at this; omega, a, hr.mem_free.2 hm, rfl⟩
  have hpw := pairwise_of_rep hr
  refine ⟨?_, ?_, ?_⟩
  · rw [List.pairwise_append]
    refine ⟨?_, hlive, ?_⟩
    · simp only [freeBlocks, List.pairwise_flatMap]
      refine ⟨?_, ?_⟩
      · intro b _
        rw [List.pairwise_map]
        have : ((t.leaves (arenaBits size) 0).filterMap (freeAt b)).Pairwise
            (fun x y => Apart (x, 2 ^ b) (y, 2 ^ b)) := by
          rw [List.pairwise_filterMap]
          refine hpw.imp ?_
          intro x y hxy x' hx y' hy
          simp only [freeAt] at hx hy
          split at hx
          · split at hy
            · rename_i h1 h2
              cases hx; cases hy
              simp only [Disj, h1.2, h2.2] at hxy
              exact hxy
            · cases hy
          · cases hx
        refine (hr.free b).symm.pairwise this ?_
        intro x y h; simp only [Apart] at *; omega
      · have := List.nodup_range (n := r.1.freeLists.length)
        refine this.imp ?_
        intro b c hbc x hx y hy
        simp only [List.mem_map] at hx hy
        obtain ⟨a1, h1, rfl⟩ := hx
        obtain ⟨a2, h2, rfl⟩ := hy
        exact disj_of_mem hpw (hr.mem_free.1 h1) (hr.mem_free.1 h2) (by simp [hbc])
    · rintro ⟨a, L⟩ hx ⟨c, M⟩ hy
      obtain ⟨b, rfl, h1⟩ := (hfree a L).1 hx
      obtain ⟨b', rfl, h2⟩ := hinv.mem_live.1 hy
      exact disj_of_mem hpw h1 (hr.mem_used.1 h2) (by simp)
  · rintro ⟨a, L⟩ hx
    rcases List.mem_append.1 hx with hx | hx
    · obtain ⟨b, rfl, h1⟩ := (hfree a L).1 hx
      have := leaf_range t _ 0 _ hr.fits (Nat.dvd_zero _) h1
      simp at this; simp; omega
    · obtain ⟨b, rfl, h1⟩ := hinv.mem_live.1 hx
      have := leaf_range t _ 0 _ hr.fits (Nat.dvd_zero _) (hr.mem_used.1 h1)
      simp at this; simp; omega
  · intro z hz
    obtain ⟨⟨f, a, b⟩, hx, h1, h2⟩ := leaves_cover t _ 0 z hr.fits (Nat.zero_le _) (by omega)
    refine ⟨(a, 2 ^ b), ?_, h1, h2⟩
    rw [List.mem_append]
    cases f with
    | true => exact .inl ((hfree a _).2 ⟨b, rfl, hx⟩)
    | false => exact .inr (hinv.mem_live.2 ⟨b, rfl, hr.mem_used.2 hx⟩)

/-- A non-trivial instance of C07: a fragmented arena. -/
example : let r := after 16 1 [.alloc 2, .alloc 2, .alloc 4, .free 0]
    freeBlocks r.1 ++ r.2 = [(0, 2), (8, 8), (4, 4), (2, 2)] := by decide

/-! ## C08 -/

/-- **C08.** If after some history no block is live, the allocator is exactly the fresh one. -/
theorem C08_free_all_restores (size minAlloc : Nat) (ops : List Op)
    (h : (after size minAlloc ops).2 = []) :
    (after size minAlloc ops).1 = init size minAlloc := by
  have hinv := inv_after size minAlloc ops
  generalize after size minAlloc ops = r at *
  obtain ⟨t, hr⟩ := hinv.rep
  have hempty : r.1.allocations = [] := by
    have := hinv.live
    rw [h] at this
    simpa using this.symm.eq_nil
  have ht : t = .free := by
    refine all_free t _ 0 hr.fits hr.norm ?_
    rintro ⟨f, a, b⟩ hx
    cases f with
    | true => rfl
    | false => have := hr.mem_used.2 hx; rw [hempty] at this; cases this
  subst ht
  have hr0 := rep_init size minAlloc
  have hfl : r.1.freeLists = (init size minAlloc).freeLists := by
    apply List.ext_getElem?
    intro b
    have e : ∀ (s : Buddy), Rep s (arenaBits size) .free → s.freeLists[b]? =
        if b < arenaBits size then some [] else if b = arenaBits size then some [0] else none := by
      intro s hs
      have hb := hs.free b
      simp only [Tree.leaves, List.filterMap_cons, List.filterMap_nil, freeAt] at hb
      by_cases h1 : b < arenaBits size
      · rw [if_pos h1]
        rw [if_neg (by simp; omega)] at hb
        have := hb.eq_nil
        have hlt : b < s.freeLists.length := by rw [hs.len]; omega
        rw [FL, List.getElem?_eq_getElem hlt] at this
        rw [List.getElem?_eq_getElem hlt]; simpa using this
      · rw [if_neg h1]
        by_cases h2 : b = arenaBits size
        · rw [if_pos h2]
          rw [if_pos (by simp [h2])] at hb
          have hlt : b < s.freeLists.length := by rw [hs.len]; omega
          rw [FL, List.getElem?_eq_getElem hlt] at hb
          rw [List.getElem?_eq_getElem hlt]
          have := List.perm_singleton.1 hb
          simpa using this
        · rw [if_neg h2]; apply List.getElem?_eq_none; rw [hs.len]; omega
    rw [e _ hr, e _ hr0]
  have h1 := hinv.size_eq
  have h2 := hinv.min_eq
  have : r.1 = ⟨r.1.size, r.1.minAlloc, r.1.freeLists, r.1.allocations⟩ := rfl
  rw [this, h1, h2, hempty, hfl]
  rfl

/-- C08's hypothesis is met by a history freeing out of order. -/
example : (after 64 1 [.alloc 5, .alloc 9, .alloc 1, .free 16, .alloc 3, .free 8, .free 0, .free 12]).2
    = [] := by decide

/-! ## C09 -/

/-- **C09.** For an admissible request, `alloc` raises "out of memory" exactly when no aligned range of the
rounded length in the arena avoids all live blocks. -/
theorem C09_oom_iff (size minAlloc : Nat) (ops : List Op) (n : Int) (h1 : 1 ≤ n) (h2 : n ≤ size) :
    ((after size minAlloc ops).1.alloc n).1 = .error .exception ↔
    ¬ ∃ a, ceilPow2 (max n.toNat minAlloc) ∣ a ∧
        a + ceilPow2 (max n.toNat minAlloc) ≤ 2 ^ arenaBits size ∧
        ∀ y ∈ (after size minAlloc ops).2, Apart (a, ceilPow2 (max n.toNat minAlloc)) y := by
  have hinv := inv_after size minAlloc ops
  have hC06 := C06_alloc_aligned_disjoint size minAlloc ops n
  generalize after size minAlloc ops = r at *
  obtain ⟨t, hr⟩ := hinv.rep
  have hlen : ceilPow2 (max n.toNat minAlloc) = 2 ^ r.1.reqBucket n.toNat := by
    rw [← hinv.min_eq]; rfl
  rcases alloc_spec hr n h1 (by rw [hinv.size_eq]; exact h2) with
    ⟨block, t', s1, e1, e2, _, _, ⟨bk, hbk, hmem⟩, _⟩ | ⟨e1, e2⟩
  · rw [e1]
    constructor
    · intro h; cases h
    · intro h
      exfalso
      apply h
      obtain ⟨_, g2, g3⟩ := hC06 block s1 e1
      refine ⟨block, g2, ?_, g3⟩
      have := leaf_range t _ 0 _ hr.fits (Nat.dvd_zero _) hmem
      have hle : 2 ^ r.1.reqBucket n.toNat ≤ 2 ^ bk := Nat.pow_le_pow_right (by decide) hbk
      simp at this
      rw [hlen]; omega
  · rw [e1]
    refine ⟨fun _ => ?_, fun _ => rfl⟩
    rintro ⟨a, g1, g2, g3⟩
    rw [hlen] at g1 g2 g3
    have hb : r.1.reqBucket n.toNat ≤ arenaBits size := by
      refine Classical.byContradiction fun hc => ?_
      have : 2 ^ arenaBits size < 2 ^ r.1.reqBucket n.toNat :=
        Nat.pow_lt_pow_right (by decide) (by omega)
      omega
    obtain ⟨⟨f, c, b⟩, hx, hf, hbx⟩ := free_leaf_of_room t _ 0 a _ hr.fits hr.norm (Nat.dvd_zero _)
      hb g1 (Nat.zero_le _) (by omega) (by
        rintro ⟨f, c, b⟩ hx hf
        simp only at hf; subst hf
        exact g3 (c, 2 ^ b) (hinv.mem_live.2 ⟨b, rfl, hr.mem_used.2 hx⟩))
    simp only at hf hbx; subst hf
    exact e2 b c hbx hx

/-- Both sides of C09 occur: a fragmented arena that refuses 8 although 8 bytes are free, and accepts 4. -/
example : ((after 16 1 [.alloc 4, .alloc 4, .alloc 4, .alloc 4, .free 0, .free 8]).1.alloc 8).1
    = .error .exception ∧
    ((after 16 1 [.alloc 4, .alloc 4, .alloc 4, .alloc 4, .free 0, .free 8]).1.alloc 4).1
    = .ok 0 := by decide

/-- **C09, other errors.** The only other failure of `alloc` is `ValueError` for a size outside `[1, size]`, without
effect; and a failed `alloc` never changes the state. -/
theorem C09_alloc_errors (size minAlloc : Nat) (ops : List Op) (n : Int) (e : PyErr) (s' : Buddy)
    (h : (after size minAlloc ops).1.alloc n = (.error e, s')) :
    s' = (after size minAlloc ops).1 ∧
      (e = .valueError ↔ (n < 1 ∨ n > size)) ∧ (e = .exception ↔ (1 ≤ n ∧ n ≤ size)) := by
  have hinv := inv_after size minAlloc ops
  generalize after size minAlloc ops = r at *
  obtain ⟨t, hr⟩ := hinv.rep
  have hsz := hinv.size_eq
  by_cases hn : 1 ≤ n ∧ n ≤ size
  · rcases alloc_spec hr n hn.1 (by omega) with ⟨block, t', s1, e1, _⟩ | ⟨e1, _⟩
    · rw [e1] at h; cases h
    · rw [e1] at h; cases h
      refine ⟨rfl, ⟨fun hc => (by cases hc), fun _ => (by omega)⟩, ⟨fun _ => hn, fun _ => rfl⟩⟩
  · have : r.1.alloc n = (.error .valueError, r.1) := by
      simp only [alloc]; rw [if_pos (by omega)]
    rw [this] at h; cases h
    refine ⟨rfl, ⟨fun _ => (by omega), fun _ => rfl⟩, ⟨fun hc => (by cases hc), fun hc => absurd hc hn⟩⟩

example : (after 16 1 [.alloc 16]).1.alloc 3 = (.error .exception, (after 16 1 [.alloc 16]).1) := by decide

/-! ## C10 -/

/-- **C10, part that holds for every size.** Blocks stay below the next power of two. -/
theorem C10_in_arena (size minAlloc : Nat) (ops : List Op) :
    ∀ x ∈ (after size minAlloc ops).2, x.1 + x.2 ≤ ceilPow2 size := by
  intro x hx
  exact (C07_partition size minAlloc ops).2.1 x (List.mem_append_right _ hx)

/-- **C10 (partial).** When the managed size is a power of two, every live block lies in `[0, size)`. Missing:
other sizes, for which the statement is false (`C10_violated`). -/
theorem C10_in_size_partial (k minAlloc : Nat) (ops : List Op) :
    ∀ x ∈ (after (2 ^ k) minAlloc ops).2, x.1 + x.2 ≤ 2 ^ k := by
  intro x hx
  have h1 := C10_in_arena (2 ^ k) minAlloc ops x hx
  have h2 := (ceilPow2_spec (2 ^ k)).2 k (Nat.le_refl _)
  omega

example : (after (2 ^ 4) 1 [.alloc 5, .alloc 8]).2 = [(8, 8), (0, 8)] := by decide

/-- **C10 is false of the code**: an allocator of size 10 hands out the block `[8, 16)`. -/
theorem C10_violated : ∃ (size : Nat) (ops : List Op), ∃ x ∈ (after size 1 ops).2, ¬ x.1 + x.2 ≤ size :=
  ⟨10, [.alloc 8, .alloc 8], (8, 8), by decide, by decide⟩

/-! ## C11 -/

/-- **C11.** `free(a)` of a live block succeeds and removes exactly that block; anything else raises
`ValueError` and changes nothing. -/
theorem C11_free (size minAlloc : Nat) (ops : List Op) (a : Int) :
    let r := after size minAlloc ops
    ((∃ L, ∃ x ∈ r.2, x = (a.toNat, L) ∧ 0 ≤ a) →
      (r.1.free a).1 = .ok () ∧
      (after size minAlloc (ops ++ [.free a])).2 = r.2.filter (fun p => (p.1 : Int) ≠ a)) ∧
    ((∀ x ∈ r.2, (x.1 : Int) ≠ a) → r.1.free a = (.error .valueError, r.1)) := by
  intro r
  have hinv : Inv size minAlloc r := inv_after size minAlloc ops
  have happ : ∀ (ops : List Op) s live, exec s live (ops ++ [.free a]) =
      exec (exec s live ops).1 (exec s live ops).2 [.free a] := by
    intro ops
    induction ops with
    | nil => intro s live; rfl
    | cons op rest ih =>
      intro s live
      cases op with
      | alloc n =>
        simp only [List.cons_append, exec]
        split <;> exact ih _ _
      | free b =>
        simp only [List.cons_append, exec]
        split <;> exact ih _ _
  have happ' : after size minAlloc (ops ++ [.free a]) = exec r.1 r.2 [.free a] := happ _ _ _
  obtain ⟨t, hr⟩ := hinv.rep
  constructor
  · rintro ⟨L, x, hx, rfl, ha⟩
    obtain ⟨b, rfl, hb⟩ := hinv.mem_live.1 hx
    obtain ⟨t', s', e1, _⟩ := (free_spec hr a.toNat).1 ⟨b, hb⟩
    rw [Int.toNat_of_nonneg ha] at e1
    rw [happ']
    simp only [exec, e1]
    exact ⟨trivial, trivial⟩
  · intro h
    by_cases ha : 0 ≤ a
    · obtain ⟨c, rfl⟩ := Int.eq_ofNat_of_zero_le ha
      refine (free_spec hr c).2 ?_
      intro b hb
      exact h (c, 2 ^ b) (hinv.mem_live.2 ⟨b, rfl, hb⟩) rfl
    · simp only [free]; rw [if_pos (by omega)]

/-- Both cases of C11 occur (valid free; double free). -/
example : ((after 16 1 [.alloc 4, .alloc 2]).1.free 4).1 = .ok () ∧
    ((after 16 1 [.alloc 4, .alloc 2, .free 4]).1.free 4).1 = .error .valueError := by decide

end Verif.Buddy
