import Verif.Model.RegionIndex
import Verif.Proof.AddressSpace
import Verif.Props.SparseMemory
import Verif.Spec.Slice

/-!
# Lemmas about indexing regions
-/

namespace Verif

open SparseMemory (Slice)

theorem adjust_up (first : Bool) (n : Nat) (x : Option Int) : 0 ≤ adjustBound false first n x ∧ adjustBound false first n x ≤ n := by
  unfold adjustBound
  cases first <;> cases x <;> simp <;> repeat' split
  all_goals omega

theorem adjust_down (first : Bool) (n : Nat) (x : Option Int) : -1 ≤ adjustBound true first n x ∧ adjustBound true first n x < n := by
  unfold adjustBound
  cases first <;> cases x <;> simp <;> repeat' split
  all_goals omega

/-- Every designated position is an integer between the adjusted bounds. -/
theorem position_range (n : Nat) (a b : Option Int) (step : Int) (h0 : step ≠ 0) (i : Nat)
    (hi : i < sliceCount (adjustBound (decide (step < 0)) true n a) (adjustBound (decide (step < 0)) false n b) step) :
    0 ≤ adjustBound (decide (step < 0)) true n a + i * step ∧ adjustBound (decide (step < 0)) true n a + i * step < n := by
  by_cases hs : step < 0
  · simp only [decide_eq_true hs] at hi ⊢
    have h1 := adjust_down true n a
    have h2 := adjust_down false n b
    generalize adjustBound true true n a = lo at *
    generalize adjustBound true false n b = hi' at *
    unfold sliceCount at hi
    rw [if_pos hs] at hi
    split at hi
    · rename_i hlt
      have hd := Int.ediv_mul_le (lo - hi' - 1) (show -step ≠ 0 by omega)
      have hq : (0 : Int) ≤ (lo - hi' - 1) / (-step) := Int.ediv_nonneg (by omega) (by omega)
      have hle : (i : Int) ≤ (lo - hi' - 1) / (-step) := by omega
      have hm := Int.mul_le_mul_of_nonneg_right hle (show 0 ≤ -step by omega)
      have e : (i : Int) * -step = -(i * step) := Int.mul_neg _ _
      have hp : 0 ≤ (i : Int) * -step := Int.mul_nonneg (by omega) (by omega)
      omega
    · omega
  · simp only [decide_eq_false hs] at hi ⊢
    have h1 := adjust_up true n a
    have h2 := adjust_up false n b
    generalize adjustBound false true n a = lo at *
    generalize adjustBound false false n b = hi' at *
    unfold sliceCount at hi
    rw [if_neg hs] at hi
    split at hi
    · rename_i hlt
      have hd := Int.ediv_mul_le (hi' - lo - 1) h0
      have hq : (0 : Int) ≤ (hi' - lo - 1) / step := Int.ediv_nonneg (by omega) (by omega)
      have hle : (i : Int) ≤ (hi' - lo - 1) / step := by omega
      have hm := Int.mul_le_mul_of_nonneg_right hle (show 0 ≤ step by omega)
      have hp : 0 ≤ (i : Int) * step := Int.mul_nonneg (by omega) (by omega)
      omega
    · omega

/-- The positions of a slice lie in the object and are all different. -/
theorem positions_ok (n : Nat) (s : Slice) (ps : List Nat) (h : slicePositions n s = .ok ps) : (∀ p ∈ ps, p < n) ∧ ps.Nodup := by
  simp only [slicePositions] at h
  split at h
  · cases h
  · rename_i h0
    cases h
    refine ⟨?_, ?_⟩
    · intro p hp
      simp only [List.mem_map, List.mem_range] at hp
      obtain ⟨i, hi, rfl⟩ := hp
      have := position_range n s.start s.stop (s.step.getD 1) h0 i hi
      omega
    · unfold List.Nodup
      rw [List.pairwise_map]
      refine (List.nodup_range).imp_of_mem ?_
      intro i j hi hj hij hc
      simp only [List.mem_range] at hi hj
      have p1 := position_range n s.start s.stop (s.step.getD 1) h0 i hi
      have p2 := position_range n s.start s.stop (s.step.getD 1) h0 j hj
      have : (i : Int) * s.step.getD 1 = j * s.step.getD 1 := by omega
      have := Int.eq_of_mul_eq_mul_right h0 this
      omega

theorem putAll_length : ∀ (ps : List Nat) (vs b : Bytes), (putAll ps vs b).length = b.length := by
  intro ps
  induction ps with
  | nil => intro vs b; rfl
  | cons p ps ih =>
    intro vs b
    cases vs with
    | nil => rfl
    | cons v vs => simp [putAll, ih]

theorem putAll_other : ∀ (ps : List Nat) (vs b : Bytes) (q : Nat), q ∉ ps → (putAll ps vs b)[q]? = b[q]? := by
  intro ps
  induction ps with
  | nil => intro vs b q _; rfl
  | cons p ps ih =>
    intro vs b q hq
    simp only [List.mem_cons, not_or] at hq
    cases vs with
    | nil => rfl
    | cons v vs =>
      simp only [putAll]
      rw [ih _ _ _ hq.2, List.getElem?_set_ne (fun h => hq.1 h.symm)]

theorem putAll_at : ∀ (ps : List Nat) (vs b : Bytes), ps.Nodup → (∀ p ∈ ps, p < b.length) → ps.length = vs.length →
    (ps.map fun p => (putAll ps vs b).getD p 0) = vs := by
  intro ps
  induction ps with
  | nil => intro vs b _ _ hl; cases vs with
    | nil => rfl
    | cons v vs => simp at hl
  | cons p ps ih =>
    intro vs b hn hr hl
    cases vs with
    | nil => simp at hl
    | cons v vs =>
      simp only [List.nodup_cons] at hn
      have hp := hr p (List.mem_cons_self ..)
      simp only [List.map_cons, putAll]
      have e := ih vs (b.set p v) hn.2 (fun q hq => by rw [List.length_set]; exact hr q (List.mem_cons_of_mem _ hq)) (by simpa using hl)
      rw [e]
      congr 1
      rw [List.getD_eq_getElem?_getD, putAll_other _ _ _ _ hn.1, List.getElem?_set_self hp]
      rfl

/-- With step 1 the positions are the window between the clamped bounds. -/
theorem positions_one (n : Nat) (a b : Option Int) (step : Option Int) (hs : step = none ∨ step = some 1) :
    slicePositions n ⟨a, b, step⟩ =
      .ok ((List.range (sliceBound b n n - sliceBound a 0 n)).map fun i => sliceBound a 0 n + i) := by
  have h1 : step.getD 1 = 1 := by rcases hs with rfl | rfl <;> rfl
  have ha : adjustBound false true n a = sliceBound a 0 n := by
    unfold adjustBound sliceBound
    cases a with
    | none => simp
    | some x => simp only; repeat' split
                all_goals first | omega | simp_all
  have hb : adjustBound false false n b = sliceBound b n n := by
    unfold adjustBound sliceBound
    cases b with
    | none => simp
    | some x => simp only; repeat' split
                all_goals first | omega | simp_all
  simp only [slicePositions, h1]
  rw [if_neg (by omega)]
  rw [show (decide ((1 : Int) < 0)) = false from rfl, ha, hb]
  congr 1
  have hc : sliceCount (sliceBound a 0 n) (sliceBound b n n) 1 = sliceBound b n n - sliceBound a 0 n := by
    unfold sliceCount
    rw [if_neg (by omega)]
    split
    · rw [Int.ediv_one]; omega
    · omega
  rw [hc]
  apply List.map_congr_left
  intro i _
  omega

/-- Reading consecutive positions of a buffer is reading a window. -/
theorem positions_slice (l : Bytes) (lo n : Nat) (h : lo + n ≤ l.length) :
    ((List.range n).map fun i => lo + i).map (fun p => l.getD p 0) = pySlice l lo (lo + n) := by
  apply List.ext_getElem?
  intro i
  simp only [pySlice, List.map_map, List.getElem?_map, List.getElem?_drop, List.getElem?_take]
  by_cases hi : i < n
  · rw [List.getElem?_range hi, if_pos (by omega)]
    simp only [Option.map_some, Function.comp, List.getD_eq_getElem?_getD]
    rw [List.getElem?_eq_getElem (by omega)]
    rfl
  · rw [if_neg (by omega)]
    simp [hi]

/-- Storing at consecutive positions of a buffer is assigning a window. -/
theorem putAll_slice (l v : Bytes) (lo : Nat) (h : lo + v.length ≤ l.length) :
    putAll ((List.range v.length).map fun i => lo + i) v l = pySliceAssign l lo (lo + v.length) v := by
  have hlen : ((List.range v.length).map fun i => lo + i).length = v.length := by simp
  have hnd : ((List.range v.length).map fun i => lo + i).Nodup := by
    unfold List.Nodup
    rw [List.pairwise_map]
    exact (List.nodup_range).imp fun h => by omega
  have hat := putAll_at _ v l hnd (by intro p hp; simp only [List.mem_map, List.mem_range] at hp; obtain ⟨i, hi, rfl⟩ := hp; omega) hlen
  have hpl := putAll_length ((List.range v.length).map fun i => lo + i) v l
  apply List.ext_getElem?
  intro q
  simp only [pySliceAssign, show max lo (lo + v.length) = lo + v.length by omega]
  by_cases hq : q ∈ (List.range v.length).map fun i => lo + i
  · simp only [List.mem_map, List.mem_range] at hq
    obtain ⟨i, hi, rfl⟩ := hq
    have e : (((List.range v.length).map fun i => lo + i).map fun p =>
        (putAll ((List.range v.length).map fun i => lo + i) v l).getD p 0)[i]? = v[i]? := by rw [hat]
    simp only [List.map_map, List.getElem?_map, List.getElem?_range hi, Option.map_some, Function.comp] at e
    rw [List.getD_eq_getElem?_getD, List.getElem?_eq_getElem (by omega)] at e
    rw [List.getElem?_eq_getElem (by omega)]
    rw [List.getElem?_append_left (by simp; omega), List.getElem?_append_right (by simp; omega)]
    simp only [List.length_take]
    rw [show lo + i - min lo l.length = i by omega, ← e]
    rfl
  · rw [putAll_other _ _ _ _ hq]
    simp only [List.mem_map, List.mem_range, not_exists, not_and] at hq
    by_cases hq1 : q < lo
    · rw [List.append_assoc, List.getElem?_append_left (by simp; omega), List.getElem?_take, if_pos hq1]
    · have hq2 : lo + v.length ≤ q := by
        have := hq (q - lo)
        omega
      rw [List.getElem?_append_right (by simp; omega)]
      simp only [List.length_append, List.length_take, List.getElem?_drop]
      congr 1; omega

theorem adjust_start (n : Nat) (a : Option Int) : adjustBound false true n a = sliceBound a 0 n := by
  unfold adjustBound sliceBound
  cases a with
  | none => simp
  | some x => simp only; repeat' split
              all_goals first | omega | simp_all

theorem adjust_stop (n : Nat) (b : Option Int) : adjustBound false false n b = sliceBound b n n := by
  unfold adjustBound sliceBound
  cases b with
  | none => simp
  | some x => simp only; repeat' split
              all_goals first | omega | simp_all

theorem adjust_down_start (n : Nat) (a : Option Int) : adjustBound true true n a = downBound a ((n : Int) - 1) n := by
  unfold adjustBound downBound
  cases a with
  | none => simp
  | some x => simp only; repeat' split
              all_goals first | omega | simp_all

theorem adjust_down_stop (n : Nat) (b : Option Int) : adjustBound true false n b = downBound b (-1) n := by
  unfold adjustBound downBound
  cases b with
  | none => simp
  | some x => simp only; repeat' split
              all_goals first | omega | simp_all

/-- The positions computed are those designated. -/
theorem positions_designates (n : Nat) (s : Slice) (h0 : s.step.getD 1 ≠ 0) :
    ∃ ps, slicePositions n s = .ok ps ∧ Designates n s ps := by
  refine ⟨_, by simp only [slicePositions]; rw [if_neg h0], ?_⟩
  have hr := position_range n s.start s.stop (s.step.getD 1) h0
  unfold Designates
  generalize s.step.getD 1 = step at h0 hr ⊢
  by_cases hs : 0 < step
  · simp only [if_pos hs]
    simp only [decide_eq_false (show ¬ step < 0 by omega), adjust_start, adjust_stop] at hr ⊢
    have hb : sliceBound s.stop n n ≤ n := by have := adjust_up false n s.stop; rw [adjust_stop] at this; omega
    generalize sliceBound s.start 0 n = lo at hr ⊢
    generalize sliceBound s.stop n n = hi at hr hb ⊢
    refine ⟨?_, ?_⟩
    · rw [List.pairwise_map]
      refine (List.pairwise_lt_range).imp_of_mem ?_
      intro i j hi' hj hij
      simp only [List.mem_range] at hi' hj
      have p1 := hr i hi'
      have p2 := hr j hj
      have : (i : Int) * step < j * step := Int.mul_lt_mul_of_pos_right (by omega) hs
      omega
    · intro p
      simp only [List.mem_map, List.mem_range]
      constructor
      · rintro ⟨i, hi', rfl⟩
        have p1 := hr i hi'
        have hnn : 0 ≤ (i : Int) * step := Int.mul_nonneg (by omega) (by omega)
        have hlt : (lo : Int) + i * step < hi := by
          unfold sliceCount at hi'
          rw [if_neg (by omega)] at hi'
          split at hi'
          · have hq : (0 : Int) ≤ ((hi : Int) - lo - 1) / step := Int.ediv_nonneg (by omega) (by omega)
            have hd := Int.ediv_mul_le ((hi : Int) - lo - 1) (show step ≠ 0 by omega)
            have hm := Int.mul_le_mul_of_nonneg_right (show (i : Int) ≤ ((hi : Int) - lo - 1) / step by omega) (show 0 ≤ step by omega)
            omega
          · omega
        refine ⟨by omega, by omega, ⟨(i : Int), ?_⟩⟩
        rw [Int.mul_comm step]; omega
      · rintro ⟨h1, h2, q, hq⟩
        have hqn : 0 ≤ q := by
          refine Classical.byContradiction fun hc => ?_
          have : step * q < 0 := Int.mul_neg_of_pos_of_neg hs (by omega)
          omega
        refine ⟨q.toNat, ?_, ?_⟩
        · unfold sliceCount
          rw [if_neg (by omega), if_pos (by omega)]
          have : q ≤ ((hi : Int) - lo - 1) / step := (Int.le_ediv_iff_mul_le hs).2 (by rw [Int.mul_comm]; omega)
          omega
        · rw [Int.toNat_of_nonneg hqn, Int.mul_comm]; omega
  · simp only [if_neg hs]
    have hneg : step < 0 := by omega
    simp only [decide_eq_true hneg, adjust_down_start, adjust_down_stop] at hr ⊢
    have hb : -1 ≤ downBound s.stop (-1) n := by have := adjust_down false n s.stop; rw [adjust_down_stop] at this; omega
    generalize downBound s.start ((n : Int) - 1) n = lo at hr ⊢
    generalize downBound s.stop (-1) n = hi at hr hb ⊢
    refine ⟨?_, ?_⟩
    · rw [List.pairwise_map]
      refine (List.pairwise_lt_range).imp_of_mem ?_
      intro i j hi' hj hij
      simp only [List.mem_range] at hi' hj
      have p1 := hr i hi'
      have p2 := hr j hj
      have : (i : Int) * -step < j * -step := Int.mul_lt_mul_of_pos_right (by omega) (by omega)
      rw [Int.mul_neg, Int.mul_neg] at this
      omega
    · intro p
      simp only [List.mem_map, List.mem_range]
      constructor
      · rintro ⟨i, hi', rfl⟩
        have p1 := hr i hi'
        have hnn : 0 ≤ (i : Int) * -step := Int.mul_nonneg (by omega) (by omega)
        rw [Int.mul_neg] at hnn
        have hlt : hi < lo + i * step := by
          unfold sliceCount at hi'
          rw [if_pos hneg] at hi'
          split at hi'
          · have hq : (0 : Int) ≤ (lo - hi - 1) / -step := Int.ediv_nonneg (by omega) (by omega)
            have hd := Int.ediv_mul_le (lo - hi - 1) (show -step ≠ 0 by omega)
            have hm := Int.mul_le_mul_of_nonneg_right (show (i : Int) ≤ (lo - hi - 1) / -step by omega) (show 0 ≤ -step by omega)
            rw [Int.mul_neg] at hm
            omega
          · omega
        refine ⟨by omega, by omega, ⟨-(i : Int), ?_⟩⟩
        rw [Int.mul_neg, Int.mul_comm step]; omega
      · rintro ⟨h1, h2, q, hq⟩
        have hqn : q ≤ 0 := by
          refine Classical.byContradiction fun hc => ?_
          have : step * q < 0 := Int.mul_neg_of_neg_of_pos hneg (by omega)
          omega
        refine ⟨(-q).toNat, ?_, ?_⟩
        · unfold sliceCount
          rw [if_pos hneg, if_pos (by omega)]
          have : -q ≤ (lo - hi - 1) / -step := (Int.le_ediv_iff_mul_le (by omega)).2 (by rw [Int.neg_mul_neg, Int.mul_comm]; omega)
          omega
        · rw [Int.toNat_of_nonneg (by omega), Int.neg_mul, Int.mul_comm]; omega

end Verif
