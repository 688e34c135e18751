import Verif.Spec.Alias

/-!
# Lemmas about objects and references
-/

namespace Verif.Alias

open Verif.Axis (Side Frame)

/-- New objects may have been created; the old ones have the same contents. -/
structure Ext (h h' : Heap) : Prop where
  next : h.next ≤ h'.next
  obj : ∀ r, r < h.next → h'.obj r = h.obj r

theorem Ext.refl (h : Heap) : Ext h h := ⟨Nat.le_refl _, fun _ _ => rfl⟩

theorem Ext.trans {a b c : Heap} (x : Ext a b) (y : Ext b c) : Ext a c :=
  ⟨Nat.le_trans x.next y.next, fun r hr => by rw [y.obj r (by have := x.next; omega), x.obj r hr]⟩

theorem alloc_ext (h : Heap) (l : List Int) : Ext h (h.alloc l).2 :=
  ⟨by simp [Heap.alloc], fun r hr => by simp only [Heap.alloc]; rw [if_neg (by omega)]⟩

theorem side_same {h h' : Heap} (s : RSide) (hs : ∀ r ∈ s.refs, h'.obj r = h.obj r) : s.val h' = s.val h := by
  cases s with
  | none => rfl
  | scalar v => rfl
  | ref r => simp only [RSide.val]; rw [hs r (by simp [RSide.refs])]

theorem frame_same {h h' : Heap} (f : RFrame) (hs : ∀ r ∈ f.refs, h'.obj r = h.obj r) : f.val h' = f.val h := by
  simp only [RFrame.refs, List.mem_cons, List.mem_append] at hs
  simp only [RFrame.val]
  rw [side_same f.tkeep (fun r hr => hs r (by simp [hr])), side_same f.tid (fun r hr => hs r (by simp [hr])),
    side_same f.tdest (fun r hr => hs r (by simp [hr])), side_same f.tuser (fun r hr => hs r (by simp [hr])), hs _ (Or.inl rfl)]

/-- A new attribute has the value asked for and refers only to a new list. -/
theorem put_spec (h : Heap) (s : Side) : Ext h (h.put s).2 ∧ (h.put s).1.val (h.put s).2 = s ∧
    ∀ r ∈ (h.put s).1.refs, h.next ≤ r ∧ r < (h.put s).2.next := by
  cases s with
  | none => exact ⟨Ext.refl h, rfl, by simp [Heap.put, RSide.refs]⟩
  | scalar v => exact ⟨Ext.refl h, rfl, by simp [Heap.put, RSide.refs]⟩
  | list l =>
    refine ⟨alloc_ext h l, by simp [Heap.put, RSide.val, Heap.alloc], ?_⟩
    simp only [Heap.put, RSide.refs, List.mem_singleton]
    rintro r rfl
    simp [Heap.alloc]

theorem side_ext {h h' : Heap} (x : Ext h h') (s : RSide) (hs : ∀ r ∈ s.refs, r < h.next) : s.val h' = s.val h :=
  side_same s fun r hr => x.obj r (hs r hr)

theorem frame_ext {h h' : Heap} (x : Ext h h') (f : RFrame) (hs : ∀ r ∈ f.refs, r < h.next) : f.val h' = f.val h :=
  frame_same f fun r hr => x.obj r (hs r hr)

theorem refs_side {f : RFrame} {P : Nat → Prop} (hs : ∀ r ∈ f.refs, P r) :
    P f.tdata ∧ (∀ r ∈ f.tkeep.refs, P r) ∧ (∀ r ∈ f.tid.refs, P r) ∧ (∀ r ∈ f.tdest.refs, P r) ∧ ∀ r ∈ f.tuser.refs, P r := by
  simp only [RFrame.refs, List.mem_cons, List.mem_append] at hs
  exact ⟨hs _ (Or.inl rfl), fun r hr => hs r (by simp [hr]), fun r hr => hs r (by simp [hr]), fun r hr => hs r (by simp [hr]),
    fun r hr => hs r (by simp [hr])⟩

theorem refs_of {f : RFrame} {P : Nat → Prop} (h0 : P f.tdata) (h1 : ∀ r ∈ f.tkeep.refs, P r) (h2 : ∀ r ∈ f.tid.refs, P r)
    (h3 : ∀ r ∈ f.tdest.refs, P r) (h4 : ∀ r ∈ f.tuser.refs, P r) : ∀ r ∈ f.refs, P r := by
  intro r hr
  simp only [RFrame.refs, List.mem_cons, List.mem_append] at hr
  rcases hr with rfl | ((hr | hr) | hr) | hr
  · exact h0
  · exact h1 r hr
  · exact h2 r hr
  · exact h3 r hr
  · exact h4 r hr

/-- Copying a frame: new lists throughout, with the values of the old. -/
theorem copyFrame_spec (h : Heap) (f : RFrame) (hf : ∀ r ∈ f.refs, r < h.next) : Ext h (h.copyFrame f).2 ∧
    match (h.copyFrame f).1 with
    | .error _ => ∃ e, (f.val h).copy = .error e
    | .ok g => (f.val h).copy = .ok (g.val (h.copyFrame f).2) ∧ ∀ r ∈ g.refs, h.next ≤ r ∧ r < (h.copyFrame f).2.next := by
  obtain ⟨b0, b1, b2, b3, b4⟩ := refs_side hf
  unfold Heap.copyFrame
  have e0 := alloc_ext h (h.obj f.tdata)
  have hd : (h.alloc (h.obj f.tdata)).2.obj (h.alloc (h.obj f.tdata)).1 = h.obj f.tdata := by simp [Heap.alloc]
  have hd1 : h.next ≤ (h.alloc (h.obj f.tdata)).1 ∧ (h.alloc (h.obj f.tdata)).1 < (h.alloc (h.obj f.tdata)).2.next := by
    simp [Heap.alloc]
  generalize h.alloc (h.obj f.tdata) = p at e0 hd hd1
  obtain ⟨d, h0⟩ := p
  simp only at e0 hd hd1 ⊢
  by_cases hk : f.tkeep.isScalar = true
  · rw [if_pos hk]
    refine ⟨e0, .typeError, ?_⟩
    cases hc : f.tkeep with
    | scalar v => simp [RFrame.val, Frame.copy, hc, RSide.val]
    | none => rw [hc] at hk; cases hk
    | ref r => rw [hc] at hk; cases hk
  · rw [if_neg hk]
    have hcopy : (f.val h).copy = .ok (f.val h) := by
      cases hc : f.tkeep with
      | scalar v => exact absurd (by rw [hc]; rfl) hk
      | none => simp [RFrame.val, Frame.copy, hc, RSide.val]
      | ref r => simp [RFrame.val, Frame.copy, hc, RSide.val]
    obtain ⟨e1, v1, r1⟩ := put_spec h0 (f.tkeep.val h0)
    generalize h0.put (f.tkeep.val h0) = p at e1 v1 r1
    obtain ⟨k, h1⟩ := p
    simp only at e1 v1 r1 ⊢
    obtain ⟨e2, v2, r2⟩ := put_spec h1 (f.tid.val h1)
    generalize h1.put (f.tid.val h1) = p at e2 v2 r2
    obtain ⟨i, h2⟩ := p
    simp only at e2 v2 r2 ⊢
    obtain ⟨e3, v3, r3⟩ := put_spec h2 (f.tdest.val h2)
    generalize h2.put (f.tdest.val h2) = p at e3 v3 r3
    obtain ⟨de, h3⟩ := p
    simp only at e3 v3 r3 ⊢
    obtain ⟨e4, v4, r4⟩ := put_spec h3 (f.tuser.val h3)
    generalize h3.put (f.tuser.val h3) = p at e4 v4 r4
    obtain ⟨u, h4⟩ := p
    simp only at e4 v4 r4 ⊢
    have x01 := e0.trans e1
    have x02 := x01.trans e2
    have x03 := x02.trans e3
    have n0 := e0.next; have n1 := e1.next; have n2 := e2.next; have n3 := e3.next; have n4 := e4.next
    refine ⟨x03.trans e4, ?_, ?_⟩
    · have hval : RFrame.val h4 ⟨f.isBytes, d, k, i, de, u⟩ = f.val h := by
        simp only [RFrame.val]
        rw [side_ext (e2.trans (e3.trans e4)) k (fun r hr => (r1 r hr).2), v1, side_ext e0 _ b1,
          side_ext (e3.trans e4) i (fun r hr => (r2 r hr).2), v2, side_ext x01 _ b2,
          side_ext e4 de (fun r hr => (r3 r hr).2), v3, side_ext x02 _ b3,
          v4, side_ext x03 _ b4, (e1.trans (e2.trans (e3.trans e4))).obj d hd1.2, hd]
      rw [hval]
      exact hcopy
    · refine refs_of ?_ ?_ ?_ ?_ ?_
      · exact ⟨hd1.1, by simp only; omega⟩
      · intro r hr; have := r1 r hr; omega
      · intro r hr; have := r2 r hr; omega
      · intro r hr; have := r3 r hr; omega
      · intro r hr; have := r4 r hr; omega

/-- Normalizing a frame: its sidebands get new lists, with the values that normalizing the value gives. -/
theorem normalize_spec (h : Heap) (f : RFrame) (hf : ∀ r ∈ f.refs, r < h.next) :
    Ext h (h.normalize f).2.2 ∧ (h.normalize f).1 = (f.val h).normalize.1 ∧
    (h.normalize f).2.1.val (h.normalize f).2.2 = (f.val h).normalize.2 ∧
    ∀ r ∈ (h.normalize f).2.1.refs, r ∈ f.refs ∨ (h.next ≤ r ∧ r < (h.normalize f).2.2.next) := by
  obtain ⟨b0, b1, b2, b3, b4⟩ := refs_side hf
  have q := refs_side (f := f) (P := fun r => r ∈ f.refs) (fun r hr => hr)
  obtain ⟨q0, q1, q2, q3, q4⟩ := q
  unfold Heap.normalize Frame.normalize
  simp only
  have en : (f.val h).tdata.length = (h.obj f.tdata).length := rfl
  rw [en]
  have ek : (f.val h).tkeep = f.tkeep.val h := rfl
  rw [ek]
  generalize hn : (h.obj f.tdata).length = n
  cases c1 : (f.tkeep.val h).fitKeep n with
  | error e => exact ⟨Ext.refl h, rfl, rfl, fun r hr => Or.inl hr⟩
  | ok s1 =>
    simp only
    obtain ⟨e1, v1, r1⟩ := put_spec h s1
    generalize h.put s1 = p at e1 v1 r1
    obtain ⟨k, h1⟩ := p
    simp only at e1 v1 r1 ⊢
    rw [side_ext e1 f.tid b2]
    have ei : (f.val h).tid = f.tid.val h := rfl
    rw [ei]
    cases c2 : (f.tid.val h).fit n with
    | error e =>
      refine ⟨e1, rfl, ?_, ?_⟩
      · simp only [RFrame.val]
        rw [v1, side_ext e1 _ b2, side_ext e1 _ b3, side_ext e1 _ b4, e1.obj _ b0]
      · exact refs_of (Or.inl q0) (fun r hr => Or.inr (r1 r hr)) (fun r hr => Or.inl (q2 r hr)) (fun r hr => Or.inl (q3 r hr))
          (fun r hr => Or.inl (q4 r hr))
    | ok s2 =>
      simp only
      obtain ⟨e2, v2, r2⟩ := put_spec h1 s2
      generalize h1.put s2 = p at e2 v2 r2
      obtain ⟨i, h2⟩ := p
      simp only at e2 v2 r2 ⊢
      have x2 := e1.trans e2
      have n1 := e1.next
      have n2 := e2.next
      rw [side_ext x2 f.tdest b3]
      have ed : (f.val h).tdest = f.tdest.val h := rfl
      rw [ed]
      cases c3 : (f.tdest.val h).fit n with
      | error e =>
        refine ⟨x2, rfl, ?_, ?_⟩
        · simp only [RFrame.val]
          rw [side_ext e2 k (fun r hr => (r1 r hr).2), v1, v2, side_ext x2 _ b3, side_ext x2 _ b4, x2.obj _ b0]
        · exact refs_of (Or.inl q0) (fun r hr => Or.inr (by have := r1 r hr; simp only; omega)) (fun r hr => Or.inr (by have := r2 r hr; simp only; omega))
            (fun r hr => Or.inl (q3 r hr)) (fun r hr => Or.inl (q4 r hr))
      | ok s3 =>
        simp only
        obtain ⟨e3, v3, r3⟩ := put_spec h2 s3
        generalize h2.put s3 = p at e3 v3 r3
        obtain ⟨de, h3⟩ := p
        simp only at e3 v3 r3 ⊢
        have x3 := x2.trans e3
        have n3 := e3.next
        rw [side_ext x3 f.tuser b4]
        have eu : (f.val h).tuser = f.tuser.val h := rfl
        rw [eu]
        cases c4 : (f.tuser.val h).fit n with
        | error e =>
          refine ⟨x3, rfl, ?_, ?_⟩
          · simp only [RFrame.val]
            rw [side_ext (e2.trans e3) k (fun r hr => (r1 r hr).2), v1, side_ext e3 i (fun r hr => (r2 r hr).2), v2, v3,
              side_ext x3 _ b4, x3.obj _ b0]
          · exact refs_of (Or.inl q0) (fun r hr => Or.inr (by have := r1 r hr; simp only; omega)) (fun r hr => Or.inr (by have := r2 r hr; simp only; omega))
              (fun r hr => Or.inr (by have := r3 r hr; simp only; omega)) (fun r hr => Or.inl (q4 r hr))
        | ok s4 =>
          simp only
          obtain ⟨e4, v4, r4⟩ := put_spec h3 s4
          generalize h3.put s4 = p at e4 v4 r4
          obtain ⟨u, h4⟩ := p
          simp only at e4 v4 r4 ⊢
          have n4 := e4.next
          refine ⟨x3.trans e4, trivial, ?_, ?_⟩
          · simp only [RFrame.val]
            rw [side_ext (e2.trans (e3.trans e4)) k (fun r hr => (r1 r hr).2), v1, side_ext (e3.trans e4) i (fun r hr => (r2 r hr).2), v2,
              side_ext e4 de (fun r hr => (r3 r hr).2), v3, v4, (x3.trans e4).obj _ b0]
          · exact refs_of (Or.inl q0) (fun r hr => Or.inr (by have := r1 r hr; omega)) (fun r hr => Or.inr (by have := r2 r hr; omega))
              (fun r hr => Or.inr (by have := r3 r hr; omega)) (fun r hr => Or.inr (by have := r4 r hr; omega))

/-- Only these lists are changed, and none created. -/
def Only (P : Nat → Prop) (h h' : Heap) : Prop := h'.next = h.next ∧ ∀ r, ¬ P r → h'.obj r = h.obj r

theorem Only.refl (P : Nat → Prop) (h : Heap) : Only P h h := ⟨rfl, fun _ _ => rfl⟩

theorem Only.trans {P : Nat → Prop} {a b c : Heap} (x : Only P a b) (y : Only P b c) : Only P a c :=
  ⟨by rw [y.1, x.1], fun r hr => by rw [y.2 r hr, x.2 r hr]⟩

theorem del_only (P : Nat → Prop) (h : Heap) (k : Nat) (s : RSide) (hs : ∀ r ∈ s.refs, P r) : Only P h (h.del k s).2 := by
  cases s with
  | none => exact Only.refl P h
  | scalar v => exact Only.refl P h
  | ref x =>
    refine ⟨rfl, fun r hr => ?_⟩
    simp only [Heap.del, Heap.set]
    rw [if_neg (by rintro rfl; exact hr (hs r (by simp [RSide.refs])))]

theorem delAll_only (P : Nat → Prop) (k : Nat) : ∀ (ss : List RSide) (h : Heap), (∀ s ∈ ss, ∀ r ∈ s.refs, P r) →
    Only P h (Heap.delAll k ss h).2 := by
  intro ss
  induction ss with
  | nil => intro h _; exact Only.refl P h
  | cons s ss ih =>
    intro h hs
    have h1 := del_only P h k s (hs s (List.mem_cons_self ..))
    simp only [Heap.delAll]
    cases hd : h.del k s with
    | mk r h' =>
      rw [hd] at h1
      cases r with
      | error e => exact h1
      | ok _ => exact h1.trans (ih h' fun s' hs' => hs s' (List.mem_cons_of_mem _ hs'))

theorem compactLoop_only (P : Nat → Prop) (f : RFrame) (hf : ∀ r ∈ f.refs, P r) (keep : Nat) : ∀ (k : Nat) (h : Heap),
    Only P h (Heap.compactLoop f keep k h).2 := by
  obtain ⟨b0, b1, b2, b3, b4⟩ := refs_side hf
  intro k
  induction k with
  | zero => intro h; exact Only.refl P h
  | succ k ih =>
    intro h
    simp only [Heap.compactLoop]
    split
    · exact Only.refl P h
    · split
      · have h1 := delAll_only P k [.ref f.tdata, f.tkeep, f.tid, f.tdest, f.tuser] h (by
          intro s hs
          simp only [List.mem_cons, List.not_mem_nil, or_false] at hs
          rcases hs with rfl | rfl | rfl | rfl | rfl
          · simp only [RSide.refs, List.mem_singleton]; rintro r rfl; exact b0
          · exact b1
          · exact b2
          · exact b3
          · exact b4)
        split
        · rename_i e h' heq; rw [heq] at h1; exact h1
        · rename_i h' heq; rw [heq] at h1; exact h1.trans (ih h')
      · exact ih h

theorem settle_refs (h : Heap) (s s' : RSide) (he : h.settle s = .ok s') : ∀ r ∈ s'.refs, r ∈ s.refs := by
  cases s with
  | none => cases he
  | scalar v => cases he
  | ref x =>
    simp only [Heap.settle] at he
    split at he <;> cases he <;> simp [RSide.refs]

/-- `compact` changes only the lists of the frame, which keeps references to no others. -/
theorem compact_spec (P : Nat → Prop) (h : Heap) (f : RFrame) (hf : ∀ r ∈ f.refs, P r) :
    Only P h (h.compact f).2.2 ∧ ∀ r ∈ (h.compact f).2.1.refs, P r := by
  obtain ⟨b0, b1, b2, b3, b4⟩ := refs_side hf
  unfold Heap.compact
  split
  · rename_i k hk
    have h1 : Only P h (if (h.obj k).length ≠ 0 then Heap.compactLoop f k (h.obj f.tdata).length h else (.ok (), h)).2 := by
      split
      · exact compactLoop_only P f hf k _ h
      · exact Only.refl P h
    split
    · rename_i e h' heq; rw [heq] at h1; exact ⟨h1, hf⟩
    · rename_i h' heq
      rw [heq] at h1
      simp only
      have nk : ∀ r ∈ RSide.none.refs, P r := by simp [RSide.refs]
      split
      · exact ⟨h1, refs_of b0 nk b2 b3 b4⟩
      · rename_i s1 hs1
        have p1 : ∀ r ∈ s1.refs, P r := fun r hr => b2 r (settle_refs _ _ _ hs1 r hr)
        split
        · exact ⟨h1, refs_of b0 nk p1 b3 b4⟩
        · rename_i s2 hs2
          have p2 : ∀ r ∈ s2.refs, P r := fun r hr => b3 r (settle_refs _ _ _ hs2 r hr)
          split
          · exact ⟨h1, refs_of b0 nk p1 p2 b4⟩
          · rename_i s3 hs3
            exact ⟨h1, refs_of b0 nk p1 p2 fun r hr => b4 r (settle_refs _ _ _ hs3 r hr)⟩
  · exact ⟨Only.refl P h, hf⟩

/-- The contents of five lists. -/
def lists (h : Heap) (a k i d u : Nat) : Verif.Axis.Lists := ⟨h.obj a, h.obj k, h.obj i, h.obj d, h.obj u⟩

/-- The loop on five different lists does what the loop on their contents does. -/
theorem compactLoop_lists (b : Bool) (a k i d u : Nat) (hd : [a, k, i, d, u].Nodup) : ∀ (n : Nat) (h : Heap),
    match Verif.Axis.compactLoop n (lists h a k i d u) with
    | .error e => (Heap.compactLoop ⟨b, a, .ref k, .ref i, .ref d, .ref u⟩ k n h).1 = .error e
    | .ok l => (Heap.compactLoop ⟨b, a, .ref k, .ref i, .ref d, .ref u⟩ k n h).1 = .ok () ∧
        lists (Heap.compactLoop ⟨b, a, .ref k, .ref i, .ref d, .ref u⟩ k n h).2 a k i d u = l := by
  intro n
  induction n with
  | zero => intro h; exact ⟨rfl, rfl⟩
  | succ n ih =>
    intro h
    simp only [Verif.Axis.compactLoop, Heap.compactLoop]
    have hk : (lists h a k i d u).keep = h.obj k := rfl
    rw [hk]
    cases hv : (h.obj k)[n]? with
    | none => rfl
    | some v =>
      simp only
      by_cases hz : v = 0
      · rw [if_pos hz, if_pos hz]
        simp only [Heap.delAll, Heap.del]
        have := ih (((((h.set a (Verif.Axis.delAt (h.obj a) n)).set k (Verif.Axis.delAt (h.obj k) n)).set i (Verif.Axis.delAt (h.obj i) n)).set d
          (Verif.Axis.delAt (h.obj d) n)).set u (Verif.Axis.delAt (h.obj u) n))
        simp only [List.nodup_cons, List.mem_cons, List.not_mem_nil, or_false, not_or] at hd
        obtain ⟨⟨ak, ai, ad, au⟩, ⟨ki, kd, ku⟩, ⟨id, iu⟩, du, _⟩ := hd
        simp only [lists, Heap.set, ak, ai, ad, au, ki, kd, ku, id, iu, du, Ne.symm ak, Ne.symm ai, Ne.symm ad, Ne.symm au, Ne.symm ki, Ne.symm kd,
          Ne.symm ku, Ne.symm id, Ne.symm iu, Ne.symm du, if_true, if_false] at this ⊢
        exact this
      · rw [if_neg hz, if_neg hz]
        exact ih h

theorem del_err (h : Heap) (k : Nat) (s : RSide) : (h.del k s).1 = .ok () ∨ (h.del k s).1 = .error .typeError := by
  cases s <;> simp [Heap.del]

/-- Without a list in every sideband, deleting raises. -/
theorem delAll_err (k : Nat) : ∀ (ss : List RSide) (h : Heap), (∃ s ∈ ss, s.refs = []) → (Heap.delAll k ss h).1 = .error .typeError := by
  intro ss
  induction ss with
  | nil => intro h ⟨s, hs, _⟩; cases hs
  | cons s ss ih =>
    intro h ⟨t, ht, hr⟩
    simp only [Heap.delAll]
    have h1 := del_err h k s
    have h2 : (h.del k s).1 = .ok () → s.refs ≠ [] := by cases s <;> simp [Heap.del, RSide.refs]
    cases hd : h.del k s with
    | mk r h' =>
      rw [hd] at h1 h2
      cases r with
      | error e => simpa using h1
      | ok _ =>
        rcases List.mem_cons.1 ht with rfl | ht
        · exact absurd hr (h2 rfl)
        · exact ih h' ⟨t, ht, hr⟩

theorem compactLoop_err (f : RFrame) (k : Nat) (hs : ∃ s ∈ [RSide.ref f.tdata, f.tkeep, f.tid, f.tdest, f.tuser], s.refs = []) : ∀ (n : Nat) (h : Heap),
    n ≤ (h.obj k).length → (Heap.compactLoop f k n h).1 = .error .typeError ∨ Heap.compactLoop f k n h = (.ok (), h) := by
  intro n
  induction n with
  | zero => intro h _; exact Or.inr rfl
  | succ n ih =>
    intro h hn
    simp only [Heap.compactLoop]
    rw [List.getElem?_eq_getElem (by omega)]
    simp only
    split
    · have := delAll_err n _ h hs
      cases hd : Heap.delAll n [.ref f.tdata, f.tkeep, f.tid, f.tdest, f.tuser] h with
      | mk r h' =>
        rw [hd] at this
        simp only at this
        subst this
        exact Or.inl rfl
    · exact ih h (by omega)

theorem settle_err (h : Heap) (s : RSide) : (∃ s', h.settle s = .ok s') ∨ h.settle s = .error .typeError := by
  cases s with
  | none => exact Or.inr rfl
  | scalar v => exact Or.inr rfl
  | ref r =>
    simp only [Heap.settle]
    split <;> exact Or.inl ⟨_, rfl⟩

theorem settle_bad (h : Heap) (s : RSide) (hs : s.refs = []) : h.settle s = .error .typeError := by
  cases s with
  | none => rfl
  | scalar v => rfl
  | ref r => cases hs

theorem settle_val (h : Heap) (r : Nat) : ∃ s, h.settle (.ref r) = .ok s ∧ s.val h = Verif.Axis.collapse (h.obj r) := by
  simp only [Heap.settle]
  cases hc : Verif.Axis.collapse (h.obj r) with
  | none => exact ⟨_, rfl, rfl⟩
  | scalar v => exact ⟨_, rfl, rfl⟩
  | list l =>
    refine ⟨_, rfl, ?_⟩
    simp only [RSide.val]
    unfold Verif.Axis.collapse at hc
    split at hc
    · cases hc
    · split at hc
      · cases hc
      · rename_i h1 h2; injection hc with hc; rw [← hc, h1]

/-- `compact` raises if one of the sidebands is not a list. -/
theorem compact_bad (h : Heap) (f : RFrame) (k : Nat) (hk : f.tkeep = .ref k) (hs : f.tid.refs = [] ∨ f.tdest.refs = [] ∨ f.tuser.refs = []) :
    (h.compact f).1 = if (h.obj k).length ≠ 0 ∧ (h.obj k).length < (h.obj f.tdata).length then .error .indexError else .error .typeError := by
  have hmem : ∃ s ∈ [RSide.ref f.tdata, f.tkeep, f.tid, f.tdest, f.tuser], s.refs = [] := by
    rcases hs with hs | hs | hs
    · exact ⟨_, by simp, hs⟩
    · exact ⟨f.tdest, by simp, hs⟩
    · exact ⟨f.tuser, by simp, hs⟩
  have tail : ∀ h' : Heap, (match h'.settle f.tid with
      | .error e => ((.error e : Py Unit), { f with tkeep := RSide.none }, h')
      | .ok s =>
        match h'.settle f.tdest with
        | .error e => (.error e, { f with tkeep := .none, tid := s }, h')
        | .ok s' =>
          match h'.settle f.tuser with
          | .error e => (.error e, { f with tkeep := .none, tid := s, tdest := s' }, h')
          | .ok s'' => (.ok (), { f with tkeep := .none, tid := s, tdest := s', tuser := s'' }, h')).1 = .error .typeError := by
    intro h'
    rcases settle_err h' f.tid with ⟨s1, e1⟩ | e1
    · rw [e1]
      simp only
      rcases settle_err h' f.tdest with ⟨s2, e2⟩ | e2
      · rw [e2]
        simp only
        rcases settle_err h' f.tuser with ⟨s3, e3⟩ | e3
        · rcases hs with hs | hs | hs
          · rw [settle_bad h' _ hs] at e1; cases e1
          · rw [settle_bad h' _ hs] at e2; cases e2
          · rw [settle_bad h' _ hs] at e3; cases e3
        · rw [e3]
      · rw [e2]
    · rw [e1]
  unfold Heap.compact
  rw [hk]
  simp only
  by_cases h0 : (h.obj k).length ≠ 0
  · rw [if_pos h0]
    by_cases hl : (h.obj k).length < (h.obj f.tdata).length
    · rw [if_pos ⟨h0, hl⟩]
      obtain ⟨n, hn⟩ : ∃ n, (h.obj f.tdata).length = n + 1 := ⟨(h.obj f.tdata).length - 1, by omega⟩
      have hc : Heap.compactLoop f k (n + 1) h = (.error .indexError, h) := by
        simp only [Heap.compactLoop]
        rw [List.getElem?_eq_none (by omega)]
      rw [hn, hc]
    · rw [if_neg (fun hc => hl hc.2)]
      rcases compactLoop_err f k hmem (h.obj f.tdata).length h (by omega) with hc | hc
      · cases hr : Heap.compactLoop f k (h.obj f.tdata).length h with
        | mk r h' =>
          rw [hr] at hc
          simp only at hc
          subst hc
          rfl
      · rw [hc]
        exact tail h
  · rw [if_neg h0, if_neg (fun hc => h0 hc.1)]
    exact tail h

end Verif.Alias
