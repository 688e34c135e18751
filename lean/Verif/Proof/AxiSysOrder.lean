import Verif.Proof.AxiSysBase

/-!
# Order of the operations at the slave

What both sides share: the bursts that the slave has not completed belong to operations in the order in which they were issued.
-/

namespace Verif.AxiSys

open Verif.Axi Verif.AxiOps Verif.AxiOps.Master

theorem before_of_split {α : Type} {l1 l2 : List α} {a b : α} (hn : (l1 ++ b :: l2).Nodup)
    (h : [a, b].Sublist (l1 ++ b :: l2)) : a ∈ l1 := by
  obtain ⟨s1, s2, he, h1, h2⟩ := List.sublist_append_iff.1 h
  rw [List.nodup_append] at hn
  obtain ⟨_, hn2, _⟩ := hn
  rw [List.nodup_cons] at hn2
  cases s1 with
  | nil =>
    rw [List.nil_append] at he
    subst he
    cases h2 with
    | cons _ h3 => exact absurd (h3.subset (by simp)) hn2.1
    | cons_cons _ h3 => exact absurd (h3.subset (by simp)) hn2.1
  | cons x s1 =>
    rw [List.cons_append, List.cons.injEq] at he
    exact he.1 ▸ h1.subset List.mem_cons_self

theorem before_prefix {α : Type} {pre l : List α} {a b : α} (hp : pre <+: l) (hn : l.Nodup) (hb : b ∈ pre)
    (h : [a, b].Sublist l) : [a, b].Sublist pre := by
  obtain ⟨post, rfl⟩ := hp
  obtain ⟨l1, l2, rfl⟩ := List.append_of_mem hb
  rw [List.append_assoc, List.cons_append] at hn h
  have ha := before_of_split hn h
  exact (List.singleton_sublist.2 ha).append (List.singleton_sublist.2 List.mem_cons_self)

theorem drop_mono {α : Type} {l : List α} {i j : Nat} (h : i ≤ j) : ∀ g ∈ l.drop j, g ∈ l.drop i := by
  intro g hg
  obtain ⟨d, rfl⟩ := Nat.exists_eq_add_of_le h
  rw [← List.drop_drop] at hg
  exact List.drop_subset _ _ hg

variable {ρ γ : Type}

/-- What is in the queue after an event: what was there, and what has just been issued. -/
theorem queue_step (n : Nat) (m : Master ρ) (e : AxiOps.Ev ρ) :
    ((m.step n e).queue <:+ m.queue ∧ (m.step n e).issued = m.issued) ∨
      ∃ op, (m.step n e).queue = m.queue ++ [op] ∧ (m.step n e).issued = m.issued ++ [op] := by
  cases e with
  | write op => exact .inr ⟨op, rfl, rfl⟩
  | init op => exact .inl ⟨List.suffix_refl _, rfl⟩
  | runInit i =>
    simp only [Master.step]
    split
    · rename_i op _; exact .inr ⟨op, rfl, rfl⟩
    · exact .inl ⟨List.suffix_refl _, rfl⟩
  | take =>
    simp only [Master.step, Master.take]
    split
    · rename_i op rest _ _ hq
      split <;> exact .inl ⟨⟨[op], hq.symm⟩, rfl⟩
    · exact .inl ⟨List.suffix_refl _, rfl⟩
  | burst => simp only [Master.step, Master.burst]; split <;> (try split) <;> exact .inl ⟨List.suffix_refl _, rfl⟩
  | start => simp only [Master.step, Master.start]; split <;> (try split) <;> exact .inl ⟨List.suffix_refl _, rfl⟩
  | resp t r => simp only [Master.step, Master.resp]; split <;> (try split) <;> exact .inl ⟨List.suffix_refl _, rfl⟩
  | workTake i => exact .inl ⟨List.suffix_refl _, rfl⟩
  | workGet i => simp only [Master.step, Master.workGet]; split <;> (try split) <;> exact .inl ⟨List.suffix_refl _, rfl⟩
  | workDone i => simp only [Master.step, Master.workDone]; split <;> exact .inl ⟨List.suffix_refl _, rfl⟩
  | reset v =>
    simp only [Master.step, Master.reset]
    split
    · exact .inl ⟨List.nil_suffix, rfl⟩
    · exact .inl ⟨List.suffix_refl _, rfl⟩

theorem flatMap_split {α : Type} (f : α → List γ) {l : List α} {X Y : List γ} {g : γ} (h : l.flatMap f = X ++ g :: Y) :
    ∃ l1 x l2, l = l1 ++ x :: l2 ∧ g ∈ f x ∧ ∀ g' ∈ Y, g' ∈ (x :: l2).flatMap f := by
  induction l generalizing X with
  | nil => simp at h
  | cons a l ih =>
    rw [List.flatMap_cons] at h
    rcases List.append_eq_append_iff.1 h with ⟨Z, h1, h2⟩ | ⟨Z, h1, h2⟩
    · obtain ⟨l1, x, l2, e1, e2, e3⟩ := ih h2
      exact ⟨a :: l1, x, l2, by rw [e1]; rfl, e2, e3⟩
    · cases Z with
      | nil =>
        rw [List.nil_append] at h2
        obtain ⟨l1, x, l2, e1, e2, e3⟩ := ih (X := []) h2.symm
        exact ⟨a :: l1, x, l2, by rw [e1]; rfl, e2, e3⟩
      | cons z Z =>
        rw [List.cons_append, List.cons.injEq] at h2
        obtain ⟨rfl, h2⟩ := h2
        refine ⟨[], a, l, rfl, by rw [h1]; simp, ?_⟩
        intro g' hg'
        rw [h2] at hg'
        rw [List.flatMap_cons, h1]
        rcases List.mem_append.1 hg' with hg' | hg'
        · exact List.mem_append_left _ (List.mem_append_right _ (List.mem_cons_of_mem _ hg'))
        · exact List.mem_append_right _ hg'

theorem burst_taken (n : Nat) (m : Master ρ) : taken (m.step n .burst) = taken m := by
  simp only [Master.step, Master.burst]
  split
  · rename_i hcur
    split
    · simp [taken, hcur]
    · rfl
  · rfl

theorem resp_taken (n : Nat) (m : Master ρ) (t : Nat) (r : ρ) : taken (m.step n (.resp t r)) = taken m := by
  simp only [Master.step, Master.resp]
  split <;> (try split) <;> rfl

/-- The operations over time: `open_ k` are the bursts (or beats) that the slave has not completed, in order. -/
structure InTurn (n : Nat) (mk : Nat → Option Op) (gop : γ → Op) (grp : Nat × Op → List γ) (m : Nat → Master ρ)
    (open_ : Nat → List γ) : Prop where
  op : ∀ x g, g ∈ grp x → gop g = x.2
  seq : MSeq n m
  inv : ∀ k, ∃ calls, MInv n mk calls (m k)
  part : ∀ k, open_ k <:+ (taken (m k)).flatMap grp
  next : ∀ k, ∀ g ∈ open_ (k + 1), g ∈ open_ k ∨ gop g ∈ (m k).queue

variable {n : Nat} {mk : Nat → Option Op} {gop : γ → Op} {grp : Nat × Op → List γ} {m : Nat → Master ρ} {open_ : Nat → List γ}

/-- Operations issued before the one at the front are over. -/
theorem InTurn.front (h : InTurn n mk gop grp m open_) {k : Nat} {g : γ} (hg : (open_ k).head? = some g) :
    gop g ∈ (m k).issued ∧ ∀ op, [op, gop g].Sublist (m k).issued → op ∉ (m k).queue ∧ ∀ g' ∈ open_ k, gop g' ≠ op := by
  obtain ⟨calls, hi⟩ := h.inv k
  obtain ⟨old, ho⟩ := hi.ord
  have hn := hi.issued_nodup
  obtain ⟨X, hX⟩ := h.part k
  cases hl : open_ k with
  | nil => rw [hl] at hg; simp at hg
  | cons g0 Y =>
    rw [hl] at hg
    simp only [List.head?_cons, Option.some.injEq] at hg
    subst hg
    rw [hl] at hX
    obtain ⟨l1, x, l2, e1, e2, e3⟩ := flatMap_split grp hX.symm
    have hx := h.op x g0 e2
    rw [hx]
    rw [e1] at ho
    simp only [List.map_append, List.map_cons, List.append_assoc, List.cons_append] at ho
    rw [← List.append_assoc] at ho
    refine ⟨by rw [ho]; simp, ?_⟩
    intro op hs
    rw [ho] at hs hn
    have hop := before_of_split hn hs
    rw [List.nodup_append] at hn
    have hne := hn.2.2 op hop
    refine ⟨?_, ?_⟩
    · intro hq
      exact hne op (List.mem_cons_of_mem _ (List.mem_append_right _ hq)) rfl
    · intro g' hg' he
      have hm : gop g' ∈ x.2 :: l2.map (·.2) := by
        rcases List.mem_cons.1 hg' with rfl | hg'
        · rw [hx]; exact List.mem_cons_self
        · obtain ⟨y, hy, hyg⟩ := List.mem_flatMap.1 (e3 g' hg')
          rw [h.op y g' hyg]
          exact List.mem_map_of_mem (f := Prod.snd) hy
      rw [he] at hm
      refine hne op ?_ rfl
      rcases List.mem_cons.1 hm with hm | hm
      · rw [hm]; exact List.mem_cons_self
      · exact List.mem_cons_of_mem _ (List.mem_append_left _ hm)

/-- An operation that is over stays over. -/
theorem InTurn.past (h : InTurn n mk gop grp m open_) {op : Op} {i j : Nat} (hij : i ≤ j) (hi : op ∈ (m i).issued)
    (hp : op ∉ (m i).queue ∧ ∀ g ∈ open_ i, gop g ≠ op) : op ∉ (m j).queue ∧ ∀ g ∈ open_ j, gop g ≠ op := by
  obtain ⟨d, rfl⟩ := Nat.exists_eq_add_of_le hij
  clear hij
  induction d with
  | zero => exact hp
  | succ d ih =>
    rw [← Nat.add_assoc]
    obtain ⟨h1, h2⟩ := ih
    have hiss := (h.seq.grows (Nat.le_add_right i d)).1.subset hi
    refine ⟨?_, ?_⟩
    · rcases h.seq.next (i + d) with hs | ⟨e, hs⟩
      · rw [hs]; exact h1
      · obtain ⟨_, hm⟩ := h.inv (i + d + 1)
        have hnd := hm.issued_nodup
        rw [hs] at hnd ⊢
        rcases queue_step n (m (i + d)) e with ⟨hq, _⟩ | ⟨x, hq, hx⟩
        · exact fun hh => h1 (hq.subset hh)
        · rw [hq]
          intro hh
          rcases List.mem_append.1 hh with hh | hh
          · exact h1 hh
          · rw [List.mem_singleton] at hh
            subst hh
            rw [hx, List.nodup_append] at hnd
            exact hnd.2.2 op hiss op (by simp) rfl
    · intro g hg he
      rcases h.next (i + d) g hg with hg | hg
      · exact h2 g hg he
      · exact h1 (he ▸ hg)

/-- The slave serves the operations in the order in which they were issued. -/
theorem InTurn.order (h : InTurn n mk gop grp m open_) {i j N : Nat} {g1 g2 : γ} (h1 : (open_ i).head? = some g1)
    (h2 : (open_ j).head? = some g2) (hj : j ≤ N) (ho : [gop g1, gop g2].Sublist (m N).issued) : i < j := by
  rcases Nat.lt_or_ge i j with hlt | hge
  · exact hlt
  · exfalso
    obtain ⟨hi2, hf⟩ := h.front h2
    obtain ⟨_, hN⟩ := h.inv N
    have hs := before_prefix (h.seq.grows hj).1 hN.issued_nodup hi2 ho
    have hp := h.past hge (hs.subset (by simp)) (hf _ hs)
    exact hp.2 g1 (List.mem_of_head? h1) rfl

end Verif.AxiSys
