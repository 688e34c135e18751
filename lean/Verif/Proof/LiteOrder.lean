import Verif.Proof.LiteSystem
import Verif.Proof.AxiSysOrder

/-!
# Order of the AXI-lite operations at the slave
-/

namespace Verif.LiteOps

variable {χ ρ σ : Type}

/-- The operations issued since the last reset are the last ones issued. -/
theorem Lite.step_epoch {s : Lite χ ρ} (h : s.epoch <:+ s.issued) (e : Ev χ ρ) : (s.step e).epoch <:+ (s.step e).issued := by
  have hw : ∀ (s : Lite χ ρ) (op : Op χ), s.epoch <:+ s.issued → (s.write op).epoch <:+ (s.write op).issued := by
    intro s op ⟨l, hl⟩
    exact ⟨l, by simp only [Lite.write]; rw [← hl, List.append_assoc]⟩
  cases e with
  | write op => exact hw s op h
  | init op => exact h
  | runInit i =>
    simp only [Lite.step]
    split
    · exact hw _ _ h
    · exact h
  | take => simp only [Lite.step, Lite.take]; split <;> exact h
  | send => simp only [Lite.step, Lite.send]; split <;> exact h
  | resp r => simp only [Lite.step, Lite.resp]; split <;> exact h
  | respTake => simp only [Lite.step, Lite.respTake]; split <;> exact h
  | respGet => simp only [Lite.step, Lite.respGet]; split <;> exact h
  | respDone => simp only [Lite.step, Lite.respDone]; split <;> exact h
  | reset v =>
    simp only [Lite.step, Lite.reset]
    split
    · exact List.nil_suffix
    · exact h

/-- What an event of the master issues. -/
theorem Lite.own_epoch (s : Lite χ ρ) (e : Ev χ ρ) (h : own e = true) :
    ((s.step e).epoch = s.epoch ∧ (s.step e).issued = s.issued) ∨
      ∃ op, (s.step e).epoch = s.epoch ++ [op] ∧ (s.step e).issued = s.issued ++ [op] := by
  cases e with
  | write op => exact .inr ⟨op, rfl, rfl⟩
  | init op => exact .inl ⟨rfl, rfl⟩
  | runInit i =>
    simp only [Lite.step]
    split
    · rename_i op _; exact .inr ⟨op, rfl, rfl⟩
    · exact .inl ⟨rfl, rfl⟩
  | take => simp only [Lite.step, Lite.take]; split <;> exact .inl ⟨rfl, rfl⟩
  | send => simp [own] at h
  | resp r => simp [own] at h
  | respTake => simp only [Lite.step, Lite.respTake]; split <;> exact .inl ⟨rfl, rfl⟩
  | respGet => simp only [Lite.step, Lite.respGet]; split <;> exact .inl ⟨rfl, rfl⟩
  | respDone => simp only [Lite.step, Lite.respDone]; split <;> exact .inl ⟨rfl, rfl⟩
  | reset v => simp [own] at h

variable {f : χ → σ → ρ × σ} {p : Nat → Port χ ρ} {μ : Nat → σ}

theorem Trace.epoch (h : Trace f p μ) (n : Nat) : (p n).m.epoch <:+ (p n).m.issued := by
  induction n with
  | zero => rw [h.start]; exact List.suffix_refl _
  | succ n ih =>
    rcases h.seq.next n with hs | ⟨e, hs⟩
    · rw [hs]; exact ih
    · rw [hs]; exact Lite.step_epoch ih e

theorem Trace.grows (h : Trace f p μ) {i j : Nat} (hij : i ≤ j) : (p i).m.issued <+: (p j).m.issued := by
  have := h.seq.issued_le i (j - i)
  rwa [show i + (j - i) = j by omega] at this

theorem Port.front_split {q : Port χ ρ} {op : Op χ} (h : q.front = some op) :
    ∃ x Y, q.turn = (op, x) :: Y := by
  unfold Port.front at h
  cases hl : q.turn with
  | nil => rw [hl] at h; cases h
  | cons a Y =>
    rw [hl] at h
    simp only [List.head?_cons, Option.map_some, Option.some.injEq] at h
    subst h
    exact ⟨a.2, Y, rfl⟩

/-- Operations issued before the one at the front are over. -/
theorem Trace.front (h : Trace f p μ) {k : Nat} {op : Op χ} (hg : (p k).front = some op) (hn : (p k).m.issued.Nodup) :
    op ∈ (p k).m.issued ∧ ∀ o, [o, op].Sublist (p k).m.issued → ∀ l ∈ (p k).turn, l.1 ≠ o := by
  obtain ⟨x, Y, hY⟩ := Port.front_split hg
  obtain ⟨old, ho⟩ := h.epoch k
  have hs : labels (p k).m.epoch = (labels (p k).m.epoch).take ((p k).m.sent.length - (p k).req.length) ++ (op, x) :: Y := by
    rw [← hY]; exact (List.take_append_drop _ _).symm
  obtain ⟨l1, o', l2, e1, e2, e3⟩ := AxiSys.flatMap_split _ hs
  have hlab : ∀ (o : Op χ) (g : Op χ × χ × Nat), (g ∈ o.xs.zipIdx.map fun q => (o, q)) → g.1 = o := by
    intro o g hg
    obtain ⟨q, _, rfl⟩ := List.mem_map.1 hg
    rfl
  have hop : o' = op := (hlab o' _ e2).symm
  subst hop
  rw [e1, ← List.append_assoc] at ho
  refine ⟨by rw [← ho]; simp, ?_⟩
  intro o hso l hl he
  rw [← ho] at hso hn
  have hmem := AxiSys.before_of_split hn hso
  rw [List.nodup_append] at hn
  have hm : l.1 ∈ o' :: l2 := by
    rw [hY] at hl
    rcases List.mem_cons.1 hl with rfl | hl
    · exact List.mem_cons_self
    · obtain ⟨y, hy, hyl⟩ := List.mem_flatMap.1 (e3 l hl)
      rw [hlab y l hyl]; exact hy
  exact hn.2.2 o hmem l.1 hm he.symm

/-- What the slave has not served after an event: part of what it had not served, or just issued. -/
theorem Trace.turn_next (h : Trace f p μ) (n : Nat) :
    ∀ l ∈ (p (n + 1)).turn, l ∈ (p n).turn ∨ ∃ old, (p (n + 1)).m.issued = (p n).m.issued ++ old ∧ l.1 ∈ old := by
  intro l hl
  obtain ⟨sv, hi⟩ := h.inv n
  have hsl := congrArg List.length hi.sent
  simp only [List.length_append, List.length_map] at hsl
  rcases h.next n with ⟨e, hs⟩ | hs
  · cases e with
    | master e =>
      simp only [Port.step, Prod.mk.injEq] at hs
      rw [hs.1] at hl ⊢
      cases ho : own e with
      | false => rw [ho] at hl; exact .inl hl
      | true =>
        rw [ho] at hl
        simp only [if_true] at hl ⊢
        obtain ⟨h1, -, -, -⟩ := own_step (p n).m e ho
        simp only [Port.turn, h1] at hl ⊢
        rcases Lite.own_epoch (p n).m e ho with ⟨h2, _⟩ | ⟨op, h2, h3⟩
        · rw [h2] at hl; exact .inl hl
        · rw [h2, labels_append] at hl
          have hle : sv.length ≤ (labels (p n).m.epoch).length := by
            have := congrArg List.length hi.lab
            simp only [List.length_map, List.length_take] at this
            omega
          rw [List.drop_append_of_le_length (by omega)] at hl
          rcases List.mem_append.1 hl with hl | hl
          · exact .inl hl
          · exact .inr ⟨[op], h3, (mem_labels (o := l.1) (x := l.2.1) (i := l.2.2) hl).1⟩
    | send =>
      simp only [Port.step, Prod.mk.injEq] at hs
      rw [hs.1] at hl
      left
      split at hl
      · rename_i op x rm hr hc
        simp only [Port.turn, Lite.step, Lite.send, hr, hc, List.length_append, List.length_cons, List.length_nil] at hl
        rw [show (p n).m.sent.length + (0 + 1) - ((p n).req.length + (0 + 1)) = (p n).m.sent.length - (p n).req.length by
          omega] at hl
        exact hl
      · exact hl
    | serve =>
      simp only [Port.step] at hs
      left
      cases hreq : (p n).req with
      | nil =>
        rw [hreq] at hs
        simp only [Prod.mk.injEq] at hs
        rw [hs.1] at hl
        exact hl
      | cons x rest =>
        rw [hreq] at hs
        simp only [Prod.mk.injEq] at hs
        rw [hs.1] at hl
        simp only [Port.turn] at hl ⊢
        rw [hreq]
        exact AxiSys.drop_mono (by simp only [List.length_cons]; omega) l hl
    | deliver =>
      simp only [Port.step, Prod.mk.injEq] at hs
      rw [hs.1] at hl
      left
      split at hl
      · simp only [Port.turn, Lite.step, Lite.resp] at hl
        split at hl <;> exact hl
      · exact hl
    | reset v =>
      simp only [Port.step, Prod.mk.injEq] at hs
      rw [hs.1] at hl
      left
      cases v with
      | true =>
        simp only [if_true, Port.turn, Lite.step, Lite.reset, labels, List.flatMap_nil, List.drop_nil] at hl
        cases hl
      | false => exact hl
  · rw [hs] at hl; exact .inl hl

/-- An operation that is over stays over. -/
theorem Trace.past (h : Trace f p μ) {o : Op χ} {i j : Nat} (hij : i ≤ j) (hn : (p j).m.issued.Nodup) (hi : o ∈ (p i).m.issued)
    (hp : ∀ l ∈ (p i).turn, l.1 ≠ o) : ∀ l ∈ (p j).turn, l.1 ≠ o := by
  obtain ⟨d, rfl⟩ := Nat.exists_eq_add_of_le hij
  clear hij
  induction d with
  | zero => exact hp
  | succ d ih =>
    rw [← Nat.add_assoc] at hn ⊢
    have ih := ih (hn.sublist (h.grows (Nat.le_succ _)).sublist)
    intro l hl he
    rcases h.turn_next (i + d) l hl with hl | ⟨old, h1, h2⟩
    · exact ih l hl he
    · rw [h1, List.nodup_append] at hn
      exact hn.2.2 o ((h.grows (Nat.le_add_right i d)).subset hi) l.1 h2 he.symm

/-- The slave serves the operations in the order in which they were issued. -/
theorem Trace.order (h : Trace f p μ) {i j N : Nat} {o1 o2 : Op χ} (h1 : (p i).front = some o1) (h2 : (p j).front = some o2)
    (hi : i ≤ N) (hj : j ≤ N) (hn : (p N).m.issued.Nodup) (ho : [o1, o2].Sublist (p N).m.issued) : i < j := by
  rcases Nat.lt_or_ge i j with hlt | hge
  · exact hlt
  · exfalso
    obtain ⟨hi2, hf⟩ := h.front h2 (hn.sublist (h.grows hj).sublist)
    have hs := AxiSys.before_prefix (h.grows hj) hn hi2 ho
    have hp := h.past hge (hn.sublist (h.grows hi).sublist) (hs.subset (by simp)) (hf _ hs)
    obtain ⟨x, Y, hY⟩ := Port.front_split h1
    exact hp (o1, x) (by rw [hY]; exact List.mem_cons_self) rfl

end Verif.LiteOps
