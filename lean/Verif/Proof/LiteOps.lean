import Verif.Model.LiteOps

/-!
# Invariants of the AXI-lite operation bookkeeping
-/

namespace Verif.LiteOps

variable {χ ρ : Type}

/-- The operations waiting for responses. -/
def Lite.respOps (s : Lite χ ρ) : List (Op χ) := (s.respCur.map (·.1)).toList ++ s.respQ
/-- The operations without a result. -/
def Lite.pend (s : Lite χ ρ) : List (Op χ) := s.respOps ++ s.queue
/-- The operations taken off the queue since the last reset. -/
def Lite.started (s : Lite χ ρ) : List (Op χ) := s.done.map (·.1) ++ s.respOps
/-- The transfers of the current command still to be sent. -/
def Lite.rem (s : Lite χ ρ) : List χ := (s.cur.map (·.2)).getD []
def Lite.got (s : Lite χ ρ) : List ρ := (s.respCur.map (·.2.2)).getD []

structure Lite.Inv (s : Lite χ ρ) : Prop where
  epoch : s.epoch = s.started ++ s.queue
  sent : s.sent ++ s.rem = s.started.flatMap (·.xs)
  cur : ∀ op rem, s.cur = some (op, rem) → rem ≠ [] ∧ ∃ i, s.started = i ++ [op]
  arrived : s.arrived = s.done.flatMap (·.2) ++ s.got ++ s.bch
  doneLen : ∀ d ∈ s.done, d.2.length = d.1.xs.length
  curLen : ∀ op rem got, s.respCur = some (op, rem, got) → got.length + rem = op.xs.length
  doneRes : ∀ d ∈ s.done, (d.1, some d.2) ∈ s.results
  acct : ∃ st, s.issued.Perm (st ++ s.pend) ∧ ∀ op, op ∈ st ↔ ∃ r, (op, r) ∈ s.results
  flight : s.inFlight = s.pend.length
  ev : s.idleEv = s.idle
  stopped : s.running = false → s.cur = none ∧ s.respQ = [] ∧ s.respCur = none ∧ s.bch = [] ∧ s.done = [] ∧ s.arrived = []

namespace Lite

theorem inv_init : Inv ({} : Lite χ ρ) where
  epoch := rfl
  sent := rfl
  cur := by intro _ _ h; cases h
  arrived := rfl
  doneLen := by intro d h; cases h
  curLen := by intro _ _ _ h; cases h
  doneRes := by intro d h; cases h
  acct := ⟨[], by simp [pend, respOps], by simp⟩
  flight := rfl
  ev := rfl
  stopped := by simp

theorem write_inv {s : Lite χ ρ} (h : s.Inv) (op : Op χ) : (s.write op).Inv := by
  obtain ⟨h1, h2, h3, h4, h5, h6, h7, ⟨st, h8, h8'⟩, h9, h10, h11⟩ := h
  refine ⟨?_, h2, h3, h4, h5, h6, h7, ⟨st, ?_, h8'⟩, ?_, ?_, h11⟩
  · simp only [write, h1, List.append_assoc]; rfl
  · show (s.issued ++ [op]).Perm (st ++ (s.respOps ++ (s.queue ++ [op])))
    rw [← List.append_assoc s.respOps, ← List.append_assoc st]
    exact h8.append_right _
  · simp only [write, pend, respOps, List.length_append, List.length_cons, List.length_nil] at h9 ⊢
    omega
  · simp only [write, idle]
    have : s.inFlight + 1 ≠ 0 := by omega
    simp [this]

theorem take_inv {s : Lite χ ρ} (h : s.Inv) : s.take.Inv := by
  unfold take
  split
  · rename_i op rest hr hc hq
    obtain ⟨h1, h2, h3, h4, h5, h6, h7, ⟨st, h8, h8'⟩, h9, h10, h11⟩ := h
    have hrem : s.rem = [] := by simp [rem, hc]
    have hsent : s.sent = s.started.flatMap (·.xs) := by rw [hrem, List.append_nil] at h2; exact h2
    have hst : ∀ cu, ({ s with queue := rest, respQ := s.respQ ++ [op], cur := cu } : Lite χ ρ).started =
        s.started ++ [op] := by intro cu; simp [started, respOps]
    have hpe : ∀ cu, ({ s with queue := rest, respQ := s.respQ ++ [op], cur := cu } : Lite χ ρ).pend = s.pend := by
      intro cu; simp [pend, respOps, hq]
    refine ⟨?_, ?_, ?_, h4, h5, h6, h7, ⟨st, ?_, h8'⟩, ?_, h10, ?_⟩
    · rw [hst, h1, hq]; simp
    · rw [hst, List.flatMap_append, ← hsent]
      show s.sent ++ _ = _
      simp only [rem]
      split
      · rename_i hx; simp [List.isEmpty_iff.1 hx]
      · simp
    · intro op' rem' hcur
      simp only at hcur
      split at hcur
      · cases hcur
      · rename_i hx
        cases hcur
        refine ⟨by simpa using hx, s.started, ?_⟩
        rw [hst]
    · rw [hpe]; exact h8
    · rw [hpe]; exact h9
    · intro hf; simp [hr] at hf
  · exact h

theorem send_inv {s : Lite χ ρ} (h : s.Inv) : s.send.Inv := by
  unfold send
  split
  · rename_i op x rm hr hc
    obtain ⟨h1, h2, h3, h4, h5, h6, h7, h8, h9, h10, h11⟩ := h
    refine ⟨h1, ?_, ?_, h4, h5, h6, h7, h8, h9, h10, ?_⟩
    · have hrem : s.rem = x :: rm := by simp [rem, hc]
      rw [hrem] at h2
      show s.sent ++ [x] ++ _ = _
      have : (s.started.flatMap (·.xs)) = s.sent ++ [x] ++ rm := by rw [← h2]; simp
      show s.sent ++ [x] ++ _ = s.started.flatMap (·.xs)
      rw [this]
      congr 1
      simp only [rem]
      split
      · rename_i hx; simp [List.isEmpty_iff.1 hx]
      · rfl
    · intro op' rem' hcur
      simp only at hcur
      split at hcur
      · cases hcur
      · rename_i hx
        cases hcur
        refine ⟨by simpa using hx, (h3 op _ hc).2⟩
    · intro hf; simp [hr] at hf
  · exact h

theorem resp_inv {s : Lite χ ρ} (h : s.Inv) (r : ρ) : (s.resp r).Inv := by
  unfold resp
  split
  · rename_i hr
    obtain ⟨h1, h2, h3, h4, h5, h6, h7, h8, h9, h10, h11⟩ := h
    refine ⟨h1, h2, h3, ?_, h5, h6, h7, h8, h9, h10, ?_⟩
    · simp only [h4, got, List.append_assoc]
    · intro hf; simp [hr] at hf
  · exact h

theorem respTake_inv {s : Lite χ ρ} (h : s.Inv) : s.respTake.Inv := by
  unfold respTake
  split
  · rename_i op rest hr hc hq
    obtain ⟨h1, h2, h3, h4, h5, h6, h7, ⟨st, h8, h8'⟩, h9, h10, h11⟩ := h
    have hro : ({ s with respQ := rest, respCur := some (op, op.xs.length, []) } : Lite χ ρ).respOps = s.respOps := by
      simp [respOps, hq, hc]
    have hst : ({ s with respQ := rest, respCur := some (op, op.xs.length, []) } : Lite χ ρ).started = s.started := by
      simp only [started, hro]
    have hpe : ({ s with respQ := rest, respCur := some (op, op.xs.length, []) } : Lite χ ρ).pend = s.pend := by
      simp only [pend, hro]
    refine ⟨?_, ?_, ?_, ?_, h5, ?_, h7, ⟨st, ?_, h8'⟩, ?_, h10, ?_⟩
    · rw [hst]; exact h1
    · rw [hst]; exact h2
    · rw [hst]; exact h3
    · simp only [h4, got, hc]; rfl
    · intro op' rem' got' he; cases he; simp
    · rw [hpe]; exact h8
    · rw [hpe]; exact h9
    · intro hf; simp [hr] at hf
  · exact h

theorem respGet_inv {s : Lite χ ρ} (h : s.Inv) : s.respGet.Inv := by
  unfold respGet
  split
  · rename_i op rm gt r rest hr hc hq
    obtain ⟨h1, h2, h3, h4, h5, h6, h7, ⟨st, h8, h8'⟩, h9, h10, h11⟩ := h
    have hro : ({ s with respCur := some (op, rm, gt ++ [r]), bch := rest } : Lite χ ρ).respOps = s.respOps := by
      simp [respOps, hc]
    have hst : ({ s with respCur := some (op, rm, gt ++ [r]), bch := rest } : Lite χ ρ).started = s.started := by
      simp only [started, hro]
    have hpe : ({ s with respCur := some (op, rm, gt ++ [r]), bch := rest } : Lite χ ρ).pend = s.pend := by
      simp only [pend, hro]
    refine ⟨?_, ?_, ?_, ?_, h5, ?_, h7, ⟨st, ?_, h8'⟩, ?_, h10, ?_⟩
    · rw [hst]; exact h1
    · rw [hst]; exact h2
    · rw [hst]; exact h3
    · simp [h4, got, hc, hq]
    · intro op' rem' got' he; cases he
      have := h6 _ _ _ hc
      simp only [List.length_append, List.length_cons, List.length_nil]
      omega
    · rw [hpe]; exact h8
    · rw [hpe]; exact h9
    · intro hf; simp [hr] at hf
  · exact h

theorem respDone_inv {s : Lite χ ρ} (h : s.Inv) : s.respDone.Inv := by
  unfold respDone
  split
  · rename_i op gt hr hc
    obtain ⟨h1, h2, h3, h4, h5, h6, h7, ⟨st, h8, h8'⟩, h9, h10, h11⟩ := h
    have hst : ({ s with respCur := none, results := s.results ++ [(op, some gt)], inFlight := s.inFlight - 1, idleEv := s.idleEv || decide (s.inFlight - 1 = 0), done := s.done ++ [(op, gt)] } : Lite χ ρ).started = s.started := by
      simp [started, respOps, hc]
    have hpe : s.pend = op :: ({ s with respCur := none, results := s.results ++ [(op, some gt)], inFlight := s.inFlight - 1, idleEv := s.idleEv || decide (s.inFlight - 1 = 0), done := s.done ++ [(op, gt)] } : Lite χ ρ).pend := by
      simp [pend, respOps, hc]
    refine ⟨?_, ?_, ?_, ?_, ?_, ?_, ?_, ⟨st ++ [op], ?_, ?_⟩, ?_, ?_, ?_⟩
    · rw [hst]; exact h1
    · rw [hst]; exact h2
    · rw [hst]; exact h3
    · simp [h4, got, hc]
    · intro d hd
      rcases List.mem_append.1 hd with hd | hd
      · exact h5 d hd
      · rw [List.mem_singleton] at hd; subst hd
        have := h6 _ _ _ hc; simpa using this
    · intro _ _ _ he; cases he
    · intro d hd
      rcases List.mem_append.1 hd with hd | hd
      · exact List.mem_append_left _ (h7 d hd)
      · rw [List.mem_singleton] at hd; subst hd
        simp
    · rw [hpe] at h8
      rw [List.append_assoc]; exact h8
    · intro o
      simp only [List.mem_append, h8', List.mem_singleton, Prod.mk.injEq]
      constructor
      · rintro (⟨r, hr⟩ | rfl)
        · exact ⟨r, .inl hr⟩
        · exact ⟨_, .inr ⟨rfl, rfl⟩⟩
      · rintro ⟨r, hr | hr⟩
        · exact .inl ⟨r, hr⟩
        · exact .inr hr.1
    · rw [hpe] at h9
      simp only [List.length_cons] at h9
      simp only; omega
    · have : s.inFlight ≠ 0 := by rw [hpe] at h9; simp only [List.length_cons] at h9; omega
      simp only [idle] at h10 ⊢
      rw [h10]
      simp [this]
    · intro hf; simp [hr] at hf
  · exact h

theorem reset_inv {s : Lite χ ρ} (h : s.Inv) (v : Bool) : (s.reset v).Inv := by
  unfold reset
  split
  · obtain ⟨h1, h2, h3, h4, h5, h6, h7, ⟨st, h8, h8'⟩, h9, h10, h11⟩ := h
    refine ⟨rfl, rfl, (by intro _ _ h; cases h), rfl, (by intro d h; cases h), (by intro _ _ _ h; cases h),
      (by intro d h; cases h), ⟨st ++ s.pend, ?_, ?_⟩, rfl, rfl, by simp⟩
    · simp only [pend, respOps, Option.map_none, Option.toList_none, List.append_nil]
      exact h8
    · intro o
      have hcur : o ∈ (s.cur.map (·.1)).toList → o ∈ s.respOps ∨ ∃ r, (o, r) ∈ s.results := by
        intro ho
        cases hc : s.cur with
        | none => simp [hc] at ho
        | some p =>
          obtain ⟨op, rm⟩ := p
          simp only [hc, Option.map_some, Option.toList_some, List.mem_singleton] at ho
          subst ho
          obtain ⟨i, hi⟩ := (h3 _ _ hc).2
          have : o ∈ s.started := by rw [hi]; simp
          simp only [started, List.mem_append, List.mem_map] at this
          rcases this with ⟨d, hd, rfl⟩ | h
          · exact .inr ⟨_, h7 d hd⟩
          · exact .inl h
      simp only [List.mem_append, h8', List.mem_map, pend, respOps, Prod.mk.injEq] at hcur ⊢
      constructor
      · rintro (⟨r, hr⟩ | (h | h) | h)
        · exact ⟨r, .inl hr⟩
        · exact ⟨none, .inr ⟨o, by simp [h], rfl, rfl⟩⟩
        · exact ⟨none, .inr ⟨o, by simp [h], rfl, rfl⟩⟩
        · exact ⟨none, .inr ⟨o, by simp [h], rfl, rfl⟩⟩
      · rintro ⟨r, hr | ⟨o', ho, rfl, _⟩⟩
        · exact .inl ⟨r, hr⟩
        · rcases ho with ((h | h) | h) | h
          · exact .inr (.inr h)
          · rcases hcur h with hh | hh
            · exact .inr (.inl hh)
            · exact .inl hh
          · exact .inr (.inl (.inr h))
          · exact .inr (.inl (.inl h))
  · obtain ⟨h1, h2, h3, h4, h5, h6, h7, h8, h9, h10, h11⟩ := h
    exact ⟨h1, h2, h3, h4, h5, h6, h7, h8, h9, h10, by intro hf; cases hf⟩

theorem step_inv {s : Lite χ ρ} (h : s.Inv) (e : Ev χ ρ) : (s.step e).Inv := by
  cases e with
  | write op => exact write_inv h op
  | init op =>
    obtain ⟨h1, h2, h3, h4, h5, h6, h7, h8, h9, h10, h11⟩ := h
    exact ⟨h1, h2, h3, h4, h5, h6, h7, h8, h9, h10, h11⟩
  | runInit i =>
    simp only [step]
    split
    · apply write_inv
      obtain ⟨h1, h2, h3, h4, h5, h6, h7, h8, h9, h10, h11⟩ := h
      exact ⟨h1, h2, h3, h4, h5, h6, h7, h8, h9, h10, h11⟩
    · exact h
  | take => exact take_inv h
  | send => exact send_inv h
  | resp r => exact resp_inv h r
  | respTake => exact respTake_inv h
  | respGet => exact respGet_inv h
  | respDone => exact respDone_inv h
  | reset v => exact reset_inv h v

theorem exec_inv (evs : List (Ev χ ρ)) : (exec evs).Inv := by
  suffices H : ∀ s : Lite χ ρ, s.Inv → (evs.foldl step s).Inv from H _ inv_init
  induction evs with
  | nil => intro s h; exact h
  | cons e evs ih => intro s h; exact ih _ (step_inv h e)

end Lite
end Verif.LiteOps
