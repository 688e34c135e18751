import Verif.Spec.PauseGenBus

/-!
# Pause generators: what their coroutines do
-/

namespace Verif.PauseGen

open Verif.Stream (Pc)

/-! ## The values of a generator -/

theorem level_alive {vals : Nat → Option Bool} {p : Bool} {q : Nat} {v : Bool} (h : ∀ m, m < q → (vals m).isSome = true)
    (hv : vals q = some v) : level vals p (q + 1) = v := by
  have : (List.range (q + 1)).all (fun m => (vals m).isSome) = true := by
    rw [List.all_eq_true]
    intro m hm
    have hm' := List.mem_range.1 hm
    by_cases he : m = q
    · rw [he, hv]; rfl
    · exact h m (by omega)
  simp only [level, this, if_true, hv, Option.getD_some]

theorem level_ended {vals : Nat → Option Bool} {p : Bool} {q L : Nat} (hL : L ≤ q) (hv : vals L = none) :
    level vals p (q + 1) = level vals p q := by
  have : ¬ (List.range (q + 1)).all (fun m => (vals m).isSome) = true := by
    rw [List.all_eq_true]
    intro hh
    have := hh L (List.mem_range.2 (by omega))
    rw [hv] at this
    cases this
  simp only [level, if_neg this]

section

variable {ε S E : Type} [DecidableEq ε] (ends : List ε) (b : Base ε S E)

/-- What is used of the system: something that has no effect, the effect of the setters, and that an edge does nothing before its time. -/
structure Laws (idle : S → E) : Prop where
  all : ∀ k, k ∈ ends
  idle : ∀ s, b.step s (idle s) = s
  set : ∀ s k v j, b.pause (b.step s (b.setPause k v)) j = if j = k then v else b.pause s j
  notTick : ∀ k v, b.isTick (b.setPause k v) = false
  early : ∀ s e, b.isTick e = true → b.ready s = false → b.step s e = s

/-- The event does not change `pause` at `k` other than by the generator there, and leaves that generator alone. -/
def GEv.keeps (k : ε) : GEv ε E → Prop
  | .ev e => ∀ s, b.pause (b.step s e) k = b.pause s k
  | .gen _ => True
  | .setGen j _ => j ≠ k

/-- After `x` values of the generator. -/
def Follows (vals : Nat → Option Bool) (p : Bool) (k : ε) (x : Nat) (g : GSys ε S) : Prop :=
  b.pause g.s k = level vals p x ∧
  ((∃ y, g.gen k = some y ∧ (y.pc = .woken ∨ y.pc = .edge ∨ y.pc = .due) ∧ (∀ m, y.vals (y.pos + m) = vals (x + m)) ∧
      ∀ m, m < x → (vals m).isSome = true) ∨
    ((∀ y, g.gen k = some y → y.pc = .off) ∧ ∃ L, L ≤ x ∧ vals L = none))

/-- Whether the coroutine is scheduled, as a number. -/
def GSys.dueN (g : GSys ε S) (k : ε) : Nat := if g.due k then 1 else 0

variable {ends b}

omit [DecidableEq ε] in
theorem not_due_of_off {g : GSys ε S} {k : ε} (h : ∀ y, g.gen k = some y → y.pc = .off) : g.due k = false := by
  unfold GSys.due
  split
  · rename_i y hy
    simp [Gen.due, h y hy, Pc.still]
  · rfl

theorem anyDue_false {idle : S → E} (hl : Laws ends b idle) {g : GSys ε S} (h : g.anyDue ends = false) (k : ε) : g.due k = false := by
  unfold GSys.anyDue at h
  rw [List.any_eq_false] at h
  have := h k (hl.all k)
  simpa using this

/-- The coroutine of another generator goes on. -/
theorem turn_other {g : GSys ε S} {idle : S → E} (hl : Laws ends b idle) {j k : ε} (h : k ≠ j) :
    (g.turn b j).gen k = g.gen k ∧ b.pause (g.turn b j).s k = b.pause g.s k := by
  unfold GSys.turn
  split
  · split
    · split
      · refine ⟨by simp [GSys.put, h], ?_⟩
        simp only [hl.set, if_neg h]
      · exact ⟨by simp [GSys.put, h], rfl⟩
    · exact ⟨rfl, rfl⟩
  · exact ⟨rfl, rfl⟩

omit [DecidableEq ε] in
theorem due_congr {g g' : GSys ε S} {k : ε} (h : g'.gen k = g.gen k) : g'.due k = g.due k := by simp only [GSys.due, h]

omit [DecidableEq ε] in
theorem Follows.congr {vals : Nat → Option Bool} {p : Bool} {k : ε} {x : Nat} {g g' : GSys ε S} (h : Follows b vals p k x g)
    (h1 : g'.gen k = g.gen k) (h2 : b.pause g'.s k = b.pause g.s k) : Follows b vals p k x g' := by
  unfold Follows
  rw [h1, h2]
  exact h

/-- One event: the generator gives one value for every clock edge. -/
theorem Follows.step {idle : S → E} (hl : Laws ends b idle) {vals : Nat → Option Bool} {p : Bool} {k : ε} {x : Nat} {g : GSys ε S}
    (h : Follows b vals p k x g) (e : GEv ε E) (he : e.keeps b k) :
    ∃ x', Follows b vals p k x' (g.step ends b e) ∧
      x' + (g.step ends b e).dueN k = x + g.dueN k + (if g.edge ends b e then 1 else 0) := by
  have same : ∀ g' : GSys ε S, g'.gen k = g.gen k → b.pause g'.s k = b.pause g.s k →
      ∃ x', Follows b vals p k x' g' ∧ x' + g'.dueN k = x + g.dueN k := fun g' h1 h2 =>
    ⟨x, h.congr h1 h2, by simp only [GSys.dueN, due_congr h1]⟩
  cases e with
  | ev e =>
    by_cases ht : b.isTick e = true
    · by_cases hr : (b.ready g.s && !g.anyDue ends) = true
      · rw [show g.edge ends b (.ev e) = true by simp only [GSys.edge, ht, Bool.true_and]; exact hr]
        simp only [GSys.step]
        rw [if_pos ht, if_pos hr]
        simp only [Bool.and_eq_true, Bool.not_eq_true'] at hr
        have hd := anyDue_false hl hr.2 k
        have hp : b.pause (g.tick b e).s k = b.pause g.s k := he g.s
        obtain ⟨h1, h2⟩ := h
        rcases h2 with ⟨y, h2, h3, h4, h5⟩ | ⟨h2, L, h3, h4⟩
        · have hy : y.pc = .edge := by
            simp only [GSys.due, h2, Gen.due, Bool.not_eq_false'] at hd
            rcases h3 with h3 | h3 | h3 <;> rw [h3] at hd <;> first | exact h3 | cases hd
          have hg : (g.tick b e).gen k = some { y with pc := .due } := by
            simp only [GSys.tick, h2, Option.map_some, Gen.tick, hy, Pc.tick]
          refine ⟨x, ⟨by rw [hp, h1], .inl ⟨_, hg, .inr (.inr rfl), h4, h5⟩⟩, ?_⟩
          have hdue : (g.tick b e).due k = true := by simp only [GSys.due, hg, Gen.due, Pc.still, Bool.not_false]
          simp only [GSys.dueN, hd, hdue, if_true, Bool.false_eq_true, if_false, Nat.add_zero]
        · have hg : ∀ y, (g.tick b e).gen k = some y → y.pc = .off := by
            intro y hy
            simp only [GSys.tick, Option.map_eq_some_iff] at hy
            obtain ⟨z, hz, rfl⟩ := hy
            simp only [Gen.tick, h2 z hz, Pc.tick]
          refine ⟨x + 1, ⟨by rw [hp, h1, level_ended h3 h4], .inr ⟨hg, L, by omega, h4⟩⟩, ?_⟩
          simp only [GSys.dueN, hd, not_due_of_off hg, Bool.false_eq_true, if_true, if_false, Nat.add_zero]
      · rw [show g.edge ends b (.ev e) = false by simp only [GSys.edge, ht, Bool.true_and]; simpa using hr]
        simp only [GSys.step]
        rw [if_pos ht, if_neg hr]
        exact same g rfl rfl
    · have ht' : b.isTick e = false := by simpa using ht
      rw [show g.edge ends b (.ev e) = false by simp only [GSys.edge, ht', Bool.false_and]]
      simp only [GSys.step]
      rw [if_neg ht]
      exact same _ rfl (he g.s)
  | setGen j v =>
    have hj : k ≠ j := fun hh => he hh.symm
    exact same _ (by simp [GSys.step, GSys.put, hj]) rfl
  | gen j =>
    simp only [GSys.step, GSys.edge, Bool.false_eq_true, if_false, Nat.add_zero]
    by_cases hj : k = j
    · subst hj
      obtain ⟨h1, h2⟩ := h
      rcases h2 with ⟨y, h2, h3, h4, h5⟩ | ⟨h2, L, h3, h4⟩
      · by_cases hd : y.due = true
        · have hdue : g.due k = true := by simp only [GSys.due, h2, hd]
          have h40 := h4 0
          simp only [Nat.add_zero] at h40
          cases hv : y.vals y.pos with
          | some v =>
            have hg : g.turn b k = { g.put k (some { y with pos := y.pos + 1, pc := .edge }) with s := b.step g.s (b.setPause k v) } := by
              simp only [GSys.turn, h2, if_pos hd, hv]
            rw [hv] at h40
            have hnd : (g.turn b k).due k = false := by rw [hg]; simp [GSys.due, GSys.put, Gen.due, Pc.still]
            simp only [GSys.dueN, hdue, hnd]
            rw [hg]
            refine ⟨x + 1, ⟨?_, .inl ⟨{ y with pos := y.pos + 1, pc := .edge }, by simp [GSys.put], .inr (.inl rfl), ?_, ?_⟩⟩, ?_⟩
            · simp only [hl.set, if_true]
              exact (level_alive h5 h40.symm).symm
            · intro m
              have := h4 (m + 1)
              simp only
              rw [show y.pos + 1 + m = y.pos + (m + 1) by omega, show x + 1 + m = x + (m + 1) by omega]
              exact this
            · intro m hm
              by_cases hmx : m = x
              · rw [hmx, ← h40]; rfl
              · exact h5 m (by omega)
            · rfl
          | none =>
            have hg : g.turn b k = g.put k (some { y with pc := .off }) := by simp only [GSys.turn, h2, if_pos hd, hv]
            rw [hv] at h40
            rw [hg]
            have hoff : ∀ z, (g.put k (some { y with pc := .off })).gen k = some z → z.pc = .off := by
              intro z hz
              simp [GSys.put] at hz
              rw [← hz]
            refine ⟨x + 1, ⟨?_, .inr ⟨hoff, x, by omega, h40.symm⟩⟩, ?_⟩
            · rw [level_ended (Nat.le_refl x) h40.symm]
              exact h1
            · simp only [GSys.dueN, hdue, not_due_of_off hoff, if_true, Bool.false_eq_true, if_false, Nat.add_zero]
        · have hg : g.turn b k = g := by simp only [GSys.turn, h2, if_neg hd]
          rw [hg]
          exact ⟨x, ⟨h1, .inl ⟨y, h2, h3, h4, h5⟩⟩, rfl⟩
      · have hg : g.turn b k = g := by
          unfold GSys.turn
          split
          · rename_i y hy
            have := h2 y hy
            rw [if_neg (by simp [Gen.due, this, Pc.still])]
          · rfl
        rw [hg]
        exact ⟨x, ⟨h1, .inr ⟨h2, L, h3, h4⟩⟩, rfl⟩
    · obtain ⟨h1, h2⟩ := turn_other (b := b) (g := g) hl hj
      exact same _ h1 h2

/-- The coroutine is killed, awaits the edge or is scheduled. -/
def GSys.Sane (g : GSys ε S) : Prop := ∀ k y, g.gen k = some y → y.pc ≠ .asleep

theorem Sane.step {g : GSys ε S} (h : g.Sane) (e : GEv ε E) : (g.step ends b e).Sane := by
  have put : ∀ (g' : GSys ε S) k x, g'.Sane → (∀ y, x = some y → y.pc ≠ .asleep) → (g'.put k x).Sane := by
    intro g' k x hg hx j y hy
    simp only [GSys.put] at hy
    split at hy
    · exact hx y hy
    · exact hg j y hy
  cases e with
  | ev e =>
    simp only [GSys.step]
    split
    · split
      · intro j y hy
        simp only [GSys.tick, Option.map_eq_some_iff] at hy
        obtain ⟨z, hz, rfl⟩ := hy
        have := h j z hz
        simp only [Gen.tick]
        revert this
        cases z.pc <;> simp [Pc.tick]
      · exact h
    · exact h
  | gen k =>
    simp only [GSys.step, GSys.turn]
    split
    · split
      · split
        · exact put g k _ h (fun y hy => by cases hy; simp)
        · exact put g k _ h (fun y hy => by cases hy; simp)
      · exact h
    · exact h
  | setGen k v =>
    refine put g k _ h (fun y hy => ?_)
    simp only [Option.map_eq_some_iff] at hy
    obtain ⟨z, _, rfl⟩ := hy
    simp

theorem Sane.run (s : S) (evs : List (GEv ε E)) : (GSys.run ends b s evs).Sane := by
  suffices h : ∀ (evs : List (GEv ε E)) (g : GSys ε S), g.Sane → (evs.foldl (GSys.step ends b) g).Sane from
    h evs _ (fun k y hy => by cases hy)
  intro evs
  induction evs with
  | nil => exact fun g h => h
  | cons e evs ih => exact fun g h => ih _ (Sane.step h e)

omit [DecidableEq ε] in
/-- At any time the generator has its remaining values before it. -/
theorem Follows.start {g : GSys ε S} (h : g.Sane) (k : ε) : Follows b (Gen.rest (g.gen k)) (b.pause g.s k) k 0 g := by
  refine ⟨rfl, ?_⟩
  cases hg : g.gen k with
  | none => exact .inr ⟨fun y hy => (Option.some_ne_none _ hy.symm).elim, 0, Nat.le_refl 0, rfl⟩
  | some y =>
    by_cases ho : y.pc = .off
    · exact .inr ⟨fun z hz => (Option.some.inj hz) ▸ ho, 0, Nat.le_refl 0, by simp [Gen.rest, ho]⟩
    · refine .inl ⟨y, rfl, ?_, fun m => ?_, fun m hm => absurd hm (Nat.not_lt_zero _)⟩
      · have := h k y hg
        revert ho this
        cases y.pc <;> simp
      · simp [Gen.rest, ho]

end

end Verif.PauseGen
