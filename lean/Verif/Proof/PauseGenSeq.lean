import Verif.Proof.PauseGen

/-!
# Pause generators: endless schedules
-/

namespace Verif.PauseGen

open Verif.Stream (Pc)

section

variable {ε S E : Type} [DecidableEq ε] {ends : List ε} {b : Base ε S E} {idle : S → E}

/-- The event of the system without generators that has the same effect on it. -/
def proj (ends : List ε) (b : Base ε S E) (idle : S → E) (g : GSys ε S) : GEv ε E → E
  | .ev e => if b.isTick e && g.anyDue ends then idle g.s else e
  | .gen k =>
    match g.gen k with
    | some x => if x.due then match x.vals x.pos with
        | some v => b.setPause k v
        | none => idle g.s
      else idle g.s
    | none => idle g.s
  | .setGen _ _ => idle g.s

theorem proj_step (hl : Laws ends b idle) (g : GSys ε S) (e : GEv ε E) :
    (g.step ends b e).s = b.step g.s (proj ends b idle g e) := by
  cases e with
  | ev e =>
    simp only [GSys.step, proj]
    by_cases ht : b.isTick e = true
    · simp only [ht, if_true, Bool.true_and]
      cases hd : g.anyDue ends with
      | true => simp [hl.idle]
      | false =>
        cases hr : b.ready g.s with
        | true => simp [GSys.tick]
        | false => simp [hl.early _ _ ht hr]
    · simp [ht]
  | gen k =>
    simp only [GSys.step, GSys.turn, proj]
    cases g.gen k with
    | none => simp only [hl.idle]
    | some x =>
      simp only
      by_cases hd : x.due = true
      · simp only [hd, if_true]
        cases x.vals x.pos with
        | none => simp only [hl.idle]; rfl
        | some v => rfl
      · simp only [hd, Bool.false_eq_true, if_false, hl.idle]
  | setGen k v => simp only [GSys.step, proj, hl.idle]; rfl

/-- The events of the system alone, for a history. -/
def projs (ends : List ε) (b : Base ε S E) (idle : S → E) : GSys ε S → List (GEv ε E) → List E
  | _, [] => []
  | g, e :: evs => proj ends b idle g e :: projs ends b idle (g.step ends b e) evs

theorem projs_run (hl : Laws ends b idle) (g : GSys ε S) (evs : List (GEv ε E)) :
    (evs.foldl (GSys.step ends b) g).s = (projs ends b idle g evs).foldl b.step g.s := by
  induction evs generalizing g with
  | nil => rfl
  | cons e evs ih => simp only [List.foldl_cons, projs, ih, proj_step hl g e]

/-- A schedule without calls of `set_pause_generator` and other changes of `pause`. -/
structure GRun (ends : List ε) (b : Base ε S E) (idle : S → E) (must : E → Prop) (G : Nat → GSys ε S) (sched : Nat → GEv ε E) : Prop where
  laws : Laws ends b idle
  sane : (G 0).Sane
  succ : ∀ n, G (n + 1) = (G n).step ends b (sched n)
  keeps : ∀ n k, (sched n).keeps b k
  fair : Fair ends b must G sched

variable {must : E → Prop} {G : Nat → GSys ε S} {sched : Nat → GEv ε E}

omit [DecidableEq ε] in
theorem edge_iff (n : Nat) : Edge ends b G sched n ↔ (G n).edge ends b (sched n) = true := by
  constructor
  · rintro ⟨e, h1, h2, h3, h4⟩
    simp only [h1, GSys.edge, h2, h3, h4]
    rfl
  · intro h
    cases he : sched n with
    | ev e =>
      simp only [he, GSys.edge, Bool.and_eq_true, Bool.not_eq_true'] at h
      exact ⟨e, he, h.1.1, h.1.2, h.2⟩
    | gen k => simp [he, GSys.edge] at h
    | setGen k v => simp [he, GSys.edge] at h

/-- What one event does to `pause` at `k`. -/
structure Drives (edge : Nat → Prop) (d p : Nat → Bool) : Prop where
  idle : ∀ n, edge n → d n = false
  stay : ∀ n, d n = false → ¬ edge n → d (n + 1) = false
  same : ∀ n, d n = false → p (n + 1) = p n
  keep : ∀ n, d (n + 1) = true → p (n + 1) = p n

theorem GRun.drives (h : GRun ends b idle must G sched) (k : ε) :
    Drives (Edge ends b G sched) (fun n => (G n).due k) (fun n => b.pause (G n).s k) := by
  have hl := h.laws
  refine ⟨?_, ?_, ?_, ?_⟩
  · rintro n ⟨e, _, _, _, h4⟩
    exact anyDue_false hl h4 k
  · intro n hd he
    rw [edge_iff] at he
    rw [h.succ]
    have hk := h.keeps n k
    cases hs : sched n with
    | ev e =>
      rw [hs] at he
      simp only [GSys.step]
      split
      · rename_i ht
        split
        · rename_i hr
          exact absurd (by simp only [GSys.edge, ht, Bool.true_and]; exact hr) he
        · exact hd
      · exact hd
    | gen j =>
      simp only [GSys.step]
      by_cases hj : k = j
      · subst hj
        unfold GSys.turn
        simp only [GSys.due] at hd
        split
        · rename_i y hy
          rw [hy] at hd
          simp only at hd
          rw [if_neg (by rw [hd]; simp)]
          simp only [GSys.due, hy, hd]
        · exact hd
      · rw [due_congr (turn_other (b := b) (g := G n) hl hj).1]
        exact hd
    | setGen j v =>
      rw [hs] at hk
      have hj : k ≠ j := fun hh => hk hh.symm
      rw [due_congr (g := G n) (by simp [GSys.step, GSys.put, hj])]
      exact hd
  · intro n hd
    rw [h.succ]
    have hk := h.keeps n k
    cases hs : sched n with
    | ev e =>
      rw [hs] at hk
      simp only [GSys.step]
      split
      · split
        · exact hk _
        · rfl
      · exact hk _
    | gen j =>
      simp only [GSys.step]
      by_cases hj : k = j
      · subst hj
        unfold GSys.turn
        simp only [GSys.due] at hd
        split
        · rename_i y hy
          rw [hy] at hd
          simp only at hd
          rw [if_neg (by rw [hd]; simp)]
        · rfl
      · exact (turn_other (b := b) (g := G n) hl hj).2
    | setGen j v => rfl
  · intro n hd
    rw [h.succ] at hd ⊢
    have hk := h.keeps n k
    cases hs : sched n with
    | ev e =>
      rw [hs] at hk
      simp only [GSys.step]
      split
      · split
        · exact hk _
        · rfl
      · exact hk _
    | gen j =>
      simp only [hs, GSys.step] at hd ⊢
      by_cases hj : k = j
      · subst hj
        revert hd
        unfold GSys.turn
        split
        · split
          · split
            · intro hd; simp [GSys.due, GSys.put, Gen.due, Pc.still] at hd
            · intro _; rfl
          · intro _; rfl
        · intro _; rfl
      · exact (turn_other (b := b) (g := G n) hl hj).2
    | setGen j v => rfl

/-- The coroutine of a generator is not scheduled after its turn. -/
theorem turn_due (g : GSys ε S) (k : ε) : (g.turn b k).due k = false := by
  unfold GSys.turn
  split
  · rename_i y hy
    split
    · split
      · simp [GSys.due, GSys.put, Gen.due, Pc.still]
      · simp [GSys.due, GSys.put, Gen.due, Pc.still]
    · rename_i hd
      simpa [GSys.due, hy] using hd
  · rename_i hy
    simp [GSys.due, hy]

/-- Without clock edges the generators come to rest. -/
theorem GRun.rests (h : GRun ends b idle must G sched) (n : Nat) (hno : ∀ k, n ≤ k → ¬ Edge ends b G sched k) :
    ∃ m, n ≤ m ∧ ∀ k, m ≤ k → ∀ j, (G k).due j = false := by
  have stay : ∀ j m, n ≤ m → (G m).due j = false → ∀ k, m ≤ k → (G k).due j = false := by
    intro j m hm hd k hk
    obtain ⟨d, rfl⟩ := Nat.exists_eq_add_of_le hk
    induction d with
    | zero => exact hd
    | succ d ih => exact (h.drives j).stay (m + d) (ih (by omega)) (hno (m + d) (by omega))
  have one : ∀ j, ∃ m, n ≤ m ∧ ∀ k, m ≤ k → (G k).due j = false := by
    intro j
    obtain ⟨k, hk, h1⟩ := h.fair.2 j n
    rcases h1 with h1 | h1
    · refine ⟨k + 1, by omega, fun l hl => stay j (k + 1) (by omega) ?_ l hl⟩
      rw [h.succ, h1]
      exact turn_due _ _
    · exact ⟨k, hk, fun l hl => stay j k hk h1 l hl⟩
  have list : ∀ l : List ε, ∃ m, n ≤ m ∧ ∀ k, m ≤ k → ∀ j ∈ l, (G k).due j = false := by
    intro l
    induction l with
    | nil => exact ⟨n, Nat.le_refl n, fun k _ j hj => by cases hj⟩
    | cons j l ih =>
      obtain ⟨m1, h1, h2⟩ := ih
      obtain ⟨m2, h3, h4⟩ := one j
      refine ⟨max m1 m2, by omega, fun k hk i hi => ?_⟩
      rcases List.mem_cons.1 hi with rfl | hi
      · exact h4 k (by omega)
      · exact h2 k (by omega) i hi
  obtain ⟨m, h1, h2⟩ := list ends
  exact ⟨m, h1, fun k hk j => h2 k hk j (h.laws.all j)⟩

omit [DecidableEq ε] in
theorem anyDue_of (g : GSys ε S) (h : ∀ j, g.due j = false) : g.anyDue ends = false := by
  unfold GSys.anyDue
  rw [List.any_eq_false]
  intro j _
  simp [h j]

/-- Without the generators the schedule is still fair. -/
theorem GRun.fairly (h : GRun ends b idle must G sched) (ht : ∀ e e', b.isTick e = true → b.isTick e' = true → e = e') (e : E)
    (he : must e) (n : Nat) :
    ∃ k, n ≤ k ∧ (proj ends b idle (G k) (sched k) = e ∨ b.step (G k).s e = (G k).s) := by
  have eff : ∀ k, (G k).anyDue ends = false → (G k).step ends b (.ev e) = G k → b.step (G k).s e = (G k).s := by
    intro k hd hh
    have := proj_step h.laws (G k) (.ev e)
    rw [hh] at this
    simp only [proj, hd, Bool.and_false, Bool.false_eq_true, if_false] at this
    exact this.symm
  by_cases het : b.isTick e = true
  · by_cases hex : ∃ k, n ≤ k ∧ Edge ends b G sched k
    · obtain ⟨k, hk, e', h1, h2, h3, h4⟩ := hex
      refine ⟨k, hk, .inl ?_⟩
      simp only [h1, proj, h4, Bool.and_false, Bool.false_eq_true, if_false]
      exact ht _ _ h2 het
    · obtain ⟨m, hm, hd⟩ := h.rests n (fun k hk h1 => hex ⟨k, hk, h1⟩)
      obtain ⟨k, hk, h1⟩ := h.fair.1 e he m
      have hnd := anyDue_of (ends := ends) (G k) (hd k hk)
      refine ⟨k, by omega, h1.imp (fun h1 => ?_) (eff k hnd)⟩
      simp only [h1, proj, hnd, Bool.and_false, Bool.false_eq_true, if_false]
  · obtain ⟨k, hk, h1⟩ := h.fair.1 e he n
    refine ⟨k, hk, h1.imp (fun h1 => ?_) (fun h1 => ?_)⟩
    · simp [h1, proj, het]
    · have := congrArg GSys.s h1
      simpa only [GSys.step, if_neg het] using this

/-! ## Counting the edges -/

/-- The number of clock edges before instant `n`. -/
def edgesBefore (ends : List ε) (b : Base ε S E) (G : Nat → GSys ε S) (sched : Nat → GEv ε E) : Nat → Nat
  | 0 => 0
  | n + 1 => edgesBefore ends b G sched n + (if (G n).edge ends b (sched n) then 1 else 0)

/-- The value of `pause` at an edge. -/
theorem GRun.follows (h : GRun ends b idle must G sched) (k : ε) (n : Nat) :
    ∃ x, Follows b (Gen.rest ((G 0).gen k)) (b.pause (G 0).s k) k x (G n) ∧
      x + (G n).dueN k = edgesBefore ends b G sched n + (G 0).dueN k := by
  induction n with
  | zero => exact ⟨0, .start h.sane k, by simp [edgesBefore]⟩
  | succ n ih =>
    obtain ⟨x, h1, h2⟩ := ih
    obtain ⟨x', h3, h4⟩ := h1.step h.laws (sched n) (h.keeps n k)
    rw [← h.succ] at h3 h4
    refine ⟨x', h3, ?_⟩
    simp only [edgesBefore]
    omega

theorem GRun.at_edge (h : GRun ends b idle must G sched) (k : ε) {n : Nat} (he : Edge ends b G sched n) :
    b.pause (G n).s k = (G 0).levels b k (edgesBefore ends b G sched n + (G 0).dueN k) := by
  obtain ⟨x, h1, h2⟩ := h.follows k n
  have hd := (h.drives k).idle n he
  have : (G n).dueN k = 0 := by simp [GSys.dueN, hd]
  rw [this] at h2
  rw [← h2]
  exact h1.1

/-- The first edge from instant `n` on. -/
theorem next_edge {edge : Nat → Prop} (hinf : ∀ n, ∃ k, n ≤ k ∧ edge k) (n : Nat) :
    ∃ k, n ≤ k ∧ edge k ∧ ∀ m, n ≤ m → m < k → ¬ edge m := by
  obtain ⟨k, hk, he⟩ := hinf n
  obtain ⟨d, rfl⟩ := Nat.exists_eq_add_of_le hk
  clear hk
  induction d using Nat.strongRecOn with
  | ind d ih =>
    by_cases hex : ∃ m, n ≤ m ∧ m < n + d ∧ edge m
    · obtain ⟨m, h1, h2, h3⟩ := hex
      obtain ⟨d', rfl⟩ := Nat.exists_eq_add_of_le h1
      exact ih d' (by omega) h3
    · exact ⟨n + d, by omega, he, fun m h1 h2 h3 => hex ⟨m, h1, h2, h3⟩⟩

omit [DecidableEq ε] in
theorem edgesBefore_same {n d : Nat} (h : ∀ m, n ≤ m → m < n + d → ¬ Edge ends b G sched m) :
    edgesBefore ends b G sched (n + d) = edgesBefore ends b G sched n := by
  induction d with
  | zero => rfl
  | succ d ih =>
    have := h (n + d) (by omega) (by omega)
    rw [edge_iff] at this
    rw [← Nat.add_assoc]
    simp only [edgesBefore, if_neg this, ih (fun m h1 h2 => h m h1 (by omega)), Nat.add_zero]

/-- A clock cycle. -/
structure Cyc (edge : Nat → Prop) (i j : Nat) : Prop where
  lt : i < j
  start : edge i
  stop : edge j
  no : ∀ m, i < m → m < j → ¬ edge m

/-- Every value of the generator comes up. -/
theorem GRun.cycle (h : GRun ends b idle must G sched) (hinf : ∀ n, ∃ k, n ≤ k ∧ Edge ends b G sched k) (k : ε) (n q : Nat)
    (hq : edgesBefore ends b G sched n + (G 0).dueN k ≤ q) :
    ∃ i j, n ≤ i ∧ Cyc (Edge ends b G sched) i j ∧ b.pause (G i).s k = (G 0).levels b k q ∧
      b.pause (G j).s k = (G 0).levels b k (q + 1) := by
  have key : ∀ d, ∃ i, n ≤ i ∧ Edge ends b G sched i ∧ edgesBefore ends b G sched i = edgesBefore ends b G sched n + d := by
    intro d
    induction d with
    | zero =>
      obtain ⟨i, h1, h2, h3⟩ := next_edge hinf n
      obtain ⟨d, rfl⟩ := Nat.exists_eq_add_of_le h1
      exact ⟨n + d, h1, h2, edgesBefore_same h3⟩
    | succ d ih =>
      obtain ⟨i, h1, h2, h3⟩ := ih
      obtain ⟨j, h4, h5, h6⟩ := next_edge hinf (i + 1)
      obtain ⟨d', rfl⟩ := Nat.exists_eq_add_of_le h4
      refine ⟨i + 1 + d', by omega, h5, ?_⟩
      rw [edgesBefore_same h6]
      simp only [edgesBefore, if_pos ((edge_iff i).1 h2), h3]
      omega
  obtain ⟨i, h1, h2, h3⟩ := key (q - (edgesBefore ends b G sched n + (G 0).dueN k))
  obtain ⟨j, h4, h5, h6⟩ := next_edge hinf (i + 1)
  have hj : edgesBefore ends b G sched j = edgesBefore ends b G sched i + 1 := by
    obtain ⟨d', rfl⟩ := Nat.exists_eq_add_of_le h4
    rw [edgesBefore_same h6]
    simp only [edgesBefore, if_pos ((edge_iff i).1 h2)]
  refine ⟨i, j, h1, ⟨by omega, h2, h5, fun m a c => h6 m (by omega) c⟩, ?_, ?_⟩
  · rw [h.at_edge k h2, h3]
    congr 1
    omega
  · rw [h.at_edge k h5, hj, h3]
    congr 1
    omega

/-! ## Inside a clock cycle -/

theorem Drives.after {edge : Nat → Prop} {d p : Nat → Bool} (h : Drives edge d p) {i j : Nat} (hc : Cyc edge i j) {n : Nat} (hn : i < n)
    (hj : n ≤ j) (hd : d n = false) : p n = p j := by
  obtain ⟨e, rfl⟩ := Nat.exists_eq_add_of_le hj
  have : ∀ e', e' ≤ e → d (n + e') = false ∧ p (n + e') = p n := by
    intro e'
    induction e' with
    | zero => exact fun _ => ⟨hd, rfl⟩
    | succ e' ih =>
      intro he
      obtain ⟨h1, h2⟩ := ih (by omega)
      exact ⟨h.stay (n + e') h1 (hc.no (n + e') (by omega) (by omega)), (h.same (n + e') h1).trans h2⟩
  exact (this e (Nat.le_refl e)).2.symm

theorem Drives.before {edge : Nat → Prop} {d p : Nat → Bool} (h : Drives edge d p) {i j : Nat} (hc : Cyc edge i j) {n : Nat} (hn : i < n)
    (hj : n ≤ j) (hd : d n = true) : p n = p i := by
  obtain ⟨e, rfl⟩ := Nat.exists_eq_add_of_le (show i + 1 ≤ n from hn)
  clear hn
  induction e with
  | zero => exact h.keep _ hd
  | succ e ih =>
    have hprev : d (i + 1 + e) = true := by
      cases hh : d (i + 1 + e) with
      | true => rfl
      | false =>
        have := h.stay _ hh (hc.no _ (by omega) (by omega))
        rw [← Nat.add_assoc, this] at hd
        cases hd
    rw [← Nat.add_assoc] at hd ⊢
    exact (h.keep _ hd).trans (ih (by omega) hprev)

/-- In a cycle `pause` has the value of its first edge until the generator has its turn, then that of its last edge. -/
theorem Drives.either {edge : Nat → Prop} {d p : Nat → Bool} (h : Drives edge d p) {i j : Nat} (hc : Cyc edge i j) {n : Nat} (hn : i < n)
    (hj : n ≤ j) : p n = p i ∨ p n = p j := by
  cases hd : d n with
  | true => exact .inl (h.before hc hn hj hd)
  | false => exact .inr (h.after hc hn hj hd)

end

end Verif.PauseGen
