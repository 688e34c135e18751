import Verif.Spec.Readers

/-!
# C145: several readers
-/

namespace Verif.Readers

open Rx

variable {α : Type} (bytes : α → List Int)

/-- Where the items went. -/
structure Core (s : Rx α) : Prop where
  once : s.taken.map (·.2) ++ s.queue = s.captured
  recvs : s.taken.filterMap byRecv = s.items
  reads : s.out.flatMap (·.2) ++ s.readQueue = (s.taken.filterMap byRead).flatMap bytes

/-- Enough suspended calls have been woken. -/
def Awake (s : Rx α) : Prop := s.getters ≠ [] → s.queue.length ≤ s.woken.length

theorem filter_one (c : Option Call) (x : α) : List.filterMap byRead [(c, x)] = (byRead (c, x)).toList := by
  cases h : byRead (c, x) <;> simp [h]

theorem byRead_read (id : Nat) (n : Int) (x : α) : byRead (some ⟨id, some n⟩, x) = some x := rfl
theorem byRecv_read (id : Nat) (n : Int) (x : α) : byRecv (some ⟨id, some n⟩, x) = none := rfl
theorem byRead_recv (id : Nat) (x : α) : byRead (some ⟨id, none⟩, x) = none := rfl
theorem byRecv_recv (id : Nat) (x : α) : byRecv (some ⟨id, none⟩, x) = some (id, x) := rfl
theorem byRead_none (x : α) : byRead (none, x) = none := rfl
theorem byRecv_none (x : α) : byRecv (none, x) = none := rfl

theorem map_read (id : Nat) (n : Int) (l : List α) : (l.map fun x => (some (Call.mk id (some n)), x)).filterMap byRead = l := by
  induction l with
  | nil => rfl
  | cons x l ih => simp [byRead_read, ih]

theorem map_recv (id : Nat) (n : Int) (l : List α) : (l.map fun x => (some (Call.mk id (some n)), x)).filterMap byRecv = [] := by
  induction l with
  | nil => rfl
  | cons x l ih => rw [List.map_cons, List.filterMap_cons, byRecv_read]; exact ih

theorem map_none (l : List α) : (l.map fun x => ((none : Option Call), x)).filterMap byRecv = [] ∧
    (l.map fun x => ((none : Option Call), x)).filterMap byRead = [] := by
  induction l with
  | nil => exact ⟨rfl, rfl⟩
  | cons x l ih => rw [List.map_cons, List.filterMap_cons, List.filterMap_cons, byRecv_none, byRead_none]; exact ih

theorem Core.recvNowait {s : Rx α} (h : Core bytes s) (id : Nat) : Core bytes (s.recvNowait ⟨id, none⟩) := by
  unfold Rx.recvNowait
  cases hq : s.queue with
  | nil => exact h
  | cons x q =>
    refine ⟨by simpa [hq] using h.once, ?_, ?_⟩
    · rw [List.filterMap_append, h.recvs, List.filterMap_cons, byRecv_recv]; rfl
    · rw [List.filterMap_append, List.filterMap_cons, byRead_recv, List.filterMap_nil, List.append_nil]; exact h.reads

theorem Core.recv {s : Rx α} (h : Core bytes s) (id : Nat) : Core bytes (s.recv ⟨id, none⟩) := by
  have := h.recvNowait bytes id
  unfold Rx.recvNowait at this
  unfold Rx.recv
  cases hq : s.queue with
  | nil => exact ⟨by simpa [hq] using h.once, h.recvs, h.reads⟩
  | cons x q => rw [hq] at this; exact this

theorem Core.readNowait {s : Rx α} (h : Core bytes s) (id : Nat) (n m : Int) : Core bytes (s.readNowait bytes ⟨id, some n⟩ m) := by
  unfold Rx.readNowait
  refine ⟨?_, ?_, ?_⟩
  · simp only [List.map_append, List.map_map, List.append_nil]
    rw [← h.once]
    congr 1
    exact List.map_id' _
  · simp only [List.filterMap_append, map_recv, List.append_nil]; exact h.recvs
  · simp only [List.filterMap_append, map_read, List.flatMap_append, List.flatMap_cons, List.flatMap_nil, List.append_nil]
    rw [List.append_assoc, List.take_append_drop, ← List.append_assoc, h.reads]

theorem Core.readLoop (id : Nat) (n m : Int) : ∀ (q : List α) (s : Rx α), s.queue = q → Core bytes s →
    Core bytes (Rx.readLoop bytes ⟨id, some n⟩ m q s) := by
  intro q
  induction q with
  | nil => intro s hq h; exact ⟨by simpa [Rx.readLoop, hq] using h.once, h.recvs, h.reads⟩
  | cons x q ih =>
    intro s hq h
    simp only [Rx.readLoop]
    have h1 : Core bytes { s with queue := q, taken := s.taken ++ [(some ⟨id, some n⟩, x)], readQueue := s.readQueue ++ bytes x } := by
      refine ⟨by simpa [hq] using h.once, ?_, ?_⟩
      · rw [List.filterMap_append, h.recvs, List.filterMap_cons, byRecv_read]; simp
      · rw [List.filterMap_append, List.filterMap_cons, byRead_read, List.flatMap_append, ← h.reads]; simp
    split
    · exact ih _ rfl h1
    · exact h1.readNowait bytes id n m

theorem readLoop_queue (c : Call) (n : Int) : ∀ (q : List α) (s : Rx α), (Rx.readLoop bytes c n q s).queue = [] := by
  intro q
  induction q with
  | nil => intro s; rfl
  | cons x q ih =>
    intro s
    simp only [Rx.readLoop]
    split
    · exact ih _
    · rfl

theorem Core.step {s : Rx α} (h : Core bytes s) (e : Ev α) : Core bytes (s.step bytes e) := by
  cases e with
  | put x =>
    simp only [Rx.step, Rx.put]
    have h1 : Core bytes { s with queue := s.queue ++ [x], captured := s.captured ++ [x] } :=
      ⟨by simp only; rw [← List.append_assoc, h.once], h.recvs, h.reads⟩
    split
    · exact h1
    · exact ⟨h1.once, h1.recvs, h1.reads⟩
  | recv id => exact h.recv bytes id
  | recvNowait id => exact h.recvNowait bytes id
  | read id n =>
    simp only [Rx.step, Rx.read]
    split
    · exact Core.readLoop bytes id n n _ s rfl h
    · exact h.readNowait bytes id n n
  | readNowait id n => exact h.readNowait bytes id n n
  | turn i =>
    simp only [Rx.step]
    split
    · exact h
    · rename_i c _
      have h1 : Core bytes { s with woken := s.woken.eraseIdx i } := ⟨h.once, h.recvs, h.reads⟩
      obtain ⟨id, k⟩ := c
      cases k with
      | none => exact h1.recv bytes id
      | some n => exact Core.readLoop bytes id n n _ _ rfl h1
  | cancel i => exact ⟨h.once, h.recvs, h.reads⟩
  | clear =>
    refine ⟨?_, ?_, ?_⟩
    · simp only [Rx.step, Rx.clear, List.map_append, List.map_map, List.append_nil]
      rw [← h.once]
      congr 1
      exact List.map_id' _
    · simp only [Rx.step, Rx.clear, List.filterMap_append, (map_none _).1, List.append_nil]; exact h.recvs
    · simp only [Rx.step, Rx.clear, List.filterMap_append, (map_none _).2, List.append_nil]; exact h.reads

theorem Awake.step {s : Rx α} (h : Awake s) (e : Ev α) : Awake (s.step bytes e) := by
  have empty : ∀ t : Rx α, t.queue = [] → Awake t := fun t ht _ => by rw [ht]; exact Nat.zero_le _
  have takes : ∀ (t : Rx α) (id : Nat), (t.getters ≠ [] → t.queue.length ≤ t.woken.length + 1) → Awake (t.recv ⟨id, none⟩) := by
    intro t id ht
    unfold Rx.recv
    cases hq : t.queue with
    | nil => exact empty _ rfl
    | cons x q => intro hg; have := ht hg; rw [hq] at this; simpa using this
  cases e with
  | put x =>
    simp only [Rx.step, Rx.put]
    cases hg : s.getters with
    | nil => intro hn; exact absurd rfl hn
    | cons g rest =>
      intro _
      have := h (by rw [hg]; simp)
      simp only [List.length_append, List.length_cons, List.length_nil]
      omega
  | recv id => exact takes s id (fun hg => Nat.le_succ_of_le (h hg))
  | recvNowait id =>
    simp only [Rx.step, Rx.recvNowait]
    cases hq : s.queue with
    | nil => exact h
    | cons x q =>
      intro hg
      have := h hg
      rw [hq] at this
      simp only [List.length_cons] at this ⊢
      omega
  | read id n =>
    simp only [Rx.step, Rx.read]
    split
    · exact empty _ (readLoop_queue bytes _ _ _ _)
    · exact empty _ rfl
  | readNowait id n => exact empty _ rfl
  | turn i =>
    simp only [Rx.step]
    split
    · exact h
    · rename_i c hc
      obtain ⟨id, k⟩ := c
      have hi := (List.getElem?_eq_some_iff.1 hc).1
      cases k with
      | none =>
        refine takes _ id fun hg => ?_
        have := h hg
        simp only [List.length_eraseIdx, if_pos hi]
        omega
      | some n => exact empty _ (readLoop_queue bytes _ _ _ _)
  | cancel i =>
    intro hg
    exact h (fun hn => hg (by simp only [Rx.step, hn]; rfl))
  | clear => exact empty _ rfl

theorem run_inv (evs : List (Ev α)) : ∀ (s : Rx α), Core bytes s → Awake s →
    Core bytes (evs.foldl (Rx.step bytes) s) ∧ Awake (evs.foldl (Rx.step bytes) s) := by
  induction evs with
  | nil => intro s h1 h2; exact ⟨h1, h2⟩
  | cons e evs ih => intro s h1 h2; exact ih _ (h1.step bytes e) (h2.step bytes e)

theorem exec_inv (evs : List (Ev α)) : Core bytes (Rx.exec bytes evs) ∧ Awake (Rx.exec bytes evs) :=
  run_inv bytes evs {} ⟨rfl, rfl, rfl⟩ (fun h => absurd rfl h)

theorem recv_captured (s : Rx α) (c : Call) : (s.recv c).captured = s.captured := by
  unfold Rx.recv; split <;> rfl

theorem readLoop_captured (c : Call) (n : Int) : ∀ (q : List α) (s : Rx α), (Rx.readLoop bytes c n q s).captured = s.captured := by
  intro q
  induction q with
  | nil => intro s; rfl
  | cons x q ih =>
    intro s
    simp only [Rx.readLoop]
    split
    · exact ih _
    · rfl

theorem captured_eq (evs : List (Ev α)) : ∀ s : Rx α, (evs.foldl (Rx.step bytes) s).captured = s.captured ++ arrived evs := by
  induction evs with
  | nil => intro s; simp [arrived]
  | cons e evs ih =>
    intro s
    rw [List.foldl_cons, ih]
    cases e with
    | put x =>
      simp only [Rx.step, Rx.put, arrived]
      split <;> simp
    | recv id => simp only [Rx.step, recv_captured, arrived]
    | recvNowait id => simp only [Rx.step, Rx.recvNowait, arrived]; split <;> rfl
    | read id n =>
      simp only [Rx.step, Rx.read, arrived]
      split
      · rw [readLoop_captured]
      · rfl
    | readNowait id n => rfl
    | turn i =>
      simp only [Rx.step, arrived]
      split
      · rfl
      · simp only [Rx.resume]
        split
        · rw [recv_captured]
        · rw [readLoop_captured]
    | cancel i => rfl
    | clear => rfl

/-- **C145.** Every item that arrives goes to exactly one call (or is dropped by `clear()`), in the order of arrival, or is still in the queue; and the calls of
`recv()` and `recv_nowait()` return the items that went to them. -/
theorem C145_once (evs : List (Ev α)) :
    let s := Rx.exec bytes evs
    s.taken.map (·.2) ++ s.queue = arrived evs ∧ s.items = s.taken.filterMap byRecv := by
  intro s
  have h := (exec_inv bytes evs).1
  refine ⟨?_, h.recvs.symm⟩
  rw [show s.taken.map (·.2) ++ s.queue = s.captured from h.once]
  have := captured_eq bytes evs {}
  simpa [s, Rx.exec] using this

/-- **C145.** However the calls overlap, what `read()` and `read_nowait()` return, in the order of return, followed by what is left, are the bytes of the frames that went
to such calls: no byte is lost, repeated or out of order. -/
theorem C145_bytes (evs : List (Ev α)) :
    let s := Rx.exec bytes evs
    s.out.flatMap (·.2) ++ s.readQueue = (s.taken.filterMap byRead).flatMap bytes :=
  (exec_inv bytes evs).1.reads

/-- **C145.** No wake-up is lost: unless a woken call still has to get its turn, no call is suspended while there is an item in the queue. -/
theorem C145_no_lost_wakeup (evs : List (Ev α)) (hw : (Rx.exec bytes evs).woken = []) :
    (Rx.exec bytes evs).getters = [] ∨ (Rx.exec bytes evs).queue = [] := by
  have h := (exec_inv bytes evs).2
  unfold Awake at h
  cases hg : (Rx.exec bytes evs).getters with
  | nil => exact Or.inl rfl
  | cons g rest =>
    have := h (by rw [hg]; simp)
    rw [hw] at this
    exact Or.inr (List.length_eq_zero_iff.1 (by simpa using this))

theorem readLoop_returns (c : Call) (n : Int) : ∀ (q : List α) (s : Rx α), s.queue = q →
    let all := s.readQueue ++ q.flatMap bytes
    let m := if n < 0 then all.length else n.toNat
    let t := Rx.readLoop bytes c n q s
    (q = [] ∨ all = [] → t.out = s.out ∧ t.readQueue = s.readQueue ∧ t.getters = s.getters ++ [c]) ∧
    (q ≠ [] → all ≠ [] → t.out = s.out ++ [(c.id, all.take m)] ∧ t.readQueue = all.drop m ∧ t.getters = s.getters) := by
  intro q
  induction q with
  | nil => intro s _; exact ⟨fun _ => ⟨rfl, rfl, rfl⟩, fun h => absurd rfl h⟩
  | cons x q ih =>
    intro s hq
    simp only [Rx.readLoop, List.flatMap_cons]
    by_cases he : s.readQueue ++ bytes x = []
    · rw [if_pos he]
      obtain ⟨h1, h2⟩ := ih { s with queue := q, taken := s.taken ++ [(some c, x)], readQueue := s.readQueue ++ bytes x } rfl
      simp only at h1 h2
      have h3 : s.readQueue = [] := (List.append_eq_nil_iff.1 he).1
      have h4 : bytes x = [] := (List.append_eq_nil_iff.1 he).2
      simp only [h3, h4, List.nil_append] at h1 h2 ⊢
      refine ⟨fun h => h1 (Or.inr ?_), fun _ h => h2 ?_ h⟩
      · rcases h with h | h
        · cases h
        · exact h
      · rintro rfl; exact h rfl
    · rw [if_neg he]
      simp only [Rx.readNowait, List.append_assoc]
      refine ⟨fun h => ?_, fun _ _ => ⟨trivial, trivial, trivial⟩⟩
      rcases h with h | h
      · cases h
      · refine absurd ?_ he
        rw [← List.append_assoc] at h
        exact (List.append_eq_nil_iff.1 h).1

/-- **C145 (`read`).** A call of `read(count)` is suspended exactly if there is not a single byte; else it returns the first `count` bytes (all if `count` is
negative) of those left over and those of the queued frames, and leaves the rest. -/
theorem C145_read_returns (s : Rx α) (id : Nat) (n : Int) :
    let all := s.readQueue ++ s.queue.flatMap bytes
    let m := if n < 0 then all.length else n.toNat
    let t := s.step bytes (.read id n)
    (all = [] → t.out = s.out ∧ t.readQueue = [] ∧ t.getters = s.getters ++ [⟨id, some n⟩]) ∧
    (all ≠ [] → t.out = s.out ++ [(id, all.take m)] ∧ t.readQueue = all.drop m ∧ t.getters = s.getters) := by
  simp only [Rx.step, Rx.read]
  by_cases hr : s.readQueue = []
  · rw [if_pos hr]
    obtain ⟨h1, h2⟩ := readLoop_returns bytes ⟨id, some n⟩ n s.queue s rfl
    simp only [hr] at h1 h2 ⊢
    refine ⟨fun h => h1 (Or.inr h), fun h => h2 ?_ h⟩
    intro hq
    rw [hq] at h
    exact h rfl
  · rw [if_neg hr]
    exact ⟨fun h => absurd (List.append_eq_nil_iff.1 h).1 hr, fun _ => ⟨rfl, rfl, rfl⟩⟩

/-- **C145 (`read`).** A suspended `read(count)` that gets its turn does the same, if there is a frame. -/
theorem C145_read_resumes (s : Rx α) (i id : Nat) (n : Int) (hi : s.woken[i]? = some ⟨id, some n⟩) :
    let all := s.readQueue ++ s.queue.flatMap bytes
    let m := if n < 0 then all.length else n.toNat
    let t := s.step bytes (.turn i)
    (s.queue = [] ∨ all = [] → t.out = s.out ∧ t.readQueue = s.readQueue ∧ t.getters = s.getters ++ [⟨id, some n⟩]) ∧
    (s.queue ≠ [] → all ≠ [] → t.out = s.out ++ [(id, all.take m)] ∧ t.readQueue = all.drop m ∧ t.getters = s.getters) := by
  have ht : s.step bytes (.turn i) = Rx.readLoop bytes ⟨id, some n⟩ n s.queue { s with woken := s.woken.eraseIdx i } := by
    simp only [Rx.step, hi, Rx.resume]
  simp only [ht]
  exact readLoop_returns bytes ⟨id, some n⟩ n s.queue { s with woken := s.woken.eraseIdx i } rfl

theorem readNowait_rest (s : Rx α) (c : Call) (n : Int) (hn : n < 0) : (s.readNowait bytes c n).readQueue = [] := by
  simp only [Rx.readNowait, if_pos hn]
  exact List.drop_length

theorem readLoop_rest (c : Call) (n : Int) (hn : n < 0) : ∀ (q : List α) (s : Rx α), s.readQueue = [] → (Rx.readLoop bytes c n q s).readQueue = [] := by
  intro q
  induction q with
  | nil => intro s h; exact h
  | cons x q ih =>
    intro s h
    simp only [Rx.readLoop]
    split
    · rename_i he; exact ih _ he
    · exact readNowait_rest bytes _ c n hn

theorem readLoop_asleep (c : Call) (n : Int) : ∀ (q : List α) (s : Rx α),
    (Rx.readLoop bytes c n q s).woken = s.woken ∧
      ((Rx.readLoop bytes c n q s).getters = s.getters ∨ (Rx.readLoop bytes c n q s).getters = s.getters ++ [c]) := by
  intro q
  induction q with
  | nil => intro s; exact ⟨rfl, Or.inr rfl⟩
  | cons x q ih =>
    intro s
    simp only [Rx.readLoop]
    split
    · exact ih _
    · exact ⟨rfl, Or.inl rfl⟩

/-- Nothing is left over by reads of everything. -/
def Greedy (s : Rx α) : Prop := s.readQueue = [] ∧ ∀ c ∈ s.woken ++ s.getters, ∀ n, c.count = some n → n < 0

theorem Greedy.step {s : Rx α} (h : Greedy s) (e : Ev α) (he : e.greedy = true) : Greedy (s.step bytes e) := by
  obtain ⟨h1, h2⟩ := h
  have hw : ∀ c ∈ s.woken, ∀ n, c.count = some n → n < 0 := fun c hc => h2 c (List.mem_append_left _ hc)
  have hg : ∀ c ∈ s.getters, ∀ n, c.count = some n → n < 0 := fun c hc => h2 c (List.mem_append_right _ hc)
  have mk : ∀ t : Rx α, t.readQueue = [] → (∀ c ∈ t.woken, ∀ n, c.count = some n → n < 0) →
      (∀ c ∈ t.getters, ∀ n, c.count = some n → n < 0) → Greedy t := fun t a b c => ⟨a, fun x hx => (List.mem_append.1 hx).elim (b x) (c x)⟩
  have recvs : ∀ (t : Rx α) (id : Nat), Greedy t → Greedy (t.recv ⟨id, none⟩) := by
    intro t id ⟨a, b⟩
    unfold Rx.recv
    split
    · refine ⟨a, fun c hc => ?_⟩
      simp only [List.mem_append, List.mem_singleton] at hc
      rcases hc with hc | hc | rfl
      · exact b c (List.mem_append_left _ hc)
      · exact b c (List.mem_append_right _ hc)
      · intro n hn; cases hn
    · exact ⟨a, b⟩
  have loops : ∀ (t : Rx α) (id : Nat) (n : Int), n < 0 → Greedy t → Greedy (Rx.readLoop bytes ⟨id, some n⟩ n t.queue t) := by
    intro t id n hn ⟨a, b⟩
    obtain ⟨l1, l2⟩ := readLoop_asleep bytes ⟨id, some n⟩ n t.queue t
    refine ⟨readLoop_rest bytes _ n hn _ t a, fun c hc => ?_⟩
    rw [l1, List.mem_append] at hc
    rcases hc with hc | hc
    · exact b c (List.mem_append_left _ hc)
    · rcases l2 with l2 | l2
      · rw [l2] at hc; exact b c (List.mem_append_right _ hc)
      · rw [l2, List.mem_append, List.mem_singleton] at hc
        rcases hc with hc | rfl
        · exact b c (List.mem_append_right _ hc)
        · intro m hm; injection hm with hm; omega
  cases e with
  | put x =>
    simp only [Rx.step, Rx.put]
    cases hq : s.getters with
    | nil => exact mk _ h1 hw (fun c hc => by cases hc)
    | cons g rest =>
      rw [hq] at hg
      refine mk _ h1 ?_ fun c hc => hg c (List.mem_cons_of_mem _ hc)
      intro c hc
      simp only [List.mem_append, List.mem_singleton] at hc
      rcases hc with hc | rfl
      · exact hw c hc
      · exact hg c (List.mem_cons_self ..)
  | recv id => exact recvs s id ⟨h1, h2⟩
  | recvNowait id => simp only [Rx.step, Rx.recvNowait]; split <;> exact ⟨h1, h2⟩
  | read id n =>
    have hn : n < 0 := by simpa [Ev.greedy] using he
    simp only [Rx.step, Rx.read, if_pos h1]
    exact loops s id n hn ⟨h1, h2⟩
  | readNowait id n =>
    have hn : n < 0 := by simpa [Ev.greedy] using he
    exact ⟨readNowait_rest bytes s _ n hn, h2⟩
  | turn i =>
    simp only [Rx.step]
    split
    · exact ⟨h1, h2⟩
    · rename_i c hc
      have h3 : Greedy { s with woken := s.woken.eraseIdx i } := mk _ h1 (fun c hc => hw c (List.mem_of_mem_eraseIdx hc)) hg
      have h4 := hw c (List.mem_of_getElem? hc)
      obtain ⟨id, k⟩ := c
      cases k with
      | none => exact recvs _ id h3
      | some n => exact loops _ id n (h4 n rfl) h3
  | cancel i => exact mk _ h1 hw fun c hc => hg c (List.mem_of_mem_eraseIdx hc)
  | clear => exact ⟨h1, h2⟩

/-- **C145.** If all `read()` calls ask for everything there is (the default), then unless a woken call still has to get its turn, no call is suspended while there
are bytes to be read. Missing: that this holds for `read(count)`, which is false. -/
theorem C145_read_partial (evs : List (Ev α)) (he : ∀ e ∈ evs, e.greedy = true) (hw : (Rx.exec bytes evs).woken = []) :
    (Rx.exec bytes evs).getters = [] ∨ ((Rx.exec bytes evs).queue = [] ∧ (Rx.exec bytes evs).readQueue = []) := by
  have key : ∀ (evs : List (Ev α)) (s : Rx α), (∀ e ∈ evs, e.greedy = true) → Greedy s → Greedy (evs.foldl (Rx.step bytes) s) := by
    intro evs
    induction evs with
    | nil => intro s _ h; exact h
    | cons e evs ih => intro s he h; exact ih _ (fun x hx => he x (List.mem_cons_of_mem _ hx)) (h.step bytes e (he e (List.mem_cons_self ..)))
  have hg := key evs {} he ⟨rfl, fun c hc => by cases hc⟩
  rcases C145_no_lost_wakeup bytes evs hw with h | h
  · exact Or.inl h
  · exact Or.inr ⟨h, hg.1⟩

/-- C145 is false of `read(count)`: two calls `read(1)` wait, a frame of two bytes arrives; the first call returns one byte, and the second stays suspended
although the other byte can be read. -/
theorem C145_read_violated :
    let s := Rx.exec (id : List Int → List Int) [.read 1 1, .read 2 1, .put [10, 11], .turn 0]
    s.woken = [] ∧ s.out = [(1, [10])] ∧ s.readQueue = [11] ∧ s.getters = [⟨2, some 1⟩] := by decide

/-- The order of service, from any state in which every woken call has an item. -/
theorem order_run (evs : List (Ev α)) : ∀ (s : Rx α), orderly bytes s evs → Awake s → s.woken.length ≤ s.queue.length →
    (∀ c ∈ s.woken ++ s.getters, c.count = none) →
    let t := evs.foldl (Rx.step bytes) s
    t.items.map (·.1) ++ (t.woken ++ t.getters).map (·.id) = s.items.map (·.1) ++ (s.woken ++ s.getters).map (·.id) ++ calls evs := by
  induction evs with
  | nil => intro s _ _ _ _; simp [calls]
  | cons e evs ih =>
    intro s ho ha hl hk
    obtain ⟨h1, h2⟩ := ho
    have ha' := ha.step bytes e
    simp only [List.foldl_cons]
    cases e with
    | put x =>
      have := ih _ h2 ha' (by
        simp only [Rx.step, Rx.put]
        split
        · simp only [List.length_append]; omega
        · simp only [List.length_append, List.length_cons, List.length_nil]; omega) (by
        simp only [Rx.step, Rx.put]
        split
        · exact hk
        · rename_i g rest hg
          intro c hc
          apply hk c
          simp only [hg] at hc ⊢
          simpa using hc)
      simp only at this ⊢
      rw [this]
      simp only [Rx.step, Rx.put, calls]
      split
      · rfl
      · rename_i g rest hg
        simp [hg]
    | recv id =>
      simp only at h1
      have := ih _ h2 ha' (by simp only [Rx.step, Rx.recv]; split <;> simp [h1]) (by
        simp only [Rx.step, Rx.recv]
        split
        · intro c hc
          simp only [List.mem_append, List.mem_singleton] at hc
          rcases hc with hc | hc | rfl
          · exact hk c (by simp [hc])
          · exact hk c (by simp [hc])
          · rfl
        · exact hk)
      simp only at this ⊢
      rw [this]
      simp only [Rx.step, Rx.recv, calls]
      split
      · simp
      · rename_i x q hq
        have hg : s.getters = [] := by
          cases hg : s.getters with
          | nil => rfl
          | cons g rest => have := ha (by rw [hg]; simp); rw [hq, h1] at this; simp at this
        simp [h1, hg]
    | turn i =>
      simp only at h1
      subst h1
      cases hwk : s.woken with
      | nil =>
        have hst : s.step bytes (.turn 0) = s := by simp [Rx.step, hwk]
        rw [hst] at ha' h2 ⊢
        have := ih s h2 ha' hl hk
        simp only [hwk] at this
        simpa [calls] using this
      | cons g rest =>
        have hgk := hk g (by simp [hwk])
        obtain ⟨id, k⟩ := g
        simp only at hgk
        subst hgk
        cases hq : s.queue with
        | nil => rw [hwk, hq] at hl; simp at hl
        | cons x q =>
          have hst : s.step bytes (.turn 0) =
              { s with woken := rest, queue := q, taken := s.taken ++ [(some ⟨id, none⟩, x)], items := s.items ++ [(id, x)] } := by
            simp [Rx.step, hwk, Rx.resume, Rx.recv, hq]
          rw [hst] at ha' h2 ⊢
          have := ih _ h2 ha' (by rw [hwk, hq] at hl; simpa using hl) (by
            intro c hc; apply hk c; simp only [hwk, List.cons_append]; exact List.mem_cons_of_mem _ hc)
          simp only at this ⊢
          rw [this]
          simp [calls]
    | recvNowait id => exact h1.elim
    | read id n => exact h1.elim
    | readNowait id n => exact h1.elim
    | cancel i => exact h1.elim
    | clear => exact h1.elim

/-- **C145.** If only `recv()` is used, and no call is made while a woken one still has to get its turn, calls are served in the order in which they were made: those that
returned, in the order of return, and then those that wait, are the calls in the order of their making. Missing: that this holds whenever calls are made, which is false. -/
theorem C145_order_partial (evs : List (Ev α)) (h : orderly bytes {} evs) :
    let s := Rx.exec bytes evs
    s.items.map (·.1) ++ (s.woken ++ s.getters).map (·.id) = calls evs := by
  have := order_run bytes evs {} h (fun h => absurd rfl h) (Nat.le_refl _) (fun c hc => by cases hc)
  simpa [Rx.exec] using this

/-- C145 is false of the order in general: a call made between the arrival of an item and the turn of the call that was woken for it takes the item, again and
again. However many items arrive, the first reader may get none. -/
theorem C145_order_violated (n : Nat) :
    let s := Rx.exec (id : List Int → List Int) (.recv 1 :: (List.replicate n [.put [0], .recv 2, .turn 0]).flatten)
    s.items = List.replicate n (2, [0]) ∧ s.getters = [⟨1, none⟩] ∧ s.woken = [] ∧ s.queue = [] := by
  have key : ∀ (n : Nat) (s : Rx (List Int)), s.getters = [⟨1, none⟩] → s.woken = [] → s.queue = [] →
      let t := (List.replicate n [Ev.put [0], .recv 2, .turn 0]).flatten.foldl (Rx.step id) s
      t.items = s.items ++ List.replicate n (2, [0]) ∧ t.getters = [⟨1, none⟩] ∧ t.woken = [] ∧ t.queue = [] := by
    intro n
    induction n with
    | zero => intro s h1 h2 h3; simp [h1, h2, h3]
    | succ n ih =>
      intro s h1 h2 h3
      rw [List.replicate_succ, List.flatten_cons, List.foldl_append]
      obtain ⟨a, b⟩ := ih ([Ev.put [0], .recv 2, .turn 0].foldl (Rx.step id) s) (by simp [Rx.step, Rx.put, Rx.recv, Rx.resume, h1, h2, h3])
        (by simp [Rx.step, Rx.put, Rx.recv, Rx.resume, h1, h2, h3]) (by simp [Rx.step, Rx.put, Rx.recv, Rx.resume, h1, h2, h3])
      refine ⟨?_, b⟩
      rw [a]
      simp [Rx.step, Rx.put, Rx.recv, Rx.resume, h1, h2, h3, List.replicate_succ]
  have := key n (Rx.step id {} (.recv 1)) rfl rfl rfl
  simpa [Rx.exec, Rx.step, Rx.recv] using this

example : (Rx.exec (id : List Int → List Int) [.put [], .put [3, 4, 5], .read 1 2, .put [6], .read 2 0, .read 3 (-1)]).out =
    [(1, [3, 4]), (2, []), (3, [5, 6])] := by decide
example : (Rx.exec (id : List Int → List Int) [.read 1 2, .put [3, 4, 5]]).woken[0]? = some ⟨1, some 2⟩ := by decide

/-! Two readers wait, three items arrive: the hypotheses are met and the readers are served in order. -/

/-- The history of the example. -/
def exEvs : List (Ev (List Int)) := [.recv 1, .recv 2, .put [5], .put [6], .put [7], .turn 0, .turn 0, .recv 3]

example : orderly (id : List Int → List Int) {} exEvs ∧ (Rx.exec id exEvs).items = [(1, [5]), (2, [6]), (3, [7])] ∧ (Rx.exec id exEvs).woken = [] := by
  simp [orderly, exEvs, Rx.exec, Rx.step, Rx.put, Rx.recv, Rx.resume]
example : (∀ e ∈ ([.read 1 (-1), .read 2 (-1), .put [], .put [8, 9], .turn 1, .turn 0] : List (Ev (List Int))), e.greedy = true) ∧
    (Rx.exec id [.read 1 (-1), .read 2 (-1), .put [], .put [8, 9], .turn 1, .turn 0]).out = [(2, [8, 9])] ∧
    (Rx.exec id [.read 1 (-1), .read 2 (-1), .put [], .put [8, 9], .turn 1, .turn 0]).getters = [⟨1, some (-1)⟩] := by
  refine ⟨by simp [Ev.greedy], by decide, by decide⟩

end Verif.Readers
