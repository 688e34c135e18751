import Verif.Model.StreamReaders
import Verif.Props.Stream
import Verif.Props.Readers

/-!
# C145: several readers of a generic stream sink or monitor

`C145_stream_sink`, `C145_stream_monitor`: whatever the calls of the users, the component goes through states that it has in `Model/Stream.lean`, with the same
events on the bus; what the calls returned, in the order of their returns, is what was taken from the queue; no call is served twice; and when no woken call
awaits its turn, calls are suspended only if the queue is empty.
-/

namespace Verif.StreamReaders

open Verif.Stream

variable {σ ε α : Type}

/-- The events of a history that are not calls. -/
def busEvents (C : Comp σ ε α) (evs : List (Ev ε)) : List ε := evs.filterMap fun
  | .bus e => if C.isCall e then none else some e
  | _ => none

/-- How often a call was made. -/
def calls (id : Nat) (evs : List (Ev ε)) : Nat := evs.countP fun
  | .recv i => i == id
  | .recvNowait i => i == id
  | _ => false

/-- Events that do not end a call numbered `id` without an item: `recv_nowait()` may raise. -/
def keeps (id : Nat) : Ev ε → Bool
  | .cancel _ => false
  | .recvNowait i => i != id
  | _ => true

/-- How often a call numbered `id` has returned, is suspended, or is woken. -/
def Sys.tally (s : Sys σ α) (id : Nat) : Nat := (s.items.map Prod.fst).count id + s.getters.count id + s.woken.count id

/-- What an event that is not a call does to a queue: nothing, one more item, or `clear()`. -/
def Moved (q q' : List α) : Prop := q' = q ∨ (∃ x, q' = q ++ [x]) ∨ q' = []

theorem Moved.length {q q' : List α} (h : Moved q q') : q'.length ≤ q.length + 1 := by
  rcases h with rfl | ⟨x, rfl⟩ | rfl <;> simp

theorem moved_toList (q : List α) (d : Option α) : Moved q (q ++ d.toList) := by
  cases d with
  | none => exact .inl (by simp)
  | some x => exact .inr (.inl ⟨x, rfl⟩)

/-- What the readers need of a component. -/
structure Laws (C : Comp σ ε α) : Prop where
  queue0 : C.queue C.start = []
  got0 : C.got C.start = []
  isRecv : C.isCall C.recv = true
  recv : ∀ s x q, C.queue s = x :: q → C.queue (C.step s C.recv) = q ∧ C.got (C.step s C.recv) = C.got s ++ [x]
  other : ∀ s e, C.isCall e = false → C.got (C.step s e) = C.got s ∧ Moved (C.queue s) (C.queue (C.step s e))

theorem sink_laws (c : Cfg) : Laws (sink c α) where
  queue0 := rfl
  got0 := rfl
  isRecv := rfl
  recv s x q h := by
    simp only [sink] at h ⊢
    simp [SnkSys.step, Snk.recv, h, Snk.setWake]
  other s e h := by
    have hcap : ∀ (t : Snk α) v d, (t.capture c v d).got = t.got ∧ Moved t.queue (t.capture c v d).queue := by
      intro t v d
      simp only [Snk.capture]
      split
      · exact ⟨rfl, moved_toList _ _⟩
      · exact ⟨rfl, .inl rfl⟩
    have hfin : ∀ (t : Snk α) v, (t.finish c v).got = t.got ∧ (t.finish c v).queue = t.queue := by
      intro t v
      simp only [Snk.finish, Snk.top]
      split
      · split <;> exact ⟨rfl, rfl⟩
      · split <;> exact ⟨rfl, rfl⟩
    have hsw : ∀ t : Snk α, t.setWake.got = t.got ∧ t.setWake.queue = t.queue := fun t => ⟨rfl, rfl⟩
    simp only [sink] at h ⊢
    cases e with
    | recv => cases h
    | run =>
      simp only [SnkSys.step]
      split
      · simp only [Snk.run]
        rw [(hfin _ _).1, (hfin _ _).2]
        exact hcap _ _ _
      · exact ⟨rfl, .inl rfl⟩
    | clear => exact ⟨rfl, .inr (.inr rfl)⟩
    | pause v =>
      simp only [SnkSys.step, Snk.setPause]
      split
      · exact ⟨rfl, .inl rfl⟩
      · exact ⟨rfl, .inl rfl⟩
    | reset v =>
      simp only [SnkSys.step, Snk.reset]
      split
      · exact ⟨rfl, .inl rfl⟩
      · split <;> exact ⟨rfl, .inl rfl⟩
    | tick => simp only [SnkSys.step]; split <;> exact ⟨rfl, .inl rfl⟩
    | wake => simp only [SnkSys.step]; split <;> exact ⟨rfl, .inl rfl⟩
    | spurious => simp only [SnkSys.step]; split <;> exact ⟨rfl, .inl rfl⟩
    | commit =>
      simp only [SnkSys.step]
      split
      · simp only
        split <;> exact ⟨rfl, .inl rfl⟩
      · exact ⟨rfl, .inl rfl⟩
    | env v d =>
      simp only [SnkSys.step]
      split
      · exact ⟨rfl, .inl rfl⟩
      · simp only
        split <;> exact ⟨rfl, .inl rfl⟩

theorem monitor_laws (c : Cfg) : Laws (monitor c α) where
  queue0 := rfl
  got0 := rfl
  isRecv := rfl
  recv s x q h := by
    simp only [monitor] at h ⊢
    simp [MonSys.step, Mon.recv, h]
  other s e h := by
    simp only [monitor] at h ⊢
    cases e with
    | recv => cases h
    | run =>
      simp only [MonSys.step]
      split
      · simp only [Mon.run]
        split
        · exact ⟨rfl, moved_toList _ _⟩
        · exact ⟨rfl, .inl rfl⟩
      · exact ⟨rfl, .inl rfl⟩
    | clear => exact ⟨rfl, .inr (.inr rfl)⟩
    | reset v =>
      simp only [MonSys.step, Mon.reset]
      split
      · exact ⟨rfl, .inl rfl⟩
      · split <;> exact ⟨rfl, .inl rfl⟩
    | tick => simp only [MonSys.step]; split <;> exact ⟨rfl, .inl rfl⟩
    | wake => simp only [MonSys.step]; split <;> exact ⟨rfl, .inl rfl⟩
    | spurious => simp only [MonSys.step]; split <;> exact ⟨rfl, .inl rfl⟩
    | env v r d =>
      simp only [MonSys.step]
      split
      · exact ⟨rfl, .inl rfl⟩
      · simp only
        split <;> exact ⟨rfl, .inl rfl⟩

/-- What holds of every reachable state, after the events `evs`. -/
structure Good (C : Comp σ ε α) (evs : List (Ev ε)) (s : Sys σ α) : Prop where
  reach : ∃ l : List ε, s.sys = l.foldl C.step C.start ∧ l.filter (fun e => !C.isCall e) = busEvents C evs
  got : s.items.map Prod.snd = C.got s.sys
  once : ∀ id, s.tally id ≤ calls id evs
  all : ∀ id, (∀ e ∈ evs, keeps id e = true) → s.tally id = calls id evs
  awake : s.getters ≠ [] → (C.queue s.sys).length ≤ s.woken.length

/-- A call of `recv` that is made, or goes on, in a state whose bookkeeping of calls lacks it. -/
theorem recv_good {C : Comp σ ε α} (L : Laws C) {evs evs' : List (Ev ε)} {s : Sys σ α} (id : Nat)
    (hb : busEvents C evs' = busEvents C evs)
    (reach : ∃ l : List ε, s.sys = l.foldl C.step C.start ∧ l.filter (fun e => !C.isCall e) = busEvents C evs)
    (got : s.items.map Prod.snd = C.got s.sys)
    (once : ∀ j, s.tally j + [id].count j ≤ calls j evs')
    (all : ∀ j, (∀ e ∈ evs', keeps j e = true) → s.tally j + [id].count j = calls j evs')
    (awake : s.getters ≠ [] → (C.queue s.sys).length ≤ s.woken.length + 1) : Good C evs' (s.recv C id) := by
  obtain ⟨l, h1, h2⟩ := reach
  have ht : ∀ j, (s.recv C id).tally j = s.tally j + [id].count j := by
    intro j
    unfold Sys.recv Sys.tally
    split
    · simp only [List.count_append]; omega
    · simp only [List.map_append, List.map_cons, List.map_nil, List.count_append]; omega
  have once' : ∀ j, (s.recv C id).tally j ≤ calls j evs' := fun j => by rw [ht]; exact once j
  have all' : ∀ j, (∀ e ∈ evs', keeps j e = true) → (s.recv C id).tally j = calls j evs' := fun j hj => by rw [ht]; exact all j hj
  unfold Sys.recv at once' all' ⊢
  split at once' <;> rename_i hq <;> simp only [hq] at all' ⊢
  · exact ⟨⟨l, h1, by rw [h2, hb]⟩, got, once', all', fun _ => by simp [hq]⟩
  · obtain ⟨r1, r2⟩ := L.recv _ _ _ hq
    refine ⟨⟨l ++ [C.recv], ?_, ?_⟩, ?_, once', all', fun h => ?_⟩
    · simp [List.foldl_append, h1]
    · simp [List.filter_append, h2, hb, L.isRecv]
    · simp [got, r2]
    · have := awake h
      rw [hq] at this
      simp only [r1]
      simp only [List.length_cons] at this
      omega

theorem busEvents_snoc (C : Comp σ ε α) (evs : List (Ev ε)) (e : Ev ε) : busEvents C (evs ++ [e]) = busEvents C evs ++ busEvents C [e] := by
  simp only [busEvents, List.filterMap_append]

theorem calls_snoc (id : Nat) (evs : List (Ev ε)) (e : Ev ε) : calls id (evs ++ [e]) = calls id evs + calls id [e] := by
  simp only [calls, List.countP_append]

theorem count_eraseIdx_le (l : List Nat) (i j : Nat) : (l.eraseIdx i).count j ≤ l.count j :=
  (List.eraseIdx_sublist l i).count_le j

theorem count_eraseIdx (l : List Nat) : ∀ (i id : Nat), l[i]? = some id → ∀ j, (l.eraseIdx i).count j + [id].count j = l.count j := by
  induction l with
  | nil => intro i id h; simp at h
  | cons a l ih =>
    intro i id h j
    cases i with
    | zero =>
      simp only [List.getElem?_cons_zero, Option.some.injEq] at h
      subst h
      simp only [List.eraseIdx_cons_zero, List.count_cons, List.count_nil]
      omega
    | succ i =>
      have := ih i id (by simpa using h) j
      simp only [List.eraseIdx_cons_succ, List.count_cons] at this ⊢
      omega

theorem keeps_snoc {id : Nat} {evs : List (Ev ε)} {e : Ev ε} (h : ∀ x ∈ evs ++ [e], keeps id x = true) :
    (∀ x ∈ evs, keeps id x = true) ∧ keeps id e = true :=
  ⟨fun x hx => h x (List.mem_append_left _ hx), h e (by simp)⟩

theorem step_good {C : Comp σ ε α} (L : Laws C) {evs : List (Ev ε)} {s : Sys σ α} (h : Good C evs s) (e : Ev ε) :
    Good C (evs ++ [e]) (s.step C e) := by
  cases e with
  | bus e =>
    have hc : ∀ id, calls id (evs ++ [Ev.bus e]) = calls id evs := fun id => by rw [calls_snoc]; rfl
    simp only [Sys.step]
    by_cases hi : C.isCall e = true
    · rw [if_pos hi]
      obtain ⟨l, h1, h2⟩ := h.reach
      exact ⟨⟨l, h1, by rw [h2, busEvents_snoc]; simp [busEvents, hi]⟩, h.got, fun id => by rw [hc]; exact h.once id,
        fun id hk => by rw [hc]; exact h.all id (keeps_snoc hk).1, h.awake⟩
    · rw [if_neg hi]
      have hf : C.isCall e = false := by simpa using hi
      obtain ⟨o1, o2⟩ := L.other s.sys e hf
      have o2 := o2.length
      obtain ⟨l, h1, h2⟩ := h.reach
      have reach : ∃ l : List ε, C.step s.sys e = l.foldl C.step C.start ∧ l.filter (fun e => !C.isCall e) = busEvents C (evs ++ [Ev.bus e]) :=
        ⟨l ++ [e], by simp [List.foldl_append, h1], by rw [busEvents_snoc]; simp [List.filter_append, h2, hf, busEvents]⟩
      have hw := h.awake
      split
      · unfold Sys.wakeFirst
        simp only
        split
        · rename_i hg
          exact ⟨reach, by rw [o1]; exact h.got, fun id => by rw [hc]; exact h.once id,
            fun id hk => by rw [hc]; exact h.all id (keeps_snoc hk).1, fun hn => absurd hg hn⟩
        · rename_i g rest hg
          have ht : ∀ id, Sys.tally { s with sys := C.step s.sys e, getters := rest, woken := s.woken ++ [g] } id = s.tally id := by
            intro id
            unfold Sys.tally
            rw [hg]
            simp only [List.count_append, List.count_cons, List.count_nil]
            omega
          refine ⟨reach, by simp only [o1]; exact h.got, fun id => by rw [hc]; exact ht id ▸ h.once id,
            fun id hk => by rw [hc]; exact (ht id).trans (h.all id (keeps_snoc hk).1), fun _ => ?_⟩
          have := hw (by rw [hg]; simp)
          simp only [List.length_append, List.length_cons, List.length_nil]
          omega
      · rename_i hlt
        exact ⟨reach, by simp only [o1]; exact h.got, fun id => by rw [hc]; exact h.once id,
          fun id hk => by rw [hc]; exact h.all id (keeps_snoc hk).1, fun hn => by have := hw hn; simp only at hlt ⊢; omega⟩
  | recv id =>
    have e1 : ∀ j, calls j [(Ev.recv id : Ev ε)] = [id].count j := fun j => by simp [calls, List.countP_cons, List.count_cons]
    refine recv_good L id (by rw [busEvents_snoc]; simp [busEvents]) h.reach h.got (fun j => ?_) (fun j hk => ?_) (fun hn => by have := h.awake hn; omega)
    · rw [calls_snoc, e1]; have := h.once j; omega
    · rw [calls_snoc, e1, h.all j (keeps_snoc hk).1]
  | recvNowait id =>
    have e2 : ∀ j, calls j [(Ev.recvNowait id : Ev ε)] = [id].count j := by intro j; simp [calls, List.countP_cons, List.count_cons]
    simp only [Sys.step]
    split
    · obtain ⟨l, h1, h2⟩ := h.reach
      refine ⟨⟨l, h1, by rw [h2, busEvents_snoc]; simp [busEvents]⟩, h.got, fun j => ?_, fun j hk => ?_, h.awake⟩
      · rw [calls_snoc]; have := h.once j; omega
      · rw [calls_snoc, e2, h.all j (keeps_snoc hk).1]
        have := (keeps_snoc hk).2
        simp only [keeps, bne_iff_ne] at this
        simp [this]
    · refine recv_good L id (by rw [busEvents_snoc]; simp [busEvents]) h.reach h.got (fun j => ?_) (fun j hk => ?_) (fun hn => by have := h.awake hn; omega)
      · rw [calls_snoc, e2]; have := h.once j; omega
      · rw [calls_snoc, e2, h.all j (keeps_snoc hk).1]
  | turn i =>
    have hb : busEvents C (evs ++ [Ev.turn i]) = busEvents C evs := by rw [busEvents_snoc]; simp [busEvents]
    have hc : ∀ j, calls j (evs ++ [Ev.turn i]) = calls j evs := fun j => by rw [calls_snoc]; rfl
    simp only [Sys.step]
    split
    · obtain ⟨l, h1, h2⟩ := h.reach
      exact ⟨⟨l, h1, by rw [h2, hb]⟩, h.got, fun j => by rw [hc]; exact h.once j,
        fun j hk => by rw [hc]; exact h.all j (keeps_snoc hk).1, h.awake⟩
    · rename_i id hi
      have ht : ∀ j, Sys.tally { s with woken := s.woken.eraseIdx i } j + [id].count j = s.tally j := by
        intro j
        have := count_eraseIdx _ _ _ hi j
        unfold Sys.tally
        simp only
        omega
      refine recv_good L id hb h.reach h.got (fun j => ?_) (fun j hk => ?_) (fun hn => ?_)
      · rw [hc, ht]; exact h.once j
      · rw [hc, ht]; exact h.all j (keeps_snoc hk).1
      · have := h.awake hn
        have hlt : i < s.woken.length := by
          rcases Nat.lt_or_ge i s.woken.length with h | h
          · exact h
          · rw [List.getElem?_eq_none h] at hi; cases hi
        simp only [List.length_eraseIdx, hlt, if_true]
        omega
  | cancel i =>
    obtain ⟨l, h1, h2⟩ := h.reach
    refine ⟨⟨l, h1, by rw [h2, busEvents_snoc]; simp [busEvents]⟩, h.got, fun j => ?_, fun j hk => ?_,
      fun hn => h.awake (fun h0 => hn (by simp [Sys.step, h0]))⟩
    · have := h.once j
      have h3 := count_eraseIdx_le s.getters i j
      rw [calls_snoc]
      simp only [Sys.step, Sys.tally] at this ⊢
      omega
    · have := (keeps_snoc hk).2
      cases this

theorem exec_good {C : Comp σ ε α} (L : Laws C) (evs : List (Ev ε)) : Good C evs (Sys.exec C evs) := by
  have : ∀ (evs pre : List (Ev ε)) (s : Sys σ α), Good C pre s → Good C (pre ++ evs) (evs.foldl (Sys.step C) s) := by
    intro evs
    induction evs with
    | nil => intro pre s h; simpa using h
    | cons e evs ih =>
      intro pre s h
      have := ih (pre ++ [e]) _ (step_good L h e)
      simpa using this
  have h0 : Good C [] ({ sys := C.start } : Sys σ α) :=
    ⟨⟨[], rfl, rfl⟩, by simp [L.got0], fun id => by simp [calls, Sys.tally], fun id _ => by simp [calls, Sys.tally], fun h => absurd rfl h⟩
  have h1 := this evs [] _ h0
  rw [List.nil_append] at h1
  exact h1

/-! The calls are served as in `Model/Readers.lean`. -/

/-- The call, turn or cancellation of an event, in `Model/Readers.lean`. -/
def Ev.abs : Ev ε → Option (Readers.Ev α)
  | .bus _ => none
  | .recv id => some (.recv id)
  | .recvNowait id => some (.recvNowait id)
  | .turn i => some (.turn i)
  | .cancel i => some (.cancel i)

/-- The events of `Model/Readers.lean` that are not items received and `clear()`. -/
def readers (l : List (Readers.Ev α)) : List (Readers.Ev α) := l.filter fun
  | .put _ | .clear => false
  | _ => true

/-- No bytes: generic streams have no `read()`. -/
def noBytes (_ : α) : List Int := []

/-- A waiting call, in `Model/Readers.lean`. -/
def call (id : Nat) : Readers.Call := ⟨id, none⟩

/-- The two models agree. -/
structure Agrees (C : Comp σ ε α) (s : Sys σ α) (r : Readers.Rx α) : Prop where
  queue : r.queue = C.queue s.sys
  getters : r.getters = s.getters.map call
  woken : r.woken = s.woken.map call
  items : r.items = s.items

theorem recv_agrees {C : Comp σ ε α} (L : Laws C) {s : Sys σ α} {r : Readers.Rx α} (h : Agrees C s r) (id : Nat) :
    Agrees C (s.recv C id) (r.recv (call id)) := by
  unfold Sys.recv Readers.Rx.recv
  rw [h.queue]
  cases hq : C.queue s.sys with
  | nil => exact ⟨hq.symm, by simp [h.getters], h.woken, h.items⟩
  | cons x q => exact ⟨(L.recv _ _ _ hq).1.symm, h.getters, h.woken, by simp [h.items, call]⟩

theorem eraseIdx_map (l : List Nat) : ∀ i, (l.map call).eraseIdx i = (l.eraseIdx i).map call := by
  induction l with
  | nil => intro i; simp
  | cons a l ih => intro i; cases i <;> simp [ih]

theorem step_agrees {C : Comp σ ε α} (L : Laws C) {s : Sys σ α} {r : Readers.Rx α} (h : Agrees C s r) (e : Ev ε) :
    ∃ revs : List (Readers.Ev α), readers revs = ([e].filterMap Ev.abs) ∧ Agrees C (s.step C e) (revs.foldl (Readers.Rx.step noBytes) r) := by
  cases e with
  | bus e =>
    simp only [Sys.step]
    by_cases hi : C.isCall e = true
    · exact ⟨[], rfl, by rw [if_pos hi]; exact h⟩
    · rw [if_neg hi]
      rcases (L.other s.sys e (by simpa using hi)).2 with hq | ⟨x, hq⟩ | hq
      · refine ⟨[], rfl, ?_⟩
        rw [if_neg (by simp [hq])]
        exact ⟨by simp [h.queue, hq], h.getters, h.woken, h.items⟩
      · refine ⟨[.put x], rfl, ?_⟩
        rw [if_pos (by simp [hq])]
        simp only [List.foldl, Readers.Rx.step, Readers.Rx.put, Sys.wakeFirst, h.getters]
        cases hg : s.getters with
        | nil => exact ⟨by simp [h.queue, hq], rfl, h.woken, h.items⟩
        | cons g rest => exact ⟨by simp [h.queue, hq], rfl, by simp [h.woken], h.items⟩
      · refine ⟨[.clear], rfl, ?_⟩
        rw [if_neg (by simp [hq])]
        exact ⟨by simp [Readers.Rx.step, Readers.Rx.clear, hq], h.getters, h.woken, h.items⟩
  | recv id => exact ⟨[.recv id], rfl, recv_agrees L h id⟩
  | recvNowait id =>
    refine ⟨[.recvNowait id], rfl, ?_⟩
    have hr := recv_agrees L h id
    simp only [List.foldl, Readers.Rx.step, Readers.Rx.recvNowait, Sys.step]
    unfold Readers.Rx.recv at hr
    cases hq : C.queue s.sys with
    | nil =>
      rw [h.queue, hq, if_pos rfl]
      exact h
    | cons x q =>
      rw [h.queue, hq] at hr
      rw [h.queue, hq, if_neg (by simp)]
      exact hr
  | turn i =>
    refine ⟨[.turn i], rfl, ?_⟩
    simp only [List.foldl, Readers.Rx.step, Sys.step, h.woken, List.getElem?_map]
    cases hi : s.woken[i]? with
    | none => exact h
    | some id =>
      simp only [Option.map_some]
      exact recv_agrees L (s := { s with woken := s.woken.eraseIdx i }) (r := { r with woken := (s.woken.map call).eraseIdx i })
        ⟨h.queue, h.getters, eraseIdx_map _ _, h.items⟩ id
  | cancel i =>
    refine ⟨[.cancel i], rfl, ?_⟩
    exact ⟨h.queue, by simp [Readers.Rx.step, Sys.step, h.getters, eraseIdx_map], h.woken, h.items⟩

theorem exec_agrees {C : Comp σ ε α} (L : Laws C) (evs : List (Ev ε)) :
    ∃ revs : List (Readers.Ev α), readers revs = evs.filterMap Ev.abs ∧ Agrees C (Sys.exec C evs) (Readers.Rx.exec noBytes revs) := by
  have key : ∀ (evs : List (Ev ε)) (s : Sys σ α) (r : Readers.Rx α), Agrees C s r →
      ∃ revs : List (Readers.Ev α), readers revs = evs.filterMap Ev.abs ∧ Agrees C (evs.foldl (Sys.step C) s) (revs.foldl (Readers.Rx.step noBytes) r) := by
    intro evs
    induction evs with
    | nil => intro s r h; exact ⟨[], rfl, h⟩
    | cons e evs ih =>
      intro s r h
      obtain ⟨l1, a1, b1⟩ := step_agrees L h e
      obtain ⟨l2, a2, b2⟩ := ih _ _ b1
      refine ⟨l1 ++ l2, ?_, by rw [List.foldl_append]; exact b2⟩
      rw [show e :: evs = [e] ++ evs from rfl, List.filterMap_append, ← a1, ← a2]
      simp only [readers, List.filter_append]
  exact key evs _ _ ⟨L.queue0.symm, rfl, rfl, rfl⟩

/-- **C145 (generic stream sinks).** However the users' calls of `recv()` and `recv_nowait()` are suspended, woken and cancelled: (1) the sink and its bus go through
states that they also have if calls happen only when they return, with the same other events in the same order; (2) the items returned, in the order of return, are those
taken from the queue; (3) no call returns more often than it was made, and (4) without cancellation every `recv()` has returned once, is suspended or is about to go on;
(5) if no call is about to go on, calls are suspended only while the queue is empty. -/
theorem C145_stream_sink (c : Cfg) (evs : List (Ev (SnkEv α))) :
    let s := Sys.exec (sink c α) evs
    (∃ evs', s.sys = SnkSys.exec c evs' ∧ evs'.filter (fun e => !(sink c α).isCall e) = busEvents (sink c α) evs) ∧
    s.items.map Prod.snd = s.sys.snk.got ∧
    (∀ id, (s.items.map Prod.fst).count id + s.getters.count id + s.woken.count id ≤ calls id evs) ∧
    (∀ id, (∀ e ∈ evs, keeps id e = true) → (s.items.map Prod.fst).count id + s.getters.count id + s.woken.count id = calls id evs) ∧
    (s.woken = [] → s.getters ≠ [] → s.sys.snk.queue = []) := by
  have h := exec_good (sink_laws (α := α) c) evs
  exact ⟨h.reach, h.got, h.once, h.all, fun hw hg => List.eq_nil_of_length_eq_zero (by have := h.awake hg; rw [hw] at this; exact Nat.le_zero.1 this)⟩

/-- **C145 (generic stream monitors).** The same for a monitor. -/
theorem C145_stream_monitor (c : Cfg) (evs : List (Ev (MonEv α))) :
    let s := Sys.exec (monitor c α) evs
    (∃ evs', s.sys = MonSys.exec c evs' ∧ evs'.filter (fun e => !(monitor c α).isCall e) = busEvents (monitor c α) evs) ∧
    s.items.map Prod.snd = s.sys.mon.got ∧
    (∀ id, (s.items.map Prod.fst).count id + s.getters.count id + s.woken.count id ≤ calls id evs) ∧
    (∀ id, (∀ e ∈ evs, keeps id e = true) → (s.items.map Prod.fst).count id + s.getters.count id + s.woken.count id = calls id evs) ∧
    (s.woken = [] → s.getters ≠ [] → s.sys.mon.queue = []) := by
  have h := exec_good (monitor_laws (α := α) c) evs
  exact ⟨h.reach, h.got, h.once, h.all, fun hw hg => List.eq_nil_of_length_eq_zero (by have := h.awake hg; rw [hw] at this; exact Nat.le_zero.1 this)⟩

/-- **C145 (generic stream sinks).** The calls of the users of a sink are suspended, woken and answered as in `Model/Readers.lean`, where the same calls, turns and
cancellations happen in the same order, with some items received (`put`) and calls of `clear()` in between: same queue, same waiting calls, same items returned to
the same calls. -/
theorem C145_stream_sink_readers (c : Cfg) (evs : List (Ev (SnkEv α))) : ∃ revs : List (Readers.Ev α), readers revs = evs.filterMap Ev.abs ∧
    let r := Readers.Rx.exec noBytes revs
    let s := Sys.exec (sink c α) evs
    r.queue = s.sys.snk.queue ∧ r.getters = s.getters.map call ∧ r.woken = s.woken.map call ∧ r.items = s.items := by
  obtain ⟨revs, h0, h⟩ := exec_agrees (sink_laws (α := α) c) evs
  exact ⟨revs, h0, h.queue, h.getters, h.woken, h.items⟩

/-- **C145 (generic stream monitors).** The same for a monitor. -/
theorem C145_stream_monitor_readers (c : Cfg) (evs : List (Ev (MonEv α))) : ∃ revs : List (Readers.Ev α), readers revs = evs.filterMap Ev.abs ∧
    let r := Readers.Rx.exec noBytes revs
    let s := Sys.exec (monitor c α) evs
    r.queue = s.sys.mon.queue ∧ r.getters = s.getters.map call ∧ r.woken = s.woken.map call ∧ r.items = s.items := by
  obtain ⟨revs, h0, h⟩ := exec_agrees (monitor_laws (α := α) c) evs
  exact ⟨revs, h0, h.queue, h.getters, h.woken, h.items⟩

/-- **C145 (generic stream sinks).** Without `clear()` and reset, the items that the calls returned, in the order of return, followed by those in the queue, are exactly
the items transferred on the bus. -/
theorem C145_stream_sink_delivered (c : Cfg) (evs : List (Ev (SnkEv α)))
    (hcl : ∀ e ∈ busEvents (sink c α) evs, e.noReset = true ∧ e.noClear = true)
    (hnd : (Sys.exec (sink c α) (.bus (.reset false) :: evs)).sys.snk.pc ≠ .due) :
    let s := Sys.exec (sink c α) (.bus (.reset false) :: evs)
    s.items.map Prod.snd ++ s.sys.snk.queue = xfers c s.sys.trace := by
  intro s
  let C' : Comp (SnkSys α) (SnkEv α) α := { sink c α with start := SnkSys.step c {} (.reset false) }
  have L' : Laws C' := ⟨rfl, rfl, rfl, (sink_laws c).recv, (sink_laws c).other⟩
  have h := exec_good L' evs
  obtain ⟨l, h1, h2⟩ := h.reach
  have h0 : s.sys = SnkSys.exec c (.reset false :: l) := h1
  have hl : ∀ e ∈ l, e.noReset = true ∧ e.noClear = true := by
    intro e he
    by_cases hc : (sink c α).isCall e = true
    · cases e <;> first | exact ⟨rfl, rfl⟩ | cases hc
    · exact hcl e (by rw [show busEvents (sink c α) evs = _ from h2.symm]; exact List.mem_filter.2 ⟨he, by simpa using hc⟩)
  have hr := C44_received c l hl (by rw [← h0]; exact hnd)
  rw [← h0] at hr
  rw [show s.items.map Prod.snd = s.sys.snk.got from h.got]
  exact hr

/-- **C145 (generic stream monitors).** The same for a monitor. -/
theorem C145_stream_monitor_delivered (c : Cfg) (evs : List (Ev (MonEv α)))
    (hcl : ∀ e ∈ busEvents (monitor c α) evs, e.noReset = true ∧ e.noClear = true)
    (hnd : (Sys.exec (monitor c α) (.bus (.reset false) :: evs)).sys.mon.pc ≠ .due) :
    let s := Sys.exec (monitor c α) (.bus (.reset false) :: evs)
    s.items.map Prod.snd ++ s.sys.mon.queue = xfers c s.sys.trace := by
  intro s
  let C' : Comp (MonSys α) (MonEv α) α := { monitor c α with start := MonSys.step c {} (.reset false) }
  have L' : Laws C' := ⟨rfl, rfl, rfl, (monitor_laws c).recv, (monitor_laws c).other⟩
  have h := exec_good L' evs
  obtain ⟨l, h1, h2⟩ := h.reach
  have h0 : s.sys = MonSys.exec c (.reset false :: l) := h1
  have hl : ∀ e ∈ l, e.noReset = true ∧ e.noClear = true := by
    intro e he
    by_cases hc : (monitor c α).isCall e = true
    · cases e <;> first | exact ⟨rfl, rfl⟩ | cases hc
    · exact hcl e (by rw [show busEvents (monitor c α) evs = _ from h2.symm]; exact List.mem_filter.2 ⟨he, by simpa using hc⟩)
  have hr := C48_received c l hl (by rw [← h0]; exact hnd)
  rw [← h0] at hr
  rw [show s.items.map Prod.snd = s.sys.mon.got from h.got]
  exact hr

/-! Three calls wait, the first is cancelled; two items arrive; the third call gets its turn, a new call takes the second item, and the second call is still to go on. -/

def exCalls : List (Ev (MonEv Nat)) := [.recv 1, .recv 2, .recv 3, .recvNowait 9, .cancel 0] ++ exMon.map .bus ++ [.turn 1, .recv 4]

example : let s := Sys.exec (monitor { } Nat) (.bus (.reset false) :: exCalls)
    s.items = [(3, 5), (4, 6)] ∧ s.getters = [] ∧ s.woken = [2] ∧ s.sys.mon.pc ≠ .due := by decide +kernel
example : ∀ e ∈ busEvents (monitor {} Nat) exCalls, e.noReset = true ∧ e.noClear = true := by decide +kernel

/-! A sink of limit 2: the first call waits for the first item, the second finds one. -/

def exSnkCalls : List (Ev (SnkEv Nat)) := [.recv 1] ++ exSnk.map .bus ++ [.turn 0, .recvNowait 2]

example : let s := Sys.exec (sink { limit := 2 } Nat) (.bus (.reset false) :: exSnkCalls)
    s.items = [(1, 1), (2, 2)] ∧ s.getters = [] ∧ s.woken = [] ∧ s.sys.snk.pc ≠ .due := by decide +kernel
example : (∀ e ∈ busEvents (sink { limit := 2 } Nat) exSnkCalls, e.noReset = true ∧ e.noClear = true) ∧ ∀ e ∈ exSnkCalls, keeps 1 e = true := by decide +kernel

end Verif.StreamReaders
