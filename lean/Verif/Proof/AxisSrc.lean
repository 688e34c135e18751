import Verif.Proof.AxisFrame
import Verif.Proof.Stream
import Verif.Spec.AxisBus

/-!
# Invariants of the AXI stream source
-/

namespace Verif.Axis

open Verif.Stream (Pc wakeUp_ne wakeUp_off wakeUp_woken wakeUp_due wakeUp_edge tick_due tick_off tick_asleep tick_woken tick_edge
  still_iff Acc foldl_inv foldl_inv')

theorem not_full_iff (c : Cfg) (b f : Int) : isFull c b f = false ↔
    (c.limitBytes > 0 → b ≤ c.limitBytes) ∧ (c.limitFrames > 0 → f ≤ c.limitFrames) := by
  simp only [isFull, Bool.or_eq_false_iff, decide_eq_false_iff_not]; omega

theorem full_iff (c : Cfg) (b f : Int) : isFull c b f = true ↔
    (c.limitBytes > 0 ∧ b > c.limitBytes) ∨ (c.limitFrames > 0 ∧ f > c.limitFrames) := by
  simp only [isFull, Bool.or_eq_true, decide_eq_true_eq]

theorem truthy_iff {f : Frame} : f.truthy = true ↔ f.tdata ≠ [] := by
  simp [Frame.truthy]

theorem bytes_append (a b : List Frame) : bytes (a ++ b) = bytes a + bytes b := by simp [bytes]
theorem bytes_cons (f : Frame) (b : List Frame) : bytes (f :: b) = f.tdata.length + bytes b := by simp [bytes]
theorem bytes_nil : bytes [] = 0 := rfl

/-- How often frame number `i` is counted as signalled, queued or in transmission. -/
def Src.cnt (s : Src) (i : Nat) : Nat :=
  s.done.count i + (s.queue.map (·.1)).count i + (s.current.toList.map (·.1)).count i

/-- Facts that hold between any two events of a source. -/
structure SrcInv (c : Cfg) (s : Src) : Prop where
  occF : s.occFrames = s.queue.length
  occB : s.occBytes = bytes (s.queue.map (·.2))
  quiet : s.pc = .asleep ∨ s.pc = .woken ∨ s.pc = .off → s.nvalid = false
  sleep : s.pc = .asleep → s.queue = [] ∧ live s.frame = false
  act : s.active = false → s.nvalid = false ∧ live s.frame = false
  idle : s.queue = [] → s.active = false → s.idleEv = true
  wait : ∀ f, (f, false) ∈ s.waiters → isFull c s.occBytes s.occFrames = true
  boundF : c.limitFrames > 0 → (s.queue.length : Int) ≤ c.limitFrames + 1
  boundB : c.limitBytes > 0 → (bytes (s.queue.map (·.2)).dropLast : Int) ≤ c.limitBytes
  nums : ∀ p ∈ s.queue, s.sent[p.1]? = some p.2
  cur : ∀ i g, s.current = some (i, g) → ∃ f, s.sent[i]? = some f ∧ g.tdata = f.tdata
  frm : ∀ i g, s.frame = some (i, g) → s.current = some (i, g) ∧ ∃ f, s.sent[i]? = some f ∧ f.proper ∧ g = normalized f ∧
    (f.tdata ≠ [] → ∃ k, s.off = k * c.lanes ∧ s.off < f.tdata.length)
  dead : live s.frame = false → live s.current = false
  once : ∀ i f, s.sent[i]? = some f → f.tdata ≠ [] → s.cnt i = 1
  most : ∀ i, s.cnt i ≤ 1
  new : ∀ i, s.sent.length ≤ i → s.cnt i = 0

namespace SrcInv

theorem init (c : Cfg) : SrcInv c ({} : Src) where
  occF := rfl
  occB := rfl
  quiet := by simp
  sleep := by simp
  act := by simp [live]
  idle := by simp
  wait := by simp
  boundF := by intro h; simp; omega
  boundB := by intro h; simp [bytes]; omega
  nums := by simp
  cur := by simp
  frm := by simp
  dead := by simp [live]
  once := by simp
  most := by simp [Src.cnt]
  new := by simp [Src.cnt]

theorem sent_append {s : List Frame} {i : Nat} {f g : Frame} (h : s[i]? = some f) : (s ++ [g])[i]? = some f := by
  rw [List.getElem?_append_left (List.getElem?_eq_some_iff.1 h).1]; exact h

theorem put {c : Cfg} {s : Src} (h : SrcInv c s) (hf : isFull c s.occBytes s.occFrames = false) (f : Frame) :
    SrcInv c (s.put f) where
  occF := by simp [Src.put, h.occF]
  occB := by simp [Src.put, h.occB, bytes_append, bytes_cons, bytes_nil]
  quiet := by
    simp only [Src.put, wakeUp_off, wakeUp_woken, wakeUp_ne, false_or]
    intro hp; exact h.quiet (by grind)
  sleep := by simp [Src.put, wakeUp_ne]
  act := h.act
  idle := by simp [Src.put]
  wait := by
    intro y hy
    have := h.wait y hy
    rw [hf] at this; cases this
  boundF := by
    intro hl
    rw [not_full_iff] at hf
    have := hf.2 hl
    rw [h.occF] at this
    simp only [Src.put, List.length_append, List.length_singleton]
    omega
  boundB := by
    intro hl
    rw [not_full_iff] at hf
    have := hf.1 hl
    rw [h.occB] at this
    simpa [Src.put, List.dropLast_concat] using this
  nums := by
    intro p hp
    simp only [Src.put, List.mem_append, List.mem_singleton] at hp ⊢
    rcases hp with hp | hp
    · exact sent_append (h.nums p hp)
    · subst hp; simp
  cur := by
    intro i g hc
    obtain ⟨f, h1, h2⟩ := h.cur i g hc
    exact ⟨f, sent_append h1, h2⟩
  frm := by
    intro i g hc
    obtain ⟨h0, f, h1, h2⟩ := h.frm i g hc
    exact ⟨h0, f, sent_append h1, h2⟩
  dead := h.dead
  once := by
    intro i g hi hg
    have hn := h.new i
    have ho := h.once i g
    simp only [Src.put, Src.cnt, List.map_append, List.map_cons, List.map_nil, List.count_append, List.count_singleton] at hi hn ho ⊢
    by_cases hlt : i < s.sent.length
    · rw [List.getElem?_append_left hlt] at hi
      have := ho hi hg
      simp only [beq_iff_eq, show ¬ s.sent.length = i by omega, if_false]
      omega
    · have := hn (by omega)
      have hlen := (List.getElem?_eq_some_iff.1 hi).1
      simp only [List.length_append, List.length_singleton] at hlen
      simp only [beq_iff_eq, show s.sent.length = i by omega, if_true]
      omega
  most := by
    intro i
    have hn := h.new i
    have ho := h.most i
    simp only [Src.put, Src.cnt, List.map_append, List.map_cons, List.map_nil, List.count_append, List.count_singleton] at hn ho ⊢
    by_cases hlt : s.sent.length = i
    · have := hn (by omega)
      simp only [beq_iff_eq, hlt, if_true]; omega
    · simp only [beq_iff_eq, hlt, if_false]; omega
  new := by
    intro i hi
    simp only [Src.put, List.length_append, List.length_singleton] at hi
    have hn := h.new i (by omega)
    simp only [Src.put, Src.cnt, List.map_append, List.map_cons, List.map_nil, List.count_append, List.count_singleton] at hn ⊢
    simp only [beq_iff_eq, show ¬ s.sent.length = i by omega, if_false]; omega

theorem accept {c : Cfg} {s : Src} (h : SrcInv c s) (hf : isFull c s.occBytes s.occFrames = false) (f : Frame) :
    SrcInv c (s.accept f).2 := by
  unfold Src.accept
  split
  · exact h
  · exact h.put hf _

theorem dropWaiter {c : Cfg} {s : Src} (h : SrcInv c s) (i : Nat) :
    SrcInv c { s with waiters := s.waiters.eraseIdx i } :=
  { h with wait := fun x hx => h.wait x (List.mem_of_mem_eraseIdx hx), once := h.once, most := h.most, new := h.new }

theorem newWaiters {c : Cfg} {s : Src} (h : SrcInv c s) (w : List (Frame × Bool)) (d : Bool)
    (hf : isFull c s.occBytes s.occFrames = true) : SrcInv c { s with deqEv := d, waiters := w } :=
  { h with wait := fun _ _ => hf, once := h.once, most := h.most, new := h.new }

theorem send {c : Cfg} {s : Src} (h : SrcInv c s) (f : Frame) : SrcInv c (s.send c f) := by
  unfold Src.send
  split
  · rename_i hf
    exact h.newWaiters _ _ hf
  · rename_i hf
    exact h.accept (by simpa using hf) f

theorem resume {c : Cfg} {s : Src} (h : SrcInv c s) (i : Nat) : SrcInv c (s.resume c i) := by
  unfold Src.resume
  split
  · split
    · rename_i hf
      exact h.newWaiters _ _ hf
    · rename_i hf
      exact (h.dropWaiter i).accept (by simpa using hf) _
  · exact h

theorem sendNowait {c : Cfg} {s : Src} (h : SrcInv c s) (f : Frame) : SrcInv c (s.sendNowait c f).2 := by
  unfold Src.sendNowait
  split
  · exact h
  · rename_i hf
    exact h.accept (by simpa using hf) f

theorem setPause {c : Cfg} {s : Src} (h : SrcInv c s) (v : Bool) : SrcInv c (s.setPause v) :=
  { h with once := h.once, most := h.most, new := h.new }

theorem not_waiting (s : Src) (x : Frame) : (x, false) ∉ s.setDeq.waiters := by
  simp [Src.setDeq]

theorem clear_cnt (s : Src) (i : Nat) : s.clear.cnt i = s.cnt i := by
  simp [Src.cnt, Src.clear, Src.setDeq, List.count_append]

theorem clear {c : Cfg} {s : Src} (h : SrcInv c s) : SrcInv c s.clear where
  occF := rfl
  occB := rfl
  quiet := h.quiet
  sleep := fun hp => ⟨rfl, (h.sleep hp).2⟩
  act := h.act
  idle := fun _ _ => rfl
  wait := fun x hx => absurd hx (not_waiting s x)
  boundF := by intro hl; simp [Src.clear]; omega
  boundB := by intro hl; simp [Src.clear, bytes]; omega
  nums := by simp [Src.clear]
  cur := h.cur
  frm := h.frm
  dead := h.dead
  once := by intro i; rw [clear_cnt]; exact h.once i
  most := by intro i; rw [clear_cnt]; exact h.most i
  new := by intro i; rw [clear_cnt]; exact h.new i

theorem reset_cnt (s : Src) (b : Bool) (i : Nat) : (s.reset b).cnt i = s.cnt i := by
  unfold Src.reset
  split
  · simp only
    split
    · rename_i j f hc
      split
      · simp only [Src.cnt, hc, List.count_append, Option.toList_none, Option.toList_some, List.map_nil, List.map_cons, List.count_nil]
        omega
      · rfl
    · rfl
  · split <;> rfl

theorem reset_current (s : Src) (b : Bool) : (s.reset b).current = s.current ∨ (s.reset b).current = none := by
  unfold Src.reset
  split
  · simp only
    split
    · split
      · exact .inr rfl
      · exact .inl rfl
    · exact .inl rfl
  · split <;> exact .inl rfl

theorem reset_sent (s : Src) (b : Bool) : (s.reset b).sent = s.sent ∧ (s.reset b).queue = s.queue ∧
    (s.reset b).occFrames = s.occFrames ∧ (s.reset b).occBytes = s.occBytes ∧ (s.reset b).waiters = s.waiters := by
  unfold Src.reset
  split
  · simp only
    split
    · split <;> simp
    · simp
  · split <;> simp

theorem reset_true (s : Src) : (s.reset true).pc = .off ∧ (s.reset true).frame = none ∧ (s.reset true).active = false ∧
    (s.reset true).nvalid = false ∧ (s.reset true).idleEv = (s.idleEv || s.queue.isEmpty) ∧
    live (s.reset true).current = false ∧ (s.reset true).nbeat = {} := by
  unfold Src.reset
  simp only [if_true]
  split
  · rename_i i f hc
    split
    · simp [live]
    · rename_i hf
      simp [hc, live, hf]
  · rename_i hc
    simp [hc, live]

theorem reset {c : Cfg} {s : Src} (h : SrcInv c s) (b : Bool) : SrcInv c (s.reset b) := by
  cases b
  · simp only [Src.reset, Bool.false_eq_true, if_false]
    split
    · rename_i hoff
      exact { h with quiet := fun _ => h.quiet (by simp [hoff]), sleep := by simp, once := h.once, most := h.most, new := h.new }
    · exact h
  · obtain ⟨e1, e2, e3, e4, e5, e6, e7⟩ := reset_true s
    obtain ⟨f1, f2, f3, f4, f5⟩ := reset_sent s true
    exact {
      occF := by rw [f2, f3]; exact h.occF
      occB := by rw [f2, f4]; exact h.occB
      quiet := fun _ => e4
      sleep := by rw [e1]; simp
      act := fun _ => ⟨e4, by rw [e2]; rfl⟩
      idle := by intro hq _; rw [f2] at hq; rw [e5, hq]; simp
      wait := by rw [f3, f4, f5]; exact h.wait
      boundF := by rw [f2]; exact h.boundF
      boundB := by rw [f2]; exact h.boundB
      nums := by rw [f1, f2]; exact h.nums
      cur := by
        intro i g hc
        rw [f1]
        rcases reset_current s true with hh | hh
        · rw [hh] at hc; exact h.cur i g hc
        · rw [hh] at hc; cases hc
      frm := by intro i g hc; rw [e2] at hc; cases hc
      dead := fun _ => e6
      once := by intro i; rw [reset_cnt, f1]; exact h.once i
      most := by intro i; rw [reset_cnt]; exact h.most i
      new := by intro i; rw [reset_cnt, f1]; exact h.new i }

theorem tick {c : Cfg} {s : Src} (h : SrcInv c s) : SrcInv c { s with pc := s.pc.tick } :=
  { h with quiet := fun hp => h.quiet (by simpa only [tick_asleep, tick_woken, tick_off] using hp)
           sleep := fun hp => h.sleep (by simpa only [tick_asleep] using hp)
           once := h.once, most := h.most, new := h.new }

theorem wake {c : Cfg} {s : Src} (h : SrcInv c s) : SrcInv c { s with pc := .edge } :=
  { h with quiet := by simp, sleep := by simp, once := h.once, most := h.most, new := h.new }

theorem commit {c : Cfg} {s : Src} (h : SrcInv c s) : SrcInv c { s with valid := s.nvalid, beat := s.nbeat } :=
  { h with once := h.once, most := h.most, new := h.new }

theorem crash {c : Cfg} {s : Src} (h : SrcInv c s) : SrcInv c { s with crashed := true } :=
  { h with once := h.once, most := h.most, new := h.new }

/-- What `take` does: nothing, crash, or start on the first frame of the queue. -/
theorem take_cases (s : Src) :
    (s.queue = [] ∧ s.take = s) ∨ (s.queue ≠ [] ∧ s.take = { s with crashed := true }) ∨
    ∃ i f rest, s.queue = (i, f) :: rest ∧ f.proper ∧ s.take =
      { s.setDeq with queue := rest, occBytes := s.occBytes - f.tdata.length, occFrames := s.occFrames - 1
                      current := some (i, normalized f), frame := some (i, normalized f), off := 0, active := true } := by
  unfold Src.take
  split
  · rename_i hq; exact .inl ⟨hq, rfl⟩
  · rename_i i f rest hq
    rcases normalize_spec f with ⟨hp, hn⟩ | ⟨_, hn⟩
    · rw [hn]
      exact .inr (.inr ⟨i, f, rest, hq, hp, rfl⟩)
    · refine .inr (.inl ⟨by rw [hq]; simp, ?_⟩)
      split
      · rfl
      · rename_i heq
        rw [heq] at hn
        simp at hn

theorem take {c : Cfg} {s : Src} (h : SrcInv c s) (hl : live s.frame = false) (hd : s.pc = .due) : SrcInv c s.take := by
  rcases take_cases s with ⟨_, e⟩ | ⟨_, e⟩ | ⟨i, f, rest, hq, hp, e⟩
  · rw [e]; exact h
  · rw [e]; exact h.crash
  · have hdead := h.dead hl
    have hcnt : ∀ j, s.cnt j = s.take.cnt j + (s.current.toList.map (·.1)).count j := by
      intro j
      rw [e]
      simp only [Src.cnt, hq, List.map_cons, List.count_cons, Src.setDeq, Option.toList_some, List.map_nil, List.count_nil]
      omega
    have hi := h.nums (i, f) (by rw [hq]; simp)
    have hsent : s.take.sent = s.sent := by rw [e]; rfl
    have hone : ∀ j, s.take.cnt j ≤ s.cnt j := by intro j; rw [hcnt j]; omega
    have honce : ∀ j g, s.take.sent[j]? = some g → g.tdata ≠ [] → s.take.cnt j = 1 := by
      intro j g hj hg
      rw [hsent] at hj
      have h1 := h.once j g hj hg
      rw [hcnt j] at h1
      cases hc : s.current with
      | none => rw [hc] at h1; simpa using h1
      | some p =>
        obtain ⟨j', g'⟩ := p
        rw [hc] at h1
        by_cases hjj : j' = j
        · subst hjj
          obtain ⟨f', hf1, hf2⟩ := h.cur j' g' hc
          rw [hj] at hf1
          simp only [Option.some.injEq] at hf1
          subst hf1
          rw [hc] at hdead
          simp only [live, Bool.eq_false_iff, ne_eq, truthy_iff, hf2] at hdead
          exact absurd hg hdead
        · simpa [List.count_cons, hjj] using h1
    have hmost : ∀ j, s.take.cnt j ≤ 1 := fun j => Nat.le_trans (hone j) (h.most j)
    have hnew : ∀ j, s.take.sent.length ≤ j → s.take.cnt j = 0 := by
      intro j hj; rw [hsent] at hj; have := h.new j hj; have := hone j; omega
    have hF := h.occF
    have hB := h.occB
    rw [hq] at hF hB
    simp only [List.length_cons, List.map_cons, bytes_cons] at hF hB
    rw [e] at honce hmost hnew ⊢
    exact {
      occF := by simp only; omega
      occB := by simp only; omega
      quiet := by simp only [Src.setDeq, hd]; simp
      sleep := by simp only [Src.setDeq, hd]; simp
      act := by simp
      idle := by simp
      wait := fun x hx => absurd hx (not_waiting s x)
      boundF := by
        intro hlim
        have := h.boundF hlim
        rw [hq] at this
        simp only [List.length_cons] at this ⊢
        omega
      boundB := by
        intro hlim
        have := h.boundB hlim
        rw [hq] at this
        simp only [List.map_cons] at this ⊢
        cases hr : rest.map (·.2) with
        | nil => simp [bytes]; omega
        | cons a l =>
          rw [hr] at this
          rw [List.dropLast_cons_of_ne_nil (by simp), bytes_cons] at this
          omega
      nums := fun p hp => h.nums p (by rw [hq]; exact List.mem_cons_of_mem _ hp)
      cur := by
        intro j g hg
        simp only [Option.some.injEq, Prod.mk.injEq] at hg
        obtain ⟨rfl, rfl⟩ := hg
        exact ⟨f, hi, rfl⟩
      frm := by
        intro j g hg
        refine ⟨hg, ?_⟩
        simp only [Option.some.injEq, Prod.mk.injEq] at hg
        obtain ⟨rfl, rfl⟩ := hg
        exact ⟨f, hi, hp, rfl, fun hne => ⟨0, by simp, by simpa [List.length_pos_iff] using hne⟩⟩
      dead := fun h => h
      once := honce
      most := hmost
      new := hnew }

theorem beatAt_last (c : Cfg) (f : Frame) (k : Nat) : (beatAt c f k).tlast = decide ((k + 1) * c.lanes ≥ f.tdata.length) := rfl

theorem drive_eq {c : Cfg} (hl : 0 < c.lanes) (hv : c.hasValid = true) (s : Src) (i : Nat) (f : Frame) (k : Nat)
    (hk : s.off = k * c.lanes) (hlt : s.off < f.tdata.length) :
    s.drive c i (normalized f) =
      if (k + 1) * c.lanes ≥ f.tdata.length then
        { s with nbeat := beatAt c f k, nvalid := true, off := min ((k + 1) * c.lanes) f.tdata.length, pc := .edge
                 done := s.done ++ [i], frame := none, current := none }
      else { s with nbeat := beatAt c f k, nvalid := true, off := (k + 1) * c.lanes, pc := .edge } := by
  unfold Src.drive
  rw [hk] at hlt
  rw [hk, nextBeat_spec c hl f k hlt]
  simp only [hv, if_true, beatAt_last, decide_eq_true_eq]
  split
  · rfl
  · rename_i h
    rw [Nat.min_eq_left (by omega)]

theorem drive {c : Cfg} (hl : 0 < c.lanes) (hv : c.hasValid = true) {s : Src} (h : SrcInv c s) {i : Nat} {g : Frame}
    (hf : s.frame = some (i, g)) (hne : g.truthy = true) : SrcInv c (s.drive c i g) := by
  obtain ⟨hc, f, hs, hp, rfl, hoff⟩ := h.frm i g hf
  have hne' : f.tdata ≠ [] := truthy_iff.1 hne
  obtain ⟨k, hk, hlt⟩ := hoff hne'
  have hact : s.active = true := by
    cases ha : s.active
    · have := (h.act ha).2
      rw [hf] at this
      simp only [live, hne] at this; cases this
    · rfl
  rw [drive_eq hl hv s i f k hk hlt]
  split
  · have hcnt : ∀ (b : Beat) (o : Nat) (j : Nat), ({ s with nbeat := b, nvalid := true, off := o, pc := .edge, done := s.done ++ [i], frame := none, current := none } : Src).cnt j = s.cnt j := by
      intro b o j
      simp only [Src.cnt, hc, List.count_append, Option.toList_none, Option.toList_some, List.map_nil, List.map_cons, List.count_nil]
      omega
    exact { h with quiet := by simp, sleep := by simp, act := by simp [hact], idle := by simp [hact], cur := by simp, frm := by simp
                   dead := by simp [live]
                   once := fun j => by rw [hcnt]; exact h.once j
                   most := fun j => by rw [hcnt]; exact h.most j
                   new := fun j => by rw [hcnt]; exact h.new j }
  · rename_i hge
    refine { h with quiet := by simp, sleep := by simp, act := by simp [hact], frm := ?_, once := h.once, most := h.most, new := h.new }
    intro j g' hg'
    rw [hf] at hg'
    simp only [Option.some.injEq, Prod.mk.injEq] at hg'
    obtain ⟨rfl, rfl⟩ := hg'
    exact ⟨hc, f, hs, hp, rfl, fun _ => ⟨k + 1, rfl, by simp only; omega⟩⟩

theorem quiet_inv {c : Cfg} (hv : c.hasValid = true) {s : Src} (h : SrcInv c s) : SrcInv c (s.quiet c) := by
  unfold Src.quiet
  simp only [hv, if_true]
  split
  · rename_i hh
    simp only [Bool.and_eq_true, Bool.not_eq_true', List.isEmpty_iff] at hh
    exact { h with quiet := by simp, sleep := fun _ => ⟨hh.2, hh.1⟩, act := fun _ => ⟨rfl, hh.1⟩, idle := by simp
                   once := h.once, most := h.most, new := h.new }
  · rename_i hh
    simp only [Bool.and_eq_true, Bool.not_eq_true', List.isEmpty_iff, not_and] at hh
    exact { h with quiet := by simp, sleep := by simp, act := fun ha => ⟨rfl, ha⟩, idle := fun h1 h2 => absurd h1 (hh h2)
                   once := h.once, most := h.most, new := h.new }

/-- The outcomes of `run` at a clock edge. -/
theorem run_cases {c : Cfg} (hv : c.hasValid = true) (s : Src) (ready : Bool) (P : Src → Prop)
    (stall : s.valid = true → c.hasReady = true → ready = false → P { s with pc := .edge })
    (go : (s.valid = true → (!c.hasReady || ready) = true) → ∀ t, t = (if live s.frame then s else s.take) →
      (t.crashed = true → P t) ∧
      (t.crashed = false → ∀ i g, t.frame = some (i, g) → g.truthy = true → t.pause = false → P (t.drive c i g)) ∧
      (t.crashed = false → live t.frame = false ∨ t.pause = true → P (t.quiet c))) :
    P (s.run c ready) := by
  unfold Src.run
  simp only [hv, Bool.not_true, Bool.false_or]
  split
  · rename_i hc
    have hgo : s.valid = true → (!c.hasReady || ready) = true := by
      intro hval; rw [hval] at hc; simpa using hc
    obtain ⟨g1, g2, g3⟩ := go hgo _ rfl
    have ht : (if (!live s.frame) = true then s.take else s) = if live s.frame then s else s.take := by
      cases live s.frame <;> rfl
    rw [ht]
    generalize (if live s.frame = true then s else s.take) = t at g1 g2 g3
    split
    · rename_i h1; exact g1 h1
    · rename_i h1
      have h1' : t.crashed = false := by simpa using h1
      split
      · rename_i i g hf
        split
        · rename_i hh
          simp only [Bool.and_eq_true, Bool.not_eq_true'] at hh
          exact g2 h1' i g hf hh.1 hh.2
        · rename_i hh
          refine g3 h1' ?_
          simp only [Bool.and_eq_true, Bool.not_eq_true', not_and, Bool.not_eq_false] at hh
          rw [hf]; simp only [live]
          cases hg : g.truthy
          · exact .inl rfl
          · exact .inr (hh hg)
      · rename_i hf
        exact g3 h1' (.inl (by rw [hf]; rfl))
  · rename_i hc
    by_cases hval : s.valid = true
    · rw [hval] at hc
      simp only [Bool.and_true, Bool.not_true, Bool.or_false, Bool.or_eq_true, Bool.not_eq_true', not_or, Bool.not_eq_false,
        Bool.not_eq_true] at hc
      exact stall hval hc.1 hc.2
    · simp [hval] at hc

theorem run {c : Cfg} (hl : 0 < c.lanes) (hv : c.hasValid = true) {s : Src} (h : SrcInv c s) (hd : s.pc = .due) (ready : Bool) :
    SrcInv c (s.run c ready) := by
  apply run_cases hv
  · intro _ _ _; exact h.wake
  · intro _ t ht
    have hti : SrcInv c t := by
      rw [ht]
      split
      · exact h
      · rename_i hlv; exact h.take (by simpa using hlv) hd
    exact ⟨fun _ => hti, fun _ i g hf hg _ => hti.drive hl hv hf hg, fun _ _ => hti.quiet_inv hv⟩

end SrcInv

theorem SrcSys.step_inv {c : Cfg} (hl : 0 < c.lanes) (hv : c.hasValid = true) {s : SrcSys} (h : SrcInv c s.src) (e : SrcEv) :
    SrcInv c (s.step c e).src := by
  unfold SrcSys.step
  split
  · exact h
  cases e <;> simp only
  case tick => split; exact h.tick; exact h
  case run => split; (rename_i hd; exact h.run hl hv hd _); exact h
  case wake => split; exact h.wake; exact h
  case commit => split; exact h.commit; exact h
  case env => split <;> exact h
  case send => exact h.send _
  case resume => exact h.resume _
  case sendNowait => exact h.sendNowait _
  case pause => exact h.setPause _
  case clear => exact h.clear
  case reset => exact h.reset _

theorem SrcSys.exec_inv {c : Cfg} (hl : 0 < c.lanes) (hv : c.hasValid = true) (evs : List SrcEv) :
    SrcInv c (SrcSys.exec c evs).src :=
  foldl_inv _ (fun s : SrcSys => SrcInv c s.src) (fun _ e h => SrcSys.step_inv hl hv h e) evs _ (SrcInv.init c)

end Verif.Axis
