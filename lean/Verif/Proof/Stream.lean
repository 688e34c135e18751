import Verif.Model.Stream
import Verif.Spec.Stream

/-!
# Invariants of the stream components
-/

namespace Verif.Stream

variable {α : Type}

/-! ## The source by itself -/

/-- Facts that hold between any two events of a source with a `valid` signal. -/
structure SrcInv (c : Cfg) (s : Src α) : Prop where
  quiet : s.pc = .asleep ∨ s.pc = .woken ∨ s.pc = .off → s.nvalid = false
  sleep : s.pc = .asleep → s.queue = []
  act : s.active = false → s.nvalid = false
  data : s.nvalid = true → ∃ x, s.ndata = some x
  wait : ∀ x, (x, false) ∈ s.waiters → isFull c.limit s.queue.length = true
  bound : c.limit > 0 → (s.queue.length : Int) ≤ c.limit
  idle : s.queue = [] → s.active = false → s.idleEv = true

theorem wakeUp_ne {p : Pc} : p.wakeUp ≠ .asleep := by cases p <;> simp [Pc.wakeUp]
theorem wakeUp_off {p : Pc} : p.wakeUp = .off ↔ p = .off := by cases p <;> simp [Pc.wakeUp]
theorem wakeUp_woken {p : Pc} : p.wakeUp = .woken ↔ p = .woken ∨ p = .asleep := by cases p <;> simp [Pc.wakeUp]
theorem wakeUp_due {p : Pc} : p.wakeUp = .due ↔ p = .due := by cases p <;> simp [Pc.wakeUp]
theorem wakeUp_edge {p : Pc} : p.wakeUp = .edge ↔ p = .edge := by cases p <;> simp [Pc.wakeUp]
theorem tick_due {p : Pc} : p.tick = .due ↔ p = .edge ∨ p = .due := by cases p <;> simp [Pc.tick]
theorem tick_off {p : Pc} : p.tick = .off ↔ p = .off := by cases p <;> simp [Pc.tick]
theorem tick_asleep {p : Pc} : p.tick = .asleep ↔ p = .asleep := by cases p <;> simp [Pc.tick]
theorem tick_woken {p : Pc} : p.tick = .woken ↔ p = .woken := by cases p <;> simp [Pc.tick]
theorem tick_edge {p : Pc} : p.tick ≠ .edge := by cases p <;> simp [Pc.tick]
theorem still_iff {p : Pc} : p.still = true ↔ p ≠ .due ∧ p ≠ .woken := by cases p <;> simp [Pc.still]

theorem not_full_iff (l : Int) (n : Nat) : isFull l n = false ↔ (l > 0 → (n : Int) < l) := by
  simp only [isFull, decide_eq_false_iff_not]; omega
theorem full_iff (l : Int) (n : Nat) : isFull l n = true ↔ l > 0 ∧ (n : Int) ≥ l := by
  simp only [isFull, decide_eq_true_eq]

theorem mem_set_waiters {l : List (α × Bool)} {i : Nat} {w v : α × Bool} (h : v ∈ l.set i w) : v = w ∨ v ∈ l := by
  have := List.mem_or_eq_of_mem_set h
  grind

namespace SrcInv

theorem init (c : Cfg) : SrcInv c ({} : Src α) where
  quiet := by simp
  sleep := by simp
  act := by simp
  data := by simp
  wait := by simp
  bound := by simp; omega
  idle := by simp

theorem put {c : Cfg} {s : Src α} (h : SrcInv c s) (hf : isFull c.limit s.queue.length = false) (x : α) :
    SrcInv c (s.put x) where
  quiet := by
    simp only [Src.put, wakeUp_off, wakeUp_woken, wakeUp_ne, false_or]
    intro hp; exact h.quiet (by grind)
  sleep := by simp [Src.put, wakeUp_ne]
  act := h.act
  data := h.data
  wait := by
    intro y hy
    have := h.wait y hy
    rw [hf] at this; cases this
  bound := by
    intro hl
    rw [not_full_iff] at hf
    simp only [Src.put, List.length_append, List.length_singleton]
    have := hf hl
    omega
  idle := by simp [Src.put]

theorem dropWaiter {c : Cfg} {s : Src α} (h : SrcInv c s) (i : Nat) :
    SrcInv c { s with waiters := s.waiters.eraseIdx i } where
  quiet := h.quiet
  sleep := h.sleep
  act := h.act
  data := h.data
  wait := fun x hx => h.wait x (List.mem_of_mem_eraseIdx hx)
  bound := h.bound
  idle := h.idle

theorem send {c : Cfg} {s : Src α} (h : SrcInv c s) (x : α) : SrcInv c (s.send c x) := by
  unfold Src.send
  split
  · rename_i hf
    exact { h with wait := fun _ _ => hf }
  · rename_i hf
    exact h.put (by simpa using hf) x

theorem resume {c : Cfg} {s : Src α} (h : SrcInv c s) (i : Nat) : SrcInv c (s.resume c i) := by
  unfold Src.resume
  split
  · split
    · rename_i hf
      exact { h with wait := fun _ _ => hf }
    · rename_i hf
      exact (h.dropWaiter i).put (by simpa using hf) _
  · exact h

theorem sendNowait {c : Cfg} {s : Src α} (h : SrcInv c s) (x : α) : SrcInv c (s.sendNowait c x).2 := by
  unfold Src.sendNowait
  split
  · exact h
  · rename_i hf
    exact h.put (by simpa using hf) x

theorem setPause {c : Cfg} {s : Src α} (h : SrcInv c s) (v : Bool) : SrcInv c (s.setPause v) := { h with }

theorem not_waiting (s : Src α) (x : α) : (x, false) ∉ s.setDeq.waiters := by
  simp [Src.setDeq]

theorem clear {c : Cfg} {s : Src α} (h : SrcInv c s) : SrcInv c s.clear where
  quiet := h.quiet
  sleep := fun _ => rfl
  act := h.act
  data := h.data
  wait := fun x hx => absurd hx (not_waiting s x)
  bound := by intro hl; simp [Src.clear]; omega
  idle := fun _ _ => rfl

theorem reset {c : Cfg} {s : Src α} (h : SrcInv c s) (v : Bool) : SrcInv c (s.reset v) := by
  unfold Src.reset
  split
  · exact { h with quiet := fun _ => rfl, sleep := by simp, act := fun _ => rfl, data := by simp,
                   idle := by intro h1 _; simp only at h1; simp [h1] }
  · split
    · rename_i hoff
      exact { h with quiet := fun _ => h.quiet (by simp [hoff]), sleep := by simp }
    · exact h

theorem tick {c : Cfg} {s : Src α} (h : SrcInv c s) : SrcInv c { s with pc := s.pc.tick } :=
  { h with quiet := fun hp => h.quiet (by simpa only [tick_asleep, tick_woken, tick_off] using hp)
           sleep := fun hp => h.sleep (by simpa only [tick_asleep] using hp) }

theorem wake {c : Cfg} {s : Src α} (h : SrcInv c s) : SrcInv c { s with pc := .edge } :=
  { h with quiet := by simp, sleep := by simp }

theorem commit {c : Cfg} {s : Src α} (h : SrcInv c s) : SrcInv c { s with valid := s.nvalid, data := s.ndata } :=
  { h with }

theorem run {c : Cfg} (hv : c.hasValid = true) {s : Src α} (h : SrcInv c s) (ready : Bool) :
    SrcInv c (s.run c ready) := by
  unfold Src.run
  simp only [hv, Bool.not_true, Bool.false_or, if_true]
  split
  · split
    · rename_i x rest hq hp
      exact { quiet := by simp, sleep := by simp, act := by simp, data := fun _ => ⟨x, rfl⟩
              wait := fun x hx => absurd hx (not_waiting s x)
              bound := by
                intro hl
                have := h.bound hl
                rw [hq] at this
                simp only [List.length_cons] at this
                simp only; omega
              idle := by simp }
    · split
      · rename_i hq
        simp only [List.isEmpty_iff] at hq
        exact { h with quiet := fun _ => rfl, sleep := fun _ => hq, act := fun _ => rfl, data := by simp,
                       idle := fun _ _ => rfl }
      · rename_i hq
        exact { h with quiet := by simp, sleep := by simp, act := fun _ => rfl, data := by simp,
                       idle := by intro h1; simp only at h1; simp [h1] at hq }
  · exact { h with quiet := by simp, sleep := by simp }

end SrcInv

theorem SrcSys.step_inv {c : Cfg} (hv : c.hasValid = true) {s : SrcSys α} (h : SrcInv c s.src) (e : SrcEv α) :
    SrcInv c (s.step c e).src := by
  cases e <;> simp only [SrcSys.step]
  case tick => split; exact h.tick; exact h
  case run => split; exact h.run hv _; exact h
  case wake => split; exact h.wake; exact h
  case commit => split; exact h.commit; exact h
  case env => split <;> exact h
  case send => exact h.send _
  case resume => exact h.resume _
  case sendNowait => exact h.sendNowait _
  case pause => exact h.setPause _
  case clear => exact h.clear
  case reset => exact h.reset _

/-- Induction over histories. -/
theorem foldl_inv {σ ε : Type} (step : σ → ε → σ) (P : σ → Prop) (hstep : ∀ s e, P s → P (step s e)) :
    ∀ (evs : List ε) (s : σ), P s → P (evs.foldl step s)
  | [], _, h => h
  | e :: evs, s, h => foldl_inv step P hstep evs _ (hstep s e h)

/-- Induction over histories whose events satisfy `Q`. -/
theorem foldl_inv' {σ ε : Type} (step : σ → ε → σ) (P : σ → Prop) (Q : ε → Prop)
    (hstep : ∀ s e, Q e → P s → P (step s e)) :
    ∀ (evs : List ε) (s : σ), (∀ e ∈ evs, Q e) → P s → P (evs.foldl step s)
  | [], _, _, h => h
  | e :: evs, s, hq, h => foldl_inv' step P Q hstep evs _ (fun e he => hq e (List.mem_cons_of_mem _ he))
      (hstep s e (hq e List.mem_cons_self) h)

theorem SrcSys.exec_inv {c : Cfg} (hv : c.hasValid = true) (evs : List (SrcEv α)) : SrcInv c (SrcSys.exec c evs).src :=
  foldl_inv _ (fun s : SrcSys α => SrcInv c s.src) (fun _ e h => SrcSys.step_inv hv h e) evs _ (SrcInv.init c)


/-! ## C42: holding the presented item -/

/-- Facts about the bus that hold between any two events: settled writes, and what the last clock edge saw. -/
structure HoldInv (c : Cfg) (s : SrcSys α) : Prop where
  set : s.settled = true → s.src.valid = s.src.nvalid ∧ s.src.data = s.src.ndata
  last : ∀ a, s.trace.getLast? = some (some a) → a.valid = true → (c.hasReady && !a.ready) = true →
    s.src.nvalid = true ∧ s.src.ndata = a.data ∧
    (s.src.pc = .due → s.src.valid = true ∧ s.src.data = a.data ∧ s.ready = a.ready)
  all : ∀ (i : Nat) (a b : Sample α), s.trace[i]? = some (some a) → s.trace[i + 1]? = some (some b) →
    a.valid = true → (c.hasReady && !a.ready) = true → b.valid = true ∧ b.data = a.data

theorem HoldInv.same {c : Cfg} {s t : SrcSys α} (h : HoldInv c s) (h1 : t.settled = true → s.settled = true)
    (h2 : t.trace = s.trace) (h3 : t.src.valid = s.src.valid) (h4 : t.src.data = s.src.data)
    (h5 : t.src.nvalid = s.src.nvalid) (h6 : t.src.ndata = s.src.ndata) (h7 : t.src.pc = .due → s.src.pc = .due)
    (h8 : t.src.pc = .due → t.ready = s.ready) : HoldInv c t where
  set := by rw [h3, h4, h5, h6]; exact fun hh => h.set (h1 hh)
  last := by
    rw [h2, h3, h4, h5, h6]
    intro a ha hv hr
    obtain ⟨g1, g2, g3⟩ := h.last a ha hv hr
    exact ⟨g1, g2, fun hd => ⟨(g3 (h7 hd)).1, (g3 (h7 hd)).2.1, by rw [h8 hd]; exact (g3 (h7 hd)).2.2⟩⟩
  all := by rw [h2]; exact h.all

theorem put_due {s : Src α} {x : α} : (s.put x).pc = .due ↔ s.pc = .due := wakeUp_due

theorem HoldInv.step {c : Cfg} (hv : c.hasValid = true) {s : SrcSys α} (h : HoldInv c s) (e : SrcEv α) :
    HoldInv c (s.step c e) := by
  have hput : ∀ (t : Src α) (x : α), t.valid = s.src.valid → t.data = s.src.data → t.nvalid = s.src.nvalid →
      t.ndata = s.src.ndata → t.pc = s.src.pc → HoldInv c { s with src := t.put x, settled := false } := by
    intro t x e1 e2 e3 e4 e5
    exact h.same (by simp) rfl e1 e2 e3 e4 (by simp [put_due, e5]) (fun _ => rfl)
  cases e <;> simp only [SrcSys.step]
  case tick =>
    split
    · rename_i hs
      simp only [Bool.and_eq_true, still_iff] at hs
      obtain ⟨e1, e2⟩ := h.set hs.1
      refine ⟨by simp, ?_, ?_⟩
      · intro a ha hv' hr
        simp only [List.getLast?_append, List.getLast?_singleton, Option.some_or, Option.some.injEq] at ha
        subst ha
        simp only at hv' hr ⊢
        exact ⟨by rw [← e1]; exact hv', e2.symm, fun _ => by simp [hv']⟩
      · intro i a b ha hb hv' hr
        simp only [List.getElem?_append] at ha hb
        split at hb
        · rename_i hi
          rw [if_pos (by omega)] at ha
          exact h.all i a b ha hb hv' hr
        · rename_i hi
          have hi' : i + 1 = s.trace.length := by
            rcases Nat.lt_or_ge (i + 1 - s.trace.length) 1 with h' | h'
            · omega
            · rw [List.getElem?_eq_none (by simpa using h')] at hb; cases hb
          rw [if_pos (by omega)] at ha
          have hl : s.trace.getLast? = some (some a) := by
            rw [List.getLast?_eq_getElem?, ← ha]; congr 1; omega
          obtain ⟨g1, g2, _⟩ := h.last a hl hv' hr
          simp only [hi', Nat.sub_self, List.getElem?_cons_zero, Option.some.injEq] at hb
          subst hb
          exact ⟨by simp only; rw [e1]; exact g1, by simp only; rw [e2]; exact g2⟩
    · exact h
  case run =>
    split
    · rename_i hd
      refine ⟨by simp, ?_, h.all⟩
      intro a ha hv' hr
      obtain ⟨g1, g2, g3⟩ := h.last a ha hv' hr
      obtain ⟨g4, g5, g6⟩ := g3 hd
      simp only [Bool.and_eq_true, Bool.not_eq_true'] at hr
      have e1 : s.src.run c s.ready = { s.src with pc := .edge } := by
        unfold Src.run
        simp [hv, g4, g6, hr.1, hr.2]
      simp only
      rw [e1]
      exact ⟨g1, g2, by simp⟩
    · exact h
  case wake =>
    split
    · exact h.same (by simp) rfl rfl rfl rfl rfl (by simp) (fun _ => rfl)
    · exact h
  case commit =>
    split
    · rename_i hs
      simp only [still_iff] at hs
      refine ⟨fun _ => ⟨rfl, rfl⟩, ?_, h.all⟩
      intro a ha hv' hr
      obtain ⟨g1, g2, g3⟩ := h.last a ha hv' hr
      exact ⟨g1, g2, fun hd => absurd hd hs.1⟩
    · exact h
  case env r =>
    split
    · exact h
    · rename_i hd
      exact h.same (fun hh => hh) rfl rfl rfl rfl rfl (fun hh => hh) (fun hh => absurd hh hd)
  case send x =>
    unfold Src.send
    split
    · exact h.same (by simp) rfl rfl rfl rfl rfl (fun hh => hh) (fun _ => rfl)
    · exact hput s.src x rfl rfl rfl rfl rfl
  case resume i =>
    unfold Src.resume
    split
    · split
      · exact h.same (by simp) rfl rfl rfl rfl rfl (fun hh => hh) (fun _ => rfl)
      · exact hput _ _ rfl rfl rfl rfl rfl
    · exact h.same (by simp) rfl rfl rfl rfl rfl (fun hh => hh) (fun _ => rfl)
  case sendNowait x =>
    unfold Src.sendNowait
    split
    · exact h.same (by simp) rfl rfl rfl rfl rfl (fun hh => hh) (fun _ => rfl)
    · exact hput s.src x rfl rfl rfl rfl rfl
  case pause v => exact h.same (by simp) rfl rfl rfl rfl rfl (fun hh => hh) (fun _ => rfl)
  case clear => exact h.same (by simp) rfl rfl rfl rfl rfl (fun hh => hh) (fun _ => rfl)
  case reset v =>
    cases v
    · simp only [Src.reset, Bool.false_eq_true, if_false]
      split
      · exact h.same (by simp) rfl rfl rfl rfl rfl (by simp) (fun _ => rfl)
      · exact h.same (by simp) rfl rfl rfl rfl rfl (fun hh => hh) (fun _ => rfl)
    · refine ⟨by simp, ?_, ?_⟩
      · intro a ha
        simp at ha
      · intro i a b ha hb
        simp only [if_true, List.getElem?_append] at ha hb
        split at hb
        · rw [if_pos (by omega)] at ha
          exact h.all i a b ha hb
        · rcases hx : i + 1 - s.trace.length with _ | k
          · rw [hx] at hb; simp at hb
          · rw [hx] at hb; simp at hb

theorem SrcSys.exec_hold {c : Cfg} (hv : c.hasValid = true) (evs : List (SrcEv α)) :
    HoldInv c (SrcSys.exec c evs) :=
  foldl_inv _ (fun s : SrcSys α => HoldInv c s) (fun _ e h => h.step hv e) evs _
    ⟨by simp, by simp, by simp⟩

/-! ## C47: everything sent is transferred, on the bus or queued -/

/-- The item presented and not yet transferred. -/
def SrcSys.onBus (c : Cfg) (s : SrcSys α) : List α :=
  if s.src.pc = .due ∧ (s.src.valid && (!c.hasReady || s.ready)) = true then []
  else if s.src.nvalid then s.src.ndata.toList else []

/-- Accounting, as equality for `clean` histories and as a sublist otherwise. -/
def Acc (clean : Bool) (l sent : List α) : Prop := if clean then sent = l else l.Sublist sent

theorem Acc.drop_mid {clean : Bool} {a b c sent : List α} (h : Acc clean (a ++ b ++ c) sent) :
    Acc false (a ++ c) sent := by
  have : (a ++ c).Sublist (a ++ b ++ c) := by
    rw [List.append_assoc]
    exact List.Sublist.append (List.Sublist.refl a) (List.sublist_append_right b c)
  cases clean
  · exact this.trans h
  · simp only [Acc, if_true] at h
    simp only [Acc, Bool.false_eq_true, if_false]
    rw [h]; exact this

theorem Acc.drop_last {clean : Bool} {a b sent : List α} (h : Acc clean (a ++ b) sent) :
    Acc false (a ++ []) sent := by
  have := Acc.drop_mid (a := a) (b := b) (c := []) (clean := clean) (sent := sent) (by simpa using h)
  simpa using this

theorem Acc.put {clean : Bool} {a sent : List α} (h : Acc clean a sent) (x : α) : Acc clean (a ++ [x]) (sent ++ [x]) := by
  cases clean
  · exact List.Sublist.append h (List.Sublist.refl [x])
  · simp only [Acc, if_true] at h ⊢
    rw [h]

theorem Acc.weaken {clean : Bool} {a sent : List α} (h : Acc clean a sent) : Acc false a sent := by
  cases clean
  · exact h
  · simp only [Acc, if_true] at h
    simp only [Acc, Bool.false_eq_true, if_false]
    rw [h]; exact List.Sublist.refl _


/-- The accounting invariant of a source. -/
structure SrcAcc (c : Cfg) (clean : Bool) (s : SrcSys α) : Prop where
  inv : SrcInv c s.src
  set : s.settled = true → s.src.valid = s.src.nvalid ∧ s.src.data = s.src.ndata
  due : s.src.pc = .due → s.src.valid = s.src.nvalid ∧ s.src.data = s.src.ndata
  acc : Acc clean (xfers c s.trace ++ s.onBus c ++ s.src.queue) s.src.sent

theorem onBus_not_due (c : Cfg) (s : SrcSys α) (h : s.src.pc ≠ .due) :
    s.onBus c = if s.src.nvalid then s.src.ndata.toList else [] := by
  unfold SrcSys.onBus
  rw [if_neg (fun hh => h hh.1)]

theorem SrcAcc.same {c : Cfg} {clean : Bool} {s t : SrcSys α} (h : SrcAcc c clean s) (hi : SrcInv c t.src)
    (h1 : t.settled = true → s.settled = true) (h2 : t.trace = s.trace) (h3 : t.src.valid = s.src.valid)
    (h4 : t.src.data = s.src.data) (h5 : t.src.nvalid = s.src.nvalid) (h6 : t.src.ndata = s.src.ndata)
    (h7 : t.src.pc = .due ↔ s.src.pc = .due) (h8 : t.src.pc = .due → t.ready = s.ready)
    (hq : Acc clean (xfers c s.trace ++ s.onBus c ++ t.src.queue) t.src.sent) : SrcAcc c clean t where
  inv := hi
  set := by rw [h3, h4, h5, h6]; exact fun hh => h.set (h1 hh)
  due := by rw [h3, h4, h5, h6]; exact fun hh => h.due (h7.1 hh)
  acc := by
    have : t.onBus c = s.onBus c := by
      unfold SrcSys.onBus
      by_cases hd : s.src.pc = .due
      · rw [h8 (h7.2 hd), h3, h5, h6]; simp only [h7]
      · rw [if_neg (c := t.src.pc = .due ∧ _) (fun hh => hd (h7.1 hh.1)),
          if_neg (c := s.src.pc = .due ∧ _) (fun hh => hd hh.1), h5, h6]
    rw [h2, this]; exact hq

theorem SrcAcc.put {c : Cfg} {clean : Bool} {s : SrcSys α} (h : SrcAcc c clean s) (t : Src α) (x : α)
    (hi : SrcInv c (t.put x)) (e1 : t.valid = s.src.valid) (e2 : t.data = s.src.data) (e3 : t.nvalid = s.src.nvalid)
    (e4 : t.ndata = s.src.ndata) (e5 : t.pc = s.src.pc) (e6 : t.queue = s.src.queue) (e7 : t.sent = s.src.sent) :
    SrcAcc c clean { s with src := t.put x, settled := false } :=
  h.same hi (by simp) rfl e1 e2 e3 e4 (by simp [put_due, e5]) (fun _ => rfl) (by
    simp only [Src.put, e6, e7]
    rw [← List.append_assoc]
    exact h.acc.put x)

theorem xfers_append (b : Cfg) (l₁ l₂ : List (Option (Sample α))) : xfers b (l₁ ++ l₂) = xfers b l₁ ++ xfers b l₂ := by
  simp [xfers]

theorem SrcAcc.step {c : Cfg} {clean : Bool} (hv : c.hasValid = true) {s : SrcSys α} (e : SrcEv α)
    (hcl : clean = true → e.clean = true) (h : SrcAcc c clean s) : SrcAcc c clean (s.step c e) := by
  have hi := SrcSys.step_inv hv h.inv e
  cases e <;> simp only [SrcSys.step] at hi ⊢
  case tick =>
    split
    · rename_i hs
      rw [if_pos hs] at hi
      simp only [Bool.and_eq_true, still_iff] at hs
      obtain ⟨e1, e2⟩ := h.set hs.1
      refine ⟨hi, by simp, fun _ => ⟨e1, e2⟩, ?_⟩
      have ha := h.acc
      rw [onBus_not_due c s hs.2.1] at ha
      simp only
      rw [xfers_append]
      by_cases hx : (s.src.valid && (!c.hasReady || s.ready)) = true
      · have hval : s.src.nvalid = true := by rw [← e1]; simp at hx; exact hx.1
        have hpc : s.src.pc = .edge := by
          have := h.inv.quiet
          rw [hval] at this
          cases hpc : s.src.pc <;> simp_all
        have hb : SrcSys.onBus c { s with src := { s.src with pc := s.src.pc.tick }, settled := false
                                          trace := s.trace ++ [some ⟨s.src.valid, s.ready, s.src.data⟩] } = [] := by
          unfold SrcSys.onBus
          simp only [hpc, Pc.tick, hx, and_self, if_true]
        rw [hb]
        rw [hval] at ha
        simp only [xfers, hv, Bool.not_true, Bool.false_or, List.flatMap_cons, List.flatMap_nil, hx, if_true, List.append_nil, e2] at ha ⊢
        exact ha
      · have hb : SrcSys.onBus c { s with src := { s.src with pc := s.src.pc.tick }, settled := false
                                          trace := s.trace ++ [some ⟨s.src.valid, s.ready, s.src.data⟩] } =
            if s.src.nvalid then s.src.ndata.toList else [] := by
          unfold SrcSys.onBus
          rw [if_neg (fun hh => hx hh.2)]
        rw [hb]
        rw [Bool.not_eq_true] at hx
        simp only [xfers, hv, Bool.not_true, Bool.false_or, List.flatMap_cons, List.flatMap_nil, hx, List.append_nil, Bool.false_eq_true, if_false] at ha ⊢
        exact ha
    · exact h
  case run =>
    split
    · rename_i hd
      rw [if_pos hd] at hi
      obtain ⟨e1, e2⟩ := h.due hd
      have ha := h.acc
      have hpc : (s.src.run c s.ready).pc ≠ .due := by
        unfold Src.run
        simp only [hv, Bool.not_true, Bool.false_or, if_true]
        repeat' split
        all_goals simp
      refine ⟨hi, by simp, fun hh => absurd hh hpc, ?_⟩
      rw [onBus_not_due _ _ hpc]
      simp only
      unfold SrcSys.onBus at ha
      simp only [hd, true_and] at ha
      unfold Src.run
      simp only [hv, Bool.not_true, Bool.false_or, if_true]
      by_cases hcond : ((!c.hasReady || s.ready) && s.src.valid || !s.src.valid) = true
      · rw [if_pos hcond]
        have ha' : Acc clean (xfers c s.trace ++ s.src.queue) s.src.sent := by
          by_cases hx : (s.src.valid && (!c.hasReady || s.ready)) = true
          · rw [if_pos hx, List.append_nil] at ha; exact ha
          · rw [if_neg hx] at ha
            have : s.src.nvalid = false := by
              rw [← e1]
              cases hval : s.src.valid
              · rfl
              · rw [hval] at hcond hx; simp_all
            rw [this] at ha
            simpa using ha
        split
        · rename_i x rest hq hp
          rw [hq] at ha'
          simpa [Src.setDeq] using ha'
        · split <;> simpa using ha'
      · rw [if_neg hcond]
        have hx : ¬ (s.src.valid && (!c.hasReady || s.ready)) = true := by
          intro hx; apply hcond; rw [Bool.and_comm] at hx; rw [hx]; rfl
        rw [if_neg hx] at ha
        exact ha
    · exact h
  case wake =>
    split
    · rename_i hw
      rw [if_pos hw] at hi
      exact h.same hi (by simp) rfl rfl rfl rfl rfl (by simp [hw]) (fun _ => rfl) h.acc
    · exact h
  case commit =>
    split
    · rename_i hs
      rw [if_pos hs] at hi
      simp only [still_iff] at hs
      refine ⟨hi, fun _ => ⟨rfl, rfl⟩, fun hd => ⟨rfl, rfl⟩, ?_⟩
      have ha := h.acc
      rw [onBus_not_due _ _ hs.1] at ha
      rw [onBus_not_due]
      · exact ha
      · exact hs.1
    · exact h
  case env r =>
    split
    · exact h
    · rename_i hd
      exact h.same (by rw [if_neg hd] at hi; exact hi) (fun hh => hh) rfl rfl rfl rfl rfl Iff.rfl
        (fun hh => absurd hh hd) h.acc
  case send x =>
    unfold Src.send at hi ⊢
    split
    · rename_i hf
      rw [if_pos hf] at hi
      exact h.same hi (by simp) rfl rfl rfl rfl rfl Iff.rfl (fun _ => rfl) h.acc
    · rename_i hf
      rw [if_neg hf] at hi
      exact h.put s.src x hi rfl rfl rfl rfl rfl rfl rfl
  case resume i =>
    have hi' := h.inv
    unfold Src.resume at hi ⊢
    split
    · split
      · exact h.same { hi' with wait := fun _ _ => by assumption } (by simp) rfl rfl rfl rfl rfl Iff.rfl (fun _ => rfl) h.acc
      · rename_i hf
        exact h.put _ _ ((hi'.dropWaiter i).put (by simpa using hf) _) rfl rfl rfl rfl rfl rfl rfl
    · exact h.same hi' (by simp) rfl rfl rfl rfl rfl Iff.rfl (fun _ => rfl) h.acc
  case sendNowait x =>
    unfold Src.sendNowait at hi ⊢
    split
    · exact h.same h.inv (by simp) rfl rfl rfl rfl rfl Iff.rfl (fun _ => rfl) h.acc
    · rename_i hf
      rw [if_neg hf] at hi
      exact h.put s.src x hi rfl rfl rfl rfl rfl rfl rfl
  case pause v => exact h.same hi (by simp) rfl rfl rfl rfl rfl Iff.rfl (fun _ => rfl) h.acc
  case clear =>
    have : clean = false := by
      cases clean
      · rfl
      · exact absurd (hcl rfl) (by simp [SrcEv.clean])
    subst this
    refine h.same hi (by simp) rfl rfl rfl rfl rfl Iff.rfl (fun _ => rfl) ?_
    exact h.acc.drop_last
  case reset v =>
    cases v
    · simp only [Src.reset, Bool.false_eq_true, if_false] at hi ⊢
      split
      · rename_i ho
        rw [if_pos ho] at hi
        exact h.same hi (by simp) rfl rfl rfl rfl rfl (by simp [ho]) (fun _ => rfl) h.acc
      · rename_i ho
        rw [if_neg ho] at hi
        exact h.same hi (by simp) rfl rfl rfl rfl rfl Iff.rfl (fun _ => rfl) h.acc
    · have : clean = false := by
        cases clean
        · rfl
        · exact absurd (hcl rfl) (by simp [SrcEv.clean])
      subst this
      refine ⟨hi, by simp, by simp [Src.reset], ?_⟩
      have hb : (⟨s.src.reset true, s.ready, false, s.trace ++ [none]⟩ : SrcSys α).onBus c = [] := by
        rw [onBus_not_due]
        · simp [Src.reset]
        · simp [Src.reset]
      simp only [if_true]
      rw [hb, xfers_append]
      simpa [xfers, Src.reset] using h.acc.drop_mid

theorem SrcSys.exec_acc {c : Cfg} (hv : c.hasValid = true) (clean : Bool) (evs : List (SrcEv α))
    (hcl : clean = true → ∀ e ∈ evs, e.clean = true) : SrcAcc c clean (SrcSys.exec c evs) :=
  foldl_inv' _ (fun s : SrcSys α => SrcAcc c clean s) (fun e => clean = true → e.clean = true)
    (fun _ e hq h => h.step hv e hq) evs _ (fun e he hc => hcl hc e he)
    ⟨SrcInv.init c, by simp, by simp, by cases clean <;> simp [Acc, xfers, SrcSys.onBus]⟩


/-! ## The sink by itself -/

/-- Facts that hold between any two events of a sink; `valid` is the current value of the signal. -/
structure SnkInv (c : Cfg) (s : Snk α) (valid : Bool) : Prop where
  off : s.pc = .off → s.nready = false
  room : c.hasReady = true → s.nready = true → isFull c.limit s.queue.length = false
  lim : c.hasReady = true → c.limit > 0 → (s.queue.length : Int) ≤ c.limit
  due : s.pc = .due → s.ready = s.nready
  sleep : s.pc = .asleep → ((!c.hasValid || valid) && (!c.hasReady || s.nready)) = false

namespace SnkInv

theorem init (c : Cfg) (v : Bool) : SnkInv c ({} : Snk α) v where
  off := by simp
  room := by simp
  lim := by intro _; simp; omega
  due := by simp
  sleep := by simp

theorem setWake {c : Cfg} {s : Snk α} {v : Bool} (h : SnkInv c s v) (v' : Bool) : SnkInv c s.setWake v' where
  off := by simp only [Snk.setWake, wakeUp_off]; exact h.off
  room := h.room
  lim := h.lim
  due := by simp only [Snk.setWake, wakeUp_due]; exact h.due
  sleep := fun hs => absurd hs wakeUp_ne

theorem setPause {c : Cfg} {s : Snk α} {v : Bool} (h : SnkInv c s v) (p : Bool) : SnkInv c (s.setPause p) v := by
  unfold Snk.setPause
  split
  · exact { (h.setWake v) with }
  · exact { h with }

theorem full_mono {l : Int} {m n : Nat} (h : m ≤ n) (hf : isFull l n = false) : isFull l m = false := by
  rw [not_full_iff] at *; intro hl; have := hf hl; omega

theorem recv {c : Cfg} {s : Snk α} {v : Bool} (h : SnkInv c s v) : SnkInv c s.recv.2 v := by
  unfold Snk.recv
  split
  · exact h
  · rename_i x rest hq
    refine setWake (v := v) ?_ v
    have h1 := h.room
    have h2 := h.lim
    rw [hq] at h1 h2
    simp only [List.length_cons] at h1 h2
    exact { h with room := fun hh hr => full_mono (by simp only; omega) (h1 hh hr)
                   lim := by intro a b; have := h2 a b; simp only; omega }

theorem clear {c : Cfg} {s : Snk α} {v : Bool} (h : SnkInv c s v) : SnkInv c s.clear v :=
  { h with room := fun hh hr => full_mono (Nat.zero_le _) (h.room hh hr), lim := by intro _; simp [Snk.clear]; omega }

theorem reset {c : Cfg} {s : Snk α} {v : Bool} (h : SnkInv c s v) (b : Bool) : SnkInv c (s.reset b) v := by
  unfold Snk.reset
  split
  · exact { h with off := fun _ => rfl, room := by simp, due := by simp, sleep := by simp }
  · split
    · exact { h with off := by simp, due := by simp, sleep := by simp }
    · exact h

theorem top {c : Cfg} {s : Snk α} {v : Bool} (h : SnkInv c s v) : SnkInv c s.top v :=
  { h with off := by simp [Snk.top], due := by simp [Snk.top], sleep := by simp [Snk.top] }

theorem tick {c : Cfg} {s : Snk α} {v : Bool} (h : SnkInv c s v) (he : s.ready = s.nready) :
    SnkInv c { s with pc := s.pc.tick } v :=
  { h with off := fun hp => h.off (by simpa only [tick_off] using hp), due := fun _ => he
           sleep := fun hp => h.sleep (by simpa only [tick_asleep] using hp) }

theorem commit {c : Cfg} {s : Snk α} {v : Bool} (h : SnkInv c s v) : SnkInv c { s with ready := s.nready } v :=
  { h with due := fun _ => rfl }

theorem full_bool (l : Int) (n : Nat) (b : Bool) (h : (!(isFull l n || b)) = true) : isFull l n = false := by
  simp at h; exact h.1

/-- Capturing an item keeps the bound. -/
theorem capture {c : Cfg} {s : Snk α} {v : Bool} (h : SnkInv c s v) (hd : s.pc = .due) (d : Option α)
    (hr : c.hasReady = true) (hl : c.limit > 0) : ((s.capture c v d).queue.length : Int) ≤ c.limit := by
  unfold Snk.capture
  simp only
  split
  · rename_i hc
    rw [hr, h.due hd] at hc
    simp only [Bool.not_true, Bool.false_or, Bool.and_eq_true] at hc
    have := h.room hr hc.1
    rw [not_full_iff] at this
    have := this hl
    cases d <;> simp <;> omega
  · exact h.lim hr hl

theorem finish {c : Cfg} {s : Snk α} {v : Bool} (hl : c.hasReady = true → c.limit > 0 → (s.queue.length : Int) ≤ c.limit) :
    SnkInv c (s.finish c v) v := by
  unfold Snk.finish
  simp only
  split
  · split
    · rename_i hr hs
      simp only [Bool.and_eq_true, Bool.or_eq_true, Bool.not_eq_true'] at hs
      exact { off := by simp, room := fun _ => full_bool _ _ _, lim := hl, due := by simp, sleep := fun _ => by
                rcases hs.1 with h1 | h1
                · rw [h1]; rfl
                · rw [← Bool.or_eq_true] at h1
                  simp only [h1, hr, Bool.not_true, Bool.or_self, Bool.and_false] }
    · exact { off := by simp [Snk.top], room := fun _ => full_bool _ _ _, lim := hl, due := by simp [Snk.top], sleep := by simp [Snk.top] }
  · rename_i hr
    split
    · rename_i hs
      exact { off := by simp, room := fun hh => absurd hh hr, lim := hl, due := by simp, sleep := by simp_all }
    · exact { off := by simp [Snk.top], room := fun hh => absurd hh hr, lim := hl, due := by simp [Snk.top], sleep := by simp [Snk.top] }

theorem run {c : Cfg} {s : Snk α} {v : Bool} (h : SnkInv c s v) (hd : s.pc = .due) (d : Option α) :
    SnkInv c (s.run c v d) v := finish (fun hr hl => h.capture hd d hr hl)

end SnkInv


theorem top_pc (s : Snk α) : s.top.pc = .edge := rfl

theorem finish_due {c : Cfg} {s : Snk α} {v : Bool} : (s.finish c v).pc ≠ .due := by
  unfold Snk.finish
  simp only
  repeat' split
  all_goals simp [Snk.top]

theorem finish_captured {c : Cfg} {s : Snk α} {v : Bool} : (s.finish c v).captured = s.captured := by
  unfold Snk.finish
  simp only
  repeat' split
  all_goals simp [Snk.top]

theorem finish_queue {c : Cfg} {s : Snk α} {v : Bool} : (s.finish c v).queue = s.queue := by
  unfold Snk.finish
  simp only
  repeat' split
  all_goals simp [Snk.top]

theorem finish_got {c : Cfg} {s : Snk α} {v : Bool} : (s.finish c v).got = s.got := by
  unfold Snk.finish
  simp only
  repeat' split
  all_goals simp [Snk.top]

theorem finish_ready {c : Cfg} {s : Snk α} {v : Bool} : (s.finish c v).ready = s.ready := by
  unfold Snk.finish
  simp only
  repeat' split
  all_goals simp [Snk.top]

theorem finish_off {c : Cfg} {s : Snk α} {v : Bool} : (s.finish c v).pc ≠ .off := by
  unfold Snk.finish
  simp only
  repeat' split
  all_goals simp [Snk.top]

theorem setWake_due {s : Snk α} : s.setWake.pc = .due ↔ s.pc = .due := wakeUp_due
theorem setWake_off {s : Snk α} : s.setWake.pc = .off ↔ s.pc = .off := wakeUp_off

theorem setPause_facts (s : Snk α) (v : Bool) : ((s.setPause v).pc = .due ↔ s.pc = .due) ∧
    ((s.setPause v).pc = .off ↔ s.pc = .off) ∧ (s.setPause v).captured = s.captured ∧
    (s.setPause v).ready = s.ready ∧ (s.setPause v).nready = s.nready ∧ (s.setPause v).got = s.got ∧
    (s.setPause v).queue = s.queue := by
  unfold Snk.setPause
  split <;> simp [Snk.setWake, wakeUp_due, wakeUp_off]

theorem recv_facts (s : Snk α) : (s.recv.2.pc = .due ↔ s.pc = .due) ∧
    (s.recv.2.pc = .off ↔ s.pc = .off) ∧ s.recv.2.captured = s.captured ∧
    s.recv.2.ready = s.ready ∧ s.recv.2.nready = s.nready ∧ s.recv.2.got ++ s.recv.2.queue = s.got ++ s.queue := by
  unfold Snk.recv
  split
  · simp
  · rename_i h; simp [Snk.setWake, wakeUp_due, wakeUp_off, h]

/-! ## Accounting for a sink with an arbitrary driver -/

/-- The item the sink is about to capture. -/
def SnkSys.pend (c : Cfg) (s : SnkSys α) : List α :=
  if s.snk.pc = .due ∧ ((!c.hasValid || s.valid) && (!c.hasReady || s.snk.ready)) = true then s.data.toList else []

/-- The accounting invariant of a sink. -/
structure SnkAcc (c : Cfg) (clean : Bool) (s : SnkSys α) : Prop where
  inv : SnkInv c s.snk s.valid
  set : s.settled = true → s.snk.ready = s.snk.nready
  on : clean = true → c.hasReady = false → s.snk.pc ≠ .off
  acc : Acc clean (s.snk.captured ++ s.pend c) (xfers c s.trace)

theorem pend_not_due (c : Cfg) (s : SnkSys α) (h : s.snk.pc ≠ .due) : s.pend c = [] := by
  unfold SnkSys.pend
  rw [if_neg (fun hh => h hh.1)]

theorem SnkSys.step_inv {c : Cfg} {s : SnkSys α} (h : SnkInv c s.snk s.valid)
    (hset : s.settled = true → s.snk.ready = s.snk.nready) (e : SnkEv α) :
    SnkInv c (s.step c e).snk (s.step c e).valid := by
  cases e <;> simp only [SnkSys.step]
  case tick =>
    split
    · rename_i hs
      simp only [Bool.and_eq_true] at hs
      exact h.tick (hset hs.1)
    · exact h
  case run => split; (rename_i hd; exact h.run hd _); exact h
  case wake => split; exact h.top; exact h
  case spurious => split; exact h.top; exact h
  case commit =>
    split
    · simp only
      split
      · exact h.commit.setWake _
      · exact h.commit
    · exact h
  case env v d =>
    split
    · exact h
    · split
      · exact h.setWake v
      · rename_i hv
        simp only
        refine { h with sleep := fun hp => ?_ }
        have := h.sleep hp
        cases v <;> simp_all
  case recv => exact h.recv
  case pause => exact h.setPause _
  case clear => exact h.clear
  case reset => exact h.reset _

theorem SnkAcc.same {c : Cfg} {clean : Bool} {s t : SnkSys α} (h : SnkAcc c clean s) (hi : SnkInv c t.snk t.valid)
    (h1 : t.settled = true → s.settled = true) (h2 : t.trace = s.trace) (h3 : t.snk.ready = s.snk.ready)
    (h4 : t.snk.nready = s.snk.nready) (h5 : t.snk.captured = s.snk.captured)
    (h6 : t.snk.pc = .due ↔ s.snk.pc = .due) (h7 : t.snk.pc = .off → s.snk.pc = .off)
    (h8 : t.snk.pc = .due → t.valid = s.valid ∧ t.data = s.data) : SnkAcc c clean t where
  inv := hi
  set := by rw [h3, h4]; exact fun hh => h.set (h1 hh)
  on := fun a b hh => h.on a b (h7 hh)
  acc := by
    have : t.pend c = s.pend c := by
      by_cases hd : s.snk.pc = .due
      · obtain ⟨e1, e2⟩ := h8 (h6.2 hd)
        unfold SnkSys.pend
        rw [h3, e1, e2]
        simp only [h6]
      · rw [pend_not_due c s hd, pend_not_due c t (fun hh => hd (h6.1 hh))]
    rw [h5, h2, this]; exact h.acc

theorem SnkAcc.step {c : Cfg} {clean : Bool} {s : SnkSys α} (e : SnkEv α)
    (hcl : clean = true → e.noReset = true) (h : SnkAcc c clean s) : SnkAcc c clean (s.step c e) := by
  have hi := SnkSys.step_inv h.inv h.set e
  cases e <;> simp only [SnkSys.step] at hi ⊢
  case tick =>
    split
    · rename_i hs
      rw [if_pos hs] at hi
      simp only [Bool.and_eq_true, still_iff] at hs
      refine ⟨hi, by simp, fun a b hh => h.on a b (by simpa only [tick_off] using hh), ?_⟩
      have ha := h.acc
      rw [pend_not_due c s hs.2.1, List.append_nil] at ha
      simp only
      rw [xfers_append]
      by_cases hx : ((!c.hasValid || s.valid) && (!c.hasReady || s.snk.ready)) = true
      · have e1 : xfers c [some (⟨s.valid, s.snk.ready, s.data⟩ : Sample α)] = s.data.toList := by
          simp only [xfers, hx, if_true, List.flatMap_cons, List.flatMap_nil, List.append_nil]
        rw [e1]
        have hpc : s.snk.pc = .edge ∨ (s.snk.pc = .off ∧ clean = false) := by
          have h1 := h.inv.sleep
          have h2 := h.inv.off
          have h3 := h.set hs.1
          rw [← h3, hx] at h1
          cases hpc : s.snk.pc
          · right
            refine ⟨rfl, ?_⟩
            cases hr : c.hasReady
            · cases hcc : clean
              · rfl
              · exact absurd hpc (h.on hcc hr)
            · rw [hr, h3, h2 hpc] at hx; simp at hx
          · left; rfl
          · exact absurd hpc hs.2.1
          · simp_all
          · exact absurd hpc hs.2.2
        rcases hpc with hpc | ⟨hpc, hcc⟩
        · have e2 : SnkSys.pend c { s with snk := { s.snk with pc := s.snk.pc.tick }, settled := false
                                           trace := s.trace ++ [some ⟨s.valid, s.snk.ready, s.data⟩] } = s.data.toList := by
            unfold SnkSys.pend
            simp only [hpc, Pc.tick, hx, and_self, if_true]
          rw [e2]
          cases clean
          · exact List.Sublist.append ha (List.Sublist.refl _)
          · simp only [Acc, if_true] at ha ⊢
            rw [ha]
        · subst hcc
          rw [pend_not_due _ _ (by simp [hpc, Pc.tick]), List.append_nil]
          exact ha.trans (List.sublist_append_left _ _)
      · have e2 : SnkSys.pend c { s with snk := { s.snk with pc := s.snk.pc.tick }, settled := false
                                         trace := s.trace ++ [some ⟨s.valid, s.snk.ready, s.data⟩] } = [] := by
          unfold SnkSys.pend
          rw [if_neg (fun hh => hx hh.2)]
        have e1 : xfers c [some (⟨s.valid, s.snk.ready, s.data⟩ : Sample α)] = [] := by
          simp only [xfers, if_neg hx, List.flatMap_cons, List.flatMap_nil, List.append_nil]
        rw [e1, e2, List.append_nil, List.append_nil]
        exact ha
    · exact h
  case run =>
    split
    · rename_i hd
      rw [if_pos hd] at hi
      refine ⟨hi, by simp, fun _ _ => finish_off, ?_⟩
      rw [pend_not_due _ _ (by exact finish_due)]
      have ha := h.acc
      simp only [Snk.run, finish_captured, List.append_nil]
      unfold SnkSys.pend at ha
      unfold Snk.capture
      simp only [hd, true_and] at ha ⊢
      rw [Bool.and_comm]
      split
      · rename_i hx
        rw [if_pos hx] at ha
        exact ha
      · rename_i hx
        rw [if_neg hx, List.append_nil] at ha
        exact ha
    · exact h
  case wake =>
    split
    · rename_i hw
      rw [if_pos hw] at hi
      exact h.same hi (by simp) rfl rfl rfl rfl (by simp [Snk.top, hw]) (by simp [Snk.top]) (by simp [Snk.top])
    · exact h
  case spurious =>
    split
    · rename_i hw
      rw [if_pos hw] at hi
      exact h.same hi (by simp) rfl rfl rfl rfl (by simp [Snk.top, hw]) (by simp [Snk.top]) (by simp [Snk.top])
    · exact h
  case commit =>
    split
    · rename_i hs
      rw [if_pos hs] at hi
      simp only [still_iff] at hs
      have ha := h.acc
      rw [pend_not_due _ _ hs.1] at ha
      simp only at hi ⊢
      by_cases hb : (s.snk.nready && !s.snk.ready) = true
      · rw [if_pos hb] at hi ⊢
        refine ⟨hi, fun _ => rfl, fun a b => by simpa only [ne_eq, setWake_off] using h.on a b, ?_⟩
        rw [pend_not_due]
        · exact ha
        · simpa only [ne_eq, setWake_due] using hs.1
      · rw [if_neg hb] at hi ⊢
        refine ⟨hi, fun _ => rfl, h.on, ?_⟩
        rw [pend_not_due]
        · exact ha
        · exact hs.1
    · exact h
  case env v d =>
    split
    · exact h
    · rename_i hd
      rw [if_neg hd] at hi
      split at hi
      · rename_i hv
        rw [if_pos hv]
        exact h.same hi (fun hh => hh) rfl rfl rfl rfl setWake_due setWake_off.1 (fun hh => absurd (setWake_due.1 hh) hd)
      · rename_i hv
        rw [if_neg hv]
        exact h.same hi (fun hh => hh) rfl rfl rfl rfl Iff.rfl (fun hh => hh) (fun hh => absurd hh hd)
  case recv =>
    obtain ⟨f1, f2, f3, f4, f5, f6⟩ := recv_facts s.snk
    exact h.same hi (by simp) rfl f4 f5 f3 f1 f2.1 (fun _ => ⟨rfl, rfl⟩)
  case pause v =>
    obtain ⟨f1, f2, f3, f4, f5, f6⟩ := setPause_facts s.snk v
    exact h.same hi (by simp) rfl f4 f5 f3 f1 f2.1 (fun _ => ⟨rfl, rfl⟩)
  case clear => exact h.same hi (by simp) rfl rfl rfl rfl Iff.rfl (fun hh => hh) (fun _ => ⟨rfl, rfl⟩)
  case reset v =>
    cases v
    · simp only [Snk.reset, Bool.false_eq_true, if_false] at hi ⊢
      split
      · rename_i ho
        rw [if_pos ho] at hi
        exact h.same hi (by simp) rfl rfl rfl rfl (by simp [ho]) (by simp) (by simp)
      · rename_i ho
        rw [if_neg ho] at hi
        exact h.same hi (by simp) rfl rfl rfl rfl Iff.rfl (fun hh => hh) (fun _ => ⟨rfl, rfl⟩)
    · have : clean = false := by
        cases clean
        · rfl
        · exact absurd (hcl rfl) (by simp [SnkEv.noReset])
      subst this
      refine ⟨hi, by simp, by simp, ?_⟩
      rw [pend_not_due _ _ (by simp [Snk.reset])]
      simp only [if_true, xfers_append]
      have := h.acc.drop_last
      simpa [xfers, Snk.reset] using this

theorem SnkSys.exec_acc (c : Cfg) (clean : Bool) (evs : List (SnkEv α))
    (hcl : clean = true → ∀ e ∈ evs, e.noReset = true) :
    SnkAcc c clean (SnkSys.exec c (.reset false :: evs)) :=
  foldl_inv' _ (fun s : SnkSys α => SnkAcc c clean s) (fun e => clean = true → e.noReset = true)
    (fun _ e hq h => h.step e hq) evs _ (fun e he hc => hcl hc e he)
    ⟨(SnkInv.init c false).reset false, by simp [SnkSys.step], by simp [SnkSys.step, Snk.reset],
      by cases clean <;> simp [Acc, xfers, SnkSys.pend, SnkSys.step, Snk.reset]⟩

theorem SnkSys.exec_inv (c : Cfg) (evs : List (SnkEv α)) :
    SnkInv c (SnkSys.exec c evs).snk (SnkSys.exec c evs).valid :=
  (foldl_inv' _ (fun s : SnkSys α => SnkInv c s.snk s.valid ∧ (s.settled = true → s.snk.ready = s.snk.nready))
    (fun _ => True) (fun s e _ h => ⟨SnkSys.step_inv h.1 h.2 e, by
      cases e <;> simp only [SnkSys.step]
      case tick => split; simp; exact h.2
      case run => split; simp; exact h.2
      case wake => split; simp; exact h.2
      case spurious => split; simp; exact h.2
      case commit =>
        split
        · intro _; simp only; split <;> rfl
        · exact h.2
      case env v d =>
        split
        · exact h.2
        · split <;> exact h.2
      all_goals simp⟩) evs _ (fun _ _ => trivial) ⟨SnkInv.init c false, by simp⟩).1

end Verif.Stream
