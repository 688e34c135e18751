import Verif.Proof.Stream

/-!
# A paused stream source starts no transfer
-/

namespace Verif.Stream

variable {α : Type}

theorem onBus_same {c : Cfg} {s t : SrcSys α} (h3 : t.src.valid = s.src.valid) (h5 : t.src.nvalid = s.src.nvalid)
    (h6 : t.src.ndata = s.src.ndata) (h7 : t.src.pc = .due ↔ s.src.pc = .due) (h8 : t.src.pc = .due → t.ready = s.ready) :
    t.onBus c = s.onBus c := by
  unfold SrcSys.onBus
  by_cases hd : s.src.pc = .due
  · rw [h8 (h7.2 hd), h3, h5, h6]; simp only [h7]
  · rw [if_neg (c := t.src.pc = .due ∧ _) (fun hh => hd (h7.1 hh.1)),
      if_neg (c := s.src.pc = .due ∧ _) (fun hh => hd hh.1), h5, h6]

theorem SrcSys.step_paused {c : Cfg} (hv : c.hasValid = true) {s : SrcSys α} (h : SrcAcc c false s)
    (hp : s.src.pause = true) (e : SrcEv α) (he : e.noResume = true) :
    (s.step c e).src.pause = true ∧
    xfers c (s.step c e).trace ++ (s.step c e).onBus c <+: xfers c s.trace ++ s.onBus c := by
  have hsame : ∀ t : SrcSys α, t.src.pause = true → t.trace = s.trace → t.src.valid = s.src.valid → t.src.nvalid = s.src.nvalid →
      t.src.ndata = s.src.ndata → (t.src.pc = .due ↔ s.src.pc = .due) → (t.src.pc = .due → t.ready = s.ready) →
      t.src.pause = true ∧ xfers c t.trace ++ t.onBus c <+: xfers c s.trace ++ s.onBus c := by
    intro t h1 h2 h3 h4 h5 h6 h7
    rw [h2, onBus_same h3 h4 h5 h6 h7]
    exact ⟨h1, List.prefix_refl _⟩
  have hdrop : ∀ t : SrcSys α, t.src.pause = true → t.trace = s.trace → t.src.nvalid = false → 
      t.src.pause = true ∧ xfers c t.trace ++ t.onBus c <+: xfers c s.trace ++ s.onBus c := by
    intro t h1 h2 h3
    have : t.onBus c = [] := by
      unfold SrcSys.onBus
      rw [h3]; simp
    rw [h2, this, List.append_nil]
    exact ⟨h1, List.prefix_append _ _⟩
  have hput : ∀ (t : Src α) (x : α), t.valid = s.src.valid → t.nvalid = s.src.nvalid → t.pause = s.src.pause →
      t.ndata = s.src.ndata → t.pc = s.src.pc →
      (t.put x).pause = true ∧ xfers c s.trace ++ SrcSys.onBus c { s with src := t.put x, settled := false } <+:
        xfers c s.trace ++ s.onBus c := by
    intro t x e1 e2 e3 e4 e5
    exact hsame { s with src := t.put x, settled := false } (by simp [Src.put, e3, hp]) rfl e1 e2 e4 (by simp [put_due, e5]) (fun _ => rfl)
  cases e <;> simp only [SrcSys.step]
  case tick =>
    split
    · rename_i hs
      refine ⟨hp, ?_⟩
      simp only [Bool.and_eq_true, still_iff] at hs
      obtain ⟨e1, e2⟩ := h.set hs.1
      rw [onBus_not_due c s hs.2.1, xfers_append]
      by_cases hx : (s.src.valid && (!c.hasReady || s.ready)) = true
      · have hval : s.src.nvalid = true := by rw [← e1]; simp at hx; exact hx.1
        have hpc : s.src.pc = .edge := by
          have := h.inv.quiet
          rw [hval] at this
          cases hpc : s.src.pc <;> simp_all
        have hb : SrcSys.onBus c { s with src := { s.src with pc := s.src.pc.tick }, settled := false
                                          trace := s.trace ++ [some ⟨s.src.valid, s.ready, s.src.data⟩] } = [] := by
          unfold SrcSys.onBus
          simp only [hpc, Pc.tick, hx, and_self, if_true]
        rw [hb, hval]
        simp only [xfers, hv, Bool.not_true, Bool.false_or, List.flatMap_cons, List.flatMap_nil, hx, if_true, List.append_nil, e2]
        exact List.prefix_refl _
      · have hb : SrcSys.onBus c { s with src := { s.src with pc := s.src.pc.tick }, settled := false
                                          trace := s.trace ++ [some ⟨s.src.valid, s.ready, s.src.data⟩] } =
            if s.src.nvalid then s.src.ndata.toList else [] := by
          unfold SrcSys.onBus
          rw [if_neg (fun hh => hx hh.2)]
        rw [hb]
        rw [Bool.not_eq_true] at hx
        simp only [xfers, hv, Bool.not_true, Bool.false_or, List.flatMap_cons, List.flatMap_nil, hx, List.append_nil, Bool.false_eq_true, if_false]
        exact List.prefix_refl _
    · exact ⟨hp, List.prefix_refl _⟩
  case run =>
    split
    · rename_i hd
      by_cases hgo : ((!c.hasReady || s.ready) && (!c.hasValid || s.src.valid) || !(!c.hasValid || s.src.valid)) = true
      · refine hdrop { s with src := s.src.run c s.ready, settled := false } ?_ rfl ?_
        · unfold Src.run
          simp only [hgo, if_true, hp]
          repeat' split
          all_goals first
            | exact hp
            | simp_all
        · unfold Src.run
          simp only [if_true, hp, hv]
          repeat' split
          all_goals first
            | rfl
            | simp_all
      · have e : s.src.run c s.ready = { s.src with pc := .edge } := by
          unfold Src.run
          simp only [hgo, Bool.false_eq_true, if_false]
        rw [e]
        refine ⟨hp, ?_⟩
        have hb : s.onBus c = if s.src.nvalid then s.src.ndata.toList else [] := by
          unfold SrcSys.onBus
          rw [if_neg (fun hh => hgo (by
            have := hh.2
            simp only [Bool.and_eq_true] at this
            simp [hv, this.1, this.2]))]
        rw [hb, onBus_not_due _ _ (by simp)]
        exact List.prefix_refl _
    · exact ⟨hp, List.prefix_refl _⟩
  case wake =>
    split
    · rename_i hw
      exact hsame _ hp rfl rfl rfl rfl (by simp [hw]) (fun _ => rfl)
    · exact ⟨hp, List.prefix_refl _⟩
  case commit =>
    split
    · rename_i hs
      simp only [still_iff] at hs
      refine ⟨hp, ?_⟩
      rw [onBus_not_due c s hs.1, onBus_not_due]
      · exact List.prefix_refl _
      · exact hs.1
    · exact ⟨hp, List.prefix_refl _⟩
  case env r =>
    split
    · exact ⟨hp, List.prefix_refl _⟩
    · rename_i hd
      exact hsame _ hp rfl rfl rfl rfl Iff.rfl (fun hh => absurd hh hd)
  case send f =>
    unfold Src.send
    split
    · exact hsame _ hp rfl rfl rfl rfl Iff.rfl (fun _ => rfl)
    · exact hput s.src f rfl rfl rfl rfl rfl
  case resume i =>
    unfold Src.resume
    split
    · split
      · exact hsame _ hp rfl rfl rfl rfl Iff.rfl (fun _ => rfl)
      · rename_i f _ _
        exact hput { s.src with waiters := s.src.waiters.eraseIdx i } f rfl rfl rfl rfl rfl
    · exact hsame _ hp rfl rfl rfl rfl Iff.rfl (fun _ => rfl)
  case sendNowait f =>
    unfold Src.sendNowait
    split
    · exact hsame _ hp rfl rfl rfl rfl Iff.rfl (fun _ => rfl)
    · exact hput s.src f rfl rfl rfl rfl rfl
  case pause v =>
    cases v
    · cases he
    · exact hsame { s with src := s.src.setPause true, settled := false } rfl rfl rfl rfl rfl Iff.rfl (fun _ => rfl)
  case clear => exact hsame _ hp rfl rfl rfl rfl Iff.rfl (fun _ => rfl)
  case reset v =>
    cases v
    · simp only [Src.reset, Bool.false_eq_true, if_false]
      split
      · rename_i ho
        exact hsame { s with src := { s.src with pc := .woken }, settled := false } hp rfl rfl rfl rfl (by simp [ho]) (fun _ => rfl)
      · exact hsame _ hp rfl rfl rfl rfl Iff.rfl (fun _ => rfl)
    · have hb : SrcSys.onBus c { s with src := s.src.reset true, settled := false, trace := s.trace ++ [none] } = [] := by
        unfold SrcSys.onBus
        simp [Src.reset]
      simp only [if_true]
      rw [hb, xfers_append]
      refine ⟨hp, ?_⟩
      simp only [xfers, List.flatMap_cons, List.flatMap_nil, List.append_nil]
      exact List.prefix_append _ _

theorem SrcSys.run_paused {c : Cfg} (hv : c.hasValid = true) (more : List (SrcEv α))
    (hm : ∀ e ∈ more, e.noResume = true) : ∀ {s : SrcSys α}, SrcAcc c false s → s.src.pause = true →
    xfers c (more.foldl (SrcSys.step c) s).trace ++ (more.foldl (SrcSys.step c) s).onBus c <+: xfers c s.trace ++ s.onBus c := by
  induction more with
  | nil => intro s _ _; exact List.prefix_refl _
  | cons e more ih =>
    intro s h hp
    obtain ⟨h1, h2⟩ := SrcSys.step_paused hv h hp e (hm e (by simp))
    exact (ih (fun e he => hm e (by simp [he])) (h.step hv e (by simp)) h1).trans h2

theorem step_trace (c : Cfg) (s : SrcSys α) (e : SrcEv α) : xfers c s.trace <+: xfers c (s.step c e).trace := by
  cases e <;> simp only [SrcSys.step]
  all_goals repeat' split
  all_goals first
    | exact List.prefix_refl _
    | (simp only [xfers_append]; exact List.prefix_append _ _)

theorem steps_trace (c : Cfg) (evs : List (SrcEv α)) :
    ∀ s : SrcSys α, xfers c s.trace <+: xfers c (evs.foldl (SrcSys.step c) s).trace := by
  induction evs with
  | nil => intro s; exact List.prefix_refl _
  | cons e evs ih => intro s; exact (step_trace c s e).trans (ih _)

/-! ## Sinks -/

/-- How many more transfers a paused sink may take part in. -/
def Pc.budget (pc : Pc) (sample nready : Bool) : Nat :=
  match pc with
  | .due => if sample then 0 else 1
  | .edge => (if nready then 1 else 0) + (if sample then 0 else 1)
  | .asleep => 0
  | _ => if nready then 1 else 0

theorem budget_le (pc : Pc) (a b : Bool) : pc.budget a b ≤ 2 := by cases pc <;> cases a <;> cases b <;> decide

theorem budget_wakeUp (pc : Pc) (a b : Bool) (h : pc = .asleep → b = false) : pc.wakeUp.budget a b = pc.budget a b := by
  cases pc <;> simp_all [Pc.wakeUp, Pc.budget]

theorem budget_top (pc : Pc) (a b : Bool) (h : pc = .woken ∨ pc = .asleep) (h' : pc = .asleep → b = false) :
    Pc.edge.budget true b = pc.budget a b := by
  rcases h with h | h <;> simp_all [Pc.budget]

/-- What always holds of a sink: it sleeps paused only with `ready` low. -/
structure Calm (s : SnkSys α) : Prop where
  set : s.settled = true → s.snk.ready = s.snk.nready
  sleep : s.snk.pc = .asleep → s.snk.pause = true → s.snk.nready = false
  off : s.snk.pc = .off → s.snk.nready = false

/-- The transfers so far and those to come. -/
def SnkSys.upTo (c : Cfg) (s : SnkSys α) : Nat := (xfers c s.trace).length + s.snk.pc.budget s.snk.pauseSample s.snk.nready

theorem budget_tick (pc : Pc) (a b : Bool) (h1 : pc = .asleep → b = false) (h2 : pc = .off → b = false) (h3 : pc.still = true) :
    pc.tick.budget a b + (if b then 1 else 0) ≤ pc.budget a b := by
  cases pc <;> cases a <;> cases b <;> simp_all [Pc.tick, Pc.budget, Pc.still]

theorem SnkSys.step_calm {c : Cfg} (hr : c.hasReady = true) {s : SnkSys α} (h : Calm s) (e : SnkEv α) :
    Calm (s.step c e) ∧ (s.snk.pause = true → e.noResume = true → (s.step c e).snk.pause = true ∧ (s.step c e).upTo c ≤ s.upTo c) := by
  have hsame : ∀ t : SnkSys α, (t.settled = true → s.settled = true) → t.trace = s.trace → t.snk.pause = s.snk.pause →
      t.snk.pauseSample = s.snk.pauseSample → t.snk.ready = s.snk.ready → t.snk.nready = s.snk.nready →
      (t.snk.pc = s.snk.pc ∨ t.snk.pc = s.snk.pc.wakeUp) →
      Calm t ∧ (s.snk.pause = true → t.snk.pause = true ∧ t.upTo c ≤ s.upTo c) := by
    intro t h1 h2 h3 h4 h5 h6 h7
    refine ⟨⟨by rw [h5, h6]; exact fun hh => h.set (h1 hh), ?_, ?_⟩, fun hp => ⟨h3.trans hp, ?_⟩⟩
    · rw [h3, h6]
      rcases h7 with h7 | h7 <;> rw [h7]
      · exact h.sleep
      · exact fun hh => absurd hh wakeUp_ne
    · rw [h6]
      rcases h7 with h7 | h7 <;> rw [h7]
      · exact h.off
      · exact fun hh => h.off (wakeUp_off.1 hh)
    · unfold SnkSys.upTo
      rw [h2, h4, h6]
      rcases h7 with h7 | h7 <;> rw [h7]
      · exact Nat.le_refl _
      · rw [budget_wakeUp _ _ _ (fun hh => h.sleep hh hp)]; exact Nat.le_refl _
  have htop : ∀ t : SnkSys α, t = { s with snk := s.snk.top, settled := false } → s.snk.pc = .woken ∨ s.snk.pc = .asleep →
      Calm t ∧ (s.snk.pause = true → t.snk.pause = true ∧ t.upTo c ≤ s.upTo c) := by
    intro t ht hpc
    rw [ht]
    refine ⟨⟨by simp, by simp [Snk.top], by simp [Snk.top]⟩, fun hp => ⟨hp, ?_⟩⟩
    unfold SnkSys.upTo
    simp only [Snk.top, hp]
    rw [budget_top _ s.snk.pauseSample _ hpc (fun hh => h.sleep hh hp)]
    exact Nat.le_refl _
  cases e <;> simp only [SnkSys.step, SnkEv.noResume]
  case tick =>
    split
    · rename_i hs
      rw [Bool.and_eq_true] at hs
      refine ⟨⟨by simp, fun ha => ?_, fun ha => ?_⟩, fun hp _ => ⟨hp, ?_⟩⟩
      · exact h.sleep (tick_asleep.1 ha)
      · exact h.off (tick_off.1 ha)
      · unfold SnkSys.upTo
        simp only [xfers_append, List.length_append]
        have hx : (xfers c [some (⟨s.valid, s.snk.ready, s.data⟩ : Sample α)]).length ≤ if s.snk.nready then 1 else 0 := by
          simp only [xfers, List.flatMap_cons, List.flatMap_nil, List.append_nil, hr, Bool.not_true, Bool.false_or, h.set hs.1]
          cases s.snk.nready <;> simp
          split <;> cases s.data <;> simp
        have hb := budget_tick s.snk.pc s.snk.pauseSample s.snk.nready (fun hh => h.sleep hh hp) h.off hs.2
        omega
    · exact ⟨h, fun hp _ => ⟨hp, Nat.le_refl _⟩⟩
  case run =>
    split
    · rename_i hd
      obtain ⟨q1, q2⟩ : (s.snk.capture c s.valid s.data).pause = s.snk.pause ∧
          (s.snk.capture c s.valid s.data).pauseSample = s.snk.pauseSample := by
        unfold Snk.capture
        simp only
        split <;> exact ⟨rfl, rfl⟩
      unfold Snk.run
      generalize s.snk.capture c s.valid s.data = k at q1 q2
      unfold Snk.finish
      simp only [hr, if_true]
      split
      · rename_i hc
        simp only [Bool.and_eq_true, decide_eq_true_eq, q1, q2] at hc
        refine ⟨⟨by simp, fun _ hp => ?_, by simp⟩, fun hp _ => ⟨q1.trans hp, ?_⟩⟩
        · simp only at hp ⊢
          rw [q2, hc.2, ← q1, hp]; simp
        · unfold SnkSys.upTo
          simp [Pc.budget]
      · refine ⟨⟨by simp, by simp [Snk.top], by simp [Snk.top]⟩, fun hp _ => ⟨q1.trans hp, ?_⟩⟩
        unfold SnkSys.upTo
        simp only [Snk.top, hd, q1, q2, hp, Pc.budget]
        cases s.snk.pauseSample
        · simp only [Bool.false_eq_true, if_false, if_true]
          split <;> omega
        · simp
    · exact ⟨h, fun hp _ => ⟨hp, Nat.le_refl _⟩⟩
  case wake =>
    split
    · rename_i hw
      exact ⟨(htop _ rfl (.inl hw)).1, fun hp _ => (htop _ rfl (.inl hw)).2 hp⟩
    · exact ⟨h, fun hp _ => ⟨hp, Nat.le_refl _⟩⟩
  case spurious =>
    split
    · rename_i hw
      exact ⟨(htop _ rfl (.inr hw)).1, fun hp _ => (htop _ rfl (.inr hw)).2 hp⟩
    · exact ⟨h, fun hp _ => ⟨hp, Nat.le_refl _⟩⟩
  case commit =>
    split
    · simp only
      split
      · refine ⟨⟨fun _ => rfl, fun hh => absurd hh wakeUp_ne, fun hh => h.off (wakeUp_off.1 hh)⟩, fun hp _ => ⟨hp, ?_⟩⟩
        show (xfers c s.trace).length + s.snk.pc.wakeUp.budget s.snk.pauseSample s.snk.nready ≤ _
        rw [budget_wakeUp _ _ _ (fun hh => h.sleep hh hp)]
        exact Nat.le_refl _
      · exact ⟨⟨fun _ => rfl, h.sleep, h.off⟩, fun hp _ => ⟨hp, Nat.le_refl _⟩⟩
    · exact ⟨h, fun hp _ => ⟨hp, Nat.le_refl _⟩⟩
  case env v d =>
    split
    · exact ⟨h, fun hp _ => ⟨hp, Nat.le_refl _⟩⟩
    · have := hsame { s with snk := if v && !s.valid then s.snk.setWake else s.snk, valid := v, data := some d } id rfl
        (by split <;> rfl) (by split <;> rfl) (by split <;> rfl) (by split <;> rfl) (by split; exact .inr rfl; exact .inl rfl)
      exact ⟨this.1, fun hp _ => this.2 hp⟩
  case recv =>
    have := hsame { s with snk := s.snk.recv.2, settled := false } (by simp) rfl
      (by unfold Snk.recv; split <;> rfl) (by unfold Snk.recv; split <;> rfl) (by unfold Snk.recv; split <;> rfl)
      (by unfold Snk.recv; split <;> rfl) (by unfold Snk.recv; split; exact .inl rfl; exact .inr rfl)
    exact ⟨this.1, fun hp _ => this.2 hp⟩
  case pause v =>
    by_cases hv : s.snk.pause = v
    · have : s.snk.setPause v = s.snk := by
        unfold Snk.setPause
        simp only [hv, ne_eq, not_true_eq_false, if_false]
        rw [← hv]
      rw [this]
      have := hsame { s with settled := false } (by simp) rfl rfl rfl rfl rfl (.inl rfl)
      exact ⟨this.1, fun hp _ => this.2 hp⟩
    · refine ⟨⟨by simp, ?_, ?_⟩, fun hp he => ?_⟩
      · simp only [Snk.setPause, ne_eq, hv, not_false_eq_true, if_true, Snk.setWake]
        exact fun hh => absurd hh wakeUp_ne
      · simp only [Snk.setPause, ne_eq, hv, not_false_eq_true, if_true, Snk.setWake]
        exact fun hh => h.off (wakeUp_off.1 hh)
      · cases v
        · cases he
        · exact absurd hp hv
  case clear =>
    have := hsame { s with snk := s.snk.clear, settled := false } (by simp) rfl rfl rfl rfl rfl (.inl rfl)
    exact ⟨this.1, fun hp _ => this.2 hp⟩
  case reset v =>
    cases v
    · simp only [Snk.reset, Bool.false_eq_true, if_false]
      split
      · rename_i ho
        refine ⟨⟨by simp, by simp, by simp⟩, fun hp _ => ⟨hp, ?_⟩⟩
        unfold SnkSys.upTo
        simp [ho, Pc.budget]
      · have := hsame { s with settled := false } (by simp) rfl rfl rfl rfl rfl (.inl rfl)
        exact ⟨this.1, fun hp _ => this.2 hp⟩
    · refine ⟨⟨by simp, by simp [Snk.reset], by simp [Snk.reset]⟩, fun hp _ => ⟨hp, ?_⟩⟩
      unfold SnkSys.upTo
      simp [xfers, Snk.reset, Pc.budget]

theorem SnkSys.exec_calm {c : Cfg} (hr : c.hasReady = true) (evs : List (SnkEv α)) : Calm (SnkSys.exec c evs) :=
  foldl_inv _ (fun s : SnkSys α => Calm s) (fun _ e h => (SnkSys.step_calm hr h e).1) evs _ ⟨by simp, by simp, by simp⟩

theorem SnkSys.run_calm {c : Cfg} (hr : c.hasReady = true) (more : List (SnkEv α)) (hm : ∀ e ∈ more, e.noResume = true) :
    ∀ {s : SnkSys α}, Calm s → s.snk.pause = true → (more.foldl (SnkSys.step c) s).upTo c ≤ s.upTo c := by
  induction more with
  | nil => intro s _ _; exact Nat.le_refl _
  | cons e more ih =>
    intro s h hp
    obtain ⟨h1, h2⟩ := SnkSys.step_calm hr h e
    obtain ⟨h3, h4⟩ := h2 hp (hm e (by simp))
    exact Nat.le_trans (ih (fun e he => hm e (by simp [he])) h1 h3) h4

end Verif.Stream
