import Verif.Proof.AxisSrc

/-!
# AXI stream source: holding a presented beat; accounting for all beats
-/

namespace Verif.Axis

open Verif.Stream (Pc wakeUp_ne wakeUp_off wakeUp_woken wakeUp_due wakeUp_edge tick_due tick_off tick_asleep tick_woken tick_edge
  still_iff Acc foldl_inv foldl_inv')

/-! ## What is still to be transmitted -/

/-- The beats of the frame in transmission that have not been driven. -/
def Src.rest (c : Cfg) (s : Src) : List Beat :=
  match s.frame with
  | some (i, _) =>
    match s.sent[i]? with
    | some f => (beats c f).drop (s.off / c.lanes)
    | none => []
  | none => []

/-- All beats that have not been driven. -/
def Src.todo (c : Cfg) (s : Src) : List Beat := s.rest c ++ s.queue.flatMap fun p => beats c p.2

theorem beats_nil (c : Cfg) (hl : 0 < c.lanes) (f : Frame) (h : f.tdata = []) : beats c f = [] := by
  have : (c.lanes - 1) / c.lanes = 0 := Nat.div_eq_of_lt (by omega)
  simp [beats, beatCount, h, this]

theorem beatCount_gt (c : Cfg) (hl : 0 < c.lanes) (f : Frame) (k : Nat) : k < beatCount c f ↔ k * c.lanes < f.tdata.length := by
  unfold beatCount
  rw [Nat.lt_div_iff_mul_lt hl]
  have : k * c.lanes = c.lanes * k := Nat.mul_comm _ _
  omega

theorem beats_drop (c : Cfg) (hl : 0 < c.lanes) (f : Frame) (k : Nat) (hk : k * c.lanes < f.tdata.length) :
    (beats c f).drop k = beatAt c f k :: (beats c f).drop (k + 1) := by
  have hlt : k < (beats c f).length := by simpa [beats] using (beatCount_gt c hl f k).2 hk
  rw [List.drop_eq_getElem_cons hlt]
  simp [beats]

theorem beats_drop_end (c : Cfg) (hl : 0 < c.lanes) (f : Frame) (k : Nat) (hk : k * c.lanes ≥ f.tdata.length) :
    (beats c f).drop k = [] := by
  rw [List.drop_eq_nil_iff]
  have := mt (beatCount_gt c hl f k).1 (by omega)
  simp only [beats, List.length_map, List.length_range]
  omega

theorem SrcInv.rest_dead {c : Cfg} (hl : 0 < c.lanes) {s : Src} (h : SrcInv c s) (hd : live s.frame = false) : s.rest c = [] := by
  unfold Src.rest
  split
  · rename_i i g hf
    obtain ⟨_, f, hs, _, rfl, _⟩ := h.frm i g hf
    rw [hs]
    rw [hf] at hd
    simp only [live, Bool.eq_false_iff, ne_eq, truthy_iff, Classical.not_not] at hd
    simp only [beats_nil c hl f hd, List.drop_nil]
  · rfl

theorem SrcInv.take_todo {c : Cfg} (hl : 0 < c.lanes) {s : Src} (h : SrcInv c s) (hd : live s.frame = false) :
    s.take.todo c = s.todo c := by
  rcases SrcInv.take_cases s with ⟨_, e⟩ | ⟨_, e⟩ | ⟨i, f, rest, hq, hp, e⟩
  · rw [e]
  · rw [e]; rfl
  · have hi := h.nums (i, f) (by rw [hq]; simp)
    unfold Src.todo
    rw [h.rest_dead hl hd, e, hq]
    simp only [Src.rest, Src.setDeq, hi, Nat.zero_div, List.drop_zero, List.flatMap_cons, List.nil_append]

theorem SrcInv.drive_todo {c : Cfg} (hl : 0 < c.lanes) (hv : c.hasValid = true) {s : Src} (h : SrcInv c s) {i : Nat} {g : Frame}
    (hf : s.frame = some (i, g)) (hne : g.truthy = true) :
    s.todo c = (s.drive c i g).nbeat :: (s.drive c i g).todo c ∧ (s.drive c i g).nvalid = true ∧ (s.drive c i g).sent = s.sent ∧
      (s.drive c i g).pc = .edge := by
  obtain ⟨hc, f, hs, hp, rfl, hoff⟩ := h.frm i g hf
  have hne' : f.tdata ≠ [] := truthy_iff.1 hne
  obtain ⟨k, hk, hlt⟩ := hoff hne'
  have hdiv : s.off / c.lanes = k := by rw [hk]; exact Nat.mul_div_cancel _ hl
  rw [SrcInv.drive_eq hl hv s i f k hk hlt]
  have h1 : s.rest c = beatAt c f k :: (beats c f).drop (k + 1) := by
    unfold Src.rest
    rw [hf]
    simp only [hs, hdiv]
    exact beats_drop c hl f k (by rw [← hk]; exact hlt)
  split
  · rename_i hge
    refine ⟨?_, rfl, rfl, rfl⟩
    unfold Src.todo
    rw [h1, beats_drop_end c hl f (k + 1) hge]
    rfl
  · refine ⟨?_, rfl, rfl, rfl⟩
    unfold Src.todo
    rw [h1]
    have hdiv' : (k + 1) * c.lanes / c.lanes = k + 1 := Nat.mul_div_cancel _ hl
    simp only [Src.rest, hf, hs, hdiv', List.cons_append]

theorem quiet_facts {c : Cfg} (hv : c.hasValid = true) (s : Src) : (s.quiet c).todo c = s.todo c ∧ (s.quiet c).nvalid = false ∧
    (s.quiet c).sent = s.sent ∧ (s.quiet c).pc ≠ .due := by
  unfold Src.quiet
  simp only [hv, if_true]
  split <;> exact ⟨rfl, rfl, rfl, by simp⟩

theorem take_facts (s : Src) : s.take.sent = s.sent ∧ s.take.valid = s.valid ∧ s.take.nvalid = s.nvalid ∧ s.take.pc = s.pc ∧
    s.take.nbeat = s.nbeat ∧ s.take.beat = s.beat := by
  rcases SrcInv.take_cases s with ⟨_, e⟩ | ⟨_, e⟩ | ⟨i, f, rest, hq, hp, e⟩ <;> rw [e] <;> simp [Src.setDeq]

theorem SrcInv.put_todo {c : Cfg} {s : Src} (h : SrcInv c s) (f : Frame) : (s.put f).todo c = s.todo c ++ beats c f := by
  unfold Src.todo
  have : (s.put f).rest c = s.rest c := by
    unfold Src.rest
    show (match s.frame with | some (i, _) => _ | none => _) = _
    split
    · rename_i i g hf
      obtain ⟨_, f', hs, _⟩ := h.frm i g hf
      rw [show (s.put f).sent = s.sent ++ [f] from rfl, SrcInv.sent_append hs, hs]
      rfl
    · rfl
  rw [this]
  simp [Src.put]

theorem accept_cases (s : Src) (f : Frame) : (s.accept f).2 = s ∨ (s.accept f).2 = s.put f := by
  unfold Src.accept Frame.copy
  split
  · exact .inl rfl
  · rename_i g hg
    split at hg
    · cases hg
    · simp only [Except.ok.injEq] at hg
      subst hg
      exact .inr rfl

/-! ## C57: holding the presented beat -/

/-- Facts about the bus that hold between any two events: settled writes, and what the last clock edge saw. -/
structure HoldInv (c : Cfg) (s : SrcSys) : Prop where
  set : s.settled = true → s.src.valid = s.src.nvalid ∧ s.src.beat = s.src.nbeat
  last : ∀ a, s.trace.getLast? = some (some a) → a.valid = true → (c.hasReady && !a.ready) = true →
    s.src.nvalid = true ∧ s.src.nbeat = a.beat ∧
    (s.src.pc = .due → s.src.valid = true ∧ s.src.beat = a.beat ∧ s.ready = a.ready)
  all : ∀ (i : Nat) (a b : Sample), s.trace[i]? = some (some a) → s.trace[i + 1]? = some (some b) →
    a.valid = true → (c.hasReady && !a.ready) = true → b.valid = true ∧ b.beat = a.beat

theorem HoldInv.same {c : Cfg} {s t : SrcSys} (h : HoldInv c s) (h1 : t.settled = true → s.settled = true)
    (h2 : t.trace = s.trace) (h3 : t.src.valid = s.src.valid) (h4 : t.src.beat = s.src.beat)
    (h5 : t.src.nvalid = s.src.nvalid) (h6 : t.src.nbeat = s.src.nbeat) (h7 : t.src.pc = .due → s.src.pc = .due)
    (h8 : t.src.pc = .due → t.ready = s.ready) : HoldInv c t where
  set := by rw [h3, h4, h5, h6]; exact fun hh => h.set (h1 hh)
  last := by
    rw [h2, h3, h4, h5, h6]
    intro a ha hv hr
    obtain ⟨g1, g2, g3⟩ := h.last a ha hv hr
    exact ⟨g1, g2, fun hd => ⟨(g3 (h7 hd)).1, (g3 (h7 hd)).2.1, by rw [h8 hd]; exact (g3 (h7 hd)).2.2⟩⟩
  all := by rw [h2]; exact h.all

theorem put_due {s : Src} {f : Frame} : (s.put f).pc = .due ↔ s.pc = .due := wakeUp_due

theorem HoldInv.step {c : Cfg} (hv : c.hasValid = true) {s : SrcSys} (h : HoldInv c s) (e : SrcEv) :
    HoldInv c (s.step c e) := by
  have hacc : ∀ (t : Src) (f : Frame), t.valid = s.src.valid → t.beat = s.src.beat → t.nvalid = s.src.nvalid →
      t.nbeat = s.src.nbeat → t.pc = s.src.pc → HoldInv c { s with src := (t.accept f).2, settled := false } := by
    intro t f e1 e2 e3 e4 e5
    rcases accept_cases t f with hh | hh <;> rw [hh]
    · exact h.same (by simp) rfl e1 e2 e3 e4 (by simp [e5]) (fun _ => rfl)
    · exact h.same (by simp) rfl e1 e2 e3 e4 (by simp [put_due, e5]) (fun _ => rfl)
  unfold SrcSys.step
  split
  · exact h
  cases e <;> simp only
  case tick =>
    split
    · rename_i hs
      simp only [Bool.and_eq_true, still_iff] at hs
      obtain ⟨e1, e2⟩ := h.set hs.1
      refine ⟨by simp, ?_, ?_⟩
      · intro a ha hv' hr
        simp only [List.getLast?_append, List.getLast?_singleton, Option.some_or, Option.some.injEq] at ha
        subst ha
        simp only at hv' hr ⊢
        exact ⟨by rw [← e1]; exact hv', e2.symm, fun _ => by simp [hv']⟩
      · intro i a b ha hb hv' hr
        simp only [List.getElem?_append] at ha hb
        split at hb
        · rename_i hi
          rw [if_pos (by omega)] at ha
          exact h.all i a b ha hb hv' hr
        · rename_i hi
          have hi' : i + 1 = s.trace.length := by
            rcases Nat.lt_or_ge (i + 1 - s.trace.length) 1 with h' | h'
            · omega
            · rw [List.getElem?_eq_none (by simpa using h')] at hb; cases hb
          rw [if_pos (by omega)] at ha
          have hl : s.trace.getLast? = some (some a) := by
            rw [List.getLast?_eq_getElem?, ← ha]; congr 1; omega
          obtain ⟨g1, g2, _⟩ := h.last a hl hv' hr
          simp only [hi', Nat.sub_self, List.getElem?_cons_zero, Option.some.injEq] at hb
          subst hb
          exact ⟨by simp only; rw [e1]; exact g1, by simp only; rw [e2]; exact g2⟩
    · exact h
  case run =>
    split
    · rename_i hd
      refine ⟨by simp, ?_, h.all⟩
      intro a ha hv' hr
      obtain ⟨g1, g2, g3⟩ := h.last a ha hv' hr
      obtain ⟨g4, g5, g6⟩ := g3 hd
      simp only [Bool.and_eq_true, Bool.not_eq_true'] at hr
      have e1 : s.src.run c s.ready = { s.src with pc := .edge } := by
        unfold Src.run
        simp [hv, g4, g6, hr.1, hr.2]
      simp only
      rw [e1]
      exact ⟨g1, g2, by simp⟩
    · exact h
  case wake =>
    split
    · exact h.same (by simp) rfl rfl rfl rfl rfl (by simp) (fun _ => rfl)
    · exact h
  case commit =>
    split
    · rename_i hs
      simp only [still_iff] at hs
      refine ⟨fun _ => ⟨rfl, rfl⟩, ?_, h.all⟩
      intro a ha hv' hr
      obtain ⟨g1, g2, g3⟩ := h.last a ha hv' hr
      exact ⟨g1, g2, fun hd => absurd hd hs.1⟩
    · exact h
  case env r =>
    split
    · exact h
    · rename_i hd
      exact h.same (fun hh => hh) rfl rfl rfl rfl rfl (fun hh => hh) (fun hh => absurd hh hd)
  case send f =>
    unfold Src.send
    split
    · exact h.same (by simp) rfl rfl rfl rfl rfl (fun hh => hh) (fun _ => rfl)
    · exact hacc s.src f rfl rfl rfl rfl rfl
  case resume i =>
    unfold Src.resume
    split
    · split
      · exact h.same (by simp) rfl rfl rfl rfl rfl (fun hh => hh) (fun _ => rfl)
      · exact hacc _ _ rfl rfl rfl rfl rfl
    · exact h.same (by simp) rfl rfl rfl rfl rfl (fun hh => hh) (fun _ => rfl)
  case sendNowait f =>
    unfold Src.sendNowait
    split
    · exact h.same (by simp) rfl rfl rfl rfl rfl (fun hh => hh) (fun _ => rfl)
    · exact hacc s.src f rfl rfl rfl rfl rfl
  case pause v => exact h.same (by simp) rfl rfl rfl rfl rfl (fun hh => hh) (fun _ => rfl)
  case clear => exact h.same (by simp) rfl rfl rfl rfl rfl (fun hh => hh) (fun _ => rfl)
  case reset v =>
    cases v
    · simp only [Src.reset, Bool.false_eq_true, if_false]
      split
      · exact h.same (by simp) rfl rfl rfl rfl rfl (by simp) (fun _ => rfl)
      · exact h.same (by simp) rfl rfl rfl rfl rfl (fun hh => hh) (fun _ => rfl)
    · refine ⟨by simp, by simp, ?_⟩
      intro i a b ha hb
      simp only [if_true, List.getElem?_append] at ha hb
      split at hb
      · rw [if_pos (by omega)] at ha
        exact h.all i a b ha hb
      · rcases hx : i + 1 - s.trace.length with _ | k
        · rw [hx] at hb; simp at hb
        · rw [hx] at hb; simp at hb

theorem SrcSys.exec_hold {c : Cfg} (hv : c.hasValid = true) (evs : List SrcEv) : HoldInv c (SrcSys.exec c evs) :=
  foldl_inv _ (fun s : SrcSys => HoldInv c s) (fun _ e h => h.step hv e) evs _ ⟨by simp, by simp, by simp⟩

/-! ## C57: everything sent is transferred, on the bus or still to be driven -/

/-- The beat presented and not yet transferred. -/
def SrcSys.onBus (c : Cfg) (s : SrcSys) : List Beat :=
  if s.src.pc = .due ∧ (s.src.valid && (!c.hasReady || s.ready)) = true then []
  else if s.src.nvalid then [s.src.nbeat] else []

/-- The accounting invariant of a source. -/
structure SrcAcc (c : Cfg) (clean : Bool) (s : SrcSys) : Prop where
  inv : SrcInv c s.src
  set : s.settled = true → s.src.valid = s.src.nvalid ∧ s.src.beat = s.src.nbeat
  due : s.src.pc = .due → s.src.valid = s.src.nvalid ∧ s.src.beat = s.src.nbeat
  acc : Acc clean (xfers c s.trace ++ s.onBus c ++ s.src.todo c) (s.src.sent.flatMap (beats c))

theorem onBus_not_due (c : Cfg) (s : SrcSys) (h : s.src.pc ≠ .due) :
    s.onBus c = if s.src.nvalid then [s.src.nbeat] else [] := by
  unfold SrcSys.onBus
  rw [if_neg (fun hh => h hh.1)]

theorem SrcAcc.same {c : Cfg} {clean : Bool} {s t : SrcSys} (h : SrcAcc c clean s) (hi : SrcInv c t.src)
    (h1 : t.settled = true → s.settled = true) (h2 : t.trace = s.trace) (h3 : t.src.valid = s.src.valid)
    (h4 : t.src.beat = s.src.beat) (h5 : t.src.nvalid = s.src.nvalid) (h6 : t.src.nbeat = s.src.nbeat)
    (h7 : t.src.pc = .due ↔ s.src.pc = .due) (h8 : t.src.pc = .due → t.ready = s.ready)
    (hq : Acc clean (xfers c s.trace ++ s.onBus c ++ t.src.todo c) (t.src.sent.flatMap (beats c))) : SrcAcc c clean t where
  inv := hi
  set := by rw [h3, h4, h5, h6]; exact fun hh => h.set (h1 hh)
  due := by rw [h3, h4, h5, h6]; exact fun hh => h.due (h7.1 hh)
  acc := by
    have : t.onBus c = s.onBus c := by
      unfold SrcSys.onBus
      by_cases hd : s.src.pc = .due
      · rw [h8 (h7.2 hd), h3, h5, h6]; simp only [h7]
      · rw [if_neg (c := t.src.pc = .due ∧ _) (fun hh => hd (h7.1 hh.1)),
          if_neg (c := s.src.pc = .due ∧ _) (fun hh => hd hh.1), h5, h6]
    rw [h2, this]; exact hq

theorem acc_append {α : Type} {clean : Bool} {a b : List α} (h : Acc clean a b) (l : List α) : Acc clean (a ++ l) (b ++ l) := by
  cases clean
  · exact List.Sublist.append h (List.Sublist.refl _)
  · simp only [Stream.Acc, if_true] at h ⊢
    rw [h]

theorem SrcAcc.accept {c : Cfg} {clean : Bool} {s : SrcSys} (h : SrcAcc c clean s) (t : Src) (f : Frame)
    (ht : SrcInv c t) (hi : SrcInv c (t.accept f).2) (e1 : t.valid = s.src.valid) (e2 : t.beat = s.src.beat)
    (e3 : t.nvalid = s.src.nvalid)
    (e4 : t.nbeat = s.src.nbeat) (e5 : t.pc = s.src.pc) (e6 : t.todo c = s.src.todo c) (e7 : t.sent = s.src.sent) :
    SrcAcc c clean { s with src := (t.accept f).2, settled := false } := by
  rcases accept_cases t f with hh | hh
  · rw [hh] at hi ⊢
    exact h.same hi (by simp) rfl e1 e2 e3 e4 (by simp [e5]) (fun _ => rfl) (by rw [e6, e7]; exact h.acc)
  · rw [hh] at hi ⊢
    refine h.same hi (by simp) rfl e1 e2 e3 e4 (by simp [put_due, e5]) (fun _ => rfl) ?_
    simp only
    rw [ht.put_todo f, e6, show (t.put f).sent = t.sent ++ [f] from rfl, e7, List.flatMap_append, List.flatMap_cons, List.flatMap_nil,
      List.append_nil, ← List.append_assoc]
    exact acc_append h.acc _

theorem xfers_append (c : Cfg) (l₁ l₂ : List (Option Sample)) : xfers c (l₁ ++ l₂) = xfers c l₁ ++ xfers c l₂ := by
  simp [xfers]

theorem acc_sub {α : Type} {clean : Bool} {a b sent : List α} (h : Acc clean a sent) (hs : b.Sublist a) : Acc false b sent :=
  hs.trans h.weaken

theorem SrcAcc.step {c : Cfg} {clean : Bool} (hl : 0 < c.lanes) (hv : c.hasValid = true) {s : SrcSys} (e : SrcEv)
    (hcl : clean = true → e.clean = true) (h : SrcAcc c clean s) : SrcAcc c clean (s.step c e) := by
  have hi := SrcSys.step_inv hl hv h.inv e
  unfold SrcSys.step at hi ⊢
  split
  · exact h
  rename_i hcr
  rw [if_neg hcr] at hi
  cases e <;> simp only at hi ⊢
  case tick =>
    split
    · rename_i hs
      rw [if_pos hs] at hi
      simp only [Bool.and_eq_true, still_iff] at hs
      obtain ⟨e1, e2⟩ := h.set hs.1
      refine ⟨hi, by simp, fun _ => ⟨e1, e2⟩, ?_⟩
      have ha := h.acc
      rw [onBus_not_due c s hs.2.1] at ha
      simp only
      rw [xfers_append]
      by_cases hx : (s.src.valid && (!c.hasReady || s.ready)) = true
      · have hval : s.src.nvalid = true := by rw [← e1]; simp at hx; exact hx.1
        have hpc : s.src.pc = .edge := by
          have := h.inv.quiet
          rw [hval] at this
          cases hpc : s.src.pc <;> simp_all
        have hb : SrcSys.onBus c { s with src := { s.src with pc := s.src.pc.tick }, settled := false
                                          trace := s.trace ++ [some ⟨s.src.valid, s.ready, s.src.beat⟩] } = [] := by
          unfold SrcSys.onBus
          simp only [hpc, Pc.tick, hx, and_self, if_true]
        rw [hb]
        rw [hval] at ha
        simp only [xfers, hv, Bool.not_true, Bool.false_or, List.flatMap_cons, List.flatMap_nil, hx, if_true, List.append_nil, e2] at ha ⊢
        exact ha
      · have hb : SrcSys.onBus c { s with src := { s.src with pc := s.src.pc.tick }, settled := false
                                          trace := s.trace ++ [some ⟨s.src.valid, s.ready, s.src.beat⟩] } =
            if s.src.nvalid then [s.src.nbeat] else [] := by
          unfold SrcSys.onBus
          rw [if_neg (fun hh => hx hh.2)]
        rw [hb]
        rw [Bool.not_eq_true] at hx
        simp only [xfers, hv, Bool.not_true, Bool.false_or, List.flatMap_cons, List.flatMap_nil, hx, List.append_nil, Bool.false_eq_true, if_false] at ha ⊢
        exact ha
    · exact h
  case run =>
    split
    · rename_i hd
      rw [if_pos hd] at hi
      obtain ⟨e1, e2⟩ := h.due hd
      have ha := h.acc
      revert hi
      apply SrcInv.run_cases hv (P := fun t => SrcInv c t → SrcAcc c clean { s with src := t, settled := false })
      · intro hval hr hnr hi
        refine ⟨hi, by simp, by simp, ?_⟩
        rw [onBus_not_due _ _ (by simp)]
        unfold SrcSys.onBus at ha
        rw [if_neg (by simp [hr, hnr])] at ha
        exact ha
      · intro hgo t ht
        have ha' : Acc clean (xfers c s.trace ++ s.src.todo c) (s.src.sent.flatMap (beats c)) := by
          unfold SrcSys.onBus at ha
          by_cases hval : s.src.valid = true
          · rw [if_pos ⟨hd, by simp only [hval, hgo hval, Bool.and_self]⟩, List.append_nil] at ha
            exact ha
          · rw [Bool.not_eq_true] at hval
            rw [if_neg (by simp [hval]), ← e1, hval] at ha
            simpa using ha
        have hti : SrcInv c t ∧ t.todo c = s.src.todo c ∧ t.sent = s.src.sent := by
          rw [ht]
          split
          · exact ⟨h.inv, rfl, rfl⟩
          · rename_i hlv
            have hlv' : live s.src.frame = false := by simpa using hlv
            exact ⟨h.inv.take hlv' hd, h.inv.take_todo hl hlv', (take_facts s.src).1⟩
        refine ⟨?_, ?_, ?_⟩
        · intro hct hi
          have : t = { s.src with crashed := true } := by
            rw [ht] at hct ⊢
            split
            · rename_i hlv; rw [if_pos hlv] at hct; exact absurd hct hcr
            · rename_i hlv
              rw [if_neg hlv] at hct
              rcases SrcInv.take_cases s.src with ⟨_, e⟩ | ⟨_, e⟩ | ⟨i, f, rest, hq, hp, e⟩
              · rw [e] at hct; exact absurd hct hcr
              · exact e
              · rw [e] at hct; exact absurd hct hcr
          refine h.same hi (by simp) rfl ?_ ?_ ?_ ?_ ?_ (fun _ => rfl) ?_
          all_goals simp only [this]
          exact ha
        · intro _ i g hf hg _ hi
          obtain ⟨d1, d2, d3, d4⟩ := hti.1.drive_todo hl hv hf hg
          refine ⟨hi, by simp, by rw [d4]; simp, ?_⟩
          rw [onBus_not_due _ _ (by simp only; rw [d4]; simp)]
          simp only
          rw [d2, if_pos rfl, d3, hti.2.2, List.append_assoc, List.singleton_append, ← d1, hti.2.1]
          exact ha'
        · intro _ _ hi
          obtain ⟨d1, d2, d3, d4⟩ := quiet_facts (c := c) hv t
          refine ⟨hi, by simp, fun hh => absurd hh d4, ?_⟩
          rw [onBus_not_due _ _ (by exact d4)]
          simp only
          rw [d2, d3, d1, hti.2.2, hti.2.1]
          simpa using ha'
    · exact h
  case wake =>
    split
    · rename_i hw
      rw [if_pos hw] at hi
      exact h.same hi (by simp) rfl rfl rfl rfl rfl (by simp [hw]) (fun _ => rfl) h.acc
    · exact h
  case commit =>
    split
    · rename_i hs
      rw [if_pos hs] at hi
      simp only [still_iff] at hs
      refine ⟨hi, fun _ => ⟨rfl, rfl⟩, fun hd => ⟨rfl, rfl⟩, ?_⟩
      have ha := h.acc
      rw [onBus_not_due _ _ hs.1] at ha
      rw [onBus_not_due]
      · exact ha
      · exact hs.1
    · exact h
  case env r =>
    split
    · exact h
    · rename_i hd
      exact h.same (by rw [if_neg hd] at hi; exact hi) (fun hh => hh) rfl rfl rfl rfl rfl Iff.rfl
        (fun hh => absurd hh hd) h.acc
  case send f =>
    unfold Src.send at hi ⊢
    split
    · rename_i hf
      rw [if_pos hf] at hi
      exact h.same hi (by simp) rfl rfl rfl rfl rfl Iff.rfl (fun _ => rfl) h.acc
    · rename_i hf
      rw [if_neg hf] at hi
      exact h.accept s.src f h.inv hi rfl rfl rfl rfl rfl rfl rfl
  case resume i =>
    have hi' := h.inv
    unfold Src.resume at hi ⊢
    split
    · split
      · exact h.same (hi'.newWaiters _ _ (by assumption)) (by simp) rfl rfl rfl rfl rfl Iff.rfl (fun _ => rfl) h.acc
      · rename_i hf
        exact h.accept _ _ (hi'.dropWaiter i) ((hi'.dropWaiter i).accept (by simpa using hf) _) rfl rfl rfl rfl rfl rfl rfl
    · exact h.same hi' (by simp) rfl rfl rfl rfl rfl Iff.rfl (fun _ => rfl) h.acc
  case sendNowait f =>
    unfold Src.sendNowait at hi ⊢
    split
    · exact h.same h.inv (by simp) rfl rfl rfl rfl rfl Iff.rfl (fun _ => rfl) h.acc
    · rename_i hf
      rw [if_neg hf] at hi
      exact h.accept s.src f h.inv hi rfl rfl rfl rfl rfl rfl rfl
  case pause v => exact h.same hi (by simp) rfl rfl rfl rfl rfl Iff.rfl (fun _ => rfl) h.acc
  case clear =>
    have : clean = false := by
      cases clean
      · rfl
      · exact absurd (hcl rfl) (by simp [SrcEv.clean])
    subst this
    refine h.same hi (by simp) rfl rfl rfl rfl rfl Iff.rfl (fun _ => rfl) ?_
    refine acc_sub h.acc (List.Sublist.append (List.Sublist.refl _) ?_)
    simp only [Src.todo, Src.clear, Src.rest, Src.setDeq, List.flatMap_nil, List.append_nil]
    exact List.sublist_append_left _ _
  case reset v =>
    cases v
    · simp only [Src.reset, Bool.false_eq_true, if_false] at hi ⊢
      split
      · rename_i ho
        rw [if_pos ho] at hi
        exact h.same hi (by simp) rfl rfl rfl rfl rfl (by simp [ho]) (fun _ => rfl) h.acc
      · rename_i ho
        rw [if_neg ho] at hi
        exact h.same hi (by simp) rfl rfl rfl rfl rfl Iff.rfl (fun _ => rfl) h.acc
    · have : clean = false := by
        cases clean
        · rfl
        · exact absurd (hcl rfl) (by simp [SrcEv.clean])
      subst this
      obtain ⟨e1, e2, e3, e4, e5, e6, e7⟩ := SrcInv.reset_true s.src
      obtain ⟨f1, f2, f3, f4, f5⟩ := SrcInv.reset_sent s.src true
      refine ⟨hi, by simp, by rw [e1]; simp, ?_⟩
      rw [onBus_not_due _ _ (by simp only; rw [e1]; simp)]
      simp only [if_true, e4, f1, xfers_append, Src.todo, Src.rest, e2, f2]
      refine acc_sub h.acc ?_
      simp only [xfers, List.flatMap_cons, List.flatMap_nil, List.append_nil, Bool.false_eq_true, if_false, List.nil_append, Src.todo]
      rw [List.append_assoc]
      refine List.Sublist.append (List.Sublist.refl _) ?_
      exact (List.sublist_append_right _ _).trans (List.sublist_append_right _ _)

theorem SrcSys.exec_acc {c : Cfg} (hl : 0 < c.lanes) (hv : c.hasValid = true) (clean : Bool) (evs : List SrcEv)
    (hcl : clean = true → ∀ e ∈ evs, e.clean = true) : SrcAcc c clean (SrcSys.exec c evs) :=
  foldl_inv' _ (fun s : SrcSys => SrcAcc c clean s) (fun e => clean = true → e.clean = true)
    (fun _ e hq h => h.step hl hv e hq) evs _ (fun e he hc => hcl hc e he)
    ⟨SrcInv.init c, by simp, by simp, by cases clean <;> simp [Stream.Acc, xfers, SrcSys.onBus, Src.todo, Src.rest]⟩

end Verif.Axis
