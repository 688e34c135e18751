import Verif.Proof.AxisTimeSrc
import Verif.Proof.AxisNet

/-!
# Which frame the beats put on the bus belong to
-/

namespace Verif.Axis

open Verif.Stream (Pc foldl_inv foldl_inv')

/-- The beats of the frame in transmission that have been driven. -/
def Src.begun (c : Cfg) (s : Src) : List Beat :=
  match s.frame with
  | some (i, g) =>
    if g.truthy then
      match s.sent[i]? with
      | some f => (beats c f).take (s.off / c.lanes)
      | none => []
    else []
  | none => []

/-- The packets put on the bus are the beats of frames, and the records name the frames. -/
structure FrmInv (c : Cfg) (s : Src) (D : List Driven) : Prop where
  cnt : (packets c (D.map (·.beat))).1.length = (D.filter fun r => r.beat.tlast).length
  grp : ∀ (k : Nat) (p : List Beat), (packets c (D.map (·.beat))).1[k]? = some p → ∃ r f, (D.filter fun r => r.beat.tlast)[k]? = some r ∧ s.sent[r.num]? = some f ∧
    p = beats c f
  opn : (packets c (D.map (·.beat))).2 = s.begun c

theorem FrmInv.keep {c : Cfg} {s u : Src} {D : List Driven} (h : FrmInv c s D) (hi : SrcInv c s) (h1 : u.frame = s.frame) (h2 : u.off = s.off)
    (h3 : s.sent <+: u.sent) : FrmInv c u D := by
  have hs : ∀ (i : Nat) (f : Frame), s.sent[i]? = some f → u.sent[i]? = some f := by
    intro i f hh
    obtain ⟨l, hl⟩ := h3
    rw [← hl, List.getElem?_append_left (List.getElem?_eq_some_iff.1 hh).1]
    exact hh
  refine ⟨h.cnt, fun k p hp => ?_, ?_⟩
  · obtain ⟨r, f, e1, e2, e3⟩ := h.grp k p hp
    exact ⟨r, f, e1, hs _ _ e2, e3⟩
  · rw [h.opn]
    unfold Src.begun
    rw [h1, h2]
    split
    · rename_i i g hf
      obtain ⟨_, f, e1, _⟩ := hi.frm i g hf
      rw [e1, hs i f e1]
    · rfl

theorem begun_dead {c : Cfg} {s : Src} (h : live s.frame = false) : s.begun c = [] := by
  unfold Src.begun
  split
  · rename_i i g hf
    rw [hf] at h
    rw [if_neg (by simpa [live] using h)]
  · rfl

theorem FrmInv.take {c : Cfg} {s : Src} {D : List Driven} (h : FrmInv c s D) (hi : SrcInv c s) (hlv : live s.frame = false) : FrmInv c s.take D := by
  rcases SrcInv.take_cases s with ⟨_, e⟩ | ⟨_, e⟩ | ⟨i, f, rest, hq, hp, e⟩
  · rw [e]; exact h
  · rw [e]; exact h.keep hi rfl rfl (List.prefix_refl _)
  · refine ⟨h.cnt, ?_, ?_⟩
    · rw [(take_facts s).1]; exact h.grp
    · rw [h.opn, begun_dead hlv, e]
      unfold Src.begun
      simp only [Nat.zero_div, List.take_zero]
      split
      · split <;> rfl
      · rfl

theorem beats_take (c : Cfg) (hl : 0 < c.lanes) (f : Frame) (k : Nat) (hk : k * c.lanes < f.tdata.length) :
    (beats c f).take (k + 1) = (beats c f).take k ++ [beatAt c f k] := by
  have hlt : k < (beats c f).length := by simpa [beats] using (beatCount_gt c hl f k).2 hk
  rw [List.take_add_one, List.getElem?_eq_getElem hlt]
  simp [beats]

theorem FrmInv.drive {c : Cfg} (hl : 0 < c.lanes) (hv : c.hasValid = true) (hla : c.hasLast = true) {s : Src} {D : List Driven} (h : FrmInv c s D)
    (hi : SrcInv c s) {i : Nat} {g : Frame} (hf : s.frame = some (i, g)) (hne : g.truthy = true) (a b : Nat) :
    FrmInv c (s.drive c i g) (D ++ [⟨i, a, b, (nextBeat c g s.off).1⟩]) := by
  obtain ⟨hc, f, hs, hp, rfl, hoff⟩ := hi.frm i g hf
  have hne' : f.tdata ≠ [] := truthy_iff.1 hne
  obtain ⟨k, hk, hlt⟩ := hoff hne'
  have hdiv : s.off / c.lanes = k := by rw [hk]; exact Nat.mul_div_cancel _ hl
  have hb : (nextBeat c (normalized f) s.off).1 = beatAt c f k := by
    rw [hk, nextBeat_spec c hl f k (by rw [← hk]; exact hlt)]
  have ho : s.begun c = (beats c f).take k := by
    unfold Src.begun
    rw [hf]
    simp only [hne, if_true, hs, hdiv]
  have hop := h.opn
  rw [ho] at hop
  have htk := beats_take c hl f k (by rw [← hk]; exact hlt)
  have hsn := packets_snoc c (D.map (·.beat)) (beatAt c f k)
  rw [hla, hop] at hsn
  simp only [Bool.not_true, Bool.false_or, SrcInv.beatAt_last, decide_eq_true_eq, ← htk] at hsn
  rw [SrcInv.drive_eq hl hv s i f k hk hlt, hb]
  by_cases hge : (k + 1) * c.lanes ≥ f.tdata.length
  · rw [if_pos hge] at hsn ⊢
    have hall : (beats c f).take (k + 1) = beats c f := by
      rw [List.take_of_length_le]
      exact List.drop_eq_nil_iff.1 (beats_drop_end c hl f (k + 1) hge)
    have hfl : (D ++ [(⟨i, a, b, beatAt c f k⟩ : Driven)]).filter (fun r => r.beat.tlast) = D.filter (fun r => r.beat.tlast) ++ [⟨i, a, b, beatAt c f k⟩] := by
      rw [List.filter_append]; simp [SrcInv.beatAt_last, hge]
    have hmp : (D ++ [(⟨i, a, b, beatAt c f k⟩ : Driven)]).map (·.beat) = D.map (·.beat) ++ [beatAt c f k] := by simp
    refine ⟨by rw [hmp, hsn, hfl]; simp [h.cnt], fun j p hp => ?_, ?_⟩
    · rw [hmp, hsn] at hp
      rw [hfl]
      simp only at hp ⊢
      rcases Nat.lt_or_ge j (packets c (D.map (·.beat))).1.length with hj | hj
      · rw [List.getElem?_append_left hj] at hp
        obtain ⟨r, f', e1, e2, e3⟩ := h.grp j p hp
        exact ⟨r, f', by rw [List.getElem?_append_left (by rw [← h.cnt]; exact hj)]; exact e1, e2, e3⟩
      · have hjl := (List.getElem?_eq_some_iff.1 hp).1
        simp only [List.length_append, List.length_singleton] at hjl
        have hje : j = (packets c (D.map (·.beat))).1.length := by omega
        subst hje
        rw [List.getElem?_append_right hj] at hp
        simp at hp
        refine ⟨⟨i, a, b, beatAt c f k⟩, f, by rw [h.cnt, List.getElem?_append_right (Nat.le_refl _)]; simp, hs, by rw [← hp, hall]⟩
    · rw [hmp, hsn]; rfl
  · rw [if_neg hge] at hsn ⊢
    have hfl : (D ++ [(⟨i, a, b, beatAt c f k⟩ : Driven)]).filter (fun r => r.beat.tlast) = D.filter (fun r => r.beat.tlast) := by
      rw [List.filter_append]; simp [SrcInv.beatAt_last]; omega
    have hmp : (D ++ [(⟨i, a, b, beatAt c f k⟩ : Driven)]).map (·.beat) = D.map (·.beat) ++ [beatAt c f k] := by simp
    refine ⟨by rw [hmp, hsn, hfl]; exact h.cnt, fun j p hp => ?_, ?_⟩
    · rw [hmp, hsn] at hp
      rw [hfl]
      exact h.grp j p hp
    · rw [hmp, hsn]
      unfold Src.begun
      have hdiv' : (k + 1) * c.lanes / c.lanes = k + 1 := Nat.mul_div_cancel _ hl
      simp only [hf, hne, if_true, hs, hdiv']

theorem FrmInv.run {c : Cfg} (hl : 0 < c.lanes) (hv : c.hasValid = true) (hla : c.hasLast = true) {s : Src} {t : SrcStamps} (h : FrmInv c s t.driven)
    (hi : SrcInv c s) (hd : s.pc = .due) (ready : Bool) : FrmInv c (s.run c ready) (t.run c s ready).driven := by
  unfold Src.run SrcStamps.run
  simp only
  split
  · have hu : ∀ u, u = (if (!live s.frame) = true then s.take else s) → FrmInv c u t.driven ∧ (u.crashed = false → SrcInv c u) := by
      intro u hu
      rw [hu]
      split
      · rename_i hlv
        have hlv' : live s.frame = false := by simpa using hlv
        exact ⟨h.take hi hlv', fun _ => hi.take hlv' hd⟩
      · exact ⟨h, fun _ => hi⟩
    obtain ⟨u1, u2⟩ := hu _ rfl
    generalize (if (!live s.frame) = true then s.take else s) = u at *
    split
    · exact u1
    · rename_i hcu
      have hiu := u2 (by simpa using hcu)
      have htk : (t.take s).driven = t.driven := by unfold SrcStamps.take; split <;> rfl
      have hq : FrmInv c (u.quiet c) t.driven := u1.keep hiu (by unfold Src.quiet; simp only; split <;> rfl)
        (by unfold Src.quiet; simp only; split <;> rfl) (by rw [(quiet_facts hv u).2.2.1]; exact List.prefix_refl _)
      unfold SrcStamps.drive
      split
      · rename_i i g hf
        rw [hf]
        simp only
        by_cases hg : (g.truthy && !u.pause) = true
        · rw [if_pos hg, if_pos hg]
          simp only [Bool.and_eq_true, Bool.not_eq_true'] at hg
          have := u1.drive hl hv hla hiu hf hg.1 (t.take s).start (t.take s).now
          split
          · simp only [htk]; exact this
          · simp only [htk]; exact this
        · rw [if_neg hg, if_neg hg, htk]
          exact hq
      · rename_i hf
        rw [hf]
        simp only [htk]
        exact hq
  · exact h.keep hi rfl rfl (List.prefix_refl _)

theorem accept_sent (s : Src) (f : Frame) : (s.accept f).2.frame = s.frame ∧ (s.accept f).2.off = s.off ∧ s.sent <+: (s.accept f).2.sent := by
  rcases accept_cases s f with e | e <;> rw [e] <;> simp [Src.put]

/-- The frames of a source with times. -/
structure TFrmInv (c : Cfg) (s : TSrc) : Prop where
  inv : SrcInv c s.sys.src
  frm : FrmInv c s.sys.src s.t.driven

theorem TFrmInv.step {c : Cfg} (hl : 0 < c.lanes) (hv : c.hasValid = true) (hla : c.hasLast = true) {s : TSrc} (h : TFrmInv c s) (ha : SrcAcc c true s.sys)
    (e : TEv SrcEv) (hcl : e.clean SrcEv.clean = true) : TFrmInv c (s.step c e) := by
  unfold TSrc.step
  split
  · exact h
  rename_i hcr
  cases e with
  | sleep d => simp only; split <;> exact ⟨h.inv, h.frm⟩
  | ev e =>
    have hcl : e.clean = true := hcl
    have hi := (ha.step hl hv e (fun _ => hcl)).inv
    cases e with
    | tick =>
      simp only
      split
      · refine ⟨hi, ?_⟩
        simp only [SrcSys.step, if_neg hcr]
        split
        · exact h.frm.keep h.inv rfl rfl (List.prefix_refl _)
        · exact h.frm
      · exact h
    | run =>
      refine ⟨hi, ?_⟩
      by_cases hd : s.sys.src.pc = .due
      · simp only [SrcSys.step, if_neg hcr, if_pos hd]
        exact h.frm.run hl hv hla h.inv hd _
      · simp only [SrcSys.step, if_neg hcr, if_neg hd]
        exact h.frm
    | clear => exact absurd hcl (by simp [SrcEv.clean])
    | reset v =>
      cases v
      · refine ⟨hi, ?_⟩
        simp only [SrcStamps.reset, Bool.false_eq_true, if_false, SrcSys.step, if_neg hcr, Src.reset]
        split
        · exact h.frm.keep h.inv rfl rfl (List.prefix_refl _)
        · exact h.frm
      · exact absurd hcl (by simp [SrcEv.clean])
    | wake =>
      refine ⟨hi, ?_⟩
      simp only [SrcSys.step, if_neg hcr]
      split
      · exact h.frm.keep h.inv rfl rfl (List.prefix_refl _)
      · exact h.frm
    | commit =>
      refine ⟨hi, ?_⟩
      simp only [SrcSys.step, if_neg hcr]
      split
      · exact h.frm.keep h.inv rfl rfl (List.prefix_refl _)
      · exact h.frm
    | env r =>
      refine ⟨hi, ?_⟩
      simp only [SrcSys.step, if_neg hcr]
      split <;> exact h.frm
    | send f =>
      refine ⟨hi, ?_⟩
      simp only [SrcSys.step, if_neg hcr, Src.send]
      split
      · exact h.frm.keep h.inv rfl rfl (List.prefix_refl _)
      · obtain ⟨k1, k2, k3⟩ := accept_sent s.sys.src f
        exact h.frm.keep h.inv k1 k2 k3
    | resume i =>
      refine ⟨hi, ?_⟩
      simp only [SrcSys.step, if_neg hcr, Src.resume]
      split
      · split
        · exact h.frm.keep h.inv rfl rfl (List.prefix_refl _)
        · obtain ⟨k1, k2, k3⟩ := accept_sent { s.sys.src with waiters := s.sys.src.waiters.eraseIdx i } ‹Frame›
          exact h.frm.keep h.inv k1 k2 k3
      · exact h.frm
    | sendNowait f =>
      refine ⟨hi, ?_⟩
      simp only [SrcSys.step, if_neg hcr, Src.sendNowait]
      split
      · exact h.frm
      · obtain ⟨k1, k2, k3⟩ := accept_sent s.sys.src f
        exact h.frm.keep h.inv k1 k2 k3
    | pause v =>
      refine ⟨hi, ?_⟩
      simp only [SrcSys.step, if_neg hcr]
      exact h.frm.keep h.inv rfl rfl (List.prefix_refl _)

theorem TSrc.exec_frm {c : Cfg} (hl : 0 < c.lanes) (hv : c.hasValid = true) (hla : c.hasLast = true) (evs : List (TEv SrcEv))
    (hcl : ∀ e ∈ evs, e.clean SrcEv.clean = true) : TFrmInv c (TSrc.exec c evs) :=
  (foldl_inv' _ (fun s : TSrc => TSrcInv c s ∧ TFrmInv c s) (fun e => e.clean SrcEv.clean = true)
    (fun _ e hq h => ⟨h.1.step hl hv e hq, h.2.step hl hv hla h.1.acc e hq⟩) evs _ hcl
    ⟨TSrc.exec_inv hl hv [] (by simp), SrcInv.init c, rfl, by intro k p h; simp [packets, TSrc.exec] at h, rfl⟩).2

/-! ## Every frame that is signalled has its times -/

theorem TSrc.step_done (c : Cfg) (s : TSrc) (e : TEv SrcEv) (h : s.t.done.map (·.1) = s.sys.src.done) :
    (s.step c e).t.done.map (·.1) = (s.step c e).sys.src.done := by
  have acc : ∀ (s : Src) f, (s.accept f).2.done = s.done := by
    intro s f; rcases accept_cases s f with e | e <;> rw [e] <;> rfl
  have hq : ∀ u : Src, (u.quiet c).done = u.done := by
    intro u; unfold Src.quiet; simp only; split <;> split <;> rfl
  have htk : ∀ u : Src, u.take.done = u.done := by
    intro u
    rcases SrcInv.take_cases u with ⟨_, e⟩ | ⟨_, e⟩ | ⟨i, f, rest, hq, hp, e⟩ <;> rw [e]
    rfl
  have htt : (s.t.take s.sys.src).done = s.t.done := by unfold SrcStamps.take; split <;> rfl
  unfold TSrc.step
  split
  · exact h
  rename_i hcr
  cases e with
  | sleep d => simp only; split <;> exact h
  | ev e =>
    cases e with
    | tick =>
      simp only
      split
      · simp only [SrcSys.step, if_neg hcr]; split <;> exact h
      · exact h
    | run =>
      by_cases hd : s.sys.src.pc = .due
      · simp only [SrcSys.step, if_neg hcr, if_pos hd]
        unfold Src.run SrcStamps.run
        simp only
        split
        · have hu : (if (!live s.sys.src.frame) = true then s.sys.src.take else s.sys.src).done = s.sys.src.done := by
            split
            · exact htk _
            · rfl
          generalize (if (!live s.sys.src.frame) = true then s.sys.src.take else s.sys.src) = u at *
          split
          · rw [hu]; exact h
          · unfold SrcStamps.drive
            cases hf : u.frame with
            | none => simp only [htt, hq, hu]; exact h
            | some ig =>
              obtain ⟨i, g⟩ := ig
              simp only
              split
              · unfold Src.drive
                simp only
                split
                · simp only [htt, hu, List.map_append, h]; rfl
                · simp only [htt, hu]; exact h
              · simp only [htt, hq, hu]; exact h
        · exact h
      · simp only [SrcSys.step, if_neg hcr, if_neg hd]; exact h
    | clear =>
      simp only [SrcSys.step, if_neg hcr, Src.clear, SrcStamps.clear, List.map_append, h, List.map_map]
      rfl
    | reset v =>
      simp only [SrcSys.step, if_neg hcr, Src.reset, SrcStamps.reset]
      cases v
      · simp only [Bool.false_eq_true, if_false]; split <;> exact h
      · simp only [if_true]
        split
        · rename_i hc
          rw [hc]
          simp only
          split
          · simp only [List.map_append, h]; rfl
          · exact h
        · rename_i hc
          rw [hc]
          exact h
    | wake => simp only [SrcSys.step, if_neg hcr]; split <;> exact h
    | commit => simp only [SrcSys.step, if_neg hcr]; split <;> exact h
    | env r => simp only [SrcSys.step, if_neg hcr]; split <;> exact h
    | send f =>
      simp only [SrcSys.step, if_neg hcr, Src.send]
      split
      · exact h
      · rw [acc]; exact h
    | resume i =>
      simp only [SrcSys.step, if_neg hcr, Src.resume]
      split
      · split
        · exact h
        · rw [acc]; exact h
      · exact h
    | sendNowait f =>
      simp only [SrcSys.step, if_neg hcr, Src.sendNowait]
      split
      · exact h
      · rw [acc]; exact h
    | pause v => simp only [SrcSys.step, if_neg hcr]; exact h

theorem TSrc.exec_done (c : Cfg) (evs : List (TEv SrcEv)) : (TSrc.exec c evs).t.done.map (·.1) = (TSrc.exec c evs).sys.src.done :=
  foldl_inv _ (fun s : TSrc => s.t.done.map (·.1) = s.sys.src.done) (fun s e h => TSrc.step_done c s e h) evs _ rfl

/-- The times are in order: no end without a start, no end before the start. -/
def SrcStamps.Sane (t : SrcStamps) : Prop :=
  t.start ≤ t.now ∧ ∀ i a b, (i, a, b) ∈ t.done → (∀ y, b = some y → ∃ x, a = some x ∧ x ≤ y) ∧ ∀ x, a = some x → x ≤ t.now

theorem SrcStamps.Sane.add {t : SrcStamps} (h : t.Sane) (i : Nat) (b : Option Nat) (hb : b = none ∨ b = some t.now) :
    SrcStamps.Sane { t with done := t.done ++ [(i, some t.start, b)] } := by
  refine ⟨h.1, fun j a b' hm => ?_⟩
  simp only [List.mem_append, List.mem_singleton, Prod.mk.injEq] at hm
  rcases hm with hm | ⟨rfl, rfl, rfl⟩
  · exact h.2 j a b' hm
  · refine ⟨fun y hy => ⟨t.start, rfl, ?_⟩, fun x hx => ?_⟩
    · rcases hb with rfl | rfl
      · cases hy
      · cases hy; exact h.1
    · cases hx; exact h.1

theorem TSrc.step_sane (c : Cfg) (s : TSrc) (e : TEv SrcEv) (h : s.t.Sane) : (s.step c e).t.Sane := by
  unfold TSrc.step
  split
  · exact h
  split
  · split
    · exact ⟨Nat.le_trans h.1 (Nat.le_add_right _ _), fun i a b hm => ⟨(h.2 i a b hm).1, fun x hx => Nat.le_trans ((h.2 i a b hm).2 x hx) (Nat.le_add_right _ _)⟩⟩
    · exact h
  · split <;> exact h
  · simp only
    split
    · unfold SrcStamps.run
      simp only
      split
      · generalize (if (!live s.sys.src.frame) = true then s.sys.src.take else s.sys.src) = u
        split
        · exact h
        · have ht : (s.t.take s.sys.src).Sane := by
            unfold SrcStamps.take
            split
            · exact ⟨Nat.le_refl _, h.2⟩
            · exact h
          unfold SrcStamps.drive
          split
          · split
            · simp only
              split
              · exact SrcStamps.Sane.add (t := { s.t.take s.sys.src with driven := _ }) ht _ _ (.inr rfl)
              · exact ht
            · exact ht
          · exact ht
      · exact h
    · exact h
  · refine ⟨h.1, fun i a b hm => ?_⟩
    simp only [SrcStamps.clear, List.mem_append, List.mem_map, Prod.mk.injEq] at hm
    rcases hm with hm | ⟨_, _, _, rfl, rfl⟩
    · exact h.2 i a b hm
    · exact ⟨fun y hy => (by cases hy), fun x hx => (by cases hx)⟩
  · simp only [SrcStamps.reset]
    split
    · split
      · split
        · exact SrcStamps.Sane.add (t := { s.t with seen := _ }) h _ _ (.inl rfl)
        · exact h
      · exact h
    · exact h
  · exact h

theorem TSrc.exec_sane (c : Cfg) (evs : List (TEv SrcEv)) : (TSrc.exec c evs).t.Sane :=
  foldl_inv _ (fun s : TSrc => s.t.Sane) (fun s e h => TSrc.step_sane c s e h) evs _ ⟨Nat.le_refl _, by simp⟩

/-- A reset or `clear()` does not end a frame. -/
theorem TSrc.step_cut (c : Cfg) (s : TSrc) (e : SrcEv) (he : e.clean = false) (hcr : s.sys.src.crashed = false) :
    ∃ l, (s.step c (.ev e)).t.done = s.t.done ++ l ∧ ∀ p ∈ l, p.2.2 = none := by
  unfold TSrc.step
  rw [hcr]
  cases e with
  | clear => exact ⟨_, rfl, by intro p hp; simp only [List.mem_map] at hp; obtain ⟨_, _, rfl⟩ := hp; rfl⟩
  | reset v =>
    cases v
    · exact absurd he (by simp [SrcEv.clean])
    · simp only [Bool.false_eq_true, if_false, SrcStamps.reset, if_true]
      split
      · split
        · exact ⟨_, rfl, by simp⟩
        · exact ⟨[], by simp, by simp⟩
      · exact ⟨[], by simp, by simp⟩
  | _ => exact absurd he (by simp [SrcEv.clean])

end Verif.Axis
