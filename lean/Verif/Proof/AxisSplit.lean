import Verif.Spec.AxisSplit
import Verif.Proof.AxisLine

/-!
# AXI stream frames across resets
-/

namespace Verif.Axis

open Verif.Stream (Pc wakeUp_ne wakeUp_off wakeUp_woken wakeUp_due wakeUp_edge tick_due tick_off tick_asleep tick_woken tick_edge
  still_iff foldl_inv foldl_inv')

/-! ## Lists of beats -/

theorem first_mark {a b x y : List Beat} {p q : Beat} (ha : ∀ z ∈ a, z.tlast = false) (hb : ∀ z ∈ b, z.tlast = false)
    (hp : p.tlast = true) (hq : q.tlast = true) (h : a ++ p :: x = b ++ q :: y) : a = b ∧ p = q ∧ x = y := by
  induction a generalizing b with
  | nil =>
    cases b with
    | nil => simpa using h
    | cons z b =>
      have := hb z (by simp)
      simp only [List.nil_append, List.cons_append, List.cons.injEq] at h
      rw [← h.1, hp] at this; cases this
  | cons w a ih =>
    cases b with
    | nil =>
      have := ha w (by simp)
      simp only [List.nil_append, List.cons_append, List.cons.injEq] at h
      rw [h.1, hq] at this; cases this
    | cons z b =>
      simp only [List.cons_append, List.cons.injEq] at h
      obtain ⟨h1, h2⟩ := h
      obtain ⟨e1, e2, e3⟩ := ih (fun z hz => ha z (List.mem_cons_of_mem _ hz)) (fun z hz => hb z (List.mem_cons_of_mem _ hz)) h2
      exact ⟨by rw [h1, e1], e2, e3⟩

/-- The packet that ends first is the first frame that is not empty. -/
theorem first_frame {c : Cfg} (hl : 0 < c.lanes) {fl : List Frame} {part x : List Beat} {b : Beat} (hp : ∀ z ∈ part, z.tlast = false)
    (hb : b.tlast = true) (h : part ++ b :: x = fl.flatMap (beats c)) : ∃ pre f post, fl = pre ++ f :: post ∧ pre.countP Frame.truthy = 0 ∧
      f.truthy = true ∧ beats c f = part ++ [b] ∧ x = post.flatMap (beats c) := by
  induction fl with
  | nil => simp at h
  | cons g fl ih =>
    by_cases hg : g.tdata = []
    · rw [List.flatMap_cons, beats_nil c hl g hg, List.nil_append] at h
      obtain ⟨pre, f, post, h1, h2, h3⟩ := ih h
      refine ⟨g :: pre, f, post, by rw [h1]; rfl, ?_, h3⟩
      rw [List.countP_cons, h2]
      simp [Frame.truthy, hg]
    · obtain ⟨bs, b', e1, e2, e3⟩ := beats_split c hl g hg
      rw [List.flatMap_cons, e1, List.append_assoc, List.singleton_append] at h
      obtain ⟨f1, f2, f3⟩ := first_mark hp e3 hb e2 h
      exact ⟨[], g, fl, rfl, rfl, truthy_iff.2 hg, by rw [e1, f1, f2], f3⟩

theorem beats_marks {c : Cfg} (hl : 0 < c.lanes) (f : Frame) : (beats c f).countP (·.tlast) = if f.truthy then 1 else 0 := by
  by_cases hf : f.tdata = []
  · rw [beats_nil c hl f hf]; simp [Frame.truthy, hf]
  · obtain ⟨bs, b, e1, e2, e3⟩ := beats_split c hl f hf
    rw [e1, List.countP_append, truthy_iff.2 hf, if_pos rfl]
    have : bs.countP (·.tlast) = 0 := List.countP_eq_zero.2 (fun z hz => by simp [e3 z hz])
    simp [this, e2]

theorem flat_marks {c : Cfg} (hl : 0 < c.lanes) (fl : List Frame) : (fl.flatMap (beats c)).countP (·.tlast) = fl.countP Frame.truthy := by
  induction fl with
  | nil => rfl
  | cons f fl ih => rw [List.flatMap_cons, List.countP_append, ih, beats_marks hl, List.countP_cons]; omega

/-! ## The frames on their way -/

/-- What has been received, and what is on its way: `n` frames have been lost. -/
structure Flow (c : NetCfg) (n : Nat) (clear : Bool) (s : Net) : Prop where
  held : s.src.nvalid = true → live s.src.frame = true → s.src.nbeat.tlast = false
  off : c.bus.hasReady = false → s.snk.pc = .off → s.src.pc = .off
  flow : ∃ (done fl : List Frame) (part : List Beat),
    s.snk.taken.map (·.2) ++ s.snk.queue = done.map (fun f => frameOf c.bus (beats c.bus f)) ∧
    (∀ f ∈ done, f.truthy = true) ∧
    s.snk.part = (if part = [] then none else some (frameOf c.bus part)) ∧
    (∀ b ∈ part, b.tlast = false) ∧
    part ++ s.taking c ++ s.shown c ++ s.src.rest c.bus = fl.flatMap (beats c.bus) ∧
    (done ++ fl ++ s.src.queue.map (·.2)).Sublist s.src.sent ∧
    (clear = false → s.src.sent.countP Frame.truthy ≤
      done.length + fl.countP Frame.truthy + (s.src.queue.map (·.2)).countP Frame.truthy + n)

theorem Flow.init (c : NetCfg) (cl : Bool) : Flow c 0 cl {} :=
  ⟨by simp, by simp, [], [], [], by simp, by simp, by simp, by simp, by simp [Net.taking, Net.shown, Src.rest], by simp, by simp⟩

/-- Nothing but more frames in the source's queue. -/
theorem Flow.keep {c : NetCfg} {n : Nat} {cl : Bool} {s t : Net} (h : Flow c n cl s) (hs : Sound c s) (hk : SrcKeep s.src t.src)
    (h1 : t.snk.taken.map (·.2) ++ t.snk.queue = s.snk.taken.map (·.2) ++ s.snk.queue) (h2 : t.snk.part = s.snk.part)
    (h3 : t.taking c ++ t.shown c = s.taking c ++ s.shown c)
    (h4 : c.bus.hasReady = false → t.snk.pc = .off → t.src.pc = .off) : Flow c n cl t := by
  obtain ⟨i1, i2, done, fl, part, f1, f2, f3, f4, f5, f6, f7⟩ := h
  obtain ⟨x, g1, g2⟩ := hk.more
  refine ⟨by rw [hk.nvalid, hk.frame, hk.nbeat]; exact i1, h4, done, fl, part, h1.trans f1, f2, h2.trans f3, f4, ?_, ?_, ?_⟩
  · rw [rest_same hs.src hk, List.append_assoc part, h3, ← List.append_assoc part]; exact f5
  · rw [g1, g2, List.map_append, ← List.append_assoc]
    exact List.Sublist.append f6 (List.Sublist.refl _)
  · intro hc
    have := f7 hc
    rw [g1, g2, List.map_append, List.countP_append, List.countP_append]
    omega

/-! ## The events other than turns, clock edges, resets and `clear()` -/

theorem step_off (c : NetCfg) (s : Net) (e : NetEv) (he : ∀ v, e ≠ .srcReset v) (h : s.src.pc = .off) : (s.step c e).src.pc = .off := by
  unfold Net.step
  split
  · exact h
  have acc : ∀ (t : Src) f, t.pc = .off → (t.accept f).2.pc = .off := by
    intro t f ht
    rcases accept_cases t f with hh | hh <;> rw [hh]
    · exact ht
    · exact wakeUp_off.2 ht
  cases e <;> simp only
  case tick => split <;> simp_all [Pc.tick]
  case srcRun => simp [h]
  case srcWake => simp [h]
  case commit => split <;> exact h
  case send f => unfold Src.send; split; exact h; exact acc _ _ h
  case resume i =>
    unfold Src.resume
    split
    · split
      · exact h
      · exact acc _ _ h
    · exact h
  case sendNowait f => unfold Src.sendNowait; split; exact h; exact acc _ _ h
  case srcPause => exact h
  case srcClear => exact h
  case srcReset v => exact absurd rfl (he v)
  all_goals first | exact h | (split <;> exact h)

/-- What the sink has received changes only in its own turn. -/
theorem step_part (c : NetCfg) (s : Net) (e : NetEv) (hcl : e.clean = true) (hr : e ≠ .snkRun) :
    (s.step c e).snk.taken.map (·.2) ++ (s.step c e).snk.queue = s.snk.taken.map (·.2) ++ s.snk.queue ∧
      (s.step c e).snk.part = s.snk.part := by
  unfold Net.step
  split
  · exact ⟨rfl, rfl⟩
  cases e <;> simp only
  case snkRun => exact absurd rfl hr
  case snkClear => simp [NetEv.clean] at hcl
  case tick => split <;> exact ⟨rfl, rfl⟩
  case commit =>
    split
    · simp only
      split <;> exact ⟨rfl, rfl⟩
    · exact ⟨rfl, rfl⟩
  case recv k => exact ⟨(recv_kept true s.snk k).got, (recv_kept true s.snk k).part⟩
  case readNowait k => exact ⟨(read_kept true s.snk k).got, (read_kept true s.snk k).part⟩
  case snkPause v =>
    obtain ⟨_, _, _, _, _, f6, f7, f8⟩ := setPause_facts s.snk v
    exact ⟨by rw [f6, f7], f8⟩
  case snkReset v =>
    cases v
    · simp only [Rx.reset, Bool.false_eq_true, if_false]
      split <;> exact ⟨rfl, rfl⟩
    · simp [NetEv.clean] at hcl
  all_goals first | exact ⟨trivial, trivial⟩ | exact ⟨rfl, rfl⟩ | (split <;> exact ⟨rfl, rfl⟩)

theorem Flow.other {c : NetCfg} {n : Nat} {cl : Bool} {s : Net} (h : Flow c n cl s) (hs : Sound c s) (e : NetEv) (hcl : e.clean = true)
    (h1 : e ≠ .tick) (h2 : e ≠ .srcRun) (h3 : e ≠ .snkRun)
    (hr : e = .srcReset false → c.bus.hasReady = true ∨ s.snk.pc ≠ .off) : Flow c n cl (s.step c e) := by
  have hk : SrcKeep s.src (s.step c e).src := by
    rcases step_src c s e hcl with h | h
    · exact absurd h.1 h2
    · exact h
  have hx : RxKeep s.snk (s.step c e).snk := by
    rcases step_snk c s e hcl with h | h
    · exact absurd h.1 h3
    · exact h
  obtain ⟨g1, g2⟩ := step_part c s e hcl h3
  obtain ⟨g3, g4⟩ := step_shown c s e hcl h1 h2 h3
  refine h.keep hs hk g1 g2 (by rw [g3, g4]) fun hnr ho => ?_
  have ho' := hx.on ho
  by_cases he : e = .srcReset false
  · rcases hr he with h' | h'
    · rw [hnr] at h'; cases h'
    · exact absurd ho' h'
  · refine step_off c s e (fun v hv => ?_) (h.off hnr ho')
    cases v
    · exact he hv
    · rw [hv] at hcl; simp [NetEv.clean] at hcl

/-! ## The source's turn -/

theorem Flow.srcRun {c : NetCfg} (hl : 0 < c.bus.lanes) (hv : c.bus.hasValid = true) {n : Nat} {cl : Bool} {s : Net} (h : Flow c n cl s)
    (hs : Sound c s) (hcr : s.src.crashed = false) (hd : s.src.pc = .due) :
    Flow c n cl { s with src := s.src.run c.bus s.snk.ready, settled := false } := by
  obtain ⟨i1, i2, done, fl, part, f1, f2, f3, f4, f5, f6, f7⟩ := h
  have hoff : ∀ {P : Prop}, c.bus.hasReady = false → s.snk.pc = .off → P := by
    intro P hr ho
    have := i2 hr ho
    rw [hd] at this; cases this
  refine SrcInv.run_cases hv s.src s.snk.ready (fun t => Flow c n cl { s with src := t, settled := false }) ?_ ?_
  · intro hval hr hrd
    have e : Net.shown c { s with src := { s.src with pc := .edge }, settled := false } = s.shown c := by
      rw [shown_not_due (by simp)]
      unfold Net.shown
      rw [if_neg (c := s.src.pc = .due ∧ _) (by rw [hr, hrd]; simp)]
    refine ⟨i1, fun a b => hoff a b, done, fl, part, f1, f2, f3, f4, ?_, f6, f7⟩
    rw [e]; exact f5
  · intro hx t ht
    have hsh : s.shown c = [] := by
      unfold Net.shown
      split
      · rfl
      · rename_i hn
        have : s.src.valid = false := by
          cases hval : s.src.valid
          · rfl
          · exact absurd ⟨hd, by rw [hval, hx hval]; rfl⟩ hn
        rw [← (hs.due hd).1, this]; rfl
    rw [hsh, List.append_nil] at f5
    have key : t.crashed = false → SrcInv c.bus t ∧ t.valid = s.src.valid ∧ t.beat = s.src.beat ∧ ∃ fl',
        part ++ s.taking c ++ t.rest c.bus = fl'.flatMap (beats c.bus) ∧ (done ++ fl' ++ t.queue.map (·.2)).Sublist t.sent ∧
        (cl = false → t.sent.countP Frame.truthy ≤
          done.length + fl'.countP Frame.truthy + (t.queue.map (·.2)).countP Frame.truthy + n) := by
      intro htc
      by_cases hlv : live s.src.frame = true
      · rw [if_pos hlv] at ht
        subst ht
        exact ⟨hs.src, rfl, rfl, fl, f5, f6, f7⟩
      · rw [if_neg hlv] at ht
        rw [Bool.not_eq_true] at hlv
        have hinv := hs.src
        rcases SrcInv.take_cases s.src with ⟨hq, e⟩ | ⟨_, e⟩ | ⟨i, f, rest, hq, hp, e⟩
        · rw [e] at ht; subst ht
          exact ⟨hinv, rfl, rfl, fl, f5, f6, f7⟩
        · rw [e] at ht; subst ht; cases htc
        · have hti : SrcInv c.bus t := by rw [ht]; exact hinv.take hlv hd
          have hi := hinv.nums (i, f) (by rw [hq]; simp)
          have hr0 := hinv.rest_dead hl hlv
          rw [hr0, List.append_nil] at f5
          rw [e] at ht
          refine ⟨hti, by rw [ht]; rfl, by rw [ht]; rfl, fl ++ [f], ?_, ?_, ?_⟩
          · rw [ht]
            simp only [Src.rest, Src.setDeq, hi, Nat.zero_div, List.drop_zero, List.flatMap_append, List.flatMap_cons, List.flatMap_nil,
              List.append_nil, f5]
          · rw [ht]
            simp only [Src.setDeq]
            rw [hq] at f6
            simpa using f6
          · intro hc
            have := f7 hc
            rw [hq] at this
            rw [ht]
            simp only [Src.setDeq, List.countP_append, List.map_cons, List.countP_cons, List.countP_nil] at this ⊢
            omega
    refine ⟨fun htc => ?_, fun htc i g hf hg _ => ?_, fun htc _ => ?_⟩
    · have : t = { s.src with crashed := true } := by
        split at ht
        · rw [ht, hcr] at htc; cases htc
        · rcases SrcInv.take_cases s.src with ⟨hq, e⟩ | ⟨_, e⟩ | ⟨i, f, rest, hq, hp, e⟩
          · rw [ht, e, hcr] at htc; cases htc
          · rw [ht, e]
          · rw [ht, e] at htc; simp only [Src.setDeq] at htc; rw [hcr] at htc; cases htc
      subst this
      refine ⟨i1, fun a b => hoff a b, done, fl, part, f1, f2, f3, f4, ?_, f6, f7⟩
      have e : Net.shown c { s with src := { s.src with crashed := true }, settled := false } = s.shown c := rfl
      rw [e, hsh, List.append_nil]; exact f5
    · obtain ⟨k0, k1, k2, fl', k3, k4, k5⟩ := key htc
      obtain ⟨g1, g2, g3, g4, g5, g6, g7⟩ := drive_same hv t i g
      obtain ⟨d1, _⟩ := SrcInv.drive_todo hl hv k0 hf hg
      have hrest : t.rest c.bus = (t.drive c.bus i g).nbeat :: (t.drive c.bus i g).rest c.bus := by
        unfold Src.todo at d1
        rw [g1, ← List.cons_append] at d1
        exact List.append_cancel_right d1
      refine ⟨fun _ => g7, fun a b => hoff a b, done, fl', part, f1, f2, f3, f4, ?_, by rw [g1, g2]; exact k4, by rw [g1, g2]; exact k5⟩
      rw [shown_not_due g5]
      simp only [g6, if_true]
      have e : Net.taking c { s with src := t.drive c.bus i g, settled := false } = s.taking c := by
        unfold Net.taking; simp only [g3, g4, k1, k2]
      rw [e, ← k3, hrest]
      simp
    · obtain ⟨k0, k1, k2, fl', k3, k4, k5⟩ := key htc
      obtain ⟨g1, g2, g3, g4, g5, g6, g7⟩ := quiet_same hv t
      refine ⟨fun hh => ?_, fun a b => hoff a b, done, fl', part, f1, f2, f3, f4, ?_, by rw [g1, g2]; exact k4, by rw [g1, g2]; exact k5⟩
      · simp only [g6] at hh; cases hh
      · rw [shown_not_due g5]
        simp only [g6, g7, Bool.false_eq_true, if_false, List.append_nil]
        have e : Net.taking c { s with src := t.quiet c.bus, settled := false } = s.taking c := by
          unfold Net.taking; simp only [g3, g4, k1, k2]
        rw [e]; exact k3

/-! ## The sink's turn -/

theorem Flow.snkRun {c : NetCfg} (hl : 0 < c.bus.lanes) (hv : c.bus.hasValid = true) (hla : c.bus.hasLast = true) {n : Nat} {cl : Bool}
    {s : Net} (h : Flow c n cl s) (hd : s.snk.pc = .due) :
    Flow c n cl { s with snk := s.snk.runSnk c.snk s.src.valid s.src.beat, settled := false } := by
  obtain ⟨i1, i2, done, fl, part, f1, f2, f3, f4, f5, f6, f7⟩ := h
  obtain ⟨q1, q2, _, _, _, q6, _, _, q9, q10, q11, _⟩ := finish_same c.snk (s.snk.capture c.snk s.src.valid s.src.beat) s.src.valid
  obtain ⟨_, _, p3, _, p5, _⟩ := capture_same c.snk s.snk s.src.valid s.src.beat
  have etake : Net.taking c { s with snk := s.snk.runSnk c.snk s.src.valid s.src.beat, settled := false } = [] := taking_not_due q9
  have eshow : Net.shown c { s with snk := s.snk.runSnk c.snk s.src.valid s.src.beat, settled := false } = s.shown c := by
    unfold Net.shown Rx.runSnk; simp only [q11, p5]
  have eoff : c.bus.hasReady = false → (s.snk.runSnk c.snk s.src.valid s.src.beat).pc = .off → s.src.pc = .off :=
    fun _ ho => absurd ho q10
  by_cases hx : (s.src.valid && (!c.bus.hasReady || s.snk.ready)) = true
  · have et : s.taking c = [s.src.beat] := by unfold Net.taking; rw [if_pos ⟨hd, hx⟩]
    have hcap : s.snk.capture c.snk s.src.valid s.src.beat = s.snk.collect c.snk s.src.beat := by
      unfold Rx.capture
      rw [if_pos]
      show ((!c.bus.hasReady || s.snk.ready) && (!c.bus.hasValid || s.src.valid)) = true
      rw [hv, Bool.not_true, Bool.false_or, Bool.and_comm]; exact hx
    obtain ⟨act, e⟩ := RxInv.collect_eq (c := c.snk) hl s.src.beat part f3
    have hla' : c.snk.hasLast = true := hla
    rw [hla', Bool.not_true, Bool.false_or] at e
    rw [et, List.append_assoc part] at f5
    simp only [List.append_assoc, List.singleton_append] at f5
    by_cases hb : s.src.beat.tlast = true
    · rw [if_pos hb] at e
      obtain ⟨pre, f, post, m1, m2, m3, m4, m5⟩ := first_frame hl f4 hb f5
      subst m1
      refine ⟨i1, eoff, done ++ [f], post, [], ?_, ?_, ?_, by simp, ?_, ?_, ?_⟩
      · show ((s.snk.capture c.snk s.src.valid s.src.beat).finish c.snk s.src.valid).taken.map (·.2) ++
          ((s.snk.capture c.snk s.src.valid s.src.beat).finish c.snk s.src.valid).queue = _
        rw [q1, q6, p3, hcap, e, List.map_append, ← f1, List.append_assoc]
        simp only [List.map_cons, List.map_nil, m4]
        rfl
      · intro g hg
        rcases List.mem_append.1 hg with hg | hg
        · exact f2 g hg
        · rw [List.mem_singleton.1 hg]; exact m3
      · show ((s.snk.capture c.snk s.src.valid s.src.beat).finish c.snk s.src.valid).part = _
        rw [q2, hcap, e]; rfl
      · rw [etake, eshow]; simpa using m5
      · refine List.Sublist.trans ?_ f6
        simp only [List.append_assoc, List.cons_append]
        exact List.Sublist.append (List.Sublist.refl _) (List.sublist_append_right _ _)
      · intro hc
        have := f7 hc
        simp only [List.countP_append, List.countP_cons, m2, m3, if_true, List.length_append, List.length_singleton] at this ⊢
        omega
    · rw [if_neg hb] at e
      refine ⟨i1, eoff, done, fl, part ++ [s.src.beat], ?_, f2, ?_, ?_, ?_, f6, f7⟩
      · show ((s.snk.capture c.snk s.src.valid s.src.beat).finish c.snk s.src.valid).taken.map (·.2) ++
          ((s.snk.capture c.snk s.src.valid s.src.beat).finish c.snk s.src.valid).queue = _
        rw [q1, q6, p3, hcap, e]; exact f1
      · show ((s.snk.capture c.snk s.src.valid s.src.beat).finish c.snk s.src.valid).part = _
        rw [q2, hcap, e, if_neg (by simp)]; rfl
      · intro z hz
        rcases List.mem_append.1 hz with hz | hz
        · exact f4 z hz
        · rw [List.mem_singleton.1 hz]; simpa using hb
      · rw [etake, eshow, ← f5]; simp
  · have et : s.taking c = [] := by unfold Net.taking; rw [if_neg (fun hh => hx hh.2)]
    have hcap : s.snk.capture c.snk s.src.valid s.src.beat = { s.snk with active := s.snk.part.elim false Frame.truthy } := by
      unfold Rx.capture
      rw [if_neg]
      show ¬ ((!c.bus.hasReady || s.snk.ready) && (!c.bus.hasValid || s.src.valid)) = true
      rw [hv, Bool.not_true, Bool.false_or, Bool.and_comm]; exact hx
    refine ⟨i1, eoff, done, fl, part, ?_, f2, ?_, f4, ?_, f6, f7⟩
    · show ((s.snk.capture c.snk s.src.valid s.src.beat).finish c.snk s.src.valid).taken.map (·.2) ++
        ((s.snk.capture c.snk s.src.valid s.src.beat).finish c.snk s.src.valid).queue = _
      rw [q1, q6, p3, hcap]; exact f1
    · show ((s.snk.capture c.snk s.src.valid s.src.beat).finish c.snk s.src.valid).part = _
      rw [q2, hcap]; exact f3
    · rw [etake, eshow, ← f5, et]

/-! ## A clock edge -/

theorem Flow.tick {c : NetCfg} {n : Nat} {cl : Bool} {s : Net} (h : Flow c n cl s) (hs : Sound c s) :
    Flow c n cl (s.step c .tick) := by
  have hk : SrcKeep s.src (s.step c .tick).src := by
    rcases step_src c s .tick rfl with h | h
    · cases h.1
    · exact h
  obtain ⟨g1, g2⟩ := step_part c s .tick rfl (by simp)
  unfold Net.step at hk g1 g2 ⊢
  split
  · exact h
  rename_i hcr
  rw [if_neg hcr] at hk g1 g2
  simp only at hk g1 g2 ⊢
  split
  · rename_i ht
    rw [if_pos ht] at hk g1 g2
    simp only [Bool.and_eq_true, still_iff] at ht
    obtain ⟨⟨hset, hst1⟩, hst2⟩ := ht
    refine h.keep hs hk g1 g2 (tick_shown hs h.off hset hst1 hst2) ?_
    · intro hr ho
      exact tick_off.2 (h.off hr (tick_off.1 ho))
  · exact h

/-! ## Resets -/

theorem shown_marks {c : NetCfg} (hl : 0 < c.bus.lanes) {n : Nat} {cl : Bool} {s : Net} (h : Flow c n cl s) (hs : Sound c s) :
    (s.shown c ++ s.src.rest c.bus).countP (·.tlast) ≤ 1 := by
  rw [List.countP_append]
  have h1 : (s.shown c).countP (·.tlast) ≤ 1 := by
    unfold Net.shown
    split
    · simp
    · split
      · rw [List.countP_cons]; simp only [List.countP_nil]; split <;> simp
      · simp
  cases hlv : live s.src.frame
  · rw [hs.src.rest_dead hl hlv]; simpa using h1
  · have h2 : (s.shown c).countP (·.tlast) = 0 := by
      unfold Net.shown
      split
      · rfl
      · split
        · rename_i hn; rw [List.countP_cons, h.held hn hlv]; rfl
        · rfl
    have h3 : (s.src.rest c.bus).countP (·.tlast) ≤ 1 := by
      unfold Src.rest
      split
      · split
        · rename_i f _
          refine Nat.le_trans (List.Sublist.countP_le (List.drop_sublist _ _)) ?_
          rw [beats_marks hl]; split <;> omega
        · simp
      · simp
    omega

/-- The frame in transmission is lost, the others are not. -/
theorem Flow.lost {c : NetCfg} (hl : 0 < c.bus.lanes) {n : Nat} {cl : Bool} {s t : Net} (h : Flow c n cl s) (hs : Sound c s)
    (hd : cl = false → s.snk.pc ≠ .due) (h1 : t.src = s.src.reset true)
    (h2 : t.snk.taken = s.snk.taken ∧ t.snk.queue = s.snk.queue) (h3 : t.snk.part = none) (h4 : t.snk.pc ≠ .due) :
    Flow c (n + 1) cl t := by
  obtain ⟨r1, r2, _, r4, _⟩ := SrcInv.reset_true s.src
  obtain ⟨r5, r6, _⟩ := SrcInv.reset_sent s.src true
  have hm := shown_marks hl h hs
  obtain ⟨i1, i2, done, fl, part, f1, f2, f3, f4, f5, f6, f7⟩ := h
  refine ⟨by rw [h1, r4]; simp, by rw [h1, r1]; simp, done, [], [], by rw [h2.1, h2.2]; exact f1, f2, by rw [h3]; rfl, by simp, ?_, ?_, ?_⟩
  · rw [taking_not_due h4, shown_not_due (by rw [h1, r1]; simp), h1, r4]
    simp [Src.rest, r2]
  · rw [h1, r5, r6]
    refine List.Sublist.trans ?_ f6
    rw [List.append_nil, List.append_assoc]
    exact List.Sublist.append (List.Sublist.refl _) (List.sublist_append_right _ _)
  · intro hc
    have h7 := f7 hc
    rw [h1, r5, r6]
    have : fl.countP Frame.truthy ≤ 1 := by
      rw [← flat_marks hl, ← f5, taking_not_due (hd hc), List.append_nil, List.append_assoc, List.countP_append]
      have : part.countP (·.tlast) = 0 := List.countP_eq_zero.2 (fun z hz => by simp [f4 z hz])
      omega
    simp only [List.countP_nil]
    omega

theorem Flow.mono {c : NetCfg} {n m : Nat} {cl : Bool} {s : Net} (h : Flow c n cl s) (hm : n ≤ m) : Flow c m cl s := by
  obtain ⟨i1, i2, done, fl, part, f1, f2, f3, f4, f5, f6, f7⟩ := h
  exact ⟨i1, i2, done, fl, part, f1, f2, f3, f4, f5, f6, fun hc => Nat.le_trans (f7 hc) (by omega)⟩

theorem Flow.snkReset {c : NetCfg} {n : Nat} {cl : Bool} {s : Net} (h : Flow c n cl s) (hp : s.snk.part = none) (hd : s.snk.pc ≠ .due)
    (ho : c.bus.hasReady = true ∨ s.src.pc = .off) : Flow c n cl { s with snk := s.snk.reset true, settled := false } := by
  obtain ⟨i1, i2, done, fl, part, f1, f2, f3, f4, f5, f6, f7⟩ := h
  refine ⟨i1, fun hr _ => ?_, done, fl, part, f1, f2, ?_, f4, ?_, f6, f7⟩
  · rcases ho with ho | ho
    · rw [hr] at ho; cases ho
    · exact ho
  · exact hp.symm.trans f3
  · rw [taking_not_due hd] at f5
    rw [taking_not_due (by simp [Rx.reset])]
    exact f5

theorem Flow.srcClear {c : NetCfg} {n : Nat} {s : Net} (h : Flow c n true s) :
    Flow c n true { s with src := s.src.clear, settled := false } := by
  obtain ⟨i1, i2, done, fl, part, f1, f2, f3, f4, f5, f6, f7⟩ := h
  refine ⟨i1, i2, done, fl, part, f1, f2, f3, f4, f5, ?_, by simp⟩
  refine List.Sublist.trans ?_ f6
  simp only [Src.clear, List.map_nil, List.append_nil]
  exact List.sublist_append_left _ _

theorem Flow.snkClear {c : NetCfg} {n : Nat} {s : Net} (h : Flow c n true s) :
    Flow c n true { s with snk := s.snk.clear, settled := false } := by
  obtain ⟨i1, i2, done, fl, part, f1, f2, f3, f4, f5, f6, f7⟩ := h
  refine ⟨i1, i2, done.take s.snk.taken.length, fl, part, ?_, fun f hf => f2 f (List.mem_of_mem_take hf), f3, f4, f5, ?_, by simp⟩
  · rw [List.map_take, ← f1]
    simp [Rx.clear]
  · refine List.Sublist.trans ?_ f6
    rw [List.append_assoc, List.append_assoc]
    exact List.Sublist.append (List.take_sublist _ _) (List.Sublist.refl _)

/-! ## Any event -/

theorem Flow.jstep {c : NetCfg} (hl : 0 < c.bus.lanes) (hv : c.bus.hasValid = true) (hla : c.bus.hasLast = true) {n : Nat} {cl : Bool}
    {s : Net} (h : Flow c n cl s) (hs : Sound c s) (e : JointEv) (ht : Tidy c s e)
    (hc : cl = false → e.noClear = true ∧ (e = .reset true → s.snk.pc ≠ .due)) :
    Flow c (n + resets [e]) cl (Net.jstep c s e) := by
  by_cases hcr : s.src.crashed = true
  · have : Net.jstep c s e = s := by
      cases e <;> simp [Net.jstep, Net.step, hcr]
    rw [this]; exact h.mono (by omega)
  have hcr' : s.src.crashed = false := by simpa using hcr
  cases e with
  | reset v =>
    have hsc : ∀ v, (s.src.reset v).crashed = false := by
      intro v
      unfold Src.reset
      split
      · simp only
        split
        · split <;> exact hcr'
        · exact hcr'
      · split <;> exact hcr'
    have e1 : Net.jstep c s (.reset v) = { src := s.src.reset v, snk := s.snk.reset v, settled := false } := by
      simp only [Net.jstep, Net.step, hcr', hsc, Bool.false_eq_true, if_false]
    rw [e1]
    cases v
    · refine Flow.mono (n := n) ?_ (by omega)
      have hk : SrcKeep s.src (s.src.reset false) := by
        have h1 := step_src c s (.srcReset false) rfl
        simp only [Net.step, hcr', Bool.false_eq_true, if_false] at h1
        rcases h1 with ⟨h1, _⟩ | h1
        · cases h1
        · exact h1
      obtain ⟨g1, g2⟩ := step_part c s (.snkReset false) rfl (by simp)
      simp only [Net.step, hcr', Bool.false_eq_true, if_false] at g1 g2
      refine h.keep hs hk g1 g2 ?_ ?_
      · have hp1 : (s.src.reset false).pc = .due ↔ s.src.pc = .due := by
          simp only [Src.reset, Bool.false_eq_true, if_false]; split <;> simp_all
        have hp2 : (s.snk.reset false).pc = .due ↔ s.snk.pc = .due := by
          simp only [Rx.reset, Bool.false_eq_true, if_false]; split <;> simp_all
        have hr2 : (s.snk.reset false).ready = s.snk.ready := by
          simp only [Rx.reset, Bool.false_eq_true, if_false]; split <;> rfl
        have hr3 : (s.src.reset false).valid = s.src.valid ∧ (s.src.reset false).beat = s.src.beat := by
          simp only [Src.reset, Bool.false_eq_true, if_false]; split <;> exact ⟨rfl, rfl⟩
        unfold Net.taking Net.shown
        simp only [hp1, hp2, hr2, hr3.1, hr3.2, hk.nvalid, hk.nbeat]
      · intro _ ho
        simp only [Rx.reset, Bool.false_eq_true, if_false] at ho
        split at ho
        · simp at ho
        · contradiction
    · exact h.lost hl hs (fun hh => (hc hh).2 rfl) rfl ⟨rfl, rfl⟩ rfl (by simp [Rx.reset])
  | ev e =>
    show Flow c _ cl (s.step c e)
    by_cases h1 : e.clean = true
    · refine Flow.mono (n := n) ?_ (by omega)
      by_cases e1 : e = .tick
      · subst e1; exact h.tick hs
      by_cases e2 : e = .srcRun
      · subst e2
        simp only [Net.step, hcr', Bool.false_eq_true, if_false]
        split
        · rename_i hd; exact h.srcRun hl hv hs hcr' hd
        · exact h
      by_cases e3 : e = .snkRun
      · subst e3
        simp only [Net.step, hcr', Bool.false_eq_true, if_false]
        split
        · rename_i hd; exact h.snkRun hl hv hla hd
        · exact h
      exact h.other hs e h1 e1 e2 e3 (fun he => by subst he; exact ht)
    · cases e
      case srcClear =>
        cases cl
        · have := (hc rfl).1; simp [JointEv.noClear] at this
        simp only [Net.step, hcr', Bool.false_eq_true, if_false]
        exact (h.srcClear).mono (by omega)
      case snkClear =>
        cases cl
        · have := (hc rfl).1; simp [JointEv.noClear] at this
        simp only [Net.step, hcr', Bool.false_eq_true, if_false]
        exact (h.snkClear).mono (by omega)
      case srcReset v =>
        cases v
        · simp [NetEv.clean] at h1
        simp only [Net.step, hcr', Bool.false_eq_true, if_false]
        exact h.lost hl hs (fun _ => ht.2) rfl ⟨rfl, rfl⟩ ht.1 ht.2
      case snkReset v =>
        cases v
        · simp [NetEv.clean] at h1
        simp only [Net.step, hcr', Bool.false_eq_true, if_false]
        exact (h.snkReset ht.1 ht.2.1 ht.2.2).mono (by omega)
      all_goals simp [NetEv.clean] at h1

/-! ## Whole histories -/

/-- The events of a history, with a common reset as two. -/
def flat : List JointEv → List NetEv := List.flatMap fun e => match e with
  | .ev e => [e]
  | .reset v => [.srcReset v, .snkReset v]

theorem jexec_flat (c : NetCfg) (evs : List JointEv) : Net.jexec c evs = Net.exec c (flat evs) := by
  induction evs using snoc_ind with
  | nil => rfl
  | snoc evs e ih =>
    have h1 : Net.jexec c (evs ++ [e]) = Net.jstep c (Net.jexec c evs) e := by simp [Net.jexec]
    rw [h1, ih]
    cases e <;> simp [flat, Net.exec, Net.jstep]

theorem Net.jsound {c : NetCfg} (hl : 0 < c.bus.lanes) (hv : c.bus.hasValid = true) (evs : List JointEv) : Sound c (Net.jexec c evs) := by
  rw [jexec_flat]; exact Net.sound hl hv _

theorem TidyAll.init {c : NetCfg} {evs : List JointEv} {e : JointEv} (h : TidyAll c (evs ++ [e])) :
    TidyAll c evs ∧ Tidy c (Net.jexec c evs) e := by
  refine ⟨fun n x hx => ?_, ?_⟩
  · have hn := (List.getElem?_eq_some_iff.1 hx).1
    have := h n x (by rw [List.getElem?_append_left hn]; exact hx)
    rwa [List.take_append_of_le_length (by omega)] at this
  · have := h evs.length e (by simp)
    simpa using this

theorem BetweenEdges.init {c : NetCfg} {evs : List JointEv} {e : JointEv} (h : BetweenEdges c (evs ++ [e])) :
    BetweenEdges c evs ∧ (e = .reset true → (Net.jexec c evs).snk.pc ≠ .due) := by
  refine ⟨fun n hx => ?_, fun he => ?_⟩
  · have hn := (List.getElem?_eq_some_iff.1 hx).1
    have := h n (by rw [List.getElem?_append_left hn]; exact hx)
    rwa [List.take_append_of_le_length (by omega)] at this
  · have := h evs.length (by simp [he])
    simpa using this

theorem Flow.exec {c : NetCfg} (hl : 0 < c.bus.lanes) (hv : c.bus.hasValid = true) (hla : c.bus.hasLast = true) (cl : Bool)
    (evs : List JointEv) (ht : TidyAll c evs) (hc : cl = false → (∀ e ∈ evs, e.noClear = true) ∧ BetweenEdges c evs) :
    Flow c (resets evs) cl (Net.jexec c evs) := by
  induction evs using snoc_ind with
  | nil => exact Flow.init c cl
  | snoc evs e ih =>
    obtain ⟨t1, t2⟩ := ht.init
    have h1 : Net.jexec c (evs ++ [e]) = Net.jstep c (Net.jexec c evs) e := by simp [Net.jexec]
    have h2 : resets (evs ++ [e]) = resets evs + resets [e] := by simp only [resets, List.countP_append]
    rw [h1, h2]
    refine (ih t1 fun hh => ?_).jstep hl hv hla (Net.jsound hl hv evs) e t2 fun hh => ?_
    · obtain ⟨a, b⟩ := hc hh
      exact ⟨fun x hx => a x (by simp [hx]), b.init.1⟩
    · obtain ⟨a, b⟩ := hc hh
      exact ⟨a e (by simp), b.init.2⟩

end Verif.Axis
