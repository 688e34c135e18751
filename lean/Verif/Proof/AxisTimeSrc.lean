import Verif.Proof.AxisTime
import Verif.Proof.AxisAcc

/-!
# The times of sent frames
-/

namespace Verif.Axis

open Verif.Stream (Pc wakeUp_ne wakeUp_off wakeUp_woken wakeUp_due wakeUp_edge tick_due tick_off tick_asleep tick_woken tick_edge
  still_iff Acc foldl_inv foldl_inv')

/-! ## Beats put on the bus and beats transferred -/

/-- Every beat is transferred after it was put on the bus, and a frame is begun after the beats of the frame before. -/
structure Chain (D : List Driven) (X : List (Nat × Beat)) : Prop where
  len : X.length ≤ D.length
  late : ∀ (j : Nat) (r : Driven) (x : Nat × Beat), D[j]? = some r → X[j]? = some x → r.time < x.1 ∧ r.beat = x.2
  self : ∀ r ∈ D, r.start ≤ r.time
  next : ∀ (j : Nat) (r r' : Driven) (x : Nat × Beat), D[j]? = some r → D[j + 1]? = some r' → X[j]? = some x →
    if r.beat.tlast then x.1 ≤ r'.start else r'.start = r.start

theorem Chain.xfer {D : List Driven} {X : List (Nat × Beat)} (h : Chain D X) (t : Nat) (b : Beat)
    (hl : D.length = X.length + 1) (ht : ∀ r ∈ D, r.time < t) (hb : D.map (·.beat) = X.map (·.2) ++ [b]) :
    Chain D (X ++ [(t, b)]) := by
  refine ⟨by simp [hl], fun j r x hr hx => ?_, h.self, fun j r r' x hr hr' hx => ?_⟩
  · rcases Nat.lt_or_ge j X.length with hj | hj
    · rw [List.getElem?_append_left hj] at hx
      exact h.late j r x hr hx
    · have hjl := (List.getElem?_eq_some_iff.1 hx).1
      simp only [List.length_append, List.length_singleton] at hjl
      have hje : j = X.length := by omega
      subst hje
      rw [List.getElem?_append_right hj] at hx
      simp at hx
      subst hx
      refine ⟨ht r (List.mem_of_getElem? hr), ?_⟩
      have h1 : (D.map (·.beat))[X.length]? = some r.beat := by rw [List.getElem?_map, hr]; rfl
      rw [hb, List.getElem?_append_right (by simp)] at h1
      simp at h1
      exact h1.symm
  · rcases Nat.lt_or_ge j X.length with hj | hj
    · rw [List.getElem?_append_left hj] at hx
      exact h.next j r r' x hr hr' hx
    · have := (List.getElem?_eq_some_iff.1 hr').1
      omega

theorem Chain.drive {D : List Driven} {X : List (Nat × Beat)} (h : Chain D X) (n : Driven) (hl : D.length = X.length)
    (hs : n.start ≤ n.time) (hn : ∀ r, D.getLast? = some r → if r.beat.tlast then ∀ x ∈ X, x.1 ≤ n.start else n.start = r.start) :
    Chain (D ++ [n]) X := by
  refine ⟨by simp [hl], fun j r x hr hx => ?_, fun r hr => ?_, fun j r r' x hr hr' hx => ?_⟩
  · have hj := (List.getElem?_eq_some_iff.1 hx).1
    rw [List.getElem?_append_left (by omega)] at hr
    exact h.late j r x hr hx
  · rw [List.mem_append, List.mem_singleton] at hr
    rcases hr with hr | hr
    · exact h.self r hr
    · subst hr; exact hs
  · have hj := (List.getElem?_eq_some_iff.1 hx).1
    rw [List.getElem?_append_left (by omega)] at hr
    rcases Nat.lt_or_ge (j + 1) D.length with hj' | hj'
    · rw [List.getElem?_append_left hj'] at hr'
      exact h.next j r r' x hr hr' hx
    · have hje : j + 1 = D.length := by omega
      rw [List.getElem?_append_right hj', hje] at hr'
      simp at hr'
      subst hr'
      have hlast : D.getLast? = some r := by
        rw [List.getLast?_eq_getElem?, ← hje]; exact hr
      have := hn r hlast
      split
      · rename_i hb
        rw [if_pos hb] at this
        exact this x (List.mem_of_getElem? hx)
      · rename_i hb
        rw [if_neg hb] at this
        exact this

/-- What the first `n` transferred beats say about the packets. -/
structure Upto (c : Cfg) (D : List Driven) (X : List (Nat × Beat)) (n : Nat) : Prop where
  cnt : (tpackets c (X.take n)).1.length = ((D.take n).filter fun r => r.beat.tlast).length
  each : ∀ k p, (tpackets c (X.take n)).1[k]? = some p → ∃ r, ((D.take n).filter fun r => r.beat.tlast)[k]? = some r ∧
    r.start < (span p).1 ∧ r.time < (span p).2 ∧
    ∀ k' q, k = k' + 1 → (tpackets c (X.take n)).1[k']? = some q → (span q).2 ≤ r.start
  between : (tpackets c (X.take n)).2 = [] → 0 < n → ∃ r x, D[n - 1]? = some r ∧ X[n - 1]? = some x ∧ r.beat.tlast = true ∧
    ∀ q, (tpackets c (X.take n)).1.getLast? = some q → (span q).2 = x.1
  within : (tpackets c (X.take n)).2 ≠ [] → 0 < n ∧ ∃ r x, D[n - 1]? = some r ∧ X[n - 1]? = some x ∧ r.beat.tlast = false ∧
    r.start < ((tpackets c (X.take n)).2.map (·.1)).headD 0 ∧
    ∀ q, (tpackets c (X.take n)).1.getLast? = some q → (span q).2 ≤ r.start

theorem headD_snoc {l : List (Nat × Beat)} {x : Nat × Beat} (h : l ≠ []) :
    ((l ++ [x]).map (·.1)).headD 0 = (l.map (·.1)).headD 0 := by
  obtain ⟨y, m, rfl⟩ := List.exists_cons_of_ne_nil h
  rfl

theorem Upto.all {c : Cfg} (hla : c.hasLast = true) {D : List Driven} {X : List (Nat × Beat)} (h : Chain D X) :
    ∀ n, n ≤ X.length → Upto c D X n := by
  intro n
  induction n with
  | zero =>
    intro _
    exact ⟨rfl, by simp [tpackets], fun _ h0 => absurd h0 (by omega), fun hh => absurd rfl hh⟩
  | succ n ih =>
    intro hn
    have iv := ih (by omega)
    obtain ⟨x, hx⟩ : ∃ x, X[n]? = some x := ⟨X[n], List.getElem?_eq_getElem (by omega)⟩
    obtain ⟨r, hr⟩ : ∃ r, D[n]? = some r := ⟨D[n]'(by have := h.len; omega), List.getElem?_eq_getElem _⟩
    have hXt : X.take (n + 1) = X.take n ++ [x] := by rw [List.take_add_one, hx]; rfl
    have hDt : D.take (n + 1) = D.take n ++ [r] := by rw [List.take_add_one, hr]; rfl
    obtain ⟨hlt, hbe⟩ := h.late n r x hr hx
    have hself := h.self r (List.mem_of_getElem? hr)
    -- the start of the frame of this beat
    have key : r.start < ((((tpackets c (X.take n)).2 ++ [x]).map (·.1)).headD 0) ∧
        ∀ q, (tpackets c (X.take n)).1.getLast? = some q → (span q).2 ≤ r.start := by
      by_cases h2 : (tpackets c (X.take n)).2 = []
      · refine ⟨by rw [h2]; simp; omega, fun q hq => ?_⟩
        by_cases hn0 : 0 < n
        · obtain ⟨r0, x0, hr0, hx0, hl0, hq0⟩ := iv.between h2 hn0
          have := h.next (n - 1) r0 r x0 hr0 (by rw [show n - 1 + 1 = n by omega]; exact hr) hx0
          rw [if_pos hl0] at this
          rw [hq0 q hq]; exact this
        · have : n = 0 := by omega
          subst this
          simp [tpackets] at hq
      · obtain ⟨hn0, r0, x0, hr0, hx0, hl0, hst, hq0⟩ := iv.within h2
        have := h.next (n - 1) r0 r x0 hr0 (by rw [show n - 1 + 1 = n by omega]; exact hr) hx0
        rw [if_neg (by simp [hl0])] at this
        rw [this, headD_snoc h2]
        exact ⟨hst, hq0⟩
    have hsn := tpackets_snoc c (X.take n) x
    rw [← hXt] at hsn
    rw [hla, ← hbe] at hsn
    simp only [Bool.not_true, Bool.false_or] at hsn
    by_cases hlst : r.beat.tlast = true
    · rw [if_pos hlst] at hsn
      have hf : (D.take (n + 1)).filter (fun r => r.beat.tlast) = (D.take n).filter (fun r => r.beat.tlast) ++ [r] := by
        rw [hDt, List.filter_append]; simp [hlst]
      have hsp : (span ((tpackets c (X.take n)).2 ++ [x])).2 = x.1 := by simp [span]
      refine ⟨by rw [hsn, hf]; simp [iv.cnt], fun k p hp => ?_, fun _ _ => ?_, fun hh => absurd (by rw [hsn]) hh⟩
      · rw [hsn] at hp ⊢
        rw [hf]
        simp only at hp ⊢
        rcases Nat.lt_or_ge k (tpackets c (X.take n)).1.length with hk | hk
        · rw [List.getElem?_append_left hk] at hp
          obtain ⟨r', e1, e2, e3, e4⟩ := iv.each k p hp
          refine ⟨r', by rw [List.getElem?_append_left (by rw [← iv.cnt]; exact hk)]; exact e1, e2, e3, fun k' q hk' hq => ?_⟩
          rw [List.getElem?_append_left (by omega)] at hq
          exact e4 k' q hk' hq
        · have hkl := (List.getElem?_eq_some_iff.1 hp).1
          simp only [List.length_append, List.length_singleton] at hkl
          have hke : k = (tpackets c (X.take n)).1.length := by omega
          subst hke
          rw [List.getElem?_append_right hk] at hp
          simp at hp
          subst hp
          refine ⟨r, by rw [iv.cnt, List.getElem?_append_right (Nat.le_refl _)]; simp, key.1, by rw [hsp]; exact hlt, fun k' q hk' hq => ?_⟩
          rw [List.getElem?_append_left (by omega)] at hq
          exact key.2 q (by rw [List.getLast?_eq_getElem?, show (tpackets c (X.take n)).1.length - 1 = k' by omega]; exact hq)
      · refine ⟨r, x, hr, hx, hlst, fun q hq => ?_⟩
        rw [hsn] at hq
        simp at hq
        rw [← hq]; exact hsp
    · rw [if_neg hlst] at hsn
      have hf : (D.take (n + 1)).filter (fun r => r.beat.tlast) = (D.take n).filter (fun r => r.beat.tlast) := by
        rw [hDt, List.filter_append]; simp [hlst]
      refine ⟨by rw [hsn, hf]; exact iv.cnt, fun k p hp => ?_, fun hh => ?_, fun _ => ?_⟩
      · rw [hsn] at hp ⊢
        rw [hf]
        exact iv.each k p hp
      · rw [hsn] at hh; simp at hh
      · refine ⟨by omega, r, x, hr, hx, by simpa using hlst, ?_, ?_⟩
        · rw [hsn]; exact key.1
        · rw [hsn]; exact key.2

/-! ## The source -/

/-- A source and the times of its frames, without reset and `clear()`. -/
structure TSrcInv (c : Cfg) (s : TSrc) : Prop where
  acc : SrcAcc c true s.sys
  tr : s.sys.trace = s.t.seen.map fun o => o.map (·.2)
  bus : s.t.driven.map (·.beat) = (txfers c s.t.seen).map (·.2) ++ s.sys.onBus c
  chain : Chain s.t.driven (txfers c s.t.seen)
  done : s.t.done = (s.t.driven.filter fun r => r.beat.tlast).map fun r => (r.num, some r.start, some r.time)
  idle : live s.sys.src.frame = false → ∀ r, s.t.driven.getLast? = some r → r.beat.tlast = true
  start : live s.sys.src.frame = true → s.t.start ≤ s.t.now
  within : live s.sys.src.frame = true → ∀ r, s.t.driven.getLast? = some r → r.beat.tlast = false → s.t.start = r.start
  begun : live s.sys.src.frame = true → (∀ r, s.t.driven.getLast? = some r → r.beat.tlast = true) →
    s.t.driven.length = (txfers c s.t.seen).length ∧ ∀ x ∈ txfers c s.t.seen, x.1 ≤ s.t.start
  lateD : ∀ r ∈ s.t.driven, ∃ l, s.t.last = some l ∧ r.time ≤ l
  lateX : ∀ x ∈ txfers c s.t.seen, ∃ l, s.t.last = some l ∧ x.1 ≤ l
  due : s.sys.src.pc = .due → s.t.last = some s.t.now
  le : ∀ l, s.t.last = some l → l ≤ s.t.now

/-- The source changes, but not what is on the bus. -/
theorem TSrcInv.keep {c : Cfg} {s : TSrc} (h : TSrcInv c s) (u : SrcSys) (ha : SrcAcc c true u) (h1 : u.trace = s.sys.trace)
    (h2 : u.onBus c = s.sys.onBus c) (h3 : live u.src.frame = live s.sys.src.frame)
    (h4 : u.src.pc = .due → s.sys.src.pc = .due) : TSrcInv c { s with sys := u } where
  acc := ha
  tr := h1.trans h.tr
  bus := by simp only [h2]; exact h.bus
  chain := h.chain
  done := h.done
  idle := by simp only [h3]; exact h.idle
  start := by simp only [h3]; exact h.start
  within := by simp only [h3]; exact h.within
  begun := by simp only [h3]; exact h.begun
  lateD := h.lateD
  lateX := h.lateX
  due := fun x => h.due (h4 x)
  le := h.le

theorem onBus_same {c : Cfg} {s u : SrcSys} (h1 : u.src.valid = s.src.valid) (h5 : u.src.nvalid = s.src.nvalid)
    (h6 : u.src.nbeat = s.src.nbeat) (h7 : u.src.pc = .due ↔ s.src.pc = .due) (h8 : u.src.pc = .due → u.ready = s.ready) :
    u.onBus c = s.onBus c := by
  unfold SrcSys.onBus
  by_cases hd : s.src.pc = .due
  · rw [h8 (h7.2 hd), h1, h5, h6]; simp only [h7]
  · rw [if_neg (c := u.src.pc = .due ∧ _) (fun hh => hd (h7.1 hh.1)), if_neg (c := s.src.pc = .due ∧ _) (fun hh => hd hh.1), h5, h6]

theorem accept_facts (s : Src) (f : Frame) : (s.accept f).2.valid = s.valid ∧ (s.accept f).2.nvalid = s.nvalid ∧
    (s.accept f).2.nbeat = s.nbeat ∧ (s.accept f).2.frame = s.frame ∧ ((s.accept f).2.pc = .due ↔ s.pc = .due) := by
  rcases accept_cases s f with e | e <;> rw [e] <;> simp [Src.put, wakeUp_due]

theorem send_facts (c : Cfg) (s : Src) (f : Frame) : (s.send c f).valid = s.valid ∧ (s.send c f).nvalid = s.nvalid ∧
    (s.send c f).nbeat = s.nbeat ∧ (s.send c f).frame = s.frame ∧ ((s.send c f).pc = .due ↔ s.pc = .due) := by
  unfold Src.send
  split
  · simp
  · exact accept_facts s f

theorem resume_facts (c : Cfg) (s : Src) (i : Nat) : (s.resume c i).valid = s.valid ∧ (s.resume c i).nvalid = s.nvalid ∧
    (s.resume c i).nbeat = s.nbeat ∧ (s.resume c i).frame = s.frame ∧ ((s.resume c i).pc = .due ↔ s.pc = .due) := by
  unfold Src.resume
  split
  · split
    · simp
    · exact accept_facts _ _
  · simp

theorem sendNowait_facts (c : Cfg) (s : Src) (f : Frame) : (s.sendNowait c f).2.valid = s.valid ∧ (s.sendNowait c f).2.nvalid = s.nvalid ∧
    (s.sendNowait c f).2.nbeat = s.nbeat ∧ (s.sendNowait c f).2.frame = s.frame ∧ ((s.sendNowait c f).2.pc = .due ↔ s.pc = .due) := by
  unfold Src.sendNowait
  split
  · simp
  · exact accept_facts s f

/-- The frame after `take`, and the times. -/
theorem take_live (s : Src) (_hl : live s.frame = false) : (s.queue = [] ∧ s.take = s) ∨ s.queue ≠ [] := by
  cases hq : s.queue with
  | nil => left; unfold Src.take; rw [hq]; exact ⟨rfl, rfl⟩
  | cons a l => right; simp

theorem TSrcInv.run {c : Cfg} (hv : c.hasValid = true) {s : TSrc} (h : TSrcInv c s)
    (hcr : s.sys.src.crashed = false) (hd : s.sys.src.pc = .due)
    (ha : SrcAcc c true { s.sys with src := s.sys.src.run c s.sys.ready, settled := false }) :
    TSrcInv c { sys := { s.sys with src := s.sys.src.run c s.sys.ready, settled := false }, t := s.t.run c s.sys.src s.sys.ready } := by
  have hn := h.due hd
  by_cases hgo : s.sys.src.valid = true → (!c.hasReady || s.sys.ready) = true
  · -- nothing is on the bus any more
    have hob : s.sys.onBus c = [] := by
      obtain ⟨e1, _⟩ := h.acc.due hd
      unfold SrcSys.onBus
      by_cases hval : s.sys.src.valid = true
      · rw [if_pos ⟨hd, by rw [hval, hgo hval]; rfl⟩]
      · rw [Bool.not_eq_true] at hval
        rw [if_neg (by simp [hval]), ← e1, hval]; rfl
    have hb := h.bus
    rw [hob, List.append_nil] at hb
    have hlen : s.t.driven.length = (txfers c s.t.seen).length := by simpa using congrArg List.length hb
    have hcond : ((!c.hasReady || s.sys.ready) && (!c.hasValid || s.sys.src.valid) || !(!c.hasValid || s.sys.src.valid)) = true := by
      rw [hv]
      by_cases hval : s.sys.src.valid = true
      · rw [hval, hgo hval]; rfl
      · rw [Bool.not_eq_true] at hval; rw [hval]; simp
    have hX : ∀ x ∈ txfers c s.t.seen, x.1 ≤ s.t.now := by
      intro x hx
      obtain ⟨l, e, hle⟩ := h.lateX x hx
      rw [hn] at e; cases e; exact hle
    -- the frame and its start, after `take`
    have hu : ∀ u, u = (if (!live s.sys.src.frame) = true then s.sys.src.take else s.sys.src) → u.crashed = false →
        (live u.frame = false → ∀ r, s.t.driven.getLast? = some r → r.beat.tlast = true) ∧
        (live u.frame = true → (s.t.take s.sys.src).start ≤ s.t.now ∧
          (∀ r, s.t.driven.getLast? = some r → r.beat.tlast = false → (s.t.take s.sys.src).start = r.start) ∧
          ((∀ r, s.t.driven.getLast? = some r → r.beat.tlast = true) → ∀ x ∈ txfers c s.t.seen, x.1 ≤ (s.t.take s.sys.src).start)) := by
      intro u hue huc
      cases hlv : live s.sys.src.frame
      · rw [hlv] at hue
        simp only [Bool.not_false, if_true] at hue
        refine ⟨fun _ => h.idle hlv, fun hlu => ?_⟩
        rcases take_live s.sys.src hlv with ⟨_, e⟩ | hq
        · rw [e] at hue; rw [hue, hlv] at hlu; cases hlu
        · have hs : (s.t.take s.sys.src).start = s.t.now := by
            have : s.sys.src.queue.isEmpty = false := by simpa using hq
            simp [SrcStamps.take, hlv, this]
          rw [hs]
          refine ⟨Nat.le_refl _, fun r hr hrl => ?_, fun _ => hX⟩
          have := h.idle hlv r hr
          rw [hrl] at this; cases this
      · rw [hlv] at hue
        simp only [Bool.not_true, Bool.false_eq_true, if_false] at hue
        have hs : (s.t.take s.sys.src).start = s.t.start := by simp [SrcStamps.take, hlv]
        rw [hs, hue]
        exact ⟨fun hh => (by rw [hlv] at hh; cases hh), fun _ => ⟨h.start hlv, h.within hlv, fun hh => (h.begun hlv hh).2⟩⟩
    have htk : (s.t.take s.sys.src).now = s.t.now ∧ (s.t.take s.sys.src).last = s.t.last ∧ (s.t.take s.sys.src).done = s.t.done ∧
        (s.t.take s.sys.src).driven = s.t.driven ∧ (s.t.take s.sys.src).seen = s.t.seen := by
      unfold SrcStamps.take; split <;> simp
    obtain ⟨t1, t2, t3, t4, t5⟩ := htk
    unfold SrcStamps.run Src.run at *
    simp only [hcond, if_true] at *
    generalize hue : (if (!live s.sys.src.frame) = true then s.sys.src.take else s.sys.src) = u at *
    have hpu : u.pc = .due ∧ u.valid = s.sys.src.valid ∧ u.nvalid = s.sys.src.nvalid ∧ u.nbeat = s.sys.src.nbeat := by
      rw [← hue]
      split
      · obtain ⟨_, k2, k3, k4, k5, _⟩ := take_facts s.sys.src
        exact ⟨k4.trans hd, k2, k3, k5⟩
      · exact ⟨hd, rfl, rfl, rfl⟩
    obtain ⟨p1, p2, p3, p4⟩ := hpu
    by_cases hcu : u.crashed = true
    · rw [if_pos hcu, if_pos hcu] at *
      have hfr : u = { s.sys.src with crashed := true } := by
        rw [← hue] at hcu ⊢
        split
        · rename_i hlv
          rw [if_pos hlv] at hcu
          rcases SrcInv.take_cases s.sys.src with ⟨_, e⟩ | ⟨_, e⟩ | ⟨i, f, rest, hq, hp, e⟩
          · rw [e, hcr] at hcu; cases hcu
          · exact e
          · rw [e] at hcu
            simp only [Src.setDeq, hcr] at hcu; cases hcu
        · rename_i hlv
          rw [if_neg hlv, hcr] at hcu; cases hcu
      exact h.keep _ ha rfl (onBus_same p2 p3 p4 (by rw [p1, hd]) (fun _ => rfl)) (by rw [hfr]) (fun _ => hd)
    · have hcu' : u.crashed = false := by simpa using hcu
      rw [if_neg hcu, if_neg hcu] at *
      obtain ⟨q1, q2⟩ := hu u rfl hcu'
      -- the two ways to go on
      have quiet : SrcAcc c true { s.sys with src := u.quiet c, settled := false } →
          TSrcInv c { sys := { s.sys with src := u.quiet c, settled := false }, t := s.t.take s.sys.src } := by
        intro ha
        obtain ⟨_, d2, _, d4⟩ := quiet_facts (c := c) hv u
        have hfr : (u.quiet c).frame = u.frame := by unfold Src.quiet; simp only; split <;> rfl
        refine ⟨ha, ?_, ?_, ?_, ?_, ?_, ?_, ?_, ?_, ?_, ?_, fun hh => absurd hh d4, ?_⟩
        · rw [t5]; exact h.tr
        · rw [t4, t5, onBus_not_due _ _ (by exact d4)]
          simp only [d2, Bool.false_eq_true, if_false, List.append_nil]
          exact hb
        · rw [t4, t5]; exact h.chain
        · rw [t3, t4]; exact h.done
        · rw [t4]; simp only [hfr]; exact q1
        · rw [t1]; simp only [hfr]; exact fun hh => (q2 hh).1
        · rw [t4]; simp only [hfr]; exact fun hh => (q2 hh).2.1
        · rw [t4, t5]; simp only [hfr]; exact fun hh hh' => ⟨hlen, (q2 hh).2.2 hh'⟩
        · rw [t4, t2]; exact h.lateD
        · rw [t5, t2]; exact h.lateX
        · rw [t1, t2]; exact h.le
      unfold SrcStamps.drive
      cases hfr : u.frame with
      | none =>
        rw [hfr] at ha
        exact quiet ha
      | some ig =>
        obtain ⟨i, g⟩ := ig
        rw [hfr] at ha
        simp only at ha ⊢
        by_cases hg : (g.truthy && !u.pause) = true
        · rw [if_pos hg] at ha ⊢
          simp only [Bool.and_eq_true, Bool.not_eq_true'] at hg
          have hlu : live u.frame = true := by rw [hfr]; exact hg.1
          obtain ⟨r1, r2, r3⟩ := q2 hlu
          simp only [hg.2, Bool.not_false, Bool.and_true, hg.1, if_true] at ha ⊢
          have hdr : ∀ r, s.t.driven.getLast? = some r →
              if r.beat.tlast then ∀ x ∈ txfers c s.t.seen, x.1 ≤ (s.t.take s.sys.src).start
              else (s.t.take s.sys.src).start = r.start := by
            intro r hr
            split
            · rename_i hb
              exact r3 (fun r' hr' => by rw [hr] at hr'; cases hr'; exact hb)
            · rename_i hb
              exact r2 r hr (by simpa using hb)
          have hch := h.chain.drive ⟨i, (s.t.take s.sys.src).start, s.t.now, (nextBeat c g u.off).1⟩ hlen r1 hdr
          have hob' : SrcSys.onBus c { s.sys with src := u.drive c i g, settled := false } = [(nextBeat c g u.off).1] := by
            have h1 : (u.drive c i g).pc = .edge ∧ (u.drive c i g).nvalid = true ∧ (u.drive c i g).nbeat = (nextBeat c g u.off).1 := by
              unfold Src.drive
              simp only [hv, if_true]
              split <;> exact ⟨rfl, rfl, rfl⟩
            rw [onBus_not_due _ _ (by simp only; rw [h1.1]; simp)]
            simp only [h1.2.1, h1.2.2, if_true]
          have hpc : (u.drive c i g).pc ≠ .due := by
            unfold Src.drive; simp only; split <;> simp
          have hlD : ∀ r ∈ s.t.driven ++ [⟨i, (s.t.take s.sys.src).start, s.t.now, (nextBeat c g u.off).1⟩],
              ∃ l, s.t.last = some l ∧ r.time ≤ l := by
            intro r hr
            rw [List.mem_append, List.mem_singleton] at hr
            rcases hr with hr | hr
            · exact h.lateD r hr
            · subst hr; exact ⟨_, hn, Nat.le_refl _⟩
          by_cases hla : (nextBeat c g u.off).1.tlast = true
          · have hlive : live (u.drive c i g).frame = false := by
              unfold Src.drive; simp only [hla, if_true]; rfl
            rw [if_pos hla]
            refine ⟨ha, ?_, ?_, ?_, ?_, ?_, ?_, ?_, ?_, ?_, ?_, fun hh => absurd hh hpc, ?_⟩
            · simp only [t5]; exact h.tr
            · simp only [t4, t5, t1, hob', List.map_append, hb]; rfl
            · simp only [t4, t5, t1]; exact hch
            · simp only [t3, t4, t1, h.done, List.filter_append, List.map_append]; simp [hla]
            · intro _ r hr
              simp only [t4, t1] at hr
              simp at hr
              rw [← hr]; exact hla
            · intro hh; simp only [hlive] at hh; cases hh
            · intro hh; simp only [hlive] at hh; cases hh
            · intro hh; simp only [hlive] at hh; cases hh
            · simp only [t4, t1, t2]; exact hlD
            · simp only [t5, t2]; exact h.lateX
            · simp only [t1, t2]; exact h.le
          · have hlive : live (u.drive c i g).frame = true := by
              unfold Src.drive; simp only [hla]; exact hlu
            rw [if_neg hla]
            refine ⟨ha, ?_, ?_, ?_, ?_, ?_, ?_, ?_, ?_, ?_, ?_, fun hh => absurd hh hpc, ?_⟩
            · simp only [t5]; exact h.tr
            · simp only [t4, t5, t1, hob', List.map_append, hb]; rfl
            · simp only [t4, t5, t1]; exact hch
            · simp only [t3, t4, t1, h.done, List.filter_append, List.map_append]; simp [hla]
            · intro hh; simp only [hlive] at hh; cases hh
            · intro _; simp only [t1]; exact r1
            · intro _ r hr _
              simp only [t4, t1] at hr
              simp at hr
              rw [← hr]
            · intro _ hh
              exact absurd (hh _ (by simp only [t4, t1]; exact List.getLast?_concat)) hla
            · simp only [t4, t1, t2]; exact hlD
            · simp only [t5, t2]; exact h.lateX
            · simp only [t1, t2]; exact h.le
        · rw [if_neg hg] at ha
          simp only [if_neg hg]
          exact quiet ha
  · -- stalled
    have hval : s.sys.src.valid = true := by
      cases hh : s.sys.src.valid
      · exact absurd (fun x => by rw [hh] at x; cases x) hgo
      · rfl
    have hr : (!c.hasReady || s.sys.ready) = false := by
      cases hh : (!c.hasReady || s.sys.ready)
      · rfl
      · exact absurd (fun _ => hh) hgo
    have hcond : ((!c.hasReady || s.sys.ready) && (!c.hasValid || s.sys.src.valid) || !(!c.hasValid || s.sys.src.valid)) = false := by
      rw [hr, hval]; simp
    unfold SrcStamps.run Src.run at *
    simp only [hcond, Bool.false_eq_true, if_false] at *
    refine h.keep _ ha rfl ?_ rfl (by simp)
    rw [onBus_not_due _ _ (by simp)]
    conv => rhs; unfold SrcSys.onBus
    rw [if_neg (c := s.sys.src.pc = .due ∧ _) (by rw [hr]; simp)]

theorem TSrcInv.step {c : Cfg} (hl : 0 < c.lanes) (hv : c.hasValid = true) {s : TSrc} (h : TSrcInv c s) (e : TEv SrcEv)
    (hcl : e.clean SrcEv.clean = true) : TSrcInv c (s.step c e) := by
  unfold TSrc.step
  split
  · exact h
  rename_i hcr
  have hcr' : s.sys.src.crashed = false := by simpa using hcr
  cases e with
  | sleep d =>
    simp only
    split
    · rename_i hs
      simp only [Bool.and_eq_true, still_iff] at hs
      exact { h with due := fun hh => absurd hh hs.2.1, le := fun l hh => Nat.le_trans (h.le l hh) (Nat.le_add_right _ _)
                     start := fun hh => Nat.le_trans (h.start hh) (Nat.le_add_right _ _)
                     tr := h.tr, bus := h.bus, chain := h.chain, done := h.done, idle := h.idle, within := h.within, begun := h.begun
                     lateD := h.lateD, lateX := h.lateX, acc := h.acc }
    · exact h
  | ev e =>
    have hcl : e.clean = true := hcl
    have ha := h.acc.step hl hv e (fun _ => hcl)
    cases e with
    | tick =>
      simp only
      split
      · rename_i hs
        simp only [Bool.and_eq_true] at hs
        have hp : s.sys.settled && s.sys.src.pc.still := by rw [hs.1.1, hs.1.2]; rfl
        have e1 := ha.acc
        have e2 := h.acc.acc
        simp only [SrcSys.step, if_neg hcr, if_pos hp] at ha e1 ⊢
        simp only [Stream.Acc, if_true] at e1 e2
        have hfresh : ∀ l, s.t.last = some l → l < s.t.now := by
          intro l hh
          have := hs.2
          rw [SrcStamps.fresh, hh] at this
          simpa using this
        have htx : txfers c (s.t.seen ++ [some (s.t.now, (⟨s.sys.src.valid, s.sys.ready, s.sys.src.beat⟩ : Sample))]) = txfers c s.t.seen ++
            (if (!c.hasValid || s.sys.src.valid) && (!c.hasReady || s.sys.ready) then [(s.t.now, s.sys.src.beat)] else []) := by
          rw [txfers_append]; simp [txfers]
        have htr : s.sys.trace ++ [some (⟨s.sys.src.valid, s.sys.ready, s.sys.src.beat⟩ : Sample)] =
            (s.t.seen ++ [some (s.t.now, (⟨s.sys.src.valid, s.sys.ready, s.sys.src.beat⟩ : Sample))]).map fun (o : Option (Nat × Sample)) => o.map (·.2) := by
          rw [List.map_append, ← h.tr]; rfl
        have hbus : s.t.driven.map (·.beat) = (txfers c (s.t.seen ++ [some (s.t.now, (⟨s.sys.src.valid, s.sys.ready, s.sys.src.beat⟩ : Sample))])).map (·.2) ++
            SrcSys.onBus c { s.sys with src := { s.sys.src with pc := s.sys.src.pc.tick }, settled := false
                                        trace := s.sys.trace ++ [some (⟨s.sys.src.valid, s.sys.ready, s.sys.src.beat⟩ : Sample)] } := by
          have : s.sys.src.todo c = Src.todo c { s.sys.src with pc := s.sys.src.pc.tick } := rfl
          have e3 := e2.symm.trans e1
          rw [← this] at e3
          have e4 := List.append_cancel_right e3
          rw [txfers_map, ← htr]
          rw [← e4, h.bus, txfers_map, ← h.tr]
        by_cases hx : ((!c.hasValid || s.sys.src.valid) && (!c.hasReady || s.sys.ready)) = true
        · rw [if_pos hx] at htx
          have hl1 : s.t.driven.length = (txfers c s.t.seen).length + 1 := by
            have h1 := congrArg List.length h.bus
            have h2 := congrArg List.length hbus
            rw [htx] at h2
            have h3 : (s.sys.onBus c).length ≤ 1 := by unfold SrcSys.onBus; split <;> (try split) <;> simp
            simp only [List.length_map, List.length_append, List.length_singleton] at h1 h2
            omega
          have hob : SrcSys.onBus c { s.sys with src := { s.sys.src with pc := s.sys.src.pc.tick }, settled := false
                                                 trace := s.sys.trace ++ [some ⟨s.sys.src.valid, s.sys.ready, s.sys.src.beat⟩] } = [] := by
            have h2 := congrArg List.length hbus
            rw [htx] at h2
            simp only [List.length_map, List.length_append, List.length_singleton] at h2
            apply List.length_eq_zero_iff.1
            simp only
            omega
          have hno : ¬(live s.sys.src.frame = true ∧ ∀ r, s.t.driven.getLast? = some r → r.beat.tlast = true) := by
            intro ⟨h1, h2⟩
            have := (h.begun h1 h2).1
            omega
          refine ⟨ha, htr, hbus, ?_, h.done, h.idle, h.start, h.within, fun h1 h2 => absurd ⟨h1, h2⟩ hno, fun r hr => ?_, fun x hxm => ?_,
            fun _ => rfl, fun l hh => ?_⟩
          · simp only [SrcStamps.edge, htx]
            refine h.chain.xfer _ _ hl1 (fun r hr => ?_) ?_
            · obtain ⟨l, k1, k2⟩ := h.lateD r hr
              have := hfresh l k1
              omega
            · rw [hbus, hob, htx, List.append_nil, List.map_append]; rfl
          · obtain ⟨l, k1, k2⟩ := h.lateD r hr
            have := hfresh l k1
            exact ⟨s.t.now, rfl, by omega⟩
          · simp only [SrcStamps.edge, htx, List.mem_append, List.mem_singleton] at hxm
            rcases hxm with hxm | hxm
            · obtain ⟨l, k1, k2⟩ := h.lateX x hxm
              have := hfresh l k1
              exact ⟨s.t.now, rfl, by omega⟩
            · subst hxm; exact ⟨s.t.now, rfl, Nat.le_refl _⟩
          · simp only [SrcStamps.edge, Option.some.injEq] at hh ⊢
            omega
        · rw [if_neg hx, List.append_nil] at htx
          refine ⟨ha, htr, hbus, ?_, h.done, h.idle, h.start, h.within, ?_, fun r hr => ?_, fun x hxm => ?_,
            fun _ => rfl, fun l hh => ?_⟩
          · simp only [SrcStamps.edge, htx]; exact h.chain
          · simp only [SrcStamps.edge, htx]; exact h.begun
          · obtain ⟨l, k1, k2⟩ := h.lateD r hr
            have := hfresh l k1
            exact ⟨s.t.now, rfl, by omega⟩
          · simp only [SrcStamps.edge, htx] at hxm
            obtain ⟨l, k1, k2⟩ := h.lateX x hxm
            have := hfresh l k1
            exact ⟨s.t.now, rfl, by omega⟩
          · simp only [SrcStamps.edge, Option.some.injEq] at hh ⊢
            omega
      · exact h
    | run =>
      simp only
      by_cases hd : s.sys.src.pc = .due
      · simp only [SrcSys.step, if_neg hcr, if_pos hd] at ha ⊢
        exact h.run hv hcr' hd ha
      · rw [if_neg hd]
        have : s.sys.step c .run = s.sys := by simp only [SrcSys.step, if_neg hcr, if_neg hd]
        rw [this]; exact h
    | clear => exact absurd hcl (by simp [SrcEv.clean])
    | reset v =>
      cases v
      · simp only [SrcStamps.reset, Bool.false_eq_true, if_false]
        simp only [SrcSys.step, if_neg hcr, Src.reset, Bool.false_eq_true, if_false] at ha ⊢
        split
        · rename_i ho
          rw [if_pos ho] at ha
          exact h.keep _ ha rfl (onBus_same rfl rfl rfl (by simp [ho]) (fun _ => rfl)) rfl (by simp)
        · rename_i ho
          rw [if_neg ho] at ha
          exact h.keep _ ha rfl (onBus_same rfl rfl rfl Iff.rfl (fun _ => rfl)) rfl (fun x => x)
      · exact absurd hcl (by simp [SrcEv.clean])
    | wake =>
      simp only [SrcSys.step, if_neg hcr] at ha ⊢
      split
      · rename_i hw
        rw [if_pos hw] at ha
        exact h.keep _ ha rfl (onBus_same rfl rfl rfl (by simp [hw]) (fun _ => rfl)) rfl (by simp)
      · exact h
    | commit =>
      simp only [SrcSys.step, if_neg hcr] at ha ⊢
      split
      · rename_i hw
        rw [if_pos hw] at ha
        rw [still_iff] at hw
        refine h.keep _ ha rfl ?_ rfl (fun x => x)
        rw [onBus_not_due _ _ hw.1, onBus_not_due _ _ (by exact hw.1)]
      · exact h
    | env r =>
      simp only [SrcSys.step, if_neg hcr] at ha ⊢
      split
      · exact h
      · rename_i hw
        rw [if_neg hw] at ha
        exact h.keep _ ha rfl (onBus_same rfl rfl rfl Iff.rfl (fun hh => absurd hh hw)) rfl (fun x => x)
    | send f =>
      simp only [SrcSys.step, if_neg hcr] at ha ⊢
      obtain ⟨f1, f2, f3, f4, f5⟩ := send_facts c s.sys.src f
      exact h.keep _ ha rfl (onBus_same f1 f2 f3 f5 (fun _ => rfl)) (by simp only [f4]) f5.1
    | resume i =>
      simp only [SrcSys.step, if_neg hcr] at ha ⊢
      obtain ⟨f1, f2, f3, f4, f5⟩ := resume_facts c s.sys.src i
      exact h.keep _ ha rfl (onBus_same f1 f2 f3 f5 (fun _ => rfl)) (by simp only [f4]) f5.1
    | sendNowait f =>
      simp only [SrcSys.step, if_neg hcr] at ha ⊢
      obtain ⟨f1, f2, f3, f4, f5⟩ := sendNowait_facts c s.sys.src f
      exact h.keep _ ha rfl (onBus_same f1 f2 f3 f5 (fun _ => rfl)) (by simp only [f4]) f5.1
    | pause v =>
      simp only [SrcSys.step, if_neg hcr] at ha ⊢
      exact h.keep _ ha rfl (onBus_same rfl rfl rfl Iff.rfl (fun _ => rfl)) rfl (fun x => x)

theorem TSrc.exec_inv {c : Cfg} (hl : 0 < c.lanes) (hv : c.hasValid = true) (evs : List (TEv SrcEv))
    (hcl : ∀ e ∈ evs, e.clean SrcEv.clean = true) : TSrcInv c (TSrc.exec c evs) :=
  foldl_inv' _ (fun s : TSrc => TSrcInv c s) (fun e => e.clean SrcEv.clean = true) (fun _ e hq h => h.step hl hv e hq) evs _ hcl
    { acc := SrcSys.exec_acc hl hv true [] (by simp), tr := rfl, bus := by simp [txfers, SrcSys.onBus]
      chain := ⟨by simp [txfers], by simp, by simp, by simp⟩, done := rfl
      idle := by simp, start := by simp [live], within := by simp, begun := by simp [live], lateD := by simp
      lateX := by simp [txfers], due := by simp, le := by simp }

end Verif.Axis
