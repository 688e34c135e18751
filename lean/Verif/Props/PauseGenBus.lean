import Verif.Props.AxiClockProgress
import Verif.Props.LiteClockProgress
import Verif.Props.PauseGen

/-!
# C101: operations complete when sources and sinks are paused by pause generators

The setting is that of C95 (AXI) and C99 (AXI-lite), with pause generators at any of the ten sources and sinks. Which cycles are paused
is now determined by the values of the generators.
-/

namespace Verif.PauseGen

open Verif.AxiSys (CSys CEv Shows open_of)
open Verif.Axi
open Verif.LiteOps (Clk ClkEv Halves)
open Verif.Stream (Net)

/-! ## AXI -/

section

variable {σ : Type} {c : Cfg} {wa : Nat → AxiSys.WArgs} {ra : Nat → Req} {t : Target σ} {st : σ}

/-- The system without the generators, under the schedule that has the same effect on it. -/
theorem axi_alone (evs : List (GEv End CEv)) (sched : Nat → GEv End CEv) :
    let b := axiBase c wa ra t
    let G : Nat → GSys End (CSys σ) := fun n => GSys.run busEnds b { mem := st } (evs ++ (List.range n).map sched)
    let sched' : Nat → CEv := fun n => proj busEnds b axiIdle (G n) (sched n)
    (∀ n, G (n + 1) = (G n).step busEnds b (sched n)) ∧
    ∀ n, (G n).s = CSys.run c wa ra t st (projs busEnds b axiIdle { s := { mem := st } } evs ++ (List.range n).map sched') := by
  intro b G sched'
  have hsucc : ∀ n, G (n + 1) = (G n).step busEnds b (sched n) := by
    intro n
    simp only [G, GSys.run]
    rw [List.range_succ, List.map_append, ← List.append_assoc, List.foldl_append]
    rfl
  refine ⟨hsucc, fun n => ?_⟩
  induction n with
  | zero =>
    simp only [G, List.range_zero, List.map_nil, List.append_nil]
    exact projs_run axi_laws _ _
  | succ n ih =>
    rw [List.range_succ, List.map_append, ← List.append_assoc]
    refine Eq.trans ?_ (AxiSys.crun_append c wa ra t st _ _).symm
    rw [← ih, hsucc]
    exact proj_step axi_laws (G n) (sched n)

/-- A piece of a coroutine does not change `pause`. -/
theorem axi_plays {e : GEv End CEv} (he : e.plays axiPiece) (k : End) : e.keeps (axiBase c wa ra t) k := by
  cases e with
  | ev e =>
    refine axi_keeps k e ?_
    rintro v rfl
    have := he.1
    simp only [axiBase, CEv.progress, setter] at this
    split at this <;> cases this
  | gen j => trivial
  | setGen j v => exact he.elim

theorem axi_proj {e : GEv End CEv} (he : e.plays axiPiece) (G : GSys End (CSys σ)) :
    (proj busEnds (axiBase c wa ra t) axiIdle G e).quiet = true ∧ ∀ k, proj busEnds (axiBase c wa ra t) axiIdle G e ≠ .chan k .snkSpurious := by
  have hid : (axiIdle G.s : CEv).quiet = true ∧ ∀ k, (axiIdle G.s : CEv) ≠ .chan k .snkSpurious :=
    ⟨rfl, fun k h => by simp [axiIdle] at h⟩
  cases e with
  | ev e =>
    simp only [proj]
    split
    · exact hid
    · exact ⟨CEv.quiet_of he.1, he.2⟩
  | gen j =>
    simp only [proj]
    split
    · split
      · split
        · refine ⟨rfl, fun k h => ?_⟩
          simp only [axiBase, setter, CEv.chan.injEq] at h
          have h2 := h.2
          split at h2 <;> cases h2
        · exact hid
      · exact hid
    · exact hid
  | setGen j v => exact he.elim

/-- Without scheduled generators only pieces of coroutines remain. -/
theorem axi_proj_rest {e : GEv End CEv} (he : e.plays axiPiece) (G : GSys End (CSys σ)) (hd : ∀ j, G.due j = false) :
    (proj busEnds (axiBase c wa ra t) axiIdle G e).progress = true := by
  cases e with
  | ev e =>
    simp only [proj, anyDue_of (ends := busEnds) G hd, Bool.and_false, Bool.false_eq_true, if_false]
    exact he.1
  | gen j =>
    have := hd j
    simp only [GSys.due] at this
    simp only [proj]
    split
    · rename_i x hx
      rw [hx] at this
      simp only at this
      rw [if_neg (by rw [this]; simp)]
      rfl
    · rfl
  | setGen j v => exact he.elim

variable (c) (hc : c.Std) (wa) (ra) (hi : AxiSys.IdsFit c wa ra) (t) (st)

include hc hi

/-- **C101, AXI.** After any history `evs` at whose end the reset is deasserted, with pause generators at any of the sources and sinks,
if no more calls are made and the reset stays deasserted, then under any fair schedule all operations complete (from `N` on), provided that
the generators release both ends of every channel again and again (`Released`: the remaining values of the generators, not the schedule,
decide it for the sinks, and for the sources if two values in a row are `False`). -/
theorem C101_axi_completes (evs : List (GEv End CEv)) (sched : Nat → GEv End CEv) :
    let b := axiBase c wa ra t
    let G : Nat → GSys End (CSys σ) := fun n => GSys.run busEnds b { mem := st } (evs ++ (List.range n).map sched)
    (∀ n, (sched n).plays axiPiece) → Fair busEnds b axiPiece G sched →
    ChanReleased b G .aw (fun s => s.w.aw) → ChanReleased b G .w (fun s => s.w.w) → ChanReleased b G .b (fun s => s.w.b) →
    ChanReleased b G .ar (fun s => s.r.ar) → ChanReleased b G .r (fun s => s.r.r) →
    (G 0).s.w.m.running = true → (G 0).s.r.m.running = true →
    ∃ N, ∀ n, N ≤ n →
      (G n).s.w.m.idle = true ∧ (G n).s.r.m.idle = true ∧
      (∀ op ∈ (G 0).s.w.m.issued ++ (G 0).s.w.m.wrappers, (∀ r, (op, r) ∉ (G 0).s.w.m.results) →
        ∃ got, (op, some got) ∈ (G n).s.w.m.results) ∧
      (∀ op ∈ (G 0).s.r.m.issued ++ (G 0).s.r.m.wrappers, (∀ r, (op, r) ∉ (G 0).s.r.m.results) →
        ∃ got, (op, some got) ∈ (G n).s.r.m.results) := by
  intro b G hs hf o1 o2 o3 o4 o5 hw0 hr0
  obtain ⟨hsucc, hrun⟩ := axi_alone (c := c) (wa := wa) (ra := ra) (t := t) (st := st) evs sched
  have hlaws : Laws busEnds b axiIdle := axi_laws
  have hgr : GRun busEnds b axiIdle axiPiece G sched :=
    ⟨hlaws, Sane.run _ _, hsucc, fun n k => axi_plays (hs n) k, hf⟩
  let sched' : Nat → CEv := fun n => proj busEnds b axiIdle (G n) (sched n)
  let evs' := projs busEnds b axiIdle { s := { mem := st } } evs
  let S : Nat → (CSys σ) := fun n => CSys.run c wa ra t st (evs' ++ (List.range n).map sched')
  have hGS : ∀ n, S n = (G n).s := fun n => (hrun n).symm
  have hq : ∀ n, (sched' n).quiet = true := fun n => (axi_proj (hs n) (G n)).1
  have hsp : ∀ n k, sched' n ≠ .chan k .snkSpurious := fun n => (axi_proj (hs n) (G n)).2
  have ht1 : ∀ e e', b.isTick e = true → b.isTick e' = true → e = e' := by
    intro e e' h1 h2
    cases e <;> simp only [b, axiBase, Bool.false_eq_true] at h1
    cases e' <;> simp only [b, axiBase, Bool.false_eq_true] at h2
    rfl
  have hfair : AxiSys.CFair c wa ra t S sched' := by
    intro e he hse n
    obtain ⟨k, hk, h1⟩ := hgr.fairly ht1 e ⟨he, hse⟩ n
    refine ⟨k, hk, h1.imp id fun h1 => ?_⟩
    rw [hGS]
    exact h1
  obtain ⟨hsS, N, htail⟩ := AxiSys.tail c hc wa ra hi t st evs' sched' hq
  have hE : AxiSys.Edge S sched' = PauseGen.Edge busEnds b G sched := by
    funext k
    refine propext ⟨fun h => ?_, fun h => ?_⟩
    · have h2 := (AxiSys.edge_ticks hsS h).1
      have h1 := h.1
      have h2' : b.ready (G k).s = true := by rw [← hGS]; exact h2
      simp only [sched'] at h1
      cases he : sched k with
      | ev e =>
        rw [he] at h1
        simp only [proj] at h1
        split at h1
        · cases h1
        · rename_i hn
          subst h1
          refine ⟨.tick, he, rfl, h2', ?_⟩
          simp only [b, axiBase, Bool.true_and, Bool.not_eq_true] at hn
          exact hn
      | gen j =>
        rw [he] at h1
        simp only [proj] at h1
        repeat' split at h1
        all_goals cases h1
      | setGen j v => rw [he] at h1; cases h1
    · obtain ⟨e, h1, h2, h3, h4⟩ := h
      have he : e = .tick := ht1 _ _ h2 rfl
      have h5 : sched' k = .tick := by
        simp only [sched', h1, proj, h4, Bool.and_false, Bool.false_eq_true, if_false, he]
      have h6 : AxiSys.ticks (S k) = true := by rw [hGS]; exact h3
      refine ⟨h5, ?_⟩
      rw [show S (k + 1) = _ from hsS k, h5]
      simp only [CSys.step]
      rw [if_pos (by exact h6)]
      exact AxiSys.tick_ne h6
  have hinf : ∀ n, ∃ k, n ≤ k ∧ PauseGen.Edge busEnds b G sched k := by
    rw [← hE]
    refine AxiSys.edges c hc wa ra hi t st evs' sched' hq (AxiSys.CFair.on hfair _) (fun n hno => ?_)
    have hno' : ∀ k, n ≤ k → ¬ PauseGen.Edge busEnds b G sched k := by
      intro k hk h1
      rw [← hE] at h1
      exact hno k hk h1
    obtain ⟨m, hm, h1⟩ := hgr.rests n hno'
    exact ⟨m, fun k hk => axi_proj_rest (hs k) (G k) (h1 k hk)⟩
  have hinv := fun n => AxiSys.crun_inv c wa ra t st (evs' ++ (List.range n).map sched')
  have hlater : ∀ n, AxiSys.Later (S 0).view.w.m (S n).view.w.m ∧ AxiSys.Later (S 0).view.r.m (S n).view.r.m := by
    intro n
    induction n with
    | zero => exact ⟨AxiSys.Later.refl _, AxiSys.Later.refl _⟩
    | succ n ih =>
      obtain ⟨e', he', h1⟩ := (hinv n).1.progress (c := c) (wa := wa) (ra := ra) (t := t) (sched' n) (hq n)
      rw [show S (n + 1) = _ from hsS n, h1]
      obtain ⟨h1, h2⟩ := AxiSys.later_step c wa ra t (S n).view e' he'
      exact ⟨ih.1.trans h1, ih.2.trans h2⟩
  have hrw : ∀ n, (S n).w.m.running = true := fun n => (hlater n).1.run (by rw [← hGS] at hw0; exact hw0)
  have hrr : ∀ n, (S n).r.m.running = true := fun n => (hlater n).2.run (by rw [← hGS] at hr0; exact hr0)
  have q : ∀ n, N ≤ n → AxiSys.AllQuiet (S n) (S (n + 1)) := by
    intro n hn
    obtain ⟨d, rfl⟩ := Nat.exists_eq_add_of_le hn
    rw [show S (N + d + 1) = _ from hsS (N + d)]
    exact (hinv _).1.quiet _ (hq _) (htail.same d)
  have l : ∀ n, N ≤ n → AxiLull (S n) (S (n + 1)) := by
    intro n hn
    obtain ⟨d, rfl⟩ := Nat.exists_eq_add_of_le hn
    rw [show S (N + d + 1) = _ from hsS (N + d)]
    exact axi_lull (hinv _).1 _ (hq _) (hsp _) (htail.same d)
  have tk := fun {k : Nat} (h : AxiSys.Edge S sched' k) => AxiSys.edge_ticks hsS h
  have dr : ∀ k : End, Drives (AxiSys.Edge S sched') (fun n => (G n).due k) (fun n => b.pause (S n) k) := by
    intro k
    have := hgr.drives k
    rw [hE]
    simp only [hGS]
    exact this
  have sh : ∀ k : End, Shows (AxiSys.Edge S sched') (fun n => b.pause (S n) k) ((G 0).levels b k) := by
    intro k
    rw [hE]
    simp only [hGS]
    exact fun n => ⟨_, fun q hq => hgr.cycle hinf k n q hq⟩
  have rel : ∀ {γ : Type} (k : AxiSys.Chan) (net : (CSys σ) → Net γ), ChanReleased b G k net →
      Released (fun n => net (S n)) (fun n => (G n).due ⟨k, false⟩) ((G 0).levels b ⟨k, false⟩) ((G 0).levels b ⟨k, true⟩) := by
    intro γ k net h
    simp only [hGS]
    exact h
  have := AxiSys.C95_completes_with_pauses c hc wa ra hi t st evs' sched' hq hfair
    (open_of (N := N) (fun n => ⟨(hinv n).1.w.aw, (hinv n).2.w.aw.live, (hinv n).2.w.aw.on (hrw n)⟩) (fun n hn => (q n hn).aw)
      (fun n hn => (l n hn).aw) (fun k h => ⟨(AxiSys.all_tick _ (tk h).1).1, congrArg (fun s : (CSys σ) => s.w.aw) (tk h).2⟩)
      (dr ⟨.aw, false⟩) (dr ⟨.aw, true⟩) (sh ⟨.aw, false⟩) (sh ⟨.aw, true⟩) (rel .aw (fun s => s.w.aw) o1))
    (open_of (N := N) (fun n => ⟨(hinv n).1.w.w, (hinv n).2.w.w.live, (hinv n).2.w.w.on (hrw n)⟩) (fun n hn => (q n hn).w)
      (fun n hn => (l n hn).w) (fun k h => ⟨(AxiSys.all_tick _ (tk h).1).2.1, congrArg (fun s : (CSys σ) => s.w.w) (tk h).2⟩)
      (dr ⟨.w, false⟩) (dr ⟨.w, true⟩) (sh ⟨.w, false⟩) (sh ⟨.w, true⟩) (rel .w (fun s => s.w.w) o2))
    (open_of (N := N) (fun n => ⟨(hinv n).1.w.b, (hinv n).2.w.b.live, (hinv n).2.w.b.on (hrw n)⟩) (fun n hn => (q n hn).b)
      (fun n hn => (l n hn).b) (fun k h => ⟨(AxiSys.all_tick _ (tk h).1).2.2.1, congrArg (fun s : (CSys σ) => s.w.b) (tk h).2⟩)
      (dr ⟨.b, false⟩) (dr ⟨.b, true⟩) (sh ⟨.b, false⟩) (sh ⟨.b, true⟩) (rel .b (fun s => s.w.b) o3))
    (open_of (N := N) (fun n => ⟨(hinv n).1.r.ar, (hinv n).2.r.ar.live, (hinv n).2.r.ar.on (hrr n)⟩) (fun n hn => (q n hn).ar)
      (fun n hn => (l n hn).ar) (fun k h => ⟨(AxiSys.all_tick _ (tk h).1).2.2.2.1, congrArg (fun s : (CSys σ) => s.r.ar) (tk h).2⟩)
      (dr ⟨.ar, false⟩) (dr ⟨.ar, true⟩) (sh ⟨.ar, false⟩) (sh ⟨.ar, true⟩) (rel .ar (fun s => s.r.ar) o4))
    (open_of (N := N) (fun n => ⟨(hinv n).1.r.r, (hinv n).2.r.r.live, (hinv n).2.r.r.on (hrr n)⟩) (fun n hn => (q n hn).r)
      (fun n hn => (l n hn).r) (fun k h => ⟨(AxiSys.all_tick _ (tk h).1).2.2.2.2, congrArg (fun s : (CSys σ) => s.r.r) (tk h).2⟩)
      (dr ⟨.r, false⟩) (dr ⟨.r, true⟩) (sh ⟨.r, false⟩) (sh ⟨.r, true⟩) (rel .r (fun s => s.r.r) o5))
    (hrw 0) (hrr 0)
  have hGS' : ∀ n, CSys.run c wa ra t st (evs' ++ (List.range n).map sched') = (G n).s := hGS
  simp only [hGS'] at this
  exact this

end

/-! ## AXI-lite -/

section

variable {χ α β ρ χ' ρ' σ : Type} {h : Halves χ α β} {f : χ → σ → ρ × σ} {g : χ' → σ → ρ' × σ} {m0 : σ}

/-- The system without the generators, under the schedule that has the same effect on it. -/
theorem lite_alone (evs : List (GEv End (ClkEv χ ρ χ' ρ'))) (sched : Nat → GEv End (ClkEv χ ρ χ' ρ')) :
    let b := liteBase h f g
    let G : Nat → GSys End (Clk χ α β ρ χ' ρ' σ) := fun n => GSys.run busEnds b { mem := m0 } (evs ++ (List.range n).map sched)
    let sched' : Nat → (ClkEv χ ρ χ' ρ') := fun n => proj busEnds b liteIdle (G n) (sched n)
    (∀ n, G (n + 1) = (G n).step busEnds b (sched n)) ∧
    ∀ n, (G n).s = Clk.run h f g m0 (projs busEnds b liteIdle { s := { mem := m0 } } evs ++ (List.range n).map sched') := by
  intro b G sched'
  have hsucc : ∀ n, G (n + 1) = (G n).step busEnds b (sched n) := by
    intro n
    simp only [G, GSys.run]
    rw [List.range_succ, List.map_append, ← List.append_assoc, List.foldl_append]
    rfl
  refine ⟨hsucc, fun n => ?_⟩
  induction n with
  | zero =>
    simp only [G, List.range_zero, List.map_nil, List.append_nil]
    exact projs_run lite_laws _ _
  | succ n ih =>
    rw [List.range_succ, List.map_append, ← List.append_assoc]
    refine Eq.trans ?_ (Clk.run_append h f g m0 _ _).symm
    rw [← ih, hsucc]
    exact proj_step lite_laws (G n) (sched n)

/-- A piece of a coroutine does not change `pause`. -/
theorem lite_plays {e : GEv End (ClkEv χ ρ χ' ρ')} (he : e.plays litePiece) (k : End) : e.keeps (liteBase h f g) k := by
  cases e with
  | ev e =>
    refine lite_keeps k e ?_
    rintro v rfl
    have := he.1
    simp only [liteBase, ClkEv.progress, setter] at this
    split at this <;> cases this
  | gen j => trivial
  | setGen j v => exact he.elim

theorem lite_proj {e : GEv End (ClkEv χ ρ χ' ρ')} (he : e.plays litePiece) (G : GSys End (Clk χ α β ρ χ' ρ' σ)) :
    (proj busEnds (liteBase h f g) liteIdle G e).quiet = true ∧ ∀ k, proj busEnds (liteBase h f g) liteIdle G e ≠ .chan k .snkSpurious := by
  have hid : (liteIdle G.s : (ClkEv χ ρ χ' ρ')).quiet = true ∧ ∀ k, (liteIdle G.s : (ClkEv χ ρ χ' ρ')) ≠ .chan k .snkSpurious :=
    ⟨rfl, fun k h => by simp [liteIdle] at h⟩
  cases e with
  | ev e =>
    simp only [proj]
    split
    · exact hid
    · exact ⟨ClkEv.quiet_of he.1, he.2⟩
  | gen j =>
    simp only [proj]
    split
    · split
      · split
        · refine ⟨rfl, fun k h => ?_⟩
          simp only [liteBase, setter, ClkEv.chan.injEq] at h
          have h2 := h.2
          split at h2 <;> cases h2
        · exact hid
      · exact hid
    · exact hid
  | setGen j v => exact he.elim

/-- Without scheduled generators only pieces of coroutines remain. -/
theorem lite_proj_rest {e : GEv End (ClkEv χ ρ χ' ρ')} (he : e.plays litePiece) (G : GSys End (Clk χ α β ρ χ' ρ' σ)) (hd : ∀ j, G.due j = false) :
    (proj busEnds (liteBase h f g) liteIdle G e).progress = true := by
  cases e with
  | ev e =>
    simp only [proj, anyDue_of (ends := busEnds) G hd, Bool.and_false, Bool.false_eq_true, if_false]
    exact he.1
  | gen j =>
    have := hd j
    simp only [GSys.due] at this
    simp only [proj]
    split
    · rename_i x hx
      rw [hx] at this
      simp only at this
      rw [if_neg (by rw [this]; simp)]
      rfl
    · rfl
  | setGen j v => exact he.elim

variable (h) (f) (g) (m0) (hl : ∀ x, h.join (h.aw x) (h.w x) = x)

include hl

/-- **C101, AXI-lite.** After any history `evs` at whose end the reset is deasserted, with pause generators at any of the sources and sinks,
if no more calls are made and the reset stays deasserted, then under any fair schedule all operations complete (from `N` on), provided that
the generators release both ends of every channel again and again (`Released`: the remaining values of the generators, not the schedule,
decide it for the sinks, and for the sources if two values in a row are `False`). -/
theorem C101_lite_completes (evs : List (GEv End (ClkEv χ ρ χ' ρ'))) (sched : Nat → GEv End (ClkEv χ ρ χ' ρ')) :
    let b := liteBase h f g
    let G : Nat → GSys End (Clk χ α β ρ χ' ρ' σ) := fun n => GSys.run busEnds b { mem := m0 } (evs ++ (List.range n).map sched)
    (∀ n, (sched n).plays litePiece) → Fair busEnds b litePiece G sched →
    ChanReleased b G .aw (fun s => s.w.aw) → ChanReleased b G .w (fun s => s.w.w) → ChanReleased b G .b (fun s => s.w.b) →
    ChanReleased b G .ar (fun s => s.r.ar) → ChanReleased b G .r (fun s => s.r.r) →
    (G 0).s.w.m.running = true → (G 0).s.r.m.running = true →
    ∃ N, ∀ n, N ≤ n →
      (G n).s.w.m.idle = true ∧ (G n).s.r.m.idle = true ∧
      (∀ op ∈ (G 0).s.w.m.issued ++ (G 0).s.w.m.wrappers, (∀ r, (op, r) ∉ (G 0).s.w.m.results) →
        ∃ got, (op, some got) ∈ (G n).s.w.m.results) ∧
      (∀ op ∈ (G 0).s.r.m.issued ++ (G 0).s.r.m.wrappers, (∀ r, (op, r) ∉ (G 0).s.r.m.results) →
        ∃ got, (op, some got) ∈ (G n).s.r.m.results) := by
  intro b G hs hf o1 o2 o3 o4 o5 hw0 hr0
  obtain ⟨hsucc, hrun⟩ := lite_alone (h := h) (f := f) (g := g) (m0 := m0) evs sched
  have hlaws : Laws busEnds b liteIdle := lite_laws
  have hgr : GRun busEnds b liteIdle litePiece G sched :=
    ⟨hlaws, Sane.run _ _, hsucc, fun n k => lite_plays (hs n) k, hf⟩
  let sched' : Nat → (ClkEv χ ρ χ' ρ') := fun n => proj busEnds b liteIdle (G n) (sched n)
  let evs' := projs busEnds b liteIdle { s := { mem := m0 } } evs
  let S : Nat → (Clk χ α β ρ χ' ρ' σ) := fun n => Clk.run h f g m0 (evs' ++ (List.range n).map sched')
  have hGS : ∀ n, S n = (G n).s := fun n => (hrun n).symm
  have hq : ∀ n, (sched' n).quiet = true := fun n => (lite_proj (hs n) (G n)).1
  have hsp : ∀ n k, sched' n ≠ .chan k .snkSpurious := fun n => (lite_proj (hs n) (G n)).2
  have ht1 : ∀ e e', b.isTick e = true → b.isTick e' = true → e = e' := by
    intro e e' h1 h2
    cases e <;> simp only [b, liteBase, Bool.false_eq_true] at h1
    cases e' <;> simp only [b, liteBase, Bool.false_eq_true] at h2
    rfl
  have hfair : LiteOps.ClkFair h f g S sched' := by
    intro e he hse n
    obtain ⟨k, hk, h1⟩ := hgr.fairly ht1 e ⟨he, hse⟩ n
    refine ⟨k, hk, h1.imp id fun h1 => ?_⟩
    rw [hGS]
    exact h1
  obtain ⟨hsS, N, htail⟩ := LiteOps.clkTail h f g m0 hl evs' sched' hq
  have hE : LiteOps.Edge S sched' = PauseGen.Edge busEnds b G sched := by
    funext k
    refine propext ⟨fun h => ?_, fun h => ?_⟩
    · have h2 := (LiteOps.clk_edge_ticks hsS h).1
      have h1 := h.1
      have h2' : b.ready (G k).s = true := by rw [← hGS]; exact h2
      simp only [sched'] at h1
      cases he : sched k with
      | ev e =>
        rw [he] at h1
        simp only [proj] at h1
        split at h1
        · cases h1
        · rename_i hn
          subst h1
          refine ⟨.tick, he, rfl, h2', ?_⟩
          simp only [b, liteBase, Bool.true_and, Bool.not_eq_true] at hn
          exact hn
      | gen j =>
        rw [he] at h1
        simp only [proj] at h1
        repeat' split at h1
        all_goals cases h1
      | setGen j v => rw [he] at h1; cases h1
    · obtain ⟨e, h1, h2, h3, h4⟩ := h
      have he : e = .tick := ht1 _ _ h2 rfl
      have h5 : sched' k = .tick := by
        simp only [sched', h1, proj, h4, Bool.and_false, Bool.false_eq_true, if_false, he]
      have h6 : LiteOps.ticks (S k) = true := by rw [hGS]; exact h3
      refine ⟨h5, ?_⟩
      rw [show S (k + 1) = _ from hsS k, h5]
      simp only [Clk.step]
      rw [if_pos (by exact h6)]
      exact LiteOps.clk_tick_ne h6
  have hinf : ∀ n, ∃ k, n ≤ k ∧ PauseGen.Edge busEnds b G sched k := by
    rw [← hE]
    refine LiteOps.clkEdges h f g m0 hl evs' sched' hq (LiteOps.ClkFair.on hfair _) (fun n hno => ?_)
    have hno' : ∀ k, n ≤ k → ¬ PauseGen.Edge busEnds b G sched k := by
      intro k hk h1
      rw [← hE] at h1
      exact hno k hk h1
    obtain ⟨m, hm, h1⟩ := hgr.rests n hno'
    exact ⟨m, fun k hk => lite_proj_rest (hs k) (G k) (h1 k hk)⟩
  have hinv := fun n => LiteOps.clkRun_inv h f g m0 hl (evs' ++ (List.range n).map sched')
  have hlater := LiteOps.clkLater h f g m0 hl evs' sched' hq
  have hrw : ∀ n, (S n).w.m.running = true := fun n => (hlater n).1.run (by rw [← hGS] at hw0; exact hw0)
  have hrr : ∀ n, (S n).r.m.running = true := fun n => (hlater n).2.run (by rw [← hGS] at hr0; exact hr0)
  have q : ∀ n, N ≤ n → LiteOps.AllQuiet (S n) (S (n + 1)) := by
    intro n hn
    obtain ⟨d, rfl⟩ := Nat.exists_eq_add_of_le hn
    rw [show S (N + d + 1) = _ from hsS (N + d)]
    exact (hinv _).1.quiet _ (hq _) (htail.same d)
  have l : ∀ n, N ≤ n → LiteLull (S n) (S (n + 1)) := by
    intro n hn
    obtain ⟨d, rfl⟩ := Nat.exists_eq_add_of_le hn
    rw [show S (N + d + 1) = _ from hsS (N + d)]
    exact lite_lull (hinv _).1 _ (hq _) (hsp _) (htail.same d)
  have tk := fun {k : Nat} (h : LiteOps.Edge S sched' k) => LiteOps.clk_edge_ticks hsS h
  have dr : ∀ k : End, Drives (LiteOps.Edge S sched') (fun n => (G n).due k) (fun n => b.pause (S n) k) := by
    intro k
    have := hgr.drives k
    rw [hE]
    simp only [hGS]
    exact this
  have sh : ∀ k : End, Shows (LiteOps.Edge S sched') (fun n => b.pause (S n) k) ((G 0).levels b k) := by
    intro k
    rw [hE]
    simp only [hGS]
    exact fun n => ⟨_, fun q hq => hgr.cycle hinf k n q hq⟩
  have rel : ∀ {γ : Type} (k : AxiSys.Chan) (net : (Clk χ α β ρ χ' ρ' σ) → Net γ), ChanReleased b G k net →
      Released (fun n => net (S n)) (fun n => (G n).due ⟨k, false⟩) ((G 0).levels b ⟨k, false⟩) ((G 0).levels b ⟨k, true⟩) := by
    intro γ k net h
    simp only [hGS]
    exact h
  have := LiteOps.C99_completes_with_pauses h f g m0 hl evs' sched' hq hfair
    (open_of (N := N) (fun n => ⟨(hinv n).1.w.aw, (hinv n).2.w.aw.live, (hinv n).2.w.aw.on (hrw n)⟩) (fun n hn => (q n hn).aw)
      (fun n hn => (l n hn).aw) (fun k h => ⟨(LiteOps.clk_all_tick _ (tk h).1).1, congrArg (fun s : (Clk χ α β ρ χ' ρ' σ) => s.w.aw) (tk h).2⟩)
      (dr ⟨.aw, false⟩) (dr ⟨.aw, true⟩) (sh ⟨.aw, false⟩) (sh ⟨.aw, true⟩) (rel .aw (fun s => s.w.aw) o1))
    (open_of (N := N) (fun n => ⟨(hinv n).1.w.w, (hinv n).2.w.w.live, (hinv n).2.w.w.on (hrw n)⟩) (fun n hn => (q n hn).w)
      (fun n hn => (l n hn).w) (fun k h => ⟨(LiteOps.clk_all_tick _ (tk h).1).2.1, congrArg (fun s : (Clk χ α β ρ χ' ρ' σ) => s.w.w) (tk h).2⟩)
      (dr ⟨.w, false⟩) (dr ⟨.w, true⟩) (sh ⟨.w, false⟩) (sh ⟨.w, true⟩) (rel .w (fun s => s.w.w) o2))
    (open_of (N := N) (fun n => ⟨(hinv n).1.w.b, (hinv n).2.w.b.live, (hinv n).2.w.b.on (hrw n)⟩) (fun n hn => (q n hn).b)
      (fun n hn => (l n hn).b) (fun k h => ⟨(LiteOps.clk_all_tick _ (tk h).1).2.2.1, congrArg (fun s : (Clk χ α β ρ χ' ρ' σ) => s.w.b) (tk h).2⟩)
      (dr ⟨.b, false⟩) (dr ⟨.b, true⟩) (sh ⟨.b, false⟩) (sh ⟨.b, true⟩) (rel .b (fun s => s.w.b) o3))
    (open_of (N := N) (fun n => ⟨(hinv n).1.r.ar, (hinv n).2.r.ar.live, (hinv n).2.r.ar.on (hrr n)⟩) (fun n hn => (q n hn).ar)
      (fun n hn => (l n hn).ar) (fun k h => ⟨(LiteOps.clk_all_tick _ (tk h).1).2.2.2.1, congrArg (fun s : (Clk χ α β ρ χ' ρ' σ) => s.r.ar) (tk h).2⟩)
      (dr ⟨.ar, false⟩) (dr ⟨.ar, true⟩) (sh ⟨.ar, false⟩) (sh ⟨.ar, true⟩) (rel .ar (fun s => s.r.ar) o4))
    (open_of (N := N) (fun n => ⟨(hinv n).1.r.r, (hinv n).2.r.r.live, (hinv n).2.r.r.on (hrr n)⟩) (fun n hn => (q n hn).r)
      (fun n hn => (l n hn).r) (fun k h => ⟨(LiteOps.clk_all_tick _ (tk h).1).2.2.2.2, congrArg (fun s : (Clk χ α β ρ χ' ρ' σ) => s.r.r) (tk h).2⟩)
      (dr ⟨.r, false⟩) (dr ⟨.r, true⟩) (sh ⟨.r, false⟩) (sh ⟨.r, true⟩) (rel .r (fun s => s.r.r) o5))
    (hrw 0) (hrr 0)
  have hGS' : ∀ n, Clk.run h f g m0 (evs' ++ (List.range n).map sched') = (G n).s := hGS
  simp only [hGS'] at this
  exact this

end

/-! ## Fair schedules exist, and examples -/

/-- The events of `rr` one after the other, and in between the generators in turn. -/
def mix {E : Type} (rr : Nat → E) (n : Nat) : GEv End E :=
  if n % 2 = 0 then .ev (rr (n / 2)) else .gen (busEnds[n / 2 % 10]?.getD ⟨.aw, false⟩)

theorem mix_ev {E : Type} (rr : Nat → E) {n k : Nat} (h : n ≤ k) : ∃ m, n ≤ m ∧ mix rr m = .ev (rr k) :=
  ⟨2 * k, by omega, by simp [mix]⟩

theorem mix_gen {E : Type} (rr : Nat → E) (j : End) (n : Nat) : ∃ m, n ≤ m ∧ mix rr m = .gen j := by
  obtain ⟨i, hi, hx⟩ := List.getElem_of_mem (busEnds_all j)
  have hi' : i < 10 := hi
  refine ⟨2 * (10 * n + i) + 1, by omega, ?_⟩
  have h1 : (2 * (10 * n + i) + 1) % 2 = 1 := by omega
  have h2 : (2 * (10 * n + i) + 1) / 2 % 10 = i := by omega
  simp only [mix, h1, h2, List.getElem?_eq_getElem hi, hx]
  rfl

/-- Without `set_pause_generator` there are no generators. -/
theorem no_gens {ε S E : Type} [DecidableEq ε] (ends : List ε) (b : Base ε S E) (s : S) (evs : List E) :
    (GSys.run ends b s (evs.map .ev)).gen = fun _ => none := by
  suffices h : ∀ (evs : List E) (g : GSys ε S), g.gen = (fun _ => none) →
      ((evs.map .ev).foldl (GSys.step ends b) g).gen = fun _ => none from h evs _ rfl
  intro evs
  induction evs with
  | nil => exact fun g h => h
  | cons e evs ih =>
    intro g h
    refine ih _ ?_
    simp only [GSys.step]
    split
    · split
      · simp only [GSys.tick, h, Option.map_none]
      · exact h
    · exact h

theorem level_none (p : Bool) (q : Nat) : level (fun _ => none) p q = p := by
  induction q with
  | zero => rfl
  | succ q ih => rw [level_ended (Nat.zero_le q) rfl, ih]

/-- An end without generator that is not paused. -/
theorem frees_none {ε S E : Type} {b : Base ε S E} {g : GSys ε S} {k : ε} (h : g.gen k = none) (hp : b.pause g.s k = false) :
    FreesTwice (g.levels b k) ∧ Frees (g.levels b k) := by
  have : g.levels b k = fun _ => false := by
    funext q
    simp only [GSys.levels, h, hp]
    exact level_none false q
  rw [this]
  exact ⟨fun n => ⟨n, Nat.le_refl n, rfl, rfl⟩, fun n => ⟨n, Nat.le_refl n, rfl⟩⟩

/-- `itertools.cycle([1, 1, 1, 0])`. -/
def cyc4 (n : Nat) : Option Bool := some (n % 4 != 3)

/-- `itertools.cycle([1, 0, 0])`. -/
def cyc3 (n : Nat) : Option Bool := some (n % 3 == 0)

theorem frees_cyc4 {ε S E : Type} {b : Base ε S E} {g : GSys ε S} {k : ε} (h : g.gen k = some { vals := cyc4 }) :
    Frees (g.levels b k) := by
  intro n
  refine ⟨4 * n + 4, by omega, ?_⟩
  simp only [GSys.levels, h]
  refine level_alive (q := 4 * n + 3) (fun m _ => by simp [Gen.rest, cyc4]) ?_
  simp only [Gen.rest, cyc4]
  simp only [reduceCtorEq, if_false, Nat.zero_add, Option.some.injEq, bne_eq_false_iff_eq]
  omega

theorem frees_cyc3 {ε S E : Type} {b : Base ε S E} {g : GSys ε S} {k : ε} (h : g.gen k = some { vals := cyc3 }) :
    FreesTwice (g.levels b k) := by
  intro n
  have one : ∀ q, q % 3 ≠ 0 → g.levels b k (q + 1) = false := by
    intro q hq
    simp only [GSys.levels, h]
    refine level_alive (fun m _ => by simp [Gen.rest, cyc3]) ?_
    simp only [Gen.rest, cyc3]
    simp [hq]
  exact ⟨3 * n + 2, by omega, one (3 * n + 1) (by omega), one (3 * n + 2) (by omega)⟩

theorem gens_two {S E : Type} {b : Base End S E} {s : S} {evs : List E} {k1 k2 : End} (hk : k1 ≠ k2) {v1 v2 : Nat → Option Bool}
    {g : GSys End S} (hg : g = GSys.run busEnds b s (evs.map .ev ++ [.setGen k1 (some v1), .setGen k2 (some v2)])) :
    g.gen k1 = some { vals := v1 } ∧ g.gen k2 = some { vals := v2 } ∧ (∀ k, k ≠ k1 → k ≠ k2 → g.gen k = none) ∧
      g.s = (GSys.run busEnds b s (evs.map .ev)).s := by
  have hg : g = ((GSys.run busEnds b s (evs.map .ev)).put k1 (some { vals := v1 })).put k2 (some { vals := v2 }) := by
    rw [hg, run_append]
    rfl
  rw [hg]
  have h0 := no_gens busEnds b s evs
  refine ⟨by simp [GSys.put, hk], by simp [GSys.put], fun k h1 h2 => ?_, rfl⟩
  simp [GSys.put, h0, h1, h2]

section

open Verif.AxiSys

theorem croundRobin_no_spurious (n : Nat) (k : Chan) : croundRobin n ≠ .chan k .snkSpurious := by
  unfold croundRobin
  cases hx : (cpieces (n / 49 - 2 ^ (n / 49).log2))[n % 49]? with
  | none => simp
  | some e =>
    have := List.mem_of_getElem? hx
    rintro rfl
    revert this
    cases k <;> simp [cpieces, pieces]

def exGensHist : List (GEv End CEv) := AxiSys.exBlocked.map .ev ++ [.setGen ⟨.w, true⟩ (some cyc4), .setGen ⟨.w, false⟩ (some cyc3)]

def exGens (n : Nat) : GSys End (CSys Memory) :=
  GSys.run busEnds (axiBase exC exW exR ramTarget) { mem := exM } (exGensHist ++ (List.range n).map (mix croundRobin))

theorem exGens_gens : (exGens 0).gen ⟨.w, true⟩ = some { vals := cyc4 } ∧ (exGens 0).gen ⟨.w, false⟩ = some { vals := cyc3 } ∧
    (∀ k, k ≠ ⟨.w, true⟩ → k ≠ ⟨.w, false⟩ → (exGens 0).gen k = none) ∧
    (exGens 0).s = (GSys.run busEnds (axiBase exC exW exR ramTarget) { mem := exM } (AxiSys.exBlocked.map .ev)).s := by
  have h0 : exGens 0 = GSys.run busEnds (axiBase exC exW exR ramTarget) { mem := exM }
      (AxiSys.exBlocked.map .ev ++ [.setGen ⟨.w, true⟩ (some cyc4), .setGen ⟨.w, false⟩ (some cyc3)]) := by
    simp [exGens, exGensHist]
  exact gens_two (by simp) h0

theorem exGens_state : ((exGens 0).s.w.m.running = true ∧ (exGens 0).s.r.m.running = true ∧ (exGens 0).s.w.m.issued = [exW0, exW1] ∧ (exGens 0).s.w.m.results = [] ∧ blocked (exGens 0).s.w.w = true ∧
      (exGens 0).s.r.m.issued = [] ∧ (exGens 0).s.r.m.results = [] ∧ (exGens 0).s.r.m.wrappers = [exR0]) ∧
    ∀ k ∈ busEnds, (axiBase exC exW exR ramTarget).pause (exGens 0).s k = false := by
  have h : let s := (GSys.run busEnds (axiBase exC exW exR ramTarget) { mem := exM } (AxiSys.exBlocked.map .ev)).s
      (s.w.m.running = true ∧ s.r.m.running = true ∧ s.w.m.issued = [exW0, exW1] ∧ s.w.m.results = [] ∧ blocked s.w.w = true ∧
      s.r.m.issued = [] ∧ s.r.m.results = [] ∧ s.r.m.wrappers = [exR0]) ∧
    ∀ k ∈ busEnds, (axiBase exC exW exR ramTarget).pause s k = false := by decide +kernel
  rw [exGens_gens.2.2.2]
  exact h

/-- Two writes and a read are under way; the master is blocked in `send()` on the W channel, whose source and sink are now paused by
generators. All complete. -/
example : ∃ N, ∀ n, N ≤ n → (∃ got, (exW0, some got) ∈ (exGens n).s.w.m.results) ∧
    (∃ got, (exW1, some got) ∈ (exGens n).s.w.m.results) ∧ ∃ got, (exR0, some got) ∈ (exGens n).s.r.m.results := by
  obtain ⟨g1, g2, g3, _⟩ := exGens_gens
  obtain ⟨⟨h1, h2, h3, h4, _, h5, h6, h7⟩, hp⟩ := exGens_state
  have fr := fun k (a : k ≠ (⟨.w, true⟩ : End)) (c : k ≠ (⟨.w, false⟩ : End)) =>
    frees_none (b := axiBase exC exW exR ramTarget) (g := exGens 0) (k := k) (g3 k a c) (hp k (busEnds_all k))
  have hplays : ∀ n, (mix croundRobin n : GEv End CEv).plays axiPiece := by
    intro n
    unfold mix
    split
    · exact ⟨croundRobin_progress _, fun k hk => croundRobin_no_spurious _ k hk⟩
    · trivial
  have hfair : Fair busEnds (axiBase exC exW exR ramTarget) axiPiece exGens (mix croundRobin) := by
    refine ⟨fun e he n => ?_, fun j n => ?_⟩
    · obtain ⟨k, hk, h⟩ := croundRobin_all e he.1 he.2 n
      obtain ⟨m, hm, hx⟩ := mix_ev croundRobin hk
      exact ⟨m, hm, .inl (by rw [hx, h])⟩
    · obtain ⟨m, hm, hx⟩ := mix_gen croundRobin j n
      exact ⟨m, hm, .inl hx⟩
  have r0 : ChanReleased (axiBase exC exW exR ramTarget) exGens .aw (fun s => s.w.aw) :=
    ⟨.inl (fr ⟨.aw, false⟩ (by decide) (by decide)).1, (fr ⟨.aw, true⟩ (by decide) (by decide)).2⟩
  have r1 : ChanReleased (axiBase exC exW exR ramTarget) exGens .w (fun s => s.w.w) :=
    ⟨.inl (frees_cyc3 g2), frees_cyc4 g1⟩
  have r2 : ChanReleased (axiBase exC exW exR ramTarget) exGens .b (fun s => s.w.b) :=
    ⟨.inl (fr ⟨.b, false⟩ (by decide) (by decide)).1, (fr ⟨.b, true⟩ (by decide) (by decide)).2⟩
  have r3 : ChanReleased (axiBase exC exW exR ramTarget) exGens .ar (fun s => s.r.ar) :=
    ⟨.inl (fr ⟨.ar, false⟩ (by decide) (by decide)).1, (fr ⟨.ar, true⟩ (by decide) (by decide)).2⟩
  have r4 : ChanReleased (axiBase exC exW exR ramTarget) exGens .r (fun s => s.r.r) :=
    ⟨.inl (fr ⟨.r, false⟩ (by decide) (by decide)).1, (fr ⟨.r, true⟩ (by decide) (by decide)).2⟩
  obtain ⟨N, hN⟩ : ∃ N, ∀ n, N ≤ n →
      (exGens n).s.w.m.idle = true ∧ (exGens n).s.r.m.idle = true ∧
      (∀ op ∈ (exGens 0).s.w.m.issued ++ (exGens 0).s.w.m.wrappers, (∀ r, (op, r) ∉ (exGens 0).s.w.m.results) →
        ∃ got, (op, some got) ∈ (exGens n).s.w.m.results) ∧
      (∀ op ∈ (exGens 0).s.r.m.issued ++ (exGens 0).s.r.m.wrappers, (∀ r, (op, r) ∉ (exGens 0).s.r.m.results) →
        ∃ got, (op, some got) ∈ (exGens n).s.r.m.results) :=
    C101_axi_completes exC exW exR ramTarget exM exC_std exIds exGensHist (mix croundRobin) hplays hfair r0 r1 r2 r3 r4 h1 h2
  refine ⟨N, fun n hn => ?_⟩
  obtain ⟨_, _, hw, hr⟩ := hN n hn
  simp only [h3, h4, h5, h6, h7] at hw hr
  exact ⟨hw exW0 (by simp) (by simp), hw exW1 (by simp) (by simp), hr exR0 (by simp) (by simp)⟩

end

section

open Verif.LiteOps
open Verif.AxiSys (Chan blocked)

theorem clkRobin_no_spurious {χ ρ χ' ρ' : Type} (n : Nat) (k : Chan) : (clkRobin n : ClkEv χ ρ χ' ρ') ≠ .chan k .snkSpurious := by
  unfold clkRobin
  cases hx : (clkPieces (n / 45 - 2 ^ (n / 45).log2) : List (ClkEv χ ρ χ' ρ'))[n % 45]? with
  | none => simp
  | some e =>
    have := List.mem_of_getElem? hx
    rintro rfl
    revert this
    cases k <;> simp [clkPieces]

def exLiteHist : List (GEv End RamClkEv) := LiteOps.exBlocked.map .ev ++ [.setGen ⟨.w, true⟩ (some cyc4), .setGen ⟨.w, false⟩ (some cyc3)]

def exLite (n : Nat) : GSys End RamClk :=
  GSys.run busEnds (liteBase xferHalves (Word.slaveWrite ramTarget exC.lanes true) (Word.slaveRead ramTarget exC.lanes)) { mem := exM } (exLiteHist ++ (List.range n).map (mix clkRobin))

theorem exLite_gens : (exLite 0).gen ⟨.w, true⟩ = some { vals := cyc4 } ∧ (exLite 0).gen ⟨.w, false⟩ = some { vals := cyc3 } ∧
    (∀ k, k ≠ ⟨.w, true⟩ → k ≠ ⟨.w, false⟩ → (exLite 0).gen k = none) ∧
    (exLite 0).s = (GSys.run busEnds (liteBase xferHalves (Word.slaveWrite ramTarget exC.lanes true) (Word.slaveRead ramTarget exC.lanes)) { mem := exM } (LiteOps.exBlocked.map .ev)).s := by
  have h0 : exLite 0 = GSys.run busEnds (liteBase xferHalves (Word.slaveWrite ramTarget exC.lanes true) (Word.slaveRead ramTarget exC.lanes)) { mem := exM }
      (LiteOps.exBlocked.map .ev ++ [.setGen ⟨.w, true⟩ (some cyc4), .setGen ⟨.w, false⟩ (some cyc3)]) := by
    simp [exLite, exLiteHist]
  exact gens_two (by simp) h0

theorem exLite_state : ((exLite 0).s.w.m.running = true ∧ (exLite 0).s.r.m.running = true ∧ (exLite 0).s.w.m.issued = [exW0, exW1, exW2] ∧ (exLite 0).s.w.m.results = [] ∧ blocked (exLite 0).s.w.w = true ∧
      (exLite 0).s.r.m.issued = [] ∧ (exLite 0).s.r.m.results = [] ∧ (exLite 0).s.r.m.wrappers = [exR0]) ∧
    ∀ k ∈ busEnds, (liteBase xferHalves (Word.slaveWrite ramTarget exC.lanes true) (Word.slaveRead ramTarget exC.lanes)).pause (exLite 0).s k = false := by
  have h : let s := (GSys.run busEnds (liteBase xferHalves (Word.slaveWrite ramTarget exC.lanes true) (Word.slaveRead ramTarget exC.lanes)) { mem := exM } (LiteOps.exBlocked.map .ev)).s
      (s.w.m.running = true ∧ s.r.m.running = true ∧ s.w.m.issued = [exW0, exW1, exW2] ∧ s.w.m.results = [] ∧ blocked s.w.w = true ∧
      s.r.m.issued = [] ∧ s.r.m.results = [] ∧ s.r.m.wrappers = [exR0]) ∧
    ∀ k ∈ busEnds, (liteBase xferHalves (Word.slaveWrite ramTarget exC.lanes true) (Word.slaveRead ramTarget exC.lanes)).pause s k = false := by decide +kernel
  rw [exLite_gens.2.2.2]
  exact h

/-- The same for AXI-lite: three writes and a read are under way. -/
example : ∃ N, ∀ n, N ≤ n → (∃ got, (exW0, some got) ∈ (exLite n).s.w.m.results) ∧
    (∃ got, (exW1, some got) ∈ (exLite n).s.w.m.results) ∧ (∃ got, (exW2, some got) ∈ (exLite n).s.w.m.results) ∧
    ∃ got, (exR0, some got) ∈ (exLite n).s.r.m.results := by
  obtain ⟨g1, g2, g3, _⟩ := exLite_gens
  obtain ⟨⟨h1, h2, h3, h4, _, h5, h6, h7⟩, hp⟩ := exLite_state
  have fr := fun k (a : k ≠ (⟨.w, true⟩ : End)) (c : k ≠ (⟨.w, false⟩ : End)) =>
    frees_none (b := liteBase xferHalves (Word.slaveWrite ramTarget exC.lanes true) (Word.slaveRead ramTarget exC.lanes)) (g := exLite 0) (k := k) (g3 k a c) (hp k (busEnds_all k))
  have hplays : ∀ n, (mix clkRobin n : GEv End RamClkEv).plays litePiece := by
    intro n
    unfold mix
    split
    · exact ⟨clkRobin_progress _, fun k hk => clkRobin_no_spurious _ k hk⟩
    · trivial
  have hfair : Fair busEnds (liteBase xferHalves (Word.slaveWrite ramTarget exC.lanes true) (Word.slaveRead ramTarget exC.lanes)) litePiece exLite (mix clkRobin) := by
    refine ⟨fun e he n => ?_, fun j n => ?_⟩
    · cases hn : e.never with
      | true =>
        refine ⟨n, Nat.le_refl n, .inr ?_⟩
        have ht : ¬ (liteBase xferHalves (Word.slaveWrite ramTarget exC.lanes true) (Word.slaveRead ramTarget exC.lanes)).isTick e = true := by
          cases e <;> simp [ClkEv.never] at hn <;> simp [liteBase]
        simp only [GSys.step, if_neg ht]
        have := ClkEv.never_step xferHalves (Word.slaveWrite ramTarget exC.lanes true) (Word.slaveRead ramTarget exC.lanes) (exLite n).s e hn
        simp only [liteBase, this]
      | false =>
        obtain ⟨k, hk, h⟩ := clkRobin_all e he.1 he.2 hn n
        obtain ⟨m, hm, hx⟩ := mix_ev (clkRobin : Nat → RamClkEv) hk
        exact ⟨m, hm, .inl (by rw [hx, h])⟩
    · obtain ⟨m, hm, hx⟩ := mix_gen clkRobin j n
      exact ⟨m, hm, .inl hx⟩
  have r0 : ChanReleased (liteBase xferHalves (Word.slaveWrite ramTarget exC.lanes true) (Word.slaveRead ramTarget exC.lanes)) exLite .aw (fun s => s.w.aw) :=
    ⟨.inl (fr ⟨.aw, false⟩ (by decide) (by decide)).1, (fr ⟨.aw, true⟩ (by decide) (by decide)).2⟩
  have r1 : ChanReleased (liteBase xferHalves (Word.slaveWrite ramTarget exC.lanes true) (Word.slaveRead ramTarget exC.lanes)) exLite .w (fun s => s.w.w) :=
    ⟨.inl (frees_cyc3 g2), frees_cyc4 g1⟩
  have r2 : ChanReleased (liteBase xferHalves (Word.slaveWrite ramTarget exC.lanes true) (Word.slaveRead ramTarget exC.lanes)) exLite .b (fun s => s.w.b) :=
    ⟨.inl (fr ⟨.b, false⟩ (by decide) (by decide)).1, (fr ⟨.b, true⟩ (by decide) (by decide)).2⟩
  have r3 : ChanReleased (liteBase xferHalves (Word.slaveWrite ramTarget exC.lanes true) (Word.slaveRead ramTarget exC.lanes)) exLite .ar (fun s => s.r.ar) :=
    ⟨.inl (fr ⟨.ar, false⟩ (by decide) (by decide)).1, (fr ⟨.ar, true⟩ (by decide) (by decide)).2⟩
  have r4 : ChanReleased (liteBase xferHalves (Word.slaveWrite ramTarget exC.lanes true) (Word.slaveRead ramTarget exC.lanes)) exLite .r (fun s => s.r.r) :=
    ⟨.inl (fr ⟨.r, false⟩ (by decide) (by decide)).1, (fr ⟨.r, true⟩ (by decide) (by decide)).2⟩
  obtain ⟨N, hN⟩ : ∃ N, ∀ n, N ≤ n →
      (exLite n).s.w.m.idle = true ∧ (exLite n).s.r.m.idle = true ∧
      (∀ op ∈ (exLite 0).s.w.m.issued ++ (exLite 0).s.w.m.wrappers, (∀ r, (op, r) ∉ (exLite 0).s.w.m.results) →
        ∃ got, (op, some got) ∈ (exLite n).s.w.m.results) ∧
      (∀ op ∈ (exLite 0).s.r.m.issued ++ (exLite 0).s.r.m.wrappers, (∀ r, (op, r) ∉ (exLite 0).s.r.m.results) →
        ∃ got, (op, some got) ∈ (exLite n).s.r.m.results) :=
    C101_lite_completes xferHalves (Word.slaveWrite ramTarget exC.lanes true) (Word.slaveRead ramTarget exC.lanes) exM xferHalves_join exLiteHist (mix clkRobin) hplays hfair r0 r1 r2 r3 r4 h1 h2
  refine ⟨N, fun n hn => ?_⟩
  obtain ⟨_, _, hw, hr⟩ := hN n hn
  simp only [h3, h4, h5, h6, h7] at hw hr
  exact ⟨hw exW0 (by simp) (by simp), hw exW1 (by simp) (by simp), hw exW2 (by simp) (by simp), hr exR0 (by simp) (by simp)⟩

end

end Verif.PauseGen
