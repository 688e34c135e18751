import Verif.Proof.Alias

/-!
# C144: what was sent does not change any more
-/

namespace Verif.Alias

open Verif.Axis (Side Frame)

namespace World

/-- The frames inside the source. -/
def held (w : World) : List RFrame := w.current.toList ++ w.queue

/-- The user's frames consist of lists they have; the source's of lists that nobody else has. -/
structure Inv (w : World) : Prop where
  low : ∀ r, w.owned r = true → r < w.heap.next
  frames : ∀ f ∈ w.frames, ∀ r ∈ f.refs, w.owned r = true
  inside : ∀ f ∈ w.held, ∀ r ∈ f.refs, r < w.heap.next ∧ w.owned r = false
  apart : w.held.Pairwise fun f g => ∀ r ∈ f.refs, r ∉ g.refs

theorem inv_init : Inv {} := by
  refine ⟨fun r hr => ?_, ?_, ?_, ?_⟩
  · cases hr
  · intro f hf; cases hf
  · intro f hf; cases hf
  · exact .nil

theorem sees_same {w w' : World} (hq : w'.queue = w.queue) (hc : w'.current = w.current)
    (ho : ∀ f ∈ w.held, ∀ r ∈ f.refs, w'.heap.obj r = w.heap.obj r) : w'.sees = w.sees := by
  simp only [sees, hq, hc, Vals.mk.injEq]
  refine ⟨List.map_congr_left fun f hf => frame_same f (ho f (by simp [held, hf])), ?_⟩
  cases hcur : w.current with
  | none => rfl
  | some f => simp only [Option.map_some]; rw [frame_same f (ho f (by simp [held, hcur]))]

/-- Actions of the user that create objects. -/
theorem Inv.mine {w : World} (hw : Inv w) (h : Heap) (fs : List RFrame) (hn : w.heap.next ≤ h.next)
    (hf : ∀ f ∈ fs, ∀ r ∈ f.refs, w.owned r = true ∨ (w.heap.next ≤ r ∧ r < h.next)) : Inv { w.mine h with frames := fs } := by
  refine ⟨?_, ?_, ?_, hw.apart⟩
  · intro r hr
    simp only [World.mine, Bool.or_eq_true, Bool.and_eq_true, decide_eq_true_eq] at hr ⊢
    rcases hr with hr | hr
    · have := hw.low r hr; omega
    · exact hr.2
  · intro f hfm r hr
    simp only [World.mine, Bool.or_eq_true, Bool.and_eq_true, decide_eq_true_eq]
    exact hf f hfm r hr
  · intro f hfm r hr
    obtain ⟨h1, h2⟩ := hw.inside f hfm r hr
    refine ⟨by simp only [World.mine]; omega, ?_⟩
    simp only [World.mine, Bool.or_eq_false_iff, Bool.and_eq_false_iff, decide_eq_false_iff_not]
    exact ⟨h2, Or.inl (by omega)⟩

/-- Actions of the source that create objects for itself. -/
theorem Inv.grow {w : World} (hw : Inv w) (h : Heap) (hn : w.heap.next ≤ h.next) (q : List RFrame) (c : Option RFrame)
    (hi : ∀ f ∈ c.toList ++ q, ∀ r ∈ f.refs, r < h.next ∧ w.owned r = false)
    (ha : (c.toList ++ q).Pairwise fun f g => ∀ r ∈ f.refs, r ∉ g.refs) :
    Inv { w with heap := h, queue := q, current := c } :=
  ⟨fun r hr => by have := hw.low r hr; simp only; omega, hw.frames, hi, ha⟩

theorem Inv.frame_low {w : World} (hw : Inv w) {f : RFrame} (hf : f ∈ w.frames) : ∀ r ∈ f.refs, r < w.heap.next :=
  fun r hr => hw.low r (hw.frames f hf r hr)

theorem Inv.held_low {w : World} (hw : Inv w) : ∀ f ∈ w.held, ∀ r ∈ f.refs, r < w.heap.next :=
  fun f hf r hr => (hw.inside f hf r hr).1

/-- Queueing a frame made of new lists. -/
theorem Inv.push {w : World} (hw : Inv w) (h : Heap) (hn : w.heap.next ≤ h.next) (g : RFrame)
    (hg : ∀ r ∈ g.refs, w.heap.next ≤ r ∧ r < h.next) : Inv { w with heap := h, queue := w.queue ++ [g] } := by
  refine hw.grow h hn (w.queue ++ [g]) w.current ?_ ?_
  · intro f hf r hr
    rw [← List.append_assoc, List.mem_append] at hf
    rcases hf with hf | hf
    · have := hw.inside f hf r hr; exact ⟨by omega, this.2⟩
    · simp only [List.mem_singleton] at hf
      subst hf
      refine ⟨(hg r hr).2, ?_⟩
      cases ho : w.owned r with
      | false => rfl
      | true => have := hw.low r ho; have := hg r hr; omega
  · rw [← List.append_assoc, List.pairwise_append]
    refine ⟨hw.apart, List.pairwise_singleton _ _, ?_⟩
    intro f hf g' hg' r hr hr'
    simp only [List.mem_singleton] at hg'
    subst hg'
    have := hw.held_low f hf r hr
    have := hg r hr'
    omega

theorem push_sees {w : World} (hw : Inv w) (h : Heap) (x : Ext w.heap h) (g : RFrame) :
    sees { w with heap := h, queue := w.queue ++ [g] } = { w.sees with queue := w.sees.queue ++ [g.val h] } := by
  have e := sees_same (w := w) (w' := { w with heap := h }) rfl rfl (fun f hf r hr => x.obj r (hw.held_low f hf r hr))
  simp only [sees, Vals.mk.injEq] at e ⊢
  simp only [List.map_append, List.map_cons, List.map_nil]
  exact ⟨by rw [e.1], e.2⟩

theorem accept_ok {w : World} (hw : Inv w) (f : RFrame) (hf : ∀ r ∈ f.refs, r < w.heap.next) :
    Inv (w.accept f) ∧ (w.accept f).sees = w.sees.step (.send (f.val w.heap)) := by
  obtain ⟨x, hc⟩ := copyFrame_spec w.heap f hf
  unfold World.accept
  cases hcf : w.heap.copyFrame f with
  | mk r h =>
    rw [hcf] at x hc
    cases r with
    | error e =>
      simp only at hc ⊢
      obtain ⟨e', he⟩ := hc
      refine ⟨hw.grow h x.next w.queue w.current ?_ hw.apart, ?_⟩
      · intro f hf r hr
        have := hw.inside f hf r hr
        have := x.next
        exact ⟨by simp only at this; omega, (hw.inside f hf r hr).2⟩
      · simp only [Vals.step, he]
        exact sees_same rfl rfl fun f hf r hr => x.obj r (hw.held_low f hf r hr)
    | ok g =>
      simp only at hc ⊢
      refine ⟨hw.push h x.next g hc.2, ?_⟩
      rw [push_sees hw h x g]
      simp only [Vals.step, hc.1]

theorem sees_frames {w : World} (h : Heap) (fs : List RFrame) : sees { w.mine h with frames := fs } = sees { w with heap := h } := rfl

/-- One event. -/
theorem step_ok {w : World} (hw : Inv w) (e : Ev) : Inv (w.step e) ∧ (w.step e).sees = w.sees.step (w.meaning e) := by
  have still : ∀ h, Ext w.heap h → sees { w with heap := h } = w.sees := fun h x =>
    sees_same (w := w) (w' := { w with heap := h }) rfl rfl (fun f hf r hr => x.obj r (hw.held_low f hf r hr))
  have only : ∀ h, Only (fun r => w.owned r = true) w.heap h → sees { w with heap := h } = w.sees := fun h x =>
    sees_same (w := w) (w' := { w with heap := h }) rfl rfl (fun f hf r hr => x.2 r (by show ¬ w.owned r = true; rw [(hw.inside f hf r hr).2]; simp))
  cases e with
  | list l =>
    have x := alloc_ext w.heap l
    exact ⟨hw.mine _ w.frames x.next (fun f hf r hr => Or.inl (hw.frames f hf r hr)), still _ x⟩
  | change r l =>
    simp only [step, meaning, Vals.step]
    split
    · rename_i ho
      have x : Only (fun r => w.owned r = true) w.heap (w.heap.set r l) :=
        ⟨rfl, fun i hi => by simp only [Heap.set]; rw [if_neg (by rintro rfl; exact hi ho)]⟩
      exact ⟨⟨hw.low, hw.frames, hw.inside, hw.apart⟩, only _ x⟩
    · exact ⟨hw, rfl⟩
  | frame b data k i d u =>
    simp only [step, meaning, Vals.step]
    split
    · rename_i ho
      simp only [Bool.and_eq_true, List.all_eq_true, List.mem_append] at ho
      have x := alloc_ext w.heap (w.heap.obj data)
      refine ⟨hw.mine _ _ x.next ?_, still _ x⟩
      intro f hf
      simp only [Heap.newFrame, List.mem_append, List.mem_singleton] at hf
      rcases hf with hf | rfl
      · exact fun r hr => Or.inl (hw.frames f hf r hr)
      · exact refs_of (Or.inr ⟨by simp [Heap.alloc], by simp [Heap.alloc, Heap.newFrame]⟩) (fun r hr => Or.inl (ho.2 r (by simp [hr])))
          (fun r hr => Or.inl (ho.2 r (by simp [hr]))) (fun r hr => Or.inl (ho.2 r (by simp [hr]))) (fun r hr => Or.inl (ho.2 r (by simp [hr])))
    · exact ⟨hw, rfl⟩
  | assign n f =>
    simp only [step, meaning, Vals.step]
    split
    · rename_i ho
      simp only [World.has, List.all_eq_true] at ho
      refine ⟨⟨hw.low, ?_, hw.inside, hw.apart⟩, rfl⟩
      intro g hg
      rcases List.mem_or_eq_of_mem_set hg with hg | rfl
      · exact hw.frames g hg
      · exact ho
    · exact ⟨hw, rfl⟩
  | copy n =>
    simp only [step, meaning, Vals.step]
    cases hn : w.frames[n]? with
    | none => exact ⟨hw, rfl⟩
    | some f =>
      have hf := List.mem_of_getElem? hn
      obtain ⟨x, hc⟩ := copyFrame_spec w.heap f (hw.frame_low hf)
      cases hcf : w.heap.copyFrame f with
      | mk r h =>
        rw [hcf] at x hc
        cases r with
        | error e => simp only [hcf]; exact ⟨hw.mine h w.frames x.next (fun f hf r hr => Or.inl (hw.frames f hf r hr)), still _ x⟩
        | ok g =>
          simp only [hcf] at hc ⊢
          refine ⟨hw.mine h _ x.next ?_, still _ x⟩
          intro f hf r hr
          rw [List.mem_append, List.mem_singleton] at hf
          rcases hf with hf | rfl
          · exact Or.inl (hw.frames f hf r hr)
          · exact Or.inr (hc.2 r hr)
  | normalize n =>
    simp only [step, meaning, Vals.step]
    cases hn : w.frames[n]? with
    | none => exact ⟨hw, rfl⟩
    | some f =>
      have hf := List.mem_of_getElem? hn
      obtain ⟨x, _, _, hr⟩ := normalize_spec w.heap f (hw.frame_low hf)
      refine ⟨hw.mine _ _ x.next ?_, still _ x⟩
      intro g hg r hgr
      rcases List.mem_or_eq_of_mem_set hg with hg | rfl
      · exact Or.inl (hw.frames g hg r hgr)
      · rcases hr r hgr with h1 | h1
        · exact Or.inl (hw.frames f hf r h1)
        · exact Or.inr h1
  | compact n =>
    simp only [step, meaning, Vals.step]
    cases hn : w.frames[n]? with
    | none => exact ⟨hw, rfl⟩
    | some f =>
      have hf := List.mem_of_getElem? hn
      obtain ⟨x, hr⟩ := compact_spec (fun r => w.owned r = true) w.heap f (hw.frames f hf)
      refine ⟨hw.mine _ _ (by rw [x.1]; exact Nat.le_refl _) ?_, only _ x⟩
      intro g hg r hgr
      rcases List.mem_or_eq_of_mem_set hg with hg | rfl
      · exact Or.inl (hw.frames g hg r hgr)
      · exact Or.inl (hr r hgr)
  | send n =>
    simp only [step, meaning]
    cases hn : w.frames[n]? with
    | none => exact ⟨hw, rfl⟩
    | some f => exact accept_ok hw f (hw.frame_low (List.mem_of_getElem? hn))
  | sendData b data =>
    simp only [step, meaning]
    split
    · have x := alloc_ext w.heap (w.heap.obj data)
      refine ⟨hw.push _ x.next _ ?_, ?_⟩
      · exact refs_of ⟨by simp [Heap.alloc, Heap.newFrame], by simp [Heap.alloc, Heap.newFrame]⟩ (by simp [Heap.newFrame, RSide.refs])
          (by simp [Heap.newFrame, RSide.refs]) (by simp [Heap.newFrame, RSide.refs]) (by simp [Heap.newFrame, RSide.refs])
      · have := push_sees hw _ x (w.heap.newFrame b data .none .none .none .none).1
        refine this.trans ?_
        simp [Vals.step, Frame.copy, RFrame.val, Heap.newFrame, RSide.val, Heap.alloc]
    · exact ⟨hw, rfl⟩
  | take =>
    have move : ∀ f rest, w.queue = f :: rest →
        let w' : World := { w with heap := (w.heap.normalize f).2.2, queue := rest, current := some (w.heap.normalize f).2.1 }
        Inv w' ∧ w'.sees = { queue := rest.map (·.val w.heap), current := some (f.val w.heap).normalize.2 } := by
      intro f rest hq
      have hfm : f ∈ w.held := by simp [held, hq]
      have hrm : ∀ g ∈ rest, g ∈ w.held := fun g hg => by simp [held, hq, hg]
      have hlow : ∀ r ∈ f.refs, r < w.heap.next := fun r hr => hw.held_low f hfm r hr
      obtain ⟨x, _, e2, e3⟩ := normalize_spec w.heap f hlow
      have hrest : ∀ g ∈ rest, g.val (w.heap.normalize f).2.2 = g.val w.heap := fun g hg =>
        frame_ext x g fun r hr => hw.held_low g (hrm g hg) r hr
      refine ⟨?_, by simp only [sees, Option.map_some]; rw [e2, List.map_congr_left hrest]⟩
      have hap := hw.apart
      rw [held, hq, List.pairwise_append, List.pairwise_cons] at hap
      obtain ⟨_, hap, _⟩ := hap
      refine hw.grow _ x.next rest (some (w.heap.normalize f).2.1) ?_ ?_
      · intro f' hf'' r hr
        simp only [Option.toList_some, List.singleton_append, List.mem_cons] at hf''
        have nx := x.next
        rcases hf'' with rfl | hf''
        · rcases e3 r hr with h1 | h1
          · have := hw.inside f hfm r h1
            exact ⟨by omega, this.2⟩
          · refine ⟨h1.2, ?_⟩
            cases ho : w.owned r with
            | false => rfl
            | true => have := hw.low r ho; omega
        · have := hw.inside f' (hrm f' hf'') r hr
          exact ⟨by omega, this.2⟩
      · simp only [Option.toList_some, List.singleton_append, List.pairwise_cons]
        refine ⟨?_, hap.2⟩
        intro g' hg' r hr hr'
        rcases e3 r hr with h1 | h1
        · exact hap.1 g' hg' r h1 hr'
        · have := hw.held_low g' (hrm g' hg') r hr'; omega
    simp only [step, meaning, Vals.step]
    cases hq : w.queue with
    | nil => cases hcu : w.current <;> cases w.ready <;> exact ⟨hw, by simp [sees, hcu, hq]⟩
    | cons f rest =>
      obtain ⟨m1, m2⟩ := move f rest hq
      cases hcu : w.current with
      | none =>
        have hr : w.ready = true := by simp [ready, hcu]
        rw [hr]
        exact ⟨m1, by rw [m2]; simp [sees, hq, hcu]⟩
      | some c =>
        by_cases he : w.heap.obj c.tdata = []
        · have hr : w.ready = true := by simp [ready, hcu, he]
          rw [hr]
          refine ⟨m1, ?_⟩
          simp only
          rw [m2]
          simp [sees, hq, hcu, RFrame.val, he]
        · have hr : w.ready = false := by simp [ready, hcu, he]
          rw [hr]
          exact ⟨hw, by simp [sees, hq, hcu, RFrame.val, he]⟩
  | complete =>
    simp only [step, meaning, Vals.step]
    cases hcu : w.current with
    | none => exact ⟨hw, by simp [sees, hcu]⟩
    | some f =>
      have hheld : w.held = f :: w.queue := by simp [held, hcu]
      have hap := hw.apart
      rw [hheld, List.pairwise_cons] at hap
      refine ⟨⟨?_, ?_, ?_, ?_⟩, by simp [sees]⟩
      · intro r hr
        simp only [Bool.or_eq_true, List.contains_iff_mem] at hr
        rcases hr with hr | hr
        · exact hw.low r hr
        · exact hw.held_low f (by simp [hheld]) r hr
      · intro g hg r hr
        simp only [List.mem_append, List.mem_singleton] at hg
        simp only [Bool.or_eq_true, List.contains_iff_mem]
        rcases hg with hg | rfl
        · exact Or.inl (hw.frames g hg r hr)
        · exact Or.inr hr
      · intro g hg r hr
        simp only [held, Option.toList_none, List.nil_append] at hg
        obtain ⟨h1, h2⟩ := hw.inside g (by simp [hheld, hg]) r hr
        refine ⟨h1, ?_⟩
        simp only [Bool.or_eq_false_iff]
        refine ⟨h2, ?_⟩
        cases hc : f.refs.contains r with
        | false => rfl
        | true => rw [List.contains_iff_mem] at hc; exact absurd hr (hap.1 g hg r hc)
      · simpa [held] using hap.2
  | clear =>
    refine ⟨⟨hw.low, hw.frames, ?_, ?_⟩, rfl⟩
    · intro f hf
      exact hw.inside f (by simp only [held, step, List.append_nil] at hf ⊢; exact List.mem_append_left _ hf)
    · have := hw.apart
      simp only [held, step, List.append_nil] at this ⊢
      exact (List.pairwise_append.1 this).1

theorem run_ok (evs : List Ev) : ∀ (w : World), Inv w →
    Inv (evs.foldl step w) ∧ (evs.foldl step w).sees = (w.trace evs).foldl Vals.step w.sees := by
  induction evs with
  | nil => intro w hw; exact ⟨hw, rfl⟩
  | cons e evs ih =>
    intro w hw
    obtain ⟨h1, h2⟩ := step_ok hw e
    obtain ⟨h3, h4⟩ := ih _ h1
    refine ⟨h3, ?_⟩
    simp only [List.foldl_cons, trace]
    rw [h4, h2]

end World

/-- **C144 (AXI stream).** Whatever the user does with the objects they have - in the middle of everything, to the very frame they sent and to the
lists it was made of - the source holds the values that the frames had when `send` accepted them, as a source of values would. -/
theorem C144_snapshot (evs : List Ev) : (World.exec evs).sees = (({} : World).trace evs).foldl Vals.step {} :=
  (World.run_ok evs {} World.inv_init).2

/-- **C144 (AXI stream, user's side).** Calling `send` and `clear` and the work of the source change no object of the user: neither the contents
of their lists nor the attributes of their frames. -/
theorem C144_untouched (evs : List Ev) (e : Ev) (he : (∃ n, e = .send n) ∨ (∃ b d, e = .sendData b d) ∨ e = .take ∨ e = .complete ∨ e = .clear) :
    let w := World.exec evs
    (∀ r, w.owned r = true → (w.step e).heap.obj r = w.heap.obj r) ∧
      ∀ (n : Nat) (f : RFrame), w.frames[n]? = some f → (w.step e).frames[n]? = some f ∧ f.val (w.step e).heap = f.val w.heap := by
  intro w
  have hw : World.Inv w := (World.run_ok evs {} World.inv_init).1
  have key : (∀ r, r < w.heap.next → (w.step e).heap.obj r = w.heap.obj r) ∧
      ∀ (n : Nat) (f : RFrame), w.frames[n]? = some f → (w.step e).frames[n]? = some f := by
    rcases he with ⟨n, rfl⟩ | ⟨b, d, rfl⟩ | rfl | rfl | rfl
    · simp only [World.step]
      cases hn : w.frames[n]? with
      | none => exact ⟨fun _ _ => rfl, fun _ _ h => h⟩
      | some f =>
        obtain ⟨x, _⟩ := copyFrame_spec w.heap f (hw.frame_low (List.mem_of_getElem? hn))
        simp only [World.accept]
        cases hcf : w.heap.copyFrame f with
        | mk r h =>
          rw [hcf] at x
          cases r with
          | error e => exact ⟨x.obj, fun _ _ h => h⟩
          | ok g => exact ⟨x.obj, fun _ _ h => h⟩
    · simp only [World.step]
      split
      · exact ⟨(alloc_ext w.heap (w.heap.obj d)).obj, fun _ _ h => h⟩
      · exact ⟨fun _ _ => rfl, fun _ _ h => h⟩
    · simp only [World.step]
      split
      · rename_i f rest h1 h3
        obtain ⟨x, _⟩ := normalize_spec w.heap f (fun r hr => hw.held_low f (by simp [World.held, h3]) r hr)
        exact ⟨x.obj, fun _ _ h => h⟩
      · exact ⟨fun _ _ => rfl, fun _ _ h => h⟩
    · simp only [World.step]
      split
      · exact ⟨fun _ _ => rfl, fun _ _ h => h⟩
      · exact ⟨fun _ _ => rfl, fun n f h => by
          simp only
          rw [List.getElem?_append_left (List.getElem?_eq_some_iff.1 h).1]; exact h⟩
    · exact ⟨fun _ _ => rfl, fun _ _ h => h⟩
  refine ⟨fun r hr => key.1 r (hw.low r hr), fun n f hn => ⟨key.2 n f hn, ?_⟩⟩
  exact frame_same f fun r hr => key.1 r (hw.frame_low (List.mem_of_getElem? hn) r hr)

/-- **C144 (copies).** A frame made from another one has its value and shares no list with anything that existed before. -/
theorem C144_copy (h : Heap) (f g : RFrame) (h' : Heap) (hf : ∀ r ∈ f.refs, r < h.next) (hc : h.copyFrame f = (.ok g, h')) :
    g.val h' = f.val h ∧ f.val h' = f.val h ∧ ∀ r ∈ g.refs, h.next ≤ r := by
  obtain ⟨x, hs⟩ := copyFrame_spec h f hf
  rw [hc] at x hs
  simp only at hs
  refine ⟨?_, frame_ext x f hf, fun r hr => (hs.2 r hr).1⟩
  have := hs.1
  cases hk : (f.val h).tkeep with
  | scalar v => simp [Frame.copy, hk] at this
  | none => simp [Frame.copy, hk] at this; exact this.symm
  | list l => simp [Frame.copy, hk] at this; exact this.symm

/-- **C144 (copies).** The lists of a copy are different objects. -/
theorem C144_copy_separate (h : Heap) (f g : RFrame) (h' : Heap) (hc : h.copyFrame f = (.ok g, h')) : g.refs.Nodup := by
  unfold Heap.copyFrame at hc
  simp only at hc
  split at hc
  · cases hc
  · generalize hp0 : h.alloc (h.obj f.tdata) = p0 at hc
    have d0 : p0.1 < p0.2.next := by rw [← hp0]; simp [Heap.alloc]
    obtain ⟨x1, _, r1⟩ := put_spec p0.2 (f.tkeep.val p0.2)
    generalize p0.2.put (f.tkeep.val p0.2) = p1 at hc x1 r1
    obtain ⟨x2, _, r2⟩ := put_spec p1.2 (f.tid.val p1.2)
    generalize p1.2.put (f.tid.val p1.2) = p2 at hc x2 r2
    obtain ⟨x3, _, r3⟩ := put_spec p2.2 (f.tdest.val p2.2)
    generalize p2.2.put (f.tdest.val p2.2) = p3 at hc x3 r3
    obtain ⟨x4, _, r4⟩ := put_spec p3.2 (f.tuser.val p3.2)
    generalize p3.2.put (f.tuser.val p3.2) = p4 at hc x4 r4
    injection hc with hc _
    injection hc with hc
    subst hc
    have n1 := x1.next; have n2 := x2.next; have n3 := x3.next; have n4 := x4.next
    have one : ∀ s : RSide, s.refs.Nodup := fun s => by cases s <;> simp [RSide.refs]
    simp only [RFrame.refs, List.nodup_cons, List.nodup_append, List.mem_append]
    refine ⟨?_, ⟨⟨one _, one _, ?_⟩, one _, ?_⟩, one _, ?_⟩
    · rintro (((hr | hr) | hr) | hr)
      · have := r1 _ hr; omega
      · have := r2 _ hr; omega
      · have := r3 _ hr; omega
      · have := r4 _ hr; omega
    · intro a ha b hb hab; have := r1 a ha; have := r2 b hb; omega
    · rintro a (ha | ha) b hb hab
      · have := r1 a ha; have := r3 b hb; omega
      · have := r2 a ha; have := r3 b hb; omega
    · rintro a ((ha | ha) | ha) b hb hab
      · have := r1 a ha; have := r4 b hb; omega
      · have := r2 a ha; have := r4 b hb; omega
      · have := r3 a ha; have := r4 b hb; omega

/-- **C144 (`compact`).** Of a frame whose lists are different objects, `compact()` makes the frame that its value would become, and raises when
that does; no other list changes. -/
theorem C144_compact (h : Heap) (f : RFrame) (hd : f.refs.Nodup) :
    (match (f.val h).compact with
     | .error e => (h.compact f).1 = .error e
     | .ok v => (h.compact f).1 = .ok () ∧ (h.compact f).2.1.val (h.compact f).2.2 = v) ∧
    ∀ r, r ∉ f.refs → (h.compact f).2.2.obj r = h.obj r := by
  refine ⟨?_, fun r hr => (compact_spec (fun r => r ∈ f.refs) h f (fun r hr => hr)).1.2 r hr⟩
  obtain ⟨b, a, k, i, d, u⟩ := f
  cases k with
  | none => rfl
  | scalar v => rfl
  | ref k =>
    by_cases hb : i.refs = [] ∨ d.refs = [] ∨ u.refs = []
    · have := compact_bad h ⟨b, a, .ref k, i, d, u⟩ k rfl hb
      rw [this]
      have hv : Frame.compact (RFrame.val h ⟨b, a, .ref k, i, d, u⟩) =
          if (h.obj k).length ≠ 0 ∧ (h.obj k).length < (h.obj a).length then .error .indexError else .error .typeError := by
        cases i <;> cases d <;> cases u <;> first | rfl | simp [RSide.refs] at hb
      rw [hv]
      by_cases hc : (h.obj k).length ≠ 0 ∧ (h.obj k).length < (h.obj a).length
      · rw [if_pos hc]; simp only; rw [if_pos hc]
      · rw [if_neg hc]; simp only; rw [if_neg hc]
    · cases i with
      | none => exact absurd (Or.inl rfl) hb
      | scalar v => exact absurd (Or.inl rfl) hb
      | ref i =>
        cases d with
        | none => exact absurd (Or.inr (Or.inl rfl)) hb
        | scalar v => exact absurd (Or.inr (Or.inl rfl)) hb
        | ref d =>
          cases u with
          | none => exact absurd (Or.inr (Or.inr rfl)) hb
          | scalar v => exact absurd (Or.inr (Or.inr rfl)) hb
          | ref u =>
            have hd' : [a, k, i, d, u].Nodup := hd
            have loop := compactLoop_lists b a k i d u hd' (h.obj a).length h
            have fin : ∀ (h' : Heap) (l : Verif.Axis.Lists), lists h' a k i d u = l →
                ∃ s1 s2 s3, h'.settle (.ref i) = .ok s1 ∧ h'.settle (.ref d) = .ok s2 ∧ h'.settle (.ref u) = .ok s3 ∧
                  RFrame.val h' ⟨b, a, .none, s1, s2, s3⟩ = { isBytes := b, tdata := l.data, tkeep := .none, tid := Verif.Axis.collapse l.id,
                                                              tdest := Verif.Axis.collapse l.dest, tuser := Verif.Axis.collapse l.user } := by
              rintro h' l rfl
              obtain ⟨s1, e1, v1⟩ := settle_val h' i
              obtain ⟨s2, e2, v2⟩ := settle_val h' d
              obtain ⟨s3, e3, v3⟩ := settle_val h' u
              exact ⟨s1, s2, s3, e1, e2, e3, by simp only [RFrame.val, v1, v2, v3, lists]; rfl⟩
            simp only [Heap.compact, Frame.compact, RFrame.val, RSide.val]
            by_cases h0 : (h.obj k).length ≠ 0
            · rw [if_pos h0, if_pos h0]
              have hl : Verif.Axis.compactLoop (h.obj a).length ⟨h.obj a, h.obj k, h.obj i, h.obj d, h.obj u⟩ =
                Verif.Axis.compactLoop (h.obj a).length (lists h a k i d u) := rfl
              rw [hl]
              cases hc : Heap.compactLoop ⟨b, a, .ref k, .ref i, .ref d, .ref u⟩ k (h.obj a).length h with
              | mk r h' =>
                rw [hc] at loop
                cases hv : Verif.Axis.compactLoop (h.obj a).length (lists h a k i d u) with
                | error e =>
                  rw [hv] at loop
                  simp only at loop
                  subst loop
                  rfl
                | ok l =>
                  rw [hv] at loop
                  simp only at loop
                  obtain ⟨rfl, hl⟩ := loop
                  obtain ⟨s1, s2, s3, e1, e2, e3, ev⟩ := fin h' l hl
                  simp only [e1, e2, e3]
                  exact ⟨trivial, ev⟩
            · rw [if_neg h0, if_neg h0]
              obtain ⟨s1, s2, s3, e1, e2, e3, ev⟩ := fin h _ rfl
              simp only [e1, e2, e3]
              exact ⟨trivial, ev⟩

/-- C144 is false of frames made from lists: `AxiStreamFrame(tdata, tkeep, tid, tdest, tuser)` keeps the sideband lists themselves. Two frames are made
from the same lists; `compact()` of the first changes the value of the second and the user's lists. -/
theorem C144_shared_violated :
    let make : List Ev := [.list [10, 20, 30], .list [1, 0, 1], .list [5, 6, 7], .list [0, 0, 0], .list [0, 0, 0],
      .frame true 0 (.ref 1) (.ref 2) (.ref 3) (.ref 4), .frame true 0 (.ref 1) (.ref 2) (.ref 3) (.ref 4)]
    let w := World.exec make
    let w' := World.exec (make ++ [.compact 0])
    (w.frames[1]?.map (·.val w.heap)) = some ⟨true, [10, 20, 30], .list [1, 0, 1], .list [5, 6, 7], .list [0, 0, 0], .list [0, 0, 0]⟩ ∧
    (w'.frames[1]?.map (·.val w'.heap)) = some ⟨true, [10, 20, 30], .list [1, 1], .list [5, 7], .list [0, 0], .list [0, 0]⟩ ∧
    w'.heap.obj 2 = [5, 7] := by decide

/-- C144 is false of generic streams (`define_stream`): `send` queues the object itself, so that a later assignment to a field changes what is sent;
an object sent twice with different contents is transmitted twice with the last. -/
theorem C144_stream_violated :
    (ObjWorld.exec [.change 0 1, .send 0, .change 0 2, .send 0, .drive, .drive]).driven = [2, 2] := by decide

theorem objs_kept (evs : List ObjEv) : ∀ (w : ObjWorld), w.leftAlone evs →
    (evs.foldl ObjWorld.step w).driven ++ (evs.foldl ObjWorld.step w).queue.map (evs.foldl ObjWorld.step w).objs =
      (w.driven ++ w.queue.map w.objs) ++ w.sent evs := by
  induction evs with
  | nil => intro w _; simp [ObjWorld.sent]
  | cons e evs ih =>
    intro w hq
    cases e with
    | change n v =>
      simp only [ObjWorld.leftAlone] at hq
      rw [List.foldl_cons, ih _ hq.2]
      simp only [ObjWorld.sent]
      congr 2
      exact List.map_congr_left fun i hi => by
        simp only [ObjWorld.step]
        rw [if_neg (by rintro rfl; exact hq.1 hi)]
    | drive =>
      simp only [ObjWorld.leftAlone] at hq
      rw [List.foldl_cons, ih _ hq]
      simp only [ObjWorld.sent]
      congr 1
      simp only [ObjWorld.step]
      cases hqq : w.queue with
      | nil => simp [hqq]
      | cons a rest => simp
    | send n =>
      simp only [ObjWorld.leftAlone] at hq
      rw [List.foldl_cons, ih _ hq]
      simp [ObjWorld.sent, ObjWorld.step]

/-- **C144 (generic streams).** If no object is assigned to while it is queued, the items driven and those still queued are those sent, with the
contents at the time of `send`. Missing: that it holds without the condition, which is false. -/
theorem C144_stream_partial (evs : List ObjEv) (h : ({} : ObjWorld).leftAlone evs) :
    (ObjWorld.exec evs).driven ++ (ObjWorld.exec evs).queue.map (ObjWorld.exec evs).objs = ({} : ObjWorld).sent evs := by
  have := objs_kept evs {} h
  simpa [ObjWorld.exec] using this

/-! A concrete history: a frame is sent, its lists are changed and it is compacted before the source takes it; the source has the old value. -/

/-- The history of the example. -/
def exEvs : List Ev := [.list [10, 20], .list [1, 0], .frame true 0 (.ref 1) .none (.scalar 3) .none, .send 0, .change 1 [0, 0, 0], .change 2 [99],
  .normalize 0, .compact 0, .sendData false 0, .change 0 [], .take]

example : (World.exec exEvs).sees =
    { queue := [⟨false, [10, 20], .none, .none, .none, .none⟩]
      current := some ⟨true, [10, 20], .list [1, 0], .list [0, 0], .list [3, 3], .list [0, 0]⟩ } := by decide +kernel
example : (RFrame.mk true 0 (.ref 1) (.ref 2) (.ref 3) (.ref 4)).refs.Nodup ∧
    Frame.compact ⟨true, [10, 20, 30], .list [1, 0, 1], .list [5, 6, 7], .list [0, 0, 0], .list [1, 1, 1]⟩ =
      .ok ⟨true, [10, 30], .none, .list [5, 7], .scalar 0, .scalar 1⟩ := by decide
example : ({} : ObjWorld).leftAlone [.change 0 1, .send 0, .drive, .change 0 2, .send 0, .drive] ∧
    (ObjWorld.exec [.change 0 1, .send 0, .drive, .change 0 2, .send 0, .drive]).driven = [1, 2] := by
  simp [ObjWorld.leftAlone, ObjWorld.step, ObjWorld.exec]

end Verif.Alias
