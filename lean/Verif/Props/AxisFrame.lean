import Verif.Proof.AxisFrame

/-!
# C49 - C52: AXI stream frames

The data path: what `normalize`, `compact` and `==` do, what beats a frame becomes and what a receiver makes of them. The
clock-level behaviour is in `Props/Axis.lean`.
-/

namespace Verif.Axis

/-! ## C50: normalize -/

/-- **C50.** `normalize()` of a frame whose sidebands make sense keeps the data and gives every sideband one entry per byte:
the list given, cut or continued with its last element; the scalar given; or the default (1 for `tkeep`, 0 for the others). -/
theorem C50_normalize (f : Frame) (hf : f.proper) : ∃ g keep id dest user, f.normalize = (.ok (), g) ∧
    g.isBytes = f.isBytes ∧ g.tdata = f.tdata ∧
    g.tkeep = .list keep ∧ g.tid = .list id ∧ g.tdest = .list dest ∧ g.tuser = .list user ∧
    keep.length = f.tdata.length ∧ id.length = f.tdata.length ∧ dest.length = f.tdata.length ∧
    user.length = f.tdata.length ∧
    ∀ k < f.tdata.length, keep[k]? = some (f.tkeep.value 1 k) ∧ id[k]? = some (f.tid.value 0 k) ∧
      dest[k]? = some (f.tdest.value 0 k) ∧ user[k]? = some (f.tuser.value 0 k) := by
  rcases normalize_spec f with ⟨_, h⟩ | ⟨h, _⟩
  · refine ⟨_, _, _, _, _, h, rfl, rfl, rfl, rfl, rfl, rfl, by simp, by simp, by simp, by simp, ?_⟩
    intro k hk
    simp [hk]
  · exact absurd hf h

/-- What `value` means for a list: its elements as far as they go, then the last one. -/
theorem C50_value_list (d : Int) (l : List Int) (hl : l ≠ []) (k : Nat) :
    (k < l.length → l[k]? = some ((Side.list l).value d k)) ∧
    (l.length ≤ k → l.getLast? = some ((Side.list l).value d k)) := by
  have hlen : 0 < l.length := List.length_pos_iff.2 hl
  constructor
  · intro hk
    simp only [Side.value]
    have : min k (l.length - 1) = k := by omega
    rw [this]; simp [List.getD_eq_getElem?_getD, hk]
  · intro hk
    simp only [Side.value]
    have : min k (l.length - 1) = l.length - 1 := by omega
    rw [this, List.getLast?_eq_getElem?, List.getD_eq_getElem?_getD, List.getElem?_eq_getElem (by omega)]; rfl

/-- **C50.** `normalize()` raises exactly if a sideband is an empty list (`IndexError`) or `tkeep` an integer
(`TypeError`). -/
theorem C50_raises (f : Frame) :
    (f.normalize.1 ≠ .ok () ↔ ¬ f.proper) ∧
    (f.normalize.1 = .error .typeError ↔ ∃ v, f.tkeep = .scalar v) := by
  constructor
  · rcases normalize_spec f with ⟨h1, h2⟩ | ⟨h1, h2⟩
    · simp [h1, h2]
    · rcases h2 with h2 | h2 <;> simp [h1, h2]
  · unfold Frame.normalize
    simp only
    rcases fitKeep_spec f.tdata.length f.tkeep with ⟨h1, h2⟩ | ⟨h1, h2⟩ | ⟨h1, h2⟩
    · rw [h2]; simp [h1]
    · rw [h2]; simp [h1]
    · rw [h2]; simp only
      have hn : ¬ ∃ v, f.tkeep = .scalar v := fun ⟨v, h⟩ => h1.1 v h
      simp only [hn, iff_false]
      rcases fit_spec f.tdata.length f.tid with ⟨_, g2⟩ | ⟨_, g2⟩ <;> rw [g2]
      · simp
      · simp only
        rcases fit_spec f.tdata.length f.tdest with ⟨_, g3⟩ | ⟨_, g3⟩ <;> rw [g3]
        · simp
        · simp only
          rcases fit_spec f.tdata.length f.tuser with ⟨_, g4⟩ | ⟨_, g4⟩ <;> rw [g4] <;> simp

theorem value_map_range (d : Int) (n : Nat) (g : Nat → Int) (k : Nat) (hk : k < n) :
    (Side.list ((List.range n).map g)).value d k = g k := by
  simp only [Side.value, List.length_map, List.length_range]
  have : min k (n - 1) = k := by omega
  rw [this]; simp [List.getD_eq_getElem?_getD, hk]

/-- **C50.** On a frame with data, normalizing twice is the same as normalizing once. -/
theorem C50_idempotent (f g : Frame) (hne : f.tdata ≠ []) (h : f.normalize = (.ok (), g)) :
    g.normalize = (.ok (), g) := by
  rcases normalize_spec f with ⟨_, h1⟩ | ⟨_, h1⟩
  · rw [h1] at h
    cases h
    have hlen : 0 < f.tdata.length := List.length_pos_iff.2 hne
    have hp : (normalized f).proper := by
      have : ∀ (s : Nat → Int), (List.range f.tdata.length).map s ≠ [] := by
        intro s hs
        have := congrArg List.length hs
        simp at this; exact hne this
      simp only [Frame.proper, normalized, ne_eq, Side.list.injEq, reduceCtorEq, not_false_eq_true, implies_true, true_and]
      exact ⟨this _, this _, this _, this _⟩
    rcases normalize_spec (normalized f) with ⟨_, h2⟩ | ⟨h2, _⟩
    · rw [h2]
      congr 1
      have : ∀ (d : Int) (s : Nat → Int), (List.range f.tdata.length).map (Side.value d (.list ((List.range f.tdata.length).map s))) =
          (List.range f.tdata.length).map s := by
        intro d s
        apply List.map_congr_left
        intro k hk
        exact value_map_range d _ s k (List.mem_range.1 hk)
      simp only [normalized, this]
    · exact absurd hp h2
  · rw [h] at h1
    rcases h1 with h1 | h1 <;> cases h1

example : (⟨true, [1, 2, 3, 4], .list [1, 0], .scalar 5, .none, .list [1, 2, 3, 4, 5, 6]⟩ : Frame).proper := by decide

example : (⟨true, [1, 2, 3, 4], .list [1, 0], .scalar 5, .none, .list [1, 2, 3, 4, 5, 6]⟩ : Frame).normalize =
    (.ok (), ⟨true, [1, 2, 3, 4], .list [1, 0, 0, 0], .list [5, 5, 5, 5], .list [0, 0, 0, 0], .list [1, 2, 3, 4]⟩) := by decide

/-! ## C51: compact -/

theorem kept_empty (k : List Int) : kept k [] = [] := by simp [kept]

/-- **C51.** `compact()` on a frame as a receiver builds it, with one `tkeep` entry per byte and the other sidebands of the
same length (or empty, if the bus does not have them): exactly the bytes and the sideband entries with `tkeep` set remain, in
order; `tkeep` becomes `None`; the other sidebands are collapsed. -/
theorem C51_compact (f : Frame) (k i d u : List Int) (hk : f.tkeep = .list k) (hi : f.tid = .list i) (hd : f.tdest = .list d)
    (hu : f.tuser = .list u) (lk : k.length = f.tdata.length) (li : i.length = f.tdata.length ∨ i = [])
    (ld : d.length = f.tdata.length ∨ d = []) (lu : u.length = f.tdata.length ∨ u = []) :
    f.compact = .ok { f with tdata := kept k f.tdata, tkeep := .none, tid := collapse (kept k i), tdest := collapse (kept k d)
                             tuser := collapse (kept k u) } := by
  unfold Frame.compact
  rw [hk, hi, hd, hu]
  simp only
  have side : ∀ x : List Int, (x.length = f.tdata.length ∨ x = []) →
      kept (k.take f.tdata.length) (x.take f.tdata.length) ++ x.drop f.tdata.length = kept k x := by
    intro x hx
    rw [List.take_of_length_le (by omega)]
    rcases hx with hx | hx
    · rw [List.take_of_length_le (by omega), List.drop_eq_nil_of_le (by omega), List.append_nil]
    · subst hx; simp
  by_cases h0 : k.length = 0
  · have hk0 : k = [] := List.length_eq_zero_iff.1 h0
    have hd0 : f.tdata = [] := List.length_eq_zero_iff.1 (by omega)
    have z : ∀ x : List Int, (x.length = f.tdata.length ∨ x = []) → x = [] := by
      intro x hx
      rcases hx with hx | hx
      · exact List.length_eq_zero_iff.1 (by omega)
      · exact hx
    have zi := z i li; have zd := z d ld; have zu := z u lu
    subst hk0 zi zd zu
    simp [hd0, kept]
  · rw [if_pos h0]
    obtain ⟨r, h1, h2, h3, h4, h5⟩ := compactLoop_spec f.tdata.length ⟨f.tdata, k, i, d, u⟩ (by simp only; omega)
    rw [h1]
    simp only at h2 h3 h4 h5 ⊢
    rw [h2, h3, h4, h5, side _ li, side _ ld, side _ lu, side _ (.inl rfl)]

/-- **C51**, on a bus without `tkeep`: all bytes remain. -/
theorem C51_compact_no_keep (f : Frame) (i d u : List Int) (hk : f.tkeep = .list []) (hi : f.tid = .list i)
    (hd : f.tdest = .list d) (hu : f.tuser = .list u) :
    f.compact = .ok { f with tkeep := .none, tid := collapse i, tdest := collapse d, tuser := collapse u } := by
  unfold Frame.compact
  rw [hk, hi, hd, hu]
  simp

/-- **C51.** What collapsing means: no entries give `None`, equal entries a scalar, anything else stays a list. -/
theorem C51_collapse (l : List Int) :
    (collapse l = .none ↔ l = []) ∧
    (∀ v, collapse l = .scalar v ↔ l ≠ [] ∧ ∀ x ∈ l, x = v) ∧
    (∀ m, collapse l = .list m → m = l ∧ ∃ x ∈ l, ∃ y ∈ l, x ≠ y) := by
  cases l with
  | nil => simp [collapse]
  | cons a l =>
    simp only [collapse]
    split
    · rename_i h
      simp only [List.all_eq_true, decide_eq_true_eq] at h
      refine ⟨by simp, ?_, by simp⟩
      intro v
      constructor
      · intro hv
        cases hv
        exact ⟨by simp, fun x hx => (h x hx).symm⟩
      · rintro ⟨_, hv⟩
        rw [hv a (List.mem_cons_self ..)]
    · rename_i h
      simp only [List.all_eq_true, decide_eq_true_eq] at h
      refine ⟨by simp, ?_, ?_⟩
      · intro v
        constructor
        · intro hv; cases hv
        · rintro ⟨_, hv⟩
          exfalso
          apply h
          intro x hx
          rw [hv a (List.mem_cons_self ..), hv x hx]
      · intro m hm
        cases hm
        refine ⟨rfl, a, List.mem_cons_self .., ?_⟩
        refine Classical.byContradiction fun hc => h ?_
        intro x hx
        refine Classical.byContradiction fun hne => hc ⟨x, hx, hne⟩

/-- **C51.** The result of `compact()` cannot be compacted again: `tkeep` is `None` then. -/
theorem C51_compact_once (f g : Frame) (h : f.compact = .ok g) : g.compact = .error .typeError := by
  have : g.tkeep = .none := by
    unfold Frame.compact at h
    split at h
    · split at h
      · cases h
      · cases h; rfl
    · split at h <;> cases h
    · cases h
  unfold Frame.compact
  rw [this]

theorem compactLoop_ok_iff (n : Nat) : ∀ l : Lists, (n ≤ l.keep.length → ∃ l', compactLoop n l = .ok l') ∧
    (l.keep.length < n → compactLoop n l = .error .indexError) := by
  induction n with
  | zero => intro l; exact ⟨fun _ => ⟨l, rfl⟩, fun h => by omega⟩
  | succ n ih =>
    intro l
    simp only [compactLoop]
    constructor
    · intro h
      rw [List.getElem?_eq_getElem (by omega)]
      simp only
      split
      · refine (ih _).1 ?_
        simp only [delAt]
        split
        · rw [List.length_eraseIdx]; split <;> omega
        · omega
      · exact (ih l).1 (by omega)
    · intro h
      rw [List.getElem?_eq_none (by omega)]

/-- **C51.** When `compact()` raises: `IndexError` exactly if `tkeep` is a list that is not empty and has fewer entries than there are bytes, and else
`TypeError` exactly if one of the sidebands is not a list. -/
theorem C51_compact_errors (f : Frame) :
    let Short := ∃ k, f.tkeep = .list k ∧ k ≠ [] ∧ k.length < f.tdata.length
    let Lists := (∃ k, f.tkeep = .list k) ∧ (∃ i, f.tid = .list i) ∧ (∃ d, f.tdest = .list d) ∧ (∃ u, f.tuser = .list u)
    (Short → f.compact = .error .indexError) ∧ (¬Short → ¬Lists → f.compact = .error .typeError) ∧
    (¬Short → Lists → ∃ g, f.compact = .ok g) := by
  intro Short Lists
  unfold Frame.compact
  split
  · rename_i k i d u hk hi hd hu
    refine ⟨?_, fun _ h => absurd ⟨⟨k, hk⟩, ⟨i, hi⟩, ⟨d, hd⟩, ⟨u, hu⟩⟩ h, fun h _ => ?_⟩
    · rintro ⟨k', h1, h2, h3⟩
      rw [hk] at h1; cases h1
      rw [if_pos (by simpa using h2), (compactLoop_ok_iff _ _).2 h3]
    · by_cases h0 : k.length ≠ 0
      · rw [if_pos h0]
        obtain ⟨l, hl⟩ := (compactLoop_ok_iff f.tdata.length ⟨f.tdata, k, i, d, u⟩).1
          (by simp only; refine Nat.le_of_not_lt fun hc => h ⟨k, hk, by simpa using h0, hc⟩)
        rw [hl]; exact ⟨_, rfl⟩
      · rw [if_neg h0]; exact ⟨_, rfl⟩
  · rename_i k hk hne
    refine ⟨?_, fun h _ => ?_, ?_⟩
    · rintro ⟨k', h1, h2, h3⟩
      rw [hk] at h1; cases h1
      rw [if_pos ⟨by simpa using h2, h3⟩]
    · rw [if_neg]
      rintro ⟨h1, h2⟩
      exact h ⟨k, hk, by simpa using h1, h2⟩
    · rintro - ⟨-, ⟨i, hi⟩, ⟨d, hd⟩, ⟨u, hu⟩⟩
      exact absurd hu (hne i d u hi hd)
  · rename_i hnk _
    refine ⟨?_, fun _ _ => rfl, ?_⟩
    · rintro ⟨k, h1, -⟩; exact (hnk k h1).elim
    · rintro - ⟨⟨k, hk⟩, -⟩; exact (hnk k hk).elim

example : (⟨true, [1, 2, 3, 4], .list [1, 0, 1, 1], .list [5, 6, 5, 5], .list [], .list [7, 7, 8, 7]⟩ : Frame).compact =
    .ok ⟨true, [1, 3, 4], .none, .scalar 5, .none, .list [7, 8, 7]⟩ := by decide

/-! ## C52: equality -/

theorem same_comm (a b : Side) : a.same b = b.same a := by
  cases a <;> cases b <;> simp [Side.same, eq_comm]

theorem sameKeep_comm (a b : Side) : a.sameKeep b = b.sameKeep a := by
  cases a <;> cases b <;> simp [Side.sameKeep, eq_comm]

/-- **C52.** A frame is equal to itself. -/
theorem C52_refl (f : Frame) : f.eq f = true := by
  have h1 : ∀ s : Side, s.same s = true := by intro s; cases s <;> simp [Side.same]
  have h2 : ∀ s : Side, s.sameKeep s = true := by intro s; cases s <;> simp [Side.sameKeep]
  simp [Frame.eq, h1, h2]

/-- **C52.** Equality is symmetric. -/
theorem C52_symm (f g : Frame) : f.eq g = g.eq f := by
  unfold Frame.eq
  rw [same_comm f.tid, same_comm f.tdest, same_comm f.tuser, sameKeep_comm f.tkeep]
  congr 1; congr 1; congr 1; congr 1
  congr 1
  · exact decide_eq_decide.2 eq_comm
  · exact decide_eq_decide.2 eq_comm

/-- **C52.** Equality of frames that have all sidebands as lists (normalized ones), or none at all, is equality of the
fields. -/
theorem C52_exact (f g : Frame) (hf : ∃ k i d u, f.tkeep = .list k ∧ f.tid = .list i ∧ f.tdest = .list d ∧ f.tuser = .list u)
    (hg : ∃ k i d u, g.tkeep = .list k ∧ g.tid = .list i ∧ g.tdest = .list d ∧ g.tuser = .list u) :
    f.eq g = true ↔ f = g := by
  obtain ⟨k, i, d, u, h1, h2, h3, h4⟩ := hf
  obtain ⟨k', i', d', u', h1', h2', h3', h4'⟩ := hg
  cases f; cases g
  simp only at h1 h2 h3 h4 h1' h2' h3' h4'
  subst h1 h2 h3 h4 h1' h2' h3' h4'
  simp [Frame.eq, Side.same, Side.sameKeep, and_assoc]

/-- **C52.** Equality is not transitive: a missing sideband, or a scalar, is equal to several different ones. -/
theorem C52_not_transitive : ∃ f g h : Frame, f.eq g = true ∧ g.eq h = true ∧ f.eq h = false :=
  ⟨{ tdata := [1], tid := .scalar 1 }, { tdata := [1] }, { tdata := [1], tid := .scalar 2 }, by decide, by decide, by decide⟩

/-! ## C49: from frame to beats and back -/

theorem flatMap_range {β : Type} (a b : Nat) (g : Nat → β) :
    ((List.range a).flatMap fun k => (List.range b).map fun i => g (k * b + i)) = (List.range (a * b)).map g := by
  induction a with
  | zero => simp
  | succ a ih =>
    rw [List.range_succ, List.flatMap_append, ih, Nat.add_mul, Nat.one_mul, List.range_add]
    simp

theorem kept_map {β : Type} (L : List β) (a b : β → Int) :
    kept (L.map a) (L.map b) = (L.filter (fun x => a x ≠ 0)).map b := by
  induction L with
  | nil => rfl
  | cons x L ih =>
    simp only [kept, List.map_cons, List.zip_cons_cons, List.filter_cons] at ih ⊢
    by_cases h : a x = 0 <;> simp [h] at ih ⊢ <;> exact ih

/-- Index of the last byte in the beat that contains byte `j`. -/
def lastOf (c : Cfg) (n j : Nat) : Nat := min ((j / c.lanes + 1) * c.lanes) n - 1

/-- What a receiver has after the beats of a frame. -/
theorem received_beats (c : Cfg) (hl : 0 < c.lanes) (f : Frame) :
    received c (beats c f) =
      let N := beatCount c f * c.lanes
      let n := f.tdata.length
      { data := (List.range N).map fun j => ((if j < n then maskTo c.size (f.tdata.getD j 0) else 0 : Nat) : Int)
        keep := if c.hasKeep then (List.range N).map fun j => ((if j < n then maskTo 1 (f.tkeep.value 1 j) else 0 : Nat) : Int)
          else []
        id := if c.hasId then (List.range N).map fun j => f.tid.value 0 (lastOf c n j) else []
        dest := if c.hasDest then (List.range N).map fun j => f.tdest.value 0 (lastOf c n j) else []
        user := if c.hasUser then (List.range N).map fun j => f.tuser.value 0 (lastOf c n j) else [] } := by
  have hrep : ∀ (s : Nat → Int), ((List.range (beatCount c f)).flatMap fun k => List.replicate c.lanes (s (min ((k + 1) * c.lanes) f.tdata.length - 1))) =
      (List.range (beatCount c f * c.lanes)).map fun j => s (lastOf c f.tdata.length j) := by
    intro s
    rw [← flatMap_range]
    congr 1
    funext k
    apply List.ext_getElem
    · simp
    · intro i h1 h2
      simp only [List.length_replicate] at h1
      simp only [List.getElem_replicate, List.getElem_map, List.getElem_range, lastOf]
      rw [Nat.mul_comm k, Nat.mul_add_div hl, Nat.div_eq_of_lt h1, Nat.add_zero]
  simp only [received, beats]
  congr 1
  · rw [List.flatMap_map, ← flatMap_range]
    congr 1
    funext k
    simp only [beatData]
    apply List.map_congr_left
    intro i hi
    rw [List.mem_range] at hi
    simp only [beatAt]
    rw [packed_lane]
    · simp [List.getD_eq_getElem?_getD, hi]
    · intro d hd
      obtain ⟨i, _, rfl⟩ := List.mem_map.1 hd
      split
      · exact maskTo_lt _ _
      · exact Nat.pow_pos (by decide)
  · rw [List.flatMap_map]
    cases hk : c.hasKeep with
    | false => simp [beatKeep, hk]
    | true =>
      rw [if_pos rfl, ← flatMap_range]
      congr 1
      funext k
      simp only [beatKeep, hk, if_true]
      apply List.map_congr_left
      intro i hi
      rw [List.mem_range] at hi
      simp only [beatAt]
      have := packed_lane 1 ((List.range c.lanes).map fun i =>
        if k * c.lanes + i < f.tdata.length then maskTo 1 (f.tkeep.value 1 (k * c.lanes + i)) else 0) (by
          intro d hd
          obtain ⟨i, _, rfl⟩ := List.mem_map.1 hd
          split
          · exact maskTo_lt _ _
          · exact Nat.pow_pos (by decide)) i
      rw [Nat.mul_one, Nat.pow_one] at this
      rw [this]
      simp [List.getD_eq_getElem?_getD, hi]
  · rw [List.flatMap_map]; split
    · exact hrep (f.tid.value 0)
    · rfl
  · rw [List.flatMap_map]; split
    · exact hrep (f.tdest.value 0)
    · rfl
  · rw [List.flatMap_map]; split
    · exact hrep (f.tuser.value 0)
    · rfl

theorem beatCount_le (c : Cfg) (hl : 0 < c.lanes) (f : Frame) : f.tdata.length ≤ beatCount c f * c.lanes := by
  unfold beatCount
  have h1 := Nat.div_add_mod (f.tdata.length + (c.lanes - 1)) c.lanes
  have h2 := Nat.mod_lt (f.tdata.length + (c.lanes - 1)) hl
  rw [Nat.mul_comm] at h1
  omega

/-- **C49**, on a bus with `tkeep`. The beats of a frame, collected by a receiver and compacted: exactly the bytes with
`tkeep` set, in order, each masked to the byte size; `tid`, `tdest`, `tuser` of a byte are those of the last byte in its
beat. -/
theorem C49_with_keep (c : Cfg) (hl : 0 < c.lanes) (hk : c.hasKeep = true) (f : Frame) :
    ((beats c f).foldl (fun r b => r.pushBeat c b) (emptyFrame c)).compact = .ok
      { isBytes := decide (c.size = 8)
        tdata := (keptIdx f).map fun j => (maskTo c.size (f.tdata.getD j 0) : Int)
        tkeep := .none
        tid := collapse (if c.hasId then (keptIdx f).map fun j => f.tid.value 0 (lastOf c f.tdata.length j) else [])
        tdest := collapse (if c.hasDest then (keptIdx f).map fun j => f.tdest.value 0 (lastOf c f.tdata.length j) else [])
        tuser := collapse (if c.hasUser then (keptIdx f).map fun j => f.tuser.value 0 (lastOf c f.tdata.length j) else []) } := by
  rw [receive_spec, received_beats c hl]
  simp only [hk, if_true]
  have hN := beatCount_le c hl f
  obtain ⟨p, hp⟩ : ∃ p, beatCount c f * c.lanes = f.tdata.length + p := ⟨_, (Nat.add_sub_of_le hN).symm⟩
  rw [hp]
  have key : ∀ (b : Nat → Int), kept ((List.range (f.tdata.length + p)).map fun j =>
        ((if j < f.tdata.length then maskTo 1 (f.tkeep.value 1 j) else 0 : Nat) : Int)) ((List.range (f.tdata.length + p)).map b) =
      (keptIdx f).map b := by
    intro b
    rw [kept_map]
    congr 1
    rw [List.range_add, List.filter_append, keptIdx]
    have h2 : ((List.range p).map (f.tdata.length + ·)).filter (fun x => decide
        (((if x < f.tdata.length then maskTo 1 (f.tkeep.value 1 x) else 0 : Nat) : Int) ≠ 0)) = [] := by
      rw [List.filter_eq_nil_iff]
      intro x hx
      obtain ⟨y, _, rfl⟩ := List.mem_map.1 hx
      simp [Nat.not_lt.2 (Nat.le_add_right f.tdata.length y)]
    rw [h2, List.append_nil]
    apply List.filter_congr
    intro x hx
    rw [List.mem_range] at hx
    simp [hx]
  have hlen : ∀ (has : Bool) (b : Nat → Int), (if has = true then (List.range (f.tdata.length + p)).map b else []).length =
      f.tdata.length + p ∨ (if has = true then (List.range (f.tdata.length + p)).map b else []) = [] := by
    intro has b; cases has <;> simp
  have hside : ∀ (K : List Int) (has : Bool) (b : Nat → Int),
      kept K (if has = true then (List.range (f.tdata.length + p)).map b else []) =
      if has = true then kept K ((List.range (f.tdata.length + p)).map b) else [] := by
    intro K has b; cases has <;> simp [kept]
  rw [C51_compact (ofLists c _) _ _ _ _ rfl rfl rfl rfl (by simp [ofLists]) (by simpa [ofLists] using hlen c.hasId _)
    (by simpa [ofLists] using hlen c.hasDest _) (by simpa [ofLists] using hlen c.hasUser _)]
  simp only [ofLists, hside, key]
  congr 2
  apply List.map_congr_left
  intro j hj
  have : j < f.tdata.length := by
    simp only [keptIdx, List.mem_filter, List.mem_range] at hj; exact hj.1
  rw [if_pos this]

/-- **C49**, on a bus without `tkeep`: all bytes, and zeros up to a whole number of beats. -/
theorem C49_without_keep (c : Cfg) (hl : 0 < c.lanes) (hk : c.hasKeep = false) (f : Frame) :
    ∃ pad, pad < c.lanes ∧ (f.tdata.length + pad) % c.lanes = 0 ∧
    ((beats c f).foldl (fun r b => r.pushBeat c b) (emptyFrame c)).compact = .ok
      { isBytes := decide (c.size = 8)
        tdata := (f.tdata.map fun x => (maskTo c.size x : Int)) ++ List.replicate pad 0
        tkeep := .none
        tid := collapse (if c.hasId then (List.range (f.tdata.length + pad)).map fun j =>
          f.tid.value 0 (lastOf c f.tdata.length j) else [])
        tdest := collapse (if c.hasDest then (List.range (f.tdata.length + pad)).map fun j =>
          f.tdest.value 0 (lastOf c f.tdata.length j) else [])
        tuser := collapse (if c.hasUser then (List.range (f.tdata.length + pad)).map fun j =>
          f.tuser.value 0 (lastOf c f.tdata.length j) else []) } := by
  have hN := beatCount_le c hl f
  obtain ⟨p, hp⟩ : ∃ p, beatCount c f * c.lanes = f.tdata.length + p := ⟨_, (Nat.add_sub_of_le hN).symm⟩
  refine ⟨p, ?_, by rw [← hp]; exact Nat.mul_mod_left _ _, ?_⟩
  · have : beatCount c f * c.lanes ≤ f.tdata.length + (c.lanes - 1) := Nat.div_mul_le_self _ _
    omega
  · rw [receive_spec, received_beats c hl]
    simp only [hk, Bool.false_eq_true, if_false, hp]
    rw [C51_compact_no_keep (ofLists c _) _ _ _ rfl rfl rfl rfl]
    simp only [ofLists]
    congr 2
    apply List.ext_getElem
    · simp
    · intro j h1 h2
      simp only [List.length_map, List.length_range] at h1
      simp only [List.getElem_map, List.getElem_range]
      by_cases hj : j < f.tdata.length
      · rw [List.getElem_append_left (by simpa using hj), if_pos hj]
        simp [List.getD_eq_getElem?_getD, hj]
      · rw [List.getElem_append_right (by simp; omega), if_neg hj]
        simp

/-- A sideband that is the same for all bytes, and its value. -/
def Side.const : Side → Option Int
  | .none => some 0
  | .scalar v => some v
  | .list _ => Option.none

theorem collapse_const (l : List Nat) (v : Int) (g : Nat → Int) (hg : ∀ j, g j = v) (hl : l ≠ []) :
    collapse (l.map g) = .scalar v := by
  refine ((C51_collapse _).2.1 v).2 ⟨by simpa using hl, ?_⟩
  intro x hx
  obtain ⟨j, _, rfl⟩ := List.mem_map.1 hx
  exact hg j

theorem value_const {s : Side} {v : Int} (h : s.const = some v) (j : Nat) : s.value 0 j = v := by
  cases s <;> simp [Side.const] at h <;> simp [Side.value, h]

/-- **C49**, the usual case: a non-empty frame of bytes with all bytes kept and with scalar (or no) sidebands, over an
8-bit-lane bus that has all signals, arrives unchanged: the same bytes and the same scalars. -/
theorem C49_bytes (c : Cfg) (hl : 0 < c.lanes) (h8 : c.size = 8) (hk : c.hasKeep = true) (hi : c.hasId = true)
    (hd : c.hasDest = true) (hu : c.hasUser = true) (f : Frame) (hb : ∀ x ∈ f.tdata, 0 ≤ x ∧ x < 256) (hne : f.tdata ≠ [])
    (hkeep : f.tkeep = .none) (i d u : Int) (h1 : f.tid.const = some i) (h2 : f.tdest.const = some d)
    (h3 : f.tuser.const = some u) :
    ((beats c f).foldl (fun r b => r.pushBeat c b) (emptyFrame c)).compact = .ok
      { isBytes := true, tdata := f.tdata, tkeep := .none, tid := .scalar i, tdest := .scalar d, tuser := .scalar u } := by
  rw [C49_with_keep c hl hk]
  have hidx : keptIdx f = List.range f.tdata.length := by
    rw [keptIdx, List.filter_eq_self]
    intro k _
    rw [hkeep]; simp [Side.value, maskTo]
  have hne' : List.range f.tdata.length ≠ [] := by
    intro h; have := congrArg List.length h; simp at this; exact hne this
  rw [hidx]
  simp only [hi, hd, hu, if_true]
  rw [collapse_const _ i _ (fun j => value_const h1 _) hne', collapse_const _ d _ (fun j => value_const h2 _) hne',
    collapse_const _ u _ (fun j => value_const h3 _) hne', h8]
  congr 2
  apply List.ext_getElem
  · simp
  · intro j g1 g2
    simp only [List.length_map, List.length_range] at g1
    have := hb _ (List.getElem_mem g1)
    simp only [List.getElem_map, List.getElem_range, List.getD_eq_getElem?_getD, List.getElem?_eq_getElem g1, Option.getD_some,
      maskTo]
    omega

example : beats { lanes := 4, size := 8 } { tdata := [1, 2, 3, 4, 5], tid := .scalar 3 } =
    [{ tdata := 0x04030201, tkeep := 15, tid := 3 }, { tdata := 5, tkeep := 1, tid := 3, tlast := true }] := by decide

/-- `tkeep` with a hole, and a `tid` that changes inside a beat -/
example : ((beats { lanes := 4, size := 8 } { tdata := [1, 2, 3, 4, 5], tkeep := .list [1, 0, 1], tid := .list [7, 8] }).foldl
    (fun r b => r.pushBeat { lanes := 4, size := 8 } b) (emptyFrame { lanes := 4, size := 8 })).compact =
    .ok ⟨true, [1, 3, 4, 5], .none, .scalar 8, .scalar 0, .scalar 0⟩ := by decide

end Verif.Axis
