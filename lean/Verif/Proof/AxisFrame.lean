import Verif.Spec.Axis

/-!
# Frames: normalizing, beats, compacting
-/

namespace Verif.Axis

/-! ## normalize -/

theorem stretch_spec (n : Nat) (l : List Int) :
    (l = [] ∧ stretch n l = .error .indexError) ∨
    (l ≠ [] ∧ stretch n l = .ok ((List.range n).map fun k => l.getD (min k (l.length - 1)) 0)) := by
  unfold stretch
  cases hl : l.getLast? with
  | none => left; exact ⟨List.getLast?_eq_none_iff.1 hl, rfl⟩
  | some v =>
    right
    have hne : l ≠ [] := by intro h; simp [h] at hl
    refine ⟨hne, ?_⟩
    have hv : l[l.length - 1]? = some v := by rw [← hl, List.getLast?_eq_getElem?]
    have hlen : 0 < l.length := List.length_pos_iff.2 hne
    show Except.ok _ = Except.ok _
    congr 1
    apply List.ext_getElem
    · simp; omega
    · intro i h1 h2
      simp only [List.length_append, List.length_take, List.length_replicate, List.length_map, List.length_range] at h1 h2
      simp only [List.getElem_map, List.getElem_range]
      by_cases hi : i < l.length
      · rw [List.getElem_append_left (by simp; omega)]
        simp only [List.getElem_take]
        have hmin : min i (l.length - 1) = i := by omega
        rw [show l.getD (min i (l.length - 1)) 0 = l.getD i 0 from congrArg (fun z => l.getD z 0) hmin]
        simp [List.getD_eq_getElem?_getD, hi]
      · rw [List.getElem_append_right (by simp; omega)]
        simp only [List.getElem_replicate]
        rw [Nat.min_eq_right (by omega), List.getD_eq_getElem?_getD, hv]
        rfl

theorem fit_spec (n : Nat) (s : Side) :
    (s = .list [] ∧ s.fit n = .error .indexError) ∨
    (s ≠ .list [] ∧ s.fit n = .ok (.list ((List.range n).map (s.value 0)))) := by
  cases s with
  | none => right; simp only [Side.fit]; refine ⟨by simp, ?_⟩; congr 2; apply List.ext_getElem <;> simp [Side.value]
  | scalar v => right; simp only [Side.fit]; refine ⟨by simp, ?_⟩; congr 2; apply List.ext_getElem <;> simp [Side.value]
  | list l =>
    rcases stretch_spec n l with ⟨h1, h2⟩ | ⟨h1, h2⟩
    · left; exact ⟨by rw [h1], by simp only [Side.fit, h2]; rfl⟩
    · right; exact ⟨by simpa using h1, by simp only [Side.fit, h2]; rfl⟩

theorem fitKeep_spec (n : Nat) (s : Side) :
    ((∃ v, s = .scalar v) ∧ s.fitKeep n = .error .typeError) ∨
    (s = .list [] ∧ s.fitKeep n = .error .indexError) ∨
    (((∀ v, s ≠ .scalar v) ∧ s ≠ .list []) ∧ s.fitKeep n = .ok (.list ((List.range n).map (s.value 1)))) := by
  cases s with
  | none => right; right; simp only [Side.fitKeep]; refine ⟨by simp, ?_⟩; congr 2; apply List.ext_getElem <;> simp [Side.value]
  | scalar v => left; exact ⟨⟨v, rfl⟩, rfl⟩
  | list l =>
    rcases stretch_spec n l with ⟨h1, h2⟩ | ⟨h1, h2⟩
    · right; left; exact ⟨by rw [h1], by simp only [Side.fitKeep, h2]; rfl⟩
    · right; right; exact ⟨by simpa using h1, by simp only [Side.fitKeep, h2]; rfl⟩

/-- A frame after `normalize`. -/
def normalized (f : Frame) : Frame :=
  let n := f.tdata.length
  { f with tkeep := .list ((List.range n).map (f.tkeep.value 1)), tid := .list ((List.range n).map (f.tid.value 0))
           tdest := .list ((List.range n).map (f.tdest.value 0)), tuser := .list ((List.range n).map (f.tuser.value 0)) }

theorem normalize_spec (f : Frame) :
    (f.proper ∧ f.normalize = (.ok (), normalized f)) ∨
    (¬ f.proper ∧ (f.normalize.1 = .error .indexError ∨ f.normalize.1 = .error .typeError)) := by
  unfold Frame.normalize Frame.proper
  simp only
  rcases fitKeep_spec f.tdata.length f.tkeep with ⟨⟨v, h1⟩, h2⟩ | ⟨h1, h2⟩ | ⟨h1, h2⟩
  · right; rw [h2]; exact ⟨fun h => h.1 v h1, .inr rfl⟩
  · right; rw [h2]; exact ⟨fun h => h.2.1 h1, .inl rfl⟩
  · rw [h2]; simp only
    rcases fit_spec f.tdata.length f.tid with ⟨g1, g2⟩ | ⟨g1, g2⟩
    · right; rw [g2]; exact ⟨fun h => h.2.2.1 g1, .inl rfl⟩
    · rw [g2]; simp only
      rcases fit_spec f.tdata.length f.tdest with ⟨k1, k2⟩ | ⟨k1, k2⟩
      · right; rw [k2]; exact ⟨fun h => h.2.2.2.1 k1, .inl rfl⟩
      · rw [k2]; simp only
        rcases fit_spec f.tdata.length f.tuser with ⟨l1, l2⟩ | ⟨l1, l2⟩
        · right; rw [l2]; exact ⟨fun h => h.2.2.2.2 l1, .inl rfl⟩
        · left; rw [l2]; exact ⟨⟨h1.1, h1.2, g1, k1, l1⟩, rfl⟩

theorem normalize_tdata (f : Frame) : f.normalize.2.tdata = f.tdata := by
  unfold Frame.normalize
  simp only
  repeat' split
  all_goals rfl

theorem at_map_range (n k : Nat) (g : Nat → Int) (h : k < n) : (Side.list ((List.range n).map g)).at k = g k := by
  simp [Side.at, List.getD_eq_getElem?_getD, h]

/-! ## Beats -/

theorem packed_lt (size : Nat) : ∀ ds : List Nat, (∀ d ∈ ds, d < 2 ^ size) → packed size ds < 2 ^ (size * ds.length)
  | [], _ => by simp [packed]
  | d :: ds, h => by
    have ih := packed_lt size ds (fun x hx => h x (List.mem_cons_of_mem _ hx))
    have hd := h d (List.mem_cons_self ..)
    simp only [packed, List.length_cons, Nat.mul_add, Nat.mul_one, Nat.pow_add]
    have : 2 ^ size * packed size ds + 2 ^ size ≤ 2 ^ size * 2 ^ (size * ds.length) := by
      rw [← Nat.mul_succ]; exact Nat.mul_le_mul_left _ ih
    rw [Nat.mul_comm (2 ^ (size * ds.length))]
    omega

theorem packed_append (size : Nat) : ∀ ds es : List Nat,
    packed size (ds ++ es) = packed size ds + 2 ^ (size * ds.length) * packed size es
  | [], es => by simp [packed]
  | d :: ds, es => by
    simp only [List.cons_append, packed, packed_append size ds es, List.length_cons, Nat.mul_add, Nat.mul_one, Nat.pow_add]
    rw [Nat.mul_comm (2 ^ (size * ds.length)) (2 ^ size), Nat.mul_assoc, Nat.add_assoc]

theorem packed_replicate_zero (size : Nat) : ∀ n, packed size (List.replicate n 0) = 0
  | 0 => rfl
  | n + 1 => by simp [List.replicate_succ, packed, packed_replicate_zero size n]

/-- Lane `i` of a packed word. -/
theorem packed_lane (size : Nat) : ∀ (ds : List Nat), (∀ d ∈ ds, d < 2 ^ size) → ∀ i,
    (packed size ds >>> (i * size)) % 2 ^ size = ds.getD i 0
  | [], _, i => by simp [packed, List.getD]
  | d :: ds, h, 0 => by
    have hd := h d (List.mem_cons_self ..)
    simp [packed, List.getD, Nat.add_mul_mod_self_left, Nat.mod_eq_of_lt hd]
  | d :: ds, h, i + 1 => by
    have hd := h d (List.mem_cons_self ..)
    have ih := packed_lane size ds (fun x hx => h x (List.mem_cons_of_mem _ hx)) i
    rw [Nat.add_mul, Nat.one_mul, Nat.add_comm (i * size), Nat.shiftRight_add, List.getD_cons_succ, ← ih]
    congr 2
    rw [Nat.shiftRight_eq_div_pow, packed, Nat.add_mul_div_left _ _ (Nat.pow_pos (by decide)), Nat.div_eq_of_lt hd]
    omega

theorem or_shift {a b i : Nat} (h : a < 2 ^ i) : a ||| (b <<< i) = a + 2 ^ i * b := by
  rw [Nat.or_comm, ← Nat.shiftLeft_add_eq_or_of_lt h, Nat.shiftLeft_eq]
  rw [Nat.mul_comm b]; omega

theorem maskTo_lt (b : Nat) (x : Int) : maskTo b x < 2 ^ b := by
  unfold maskTo
  have hp : (0 : Int) < ((2 ^ b : Nat) : Int) := by exact_mod_cast Nat.pow_pos (by decide)
  have h1 := Int.emod_lt_of_pos x hp
  have h0 := Int.emod_nonneg x (Int.ne_of_gt hp)
  omega

theorem map_range_succ_front {β : Type} (m : Nat) (g : Nat → β) :
    (List.range (m + 1)).map g = g 0 :: (List.range m).map fun i => g (i + 1) := by
  rw [List.range_succ_eq_map, List.map_cons, List.map_map]; rfl

/-- The loop over the lanes, in closed form. -/
theorem fill_spec (c : Cfg) (f : Frame) : ∀ (n lane off : Nat) (b : Beat) (ds ks : List Nat), off < f.tdata.length →
    (∀ d ∈ ds, d < 2 ^ c.size) → (∀ d ∈ ks, d < 2 ^ 1) → ds.length = lane → ks.length = lane →
    b.tdata = packed c.size ds → b.tkeep = packed 1 ks → b.tlast = false →
    ∃ m, m = min (n + 1) (f.tdata.length - off) ∧
    fill c f (n + 1) lane off b =
      ({ tdata := packed c.size (ds ++ (List.range m).map fun i => maskTo c.size (f.tdata.getD (off + i) 0))
         tkeep := packed 1 (ks ++ (List.range m).map fun i => maskTo 1 (f.tkeep.at (off + i)))
         tlast := decide (off + m ≥ f.tdata.length)
         tid := f.tid.at (off + m - 1), tdest := f.tdest.at (off + m - 1), tuser := f.tuser.at (off + m - 1) }, off + m) := by
  intro n
  induction n with
  | zero =>
    intro lane off b ds ks hoff hds hks hl1 hl2 hb1 hb2 hb3
    refine ⟨1, by omega, ?_⟩
    have e1 : b.tdata ||| (maskTo c.size (f.tdata.getD off 0) <<< (lane * c.size)) =
        packed c.size (ds ++ [maskTo c.size (f.tdata.getD off 0)]) := by
      rw [packed_append, hb1, or_shift (by rw [← hl1, Nat.mul_comm]; exact packed_lt _ _ hds), ← hl1, Nat.mul_comm c.size]
      simp [packed]
    have e2 : b.tkeep ||| (maskTo 1 (f.tkeep.at off) <<< lane) = packed 1 (ks ++ [maskTo 1 (f.tkeep.at off)]) := by
      rw [packed_append, hb2, or_shift (by have := packed_lt 1 ks hks; rwa [hl2, Nat.one_mul] at this), ← hl2, Nat.one_mul]
      simp [packed]
    simp only [fill, e1, e2]
    split
    · rename_i h; simp [h]
    · rename_i h; simp [h, hb3]
  | succ n ih =>
    intro lane off b ds ks hoff hds hks hl1 hl2 hb1 hb2 hb3
    have e1 : b.tdata ||| (maskTo c.size (f.tdata.getD off 0) <<< (lane * c.size)) =
        packed c.size (ds ++ [maskTo c.size (f.tdata.getD off 0)]) := by
      rw [packed_append, hb1, or_shift (by rw [← hl1, Nat.mul_comm]; exact packed_lt _ _ hds), ← hl1, Nat.mul_comm c.size]
      simp [packed]
    have e2 : b.tkeep ||| (maskTo 1 (f.tkeep.at off) <<< lane) = packed 1 (ks ++ [maskTo 1 (f.tkeep.at off)]) := by
      rw [packed_append, hb2, or_shift (by have := packed_lt 1 ks hks; rwa [hl2, Nat.one_mul] at this), ← hl2, Nat.one_mul]
      simp [packed]
    unfold fill
    simp only [e1, e2]
    split
    · rename_i h
      refine ⟨1, by omega, ?_⟩
      simp [h]
    · rename_i h
      obtain ⟨m, hm, ih⟩ := ih (lane + 1) (off + 1)
        { b with tdata := packed c.size (ds ++ [maskTo c.size (f.tdata.getD off 0)])
                 tkeep := packed 1 (ks ++ [maskTo 1 (f.tkeep.at off)])
                 tid := f.tid.at off, tdest := f.tdest.at off, tuser := f.tuser.at off } (ds ++ [maskTo c.size (f.tdata.getD off 0)])
        (ks ++ [maskTo 1 (f.tkeep.at off)]) (by omega)
        (by
          intro d hd
          rcases List.mem_append.1 hd with hd | hd
          · exact hds d hd
          · rw [List.mem_singleton.1 hd]; exact maskTo_lt _ _)
        (by
          intro d hd
          rcases List.mem_append.1 hd with hd | hd
          · exact hks d hd
          · rw [List.mem_singleton.1 hd]; exact maskTo_lt _ _)
        (by simp [hl1]) (by simp [hl2]) rfl rfl hb3
      refine ⟨m + 1, by omega, ?_⟩
      have hadd : off + 1 + m = off + (m + 1) := by omega
      rw [ih, map_range_succ_front, map_range_succ_front]
      simp only [List.append_assoc, List.singleton_append, Nat.add_zero, hadd]
      simp only [Nat.add_assoc, Nat.add_comm 1]

/-- The beats of a normalized frame. -/
theorem nextBeat_spec (c : Cfg) (hl : 0 < c.lanes) (f : Frame) (k : Nat) (hk : k * c.lanes < f.tdata.length) :
    nextBeat c (normalized f) (k * c.lanes) = (beatAt c f k, min ((k + 1) * c.lanes) f.tdata.length) := by
  have hn : (normalized f).tdata = f.tdata := rfl
  obtain ⟨n, hn'⟩ : ∃ n, c.lanes = n + 1 := ⟨c.lanes - 1, by omega⟩
  obtain ⟨m, hm, h⟩ := fill_spec c (normalized f) n 0 (k * c.lanes) {} [] [] (by rw [hn]; exact hk) (by simp) (by simp) rfl rfl
    rfl rfl rfl
  rw [hn] at hm h
  rw [nextBeat, hn', ← hn', show fill c (normalized f) c.lanes 0 (k * c.lanes) {} =
    fill c (normalized f) (n + 1) 0 (k * c.lanes) {} by rw [hn'], h]
  have hk1 : (k + 1) * c.lanes = k * c.lanes + c.lanes := by rw [Nat.add_mul, Nat.one_mul]
  have hm' : k * c.lanes + m = min ((k + 1) * c.lanes) f.tdata.length := by omega
  have hsplit : ∀ (size : Nat) (g : Nat → Nat),
      packed size ((List.range c.lanes).map fun i => if k * c.lanes + i < f.tdata.length then g i else 0) =
      packed size ((List.range m).map g) := by
    intro size g
    have hr : (List.range c.lanes).map (fun i => if k * c.lanes + i < f.tdata.length then g i else 0) =
        (List.range m).map g ++ List.replicate (c.lanes - m) 0 := by
      apply List.ext_getElem
      · simp; omega
      · intro i h1 h2
        simp only [List.length_map, List.length_range] at h1
        simp only [List.getElem_map, List.getElem_range]
        by_cases hi : i < m
        · rw [List.getElem_append_left (by simpa using hi), if_pos (by omega)]; simp
        · rw [List.getElem_append_right (by simp; omega), if_neg (by omega)]; simp
    rw [hr, packed_append, packed_replicate_zero]; rfl
  have hat : ∀ (s : Nat → Int), (Side.list ((List.range f.tdata.length).map s)).at (k * c.lanes + m - 1) =
      s (min ((k + 1) * c.lanes) f.tdata.length - 1) := by
    intro s
    rw [hm', at_map_range _ _ _ (by omega)]
  refine Prod.ext ?_ hm'
  simp only [beatAt, hsplit, List.nil_append, normalized]
  congr 1
  · congr 1; apply propext; omega
  · congr 1
    apply List.map_congr_left
    intro i hi
    rw [List.mem_range] at hi
    rw [at_map_range _ _ _ (by omega)]
  · exact hat _
  · exact hat _
  · exact hat _

/-! ## Receiving -/

/-- A received frame, given by its lists. -/
def ofLists (c : Cfg) (l : Lists) : Frame :=
  { isBytes := decide (c.size = 8), tdata := l.data, tkeep := .list l.keep, tid := .list l.id, tdest := .list l.dest
    tuser := .list l.user }

/-- The bytes of a beat. -/
def beatData (c : Cfg) (b : Beat) : List Int :=
  (List.range c.lanes).map fun k => (((b.tdata >>> (k * c.size)) % 2 ^ c.size : Nat) : Int)

/-- The `tkeep` bits of a beat. -/
def beatKeep (c : Cfg) (b : Beat) : List Int :=
  if c.hasKeep then (List.range c.lanes).map fun k => (((b.tkeep >>> k) % 2 : Nat) : Int) else []

/-- The lists after another beat. -/
def addBeat (c : Cfg) (l : Lists) (b : Beat) : Lists :=
  { data := l.data ++ beatData c b
    keep := l.keep ++ beatKeep c b
    id := l.id ++ if c.hasId then List.replicate c.lanes b.tid else []
    dest := l.dest ++ if c.hasDest then List.replicate c.lanes b.tdest else []
    user := l.user ++ if c.hasUser then List.replicate c.lanes b.tuser else [] }

theorem pushBeat_spec (c : Cfg) (l : Lists) (b : Beat) : (ofLists c l).pushBeat c b = ofLists c (addBeat c l b) := by
  unfold Frame.pushBeat addBeat beatData beatKeep
  generalize c.lanes = n
  induction n with
  | zero => simp [ofLists]
  | succ n ih =>
    rw [List.range_succ, List.foldl_append, ih]
    simp only [List.foldl_cons, List.foldl_nil, Frame.pushLane, ofLists, Side.push, List.map_append, List.map_cons, List.map_nil,
      List.append_assoc, List.replicate_succ']
    congr 2
    · split <;> simp
    · split <;> simp
    · split <;> simp
    · split <;> simp

theorem emptyFrame_eq (c : Cfg) : emptyFrame c = ofLists c ⟨[], [], [], [], []⟩ := rfl

/-- The lists of a received sequence of beats. -/
def received (c : Cfg) (bs : List Beat) : Lists :=
  { data := bs.flatMap (beatData c), keep := bs.flatMap (beatKeep c)
    id := if c.hasId then bs.flatMap fun b => List.replicate c.lanes b.tid else []
    dest := if c.hasDest then bs.flatMap fun b => List.replicate c.lanes b.tdest else []
    user := if c.hasUser then bs.flatMap fun b => List.replicate c.lanes b.tuser else [] }

theorem received_snoc (c : Cfg) (bs : List Beat) (b : Beat) : received c (bs ++ [b]) = addBeat c (received c bs) b := by
  simp only [received, addBeat, List.flatMap_append, List.flatMap_cons, List.flatMap_nil, List.append_nil]
  congr 1 <;> split <;> simp

theorem pushBeats_spec (c : Cfg) : ∀ (bs pre : List Beat),
    bs.foldl (fun f b => f.pushBeat c b) (ofLists c (received c pre)) = ofLists c (received c (pre ++ bs))
  | [], pre => by simp
  | b :: bs, pre => by
    rw [List.foldl_cons, pushBeat_spec, ← received_snoc, pushBeats_spec c bs (pre ++ [b])]
    simp

theorem receive_spec (c : Cfg) (bs : List Beat) :
    bs.foldl (fun f b => f.pushBeat c b) (emptyFrame c) = ofLists c (received c bs) := by
  rw [emptyFrame_eq, show (⟨[], [], [], [], []⟩ : Lists) = received c [] by simp [received]]
  simpa using pushBeats_spec c bs []

/-! ## compact -/

theorem kept_nil (k : List Int) : kept k [] = [] := by simp [kept]

theorem kept_snoc (keep l : List Int) (k : Nat) (v : Int) (hk : keep[k]? = some v) :
    kept (keep.take (k + 1)) (l.take (k + 1)) =
      kept (keep.take k) (l.take k) ++ if v = 0 then [] else l[k]?.toList := by
  have hkl : k < keep.length := (List.getElem?_eq_some_iff.1 hk).1
  have hkt : keep.take (k + 1) = keep.take k ++ [v] := by
    rw [List.take_add_one, hk]; rfl
  by_cases hl : k < l.length
  · have hlt : l.take (k + 1) = l.take k ++ [l[k]] := by rw [List.take_succ_eq_append_getElem hl]
    rw [hkt, hlt, kept, List.zip_append (by simp; omega), List.filter_append, List.map_append]
    congr 1
    by_cases hv : v = 0 <;> simp [hv, hl]
  · have h1 : l.take (k + 1) = l := List.take_of_length_le (by omega)
    have h2 : l.take k = l := List.take_of_length_le (by omega)
    rw [h1, h2, hkt, List.getElem?_eq_none (by omega)]
    simp only [Option.toList_none, ite_self, List.append_nil, kept]
    congr 2
    have : (keep.take k).length = k := by simp; omega
    rcases Nat.lt_or_ge l.length k with hlt | hge
    · conv => lhs; rw [show l = l ++ [] by simp]
      have hsp : keep.take k ++ [v] = keep.take l.length ++ ((keep.take k).drop l.length ++ [v]) := by
        rw [← List.append_assoc]
        congr 1
        have := (List.take_append_drop l.length (keep.take k)).symm
        rwa [List.take_take, Nat.min_eq_left (by omega)] at this
      rw [hsp, List.zip_append (by simp; omega)]
      have hsp2 : keep.take k = keep.take l.length ++ (keep.take k).drop l.length := by
        have := (List.take_append_drop l.length (keep.take k)).symm
        rwa [List.take_take, Nat.min_eq_left (by omega)] at this
      conv => rhs; rw [hsp2, show l = l ++ [] by simp]
      rw [List.zip_append (by simp; omega)]
      simp
    · have : l.length = k := by omega
      conv => lhs; rw [show l = l ++ [] by simp]
      rw [List.zip_append (by simp; omega)]
      simp

theorem delAt_take (l : List Int) (k : Nat) : (delAt l k).take k = l.take k := by
  unfold delAt; split
  · rw [List.eraseIdx_eq_take_drop_succ, List.take_append_of_le_length (by simp; omega), List.take_take, Nat.min_self]
  · rfl

theorem delAt_drop (l : List Int) (k : Nat) : (delAt l k).drop k = l.drop (k + 1) := by
  unfold delAt; split
  · rw [List.eraseIdx_eq_take_drop_succ, List.drop_append_of_le_length (by simp; omega)]
    simp
  · rw [List.drop_eq_nil_of_le (by omega), List.drop_eq_nil_of_le (by omega)]

/-- The loop of `compact`, in closed form. -/
theorem compactLoop_spec : ∀ (k : Nat) (l : Lists), k ≤ l.keep.length → ∃ r,
    compactLoop k l = .ok r ∧
      r.data = kept (l.keep.take k) (l.data.take k) ++ l.data.drop k ∧
      r.id = kept (l.keep.take k) (l.id.take k) ++ l.id.drop k ∧
      r.dest = kept (l.keep.take k) (l.dest.take k) ++ l.dest.drop k ∧
      r.user = kept (l.keep.take k) (l.user.take k) ++ l.user.drop k
  | 0, l, _ => ⟨l, rfl, by simp [kept]⟩
  | k + 1, l, hk => by
    have hv : l.keep[k]? = some l.keep[k] := List.getElem?_eq_getElem (by omega)
    unfold compactLoop
    rw [hv]
    simp only
    have split' : ∀ (x : List Int), l.keep[k] ≠ 0 →
        kept (l.keep.take (k + 1)) (x.take (k + 1)) ++ x.drop (k + 1) =
        kept (l.keep.take k) (x.take k) ++ x.drop k := by
      intro x h0
      rw [kept_snoc _ _ _ _ hv, if_neg h0, List.append_assoc]
      congr 1
      by_cases hx : k < x.length
      · rw [List.drop_eq_getElem_cons hx, List.getElem?_eq_getElem hx]; rfl
      · rw [List.drop_eq_nil_of_le (by omega), List.drop_eq_nil_of_le (by omega), List.getElem?_eq_none (by omega)]; rfl
    by_cases h0 : l.keep[k] = 0
    · rw [if_pos h0]
      obtain ⟨r, h1, h2, h3, h4, h5⟩ := compactLoop_spec k
        ⟨delAt l.data k, delAt l.keep k, delAt l.id k, delAt l.dest k, delAt l.user k⟩ (by
          simp only [delAt]; rw [if_pos (by omega), List.length_eraseIdx, if_pos (by omega)]; omega)
      refine ⟨r, h1, ?_, ?_, ?_, ?_⟩
      · rw [h2]; simp only [delAt_take, delAt_drop]; rw [kept_snoc _ _ _ _ hv, if_pos h0, List.append_nil]
      · rw [h3]; simp only [delAt_take, delAt_drop]; rw [kept_snoc _ _ _ _ hv, if_pos h0, List.append_nil]
      · rw [h4]; simp only [delAt_take, delAt_drop]; rw [kept_snoc _ _ _ _ hv, if_pos h0, List.append_nil]
      · rw [h5]; simp only [delAt_take, delAt_drop]; rw [kept_snoc _ _ _ _ hv, if_pos h0, List.append_nil]
    · rw [if_neg h0]
      obtain ⟨r, h1, h2, h3, h4, h5⟩ := compactLoop_spec k l (by omega)
      exact ⟨r, h1, by rw [h2, split' _ h0], by rw [h3, split' _ h0], by rw [h4, split' _ h0], by rw [h5, split' _ h0]⟩

end Verif.Axis
