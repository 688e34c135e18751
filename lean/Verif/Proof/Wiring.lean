import Verif.Spec.Wiring
import Verif.Props.DefineStream
import Verif.Props.AxisGeometry

/-! Proofs for C138 and C139. -/

namespace Verif.Wiring

open DefineStream (Str Stream Widths defineStream bind)

theorem fullName_eq (pfx : Option Str) (s : String) : fullName pfx s = sigName pfx s.toList := by
  unfold fullName sigName
  cases pfx with
  | none => rfl
  | some p =>
    cases p with
    | nil => rfl
    | cons c p => simp

theorem lookup_handles (d : Design) (pfx : Option Str) (a : Str) (l : List Str) :
    (l.filterMap fun s => (d (sigName pfx s)).map fun w => (s, sigName pfx s, w)).lookup a =
      if a ∈ l then (d (sigName pfx a)).map (fun w => (sigName pfx a, w)) else none := by
  induction l with
  | nil => rfl
  | cons s l ih =>
    rw [List.filterMap_cons]
    cases hd : d (sigName pfx s) with
    | none =>
      simp only [Option.map_none]
      rw [ih]
      by_cases ha : a = s
      · subst ha; simp [hd]
      · simp [ha]
    | some w =>
      simp only [Option.map_some, List.lookup]
      by_cases ha : a = s
      · subst ha; simp [hd]
      · have : (a == s) = false := by simpa using ha
        rw [this, ih]; simp [ha]

/-- What a connected bus is. -/
structure IsBus (d : Design) (pfx : Option Str) (all : List Str) (b : Bus) : Prop where
  eq : b.handles = all.filterMap fun s => (d (sigName pfx s)).map fun w => (s, sigName pfx s, w)

theorem connect_ok {signals optional : List Str} {d : Design} {pfx : Option Str} {b : Bus}
    (h : connect signals optional d pfx = .ok b) :
    (∀ s ∈ signals, d (sigName pfx s) ≠ none) ∧ IsBus d pfx (signals ++ optional) b := by
  unfold connect at h
  split at h
  · cases h
  · rename_i hn
    injection h with h; subst h
    refine ⟨fun s hs hd => hn (List.any_eq_true.2 ⟨s, hs, by simp [hd]⟩), ⟨rfl⟩⟩

theorem connect_error {signals optional : List Str} {d : Design} {pfx : Option Str} {e : PyErr}
    (h : connect signals optional d pfx = .error e) :
    e = .attributeError ∧ ∃ s ∈ signals, d (sigName pfx s) = none := by
  unfold connect at h
  split at h
  · rename_i hn
    injection h with h
    obtain ⟨s, h1, h2⟩ := List.any_eq_true.1 hn
    exact ⟨h.symm, s, h1, by simpa using h2⟩
  · cases h

theorem IsBus.len {d : Design} {pfx : Option Str} {all : List Str} {b : Bus} (h : IsBus d pfx all b) (a : Str) :
    b.len a = if a ∈ all then d (sigName pfx a) else none := by
  unfold Bus.len
  rw [h.eq, lookup_handles]
  split
  · cases d (sigName pfx a) <;> rfl
  · rfl

theorem IsBus.names {d : Design} {pfx : Option Str} {all : List Str} {b : Bus} (h : IsBus d pfx all b) (attrs : List Str) (n : Str) :
    n ∈ b.names attrs ↔ ∃ a ∈ attrs, a ∈ all ∧ n = sigName pfx a ∧ d n ≠ none := by
  unfold Bus.names
  rw [List.mem_filterMap]
  constructor
  · rintro ⟨a, ha, hb⟩
    rw [h.eq, lookup_handles] at hb
    split at hb
    · rename_i hall
      cases hd : d (sigName pfx a) with
      | none => rw [hd] at hb; simp at hb
      | some w =>
        rw [hd] at hb
        simp at hb
        exact ⟨a, ha, hall, hb.symm, by rw [← hb, hd]; simp⟩
    · simp at hb
  · rintro ⟨a, ha, hall, rfl, hd⟩
    refine ⟨a, ha, ?_⟩
    rw [h.eq, lookup_handles, if_pos hall]
    cases hd' : d (sigName pfx a) with
    | none => exact absurd hd' hd
    | some w => rfl

theorem IsBus.has {d : Design} {pfx : Option Str} {all : List Str} {b : Bus} (h : IsBus d pfx all b) (a : Str) :
    a ∈ b.handles.map Prod.fst ↔ a ∈ all ∧ d (sigName pfx a) ≠ none := by
  rw [h.eq, List.mem_map]
  constructor
  · rintro ⟨x, hx, rfl⟩
    obtain ⟨s, hs, hx⟩ := List.mem_filterMap.1 hx
    cases hd : d (sigName pfx s) with
    | none => rw [hd] at hx; cases hx
    | some w =>
      rw [hd] at hx
      simp only [Option.map_some, Option.some.injEq] at hx
      subst hx
      exact ⟨hs, by simp [hd]⟩
  · rintro ⟨ha, hd⟩
    cases hd' : d (sigName pfx a) with
    | none => exact absurd hd' hd
    | some w => exact ⟨(a, sigName pfx a, w), List.mem_filterMap.2 ⟨a, ha, by rw [hd']; rfl⟩, rfl⟩

/-- The names of the attributes of a stream type. -/
def all (st : Stream) : List Str := st.signals ++ st.optional

/-- What a list of connected channels is. -/
structure IsBuses (d : Design) (pfx : Option Str) (sts : List (Stream × Role)) (bs : List (Stream × Role × Bus)) : Prop where
  map : bs.map (fun x => (x.1, x.2.1)) = sts
  bus : ∀ x ∈ bs, IsBus d pfx (all x.1) x.2.2
  exist : ∀ x ∈ sts, ∀ s ∈ x.1.signals, d (sigName pfx s) ≠ none

theorem connectAll_ok {d : Design} {pfx : Option Str} {sts : List (Stream × Role)} {bs : List (Stream × Role × Bus)}
    (h : connectAll d pfx sts = .ok bs) : IsBuses d pfx sts bs := by
  induction sts generalizing bs with
  | nil => cases h; exact ⟨rfl, fun x hx => (by cases hx), fun x hx => (by cases hx)⟩
  | cons x rest ih =>
    obtain ⟨st, r⟩ := x
    unfold connectAll at h
    split at h
    · cases h
    · rename_i b hb
      split at h
      · cases h
      · rename_i l hl
        injection h with h; subst h
        have i := ih hl
        obtain ⟨c1, c2⟩ := connect_ok hb
        refine ⟨by rw [List.map_cons, i.map], ?_, ?_⟩
        · intro x hx
          rcases List.mem_cons.1 hx with h | h
          · subst h; exact c2
          · exact i.bus x h
        · intro x hx
          rcases List.mem_cons.1 hx with h | h
          · subst h; exact c1
          · exact i.exist x h

theorem connectAll_error {d : Design} {pfx : Option Str} {sts : List (Stream × Role)} {e : PyErr}
    (h : connectAll d pfx sts = .error e) : e = .attributeError ∧ ∃ x ∈ sts, ∃ s ∈ x.1.signals, d (sigName pfx s) = none := by
  induction sts with
  | nil => cases h
  | cons x rest ih =>
    obtain ⟨st, r⟩ := x
    unfold connectAll at h
    split at h
    · rename_i e' he
      injection h with h; subst h
      obtain ⟨h1, s, h2, h3⟩ := connect_error he
      exact ⟨h1, _, List.mem_cons_self, s, h2, h3⟩
    · split at h
      · rename_i e' he
        injection h with h; subst h
        obtain ⟨h1, x, h2, h3⟩ := ih he
        exact ⟨h1, x, List.mem_cons_of_mem _ h2, h3⟩
      · cases h

/-- The attributes that the end of a channel writes. -/
def endWrites (x : Stream × Role) : List Str := (initWrites x.2 x.1 ++ runWrites x.2 x.1).filter fun a => a ∈ all x.1

/-- The widths that a channel asks for. -/
def WidthsOK (d : Design) (pfx : Option Str) (st : Stream) : Prop :=
  ∀ s ∈ all st, ∀ n w, d (sigName pfx s) = some n → st.widths.lookup (some s) = some w → n = w

theorem bind_iff {d : Design} {pfx : Option Str} {st : Stream} {b : Bus} (h : IsBus d pfx (all st) b)
    (he : ∀ s ∈ st.signals, d (sigName pfx s) ≠ none) : (∃ x, bind st b.len = .ok x) ↔ WidthsOK d pfx st := by
  rw [DefineStream.C87_attach]
  have hs : ∀ s ∈ all st, b.len s = d (sigName pfx s) := fun s hs => by rw [h.len, if_pos hs]
  constructor
  · rintro ⟨-, h2⟩ s hs' n w hn hw
    exact h2 s hs' n w (by rw [hs s hs']; exact hn) hw
  · intro h2
    refine ⟨fun s hs' => by rw [hs s (List.mem_append_left _ hs')]; exact he s hs', fun s hs' n w hn hw => ?_⟩
    exact h2 s hs' n w (by rw [← hs s hs']; exact hn) hw

theorem bind_error {d : Design} {pfx : Option Str} {st : Stream} {b : Bus} (h : IsBus d pfx (all st) b)
    (he : ∀ s ∈ st.signals, d (sigName pfx s) ≠ none) {e : PyErr} (hb : bind st b.len = .error e) : e = .assertionError := by
  unfold DefineStream.bind at hb
  split at hb
  · rename_i hn
    obtain ⟨s, h1, h2⟩ := List.any_eq_true.1 hn
    rw [h.len, if_pos (show s ∈ all st from List.mem_append_left _ h1)] at h2
    exact absurd (by simpa using h2) (he s h1)
  · split at hb
    · cases hb
    · injection hb with hb; exact hb.symm

theorem createEnds_ok {d : Design} {pfx : Option Str} {bs : List (Stream × Role × Bus)} {ns : List Str}
    (hb : ∀ x ∈ bs, IsBus d pfx (all x.1) x.2.2) (he : ∀ x ∈ bs, ∀ s ∈ x.1.signals, d (sigName pfx s) ≠ none)
    (h : createEnds bs = .ok ns) :
    (∀ x ∈ bs, WidthsOK d pfx x.1) ∧
    ∀ n, n ∈ ns ↔ ∃ a ∈ (bs.map fun x => (x.1, x.2.1)).flatMap endWrites, n = sigName pfx a ∧ d n ≠ none := by
  induction bs generalizing ns with
  | nil => cases h; simp
  | cons x rest ih =>
    obtain ⟨st, r, b⟩ := x
    unfold createEnds at h
    split at h
    · cases h
    · rename_i names hnames
      split at h
      · cases h
      · rename_i l hl
        injection h with h; subst h
        obtain ⟨i1, i2⟩ := ih (fun x hx => hb x (List.mem_cons_of_mem _ hx)) (fun x hx => he x (List.mem_cons_of_mem _ hx)) hl
        have hb0 := hb _ List.mem_cons_self
        have he0 := he _ List.mem_cons_self
        unfold streamEnd at hnames
        split at hnames
        · cases hnames
        · rename_i bd hbd
          injection hnames with hnames; subst hnames
          refine ⟨fun x hx => ?_, fun n => ?_⟩
          · rcases List.mem_cons.1 hx with h | h
            · subst h; exact (bind_iff hb0 he0).1 ⟨bd, hbd⟩
            · exact i1 x h
          · rw [List.mem_append, List.mem_append, i2 n, hb0.names, hb0.names, List.map_cons, List.flatMap_cons]
            constructor
            · rintro ((⟨a, h1, h2, h3⟩ | ⟨a, h1, h2, h3⟩) | ⟨a, h1, h2⟩)
              · exact ⟨a, List.mem_append_left _ (by unfold endWrites; simp [h1, h2]), h3⟩
              · exact ⟨a, List.mem_append_left _ (by unfold endWrites; simp [h1, h2]), h3⟩
              · exact ⟨a, List.mem_append_right _ h1, h2⟩
            · rintro ⟨a, h1, h2⟩
              rcases List.mem_append.1 h1 with h1 | h1
              · unfold endWrites at h1
                simp only [List.mem_filter, List.mem_append, decide_eq_true_eq] at h1
                rcases h1.1 with h | h
                · exact .inl (.inl ⟨a, h, h1.2, h2⟩)
                · exact .inl (.inr ⟨a, h, h1.2, h2⟩)
              · exact .inr ⟨a, h1, h2⟩

theorem createEnds_error {d : Design} {pfx : Option Str} {bs : List (Stream × Role × Bus)} {e : PyErr}
    (hb : ∀ x ∈ bs, IsBus d pfx (all x.1) x.2.2) (he : ∀ x ∈ bs, ∀ s ∈ x.1.signals, d (sigName pfx s) ≠ none)
    (h : createEnds bs = .error e) : e = .assertionError ∧ ∃ x ∈ bs, ¬ WidthsOK d pfx x.1 := by
  induction bs with
  | nil => cases h
  | cons x rest ih =>
    obtain ⟨st, r, b⟩ := x
    unfold createEnds at h
    split at h
    · rename_i e' he'
      injection h with h; subst h
      unfold streamEnd at he'
      split at he'
      · rename_i e'' hbd
        injection he' with he'; subst he'
        refine ⟨bind_error (hb _ List.mem_cons_self) (he _ List.mem_cons_self) hbd, _, List.mem_cons_self, fun hw => ?_⟩
        obtain ⟨x, hx⟩ := (bind_iff (hb _ List.mem_cons_self) (he _ List.mem_cons_self)).2 hw
        dsimp only at hx hbd
        rw [hx] at hbd; cases hbd
      · cases he'
    · split at h
      · rename_i e' he'
        injection h with h; subst h
        obtain ⟨h1, x, h2, h3⟩ := ih (fun x hx => hb x (List.mem_cons_of_mem _ hx)) (fun x hx => he x (List.mem_cons_of_mem _ hx)) he'
        exact ⟨h1, x, List.mem_cons_of_mem _ h2, h3⟩
      · cases h

theorem lenOf_eq {d : Design} {pfx : Option Str} (bs : List (Stream × Role × Bus))
    (hb : ∀ x ∈ bs, IsBus d pfx (all x.1) x.2.2) (a : String)
    (ha : ∃ x ∈ bs.map (fun x => (x.1, x.2.1)), a.toList ∈ all x.1) : lenOf bs a = d (fullName pfx a) := by
  rw [fullName_eq]
  have key : ∀ bs : List (Stream × Role × Bus), (∀ x ∈ bs, IsBus d pfx (all x.1) x.2.2) →
      lenOf bs a = if ∃ x ∈ bs, a.toList ∈ all x.1 then d (sigName pfx a.toList) else none := by
    intro bs
    induction bs with
    | nil => intro _; rw [if_neg (by simp)]; rfl
    | cons x rest ih =>
      intro hb
      have i := ih fun x hx => hb x (List.mem_cons_of_mem _ hx)
      unfold lenOf at i ⊢
      rw [List.findSome?_cons, (hb x List.mem_cons_self).len, i]
      by_cases hx : a.toList ∈ all x.1
      · rw [if_pos hx]
        have : ∃ y ∈ x :: rest, a.toList ∈ all y.1 := ⟨x, List.mem_cons_self, hx⟩
        rw [if_pos this]
        cases hd : d (sigName pfx a.toList) with
        | some w => rfl
        | none => simp
      · rw [if_neg hx]
        simp only [List.mem_cons, exists_eq_or_imp, hx, false_or]
  obtain ⟨x, hx, hx'⟩ := ha
  obtain ⟨y, hy, rfl⟩ := List.mem_map.1 hx
  rw [key bs hb, if_pos ⟨y, hy, hx'⟩]

/-! ## The tables -/

/-- Lists with the same members. -/
def sameMem (l m : List Str) : Bool := l.all (fun x => m.contains x) && m.all (fun x => l.contains x)

theorem sameMem_iff {l m : List Str} (h : sameMem l m = true) (x : Str) : x ∈ l ↔ x ∈ m := by
  unfold sameMem at h
  simp only [Bool.and_eq_true, List.all_eq_true, List.contains_iff_mem] at h
  exact ⟨h.1 x, h.2 x⟩

/-- The stream types of some channels agree with the tables. -/
structure Tab (sts : List (Stream × Role)) (outs ins req : List String) (fx : List (String × Nat)) (used : List String) : Prop where
  out : ∀ a, a ∈ sts.flatMap endWrites ↔ a ∈ outs.map String.toList
  whole : ∀ a, a ∈ sts.flatMap (fun x => Wiring.all x.1) ↔ a ∈ (outs ++ ins).map String.toList
  need : ∀ a, a ∈ sts.flatMap (fun x => x.1.signals) ↔ a ∈ req.map String.toList
  width : ∀ x ∈ sts, ∀ a ∈ Wiring.all x.1, x.1.widths.lookup (some a) = (fx.map fun y => (y.1.toList, y.2)).lookup a
  uses : ∀ a ∈ used, ∃ x ∈ sts, a.toList ∈ Wiring.all x.1

def tabOK (sts : Py (List (Stream × Role))) (outs ins req : List String) (fx : List (String × Nat)) (used : List String) : Bool :=
  match sts with
  | .error _ => false
  | .ok sts => sameMem (sts.flatMap endWrites) (outs.map String.toList) &&
    sameMem (sts.flatMap fun x => all x.1) ((outs ++ ins).map String.toList) &&
    sameMem (sts.flatMap fun x => x.1.signals) (req.map String.toList) &&
    sts.all (fun x => (all x.1).all fun a => x.1.widths.lookup (some a) == (fx.map fun y => (y.1.toList, y.2)).lookup a) &&
    used.all (fun a => sts.any fun x => (all x.1).contains a.toList)

theorem tab_of {sts : Py (List (Stream × Role))} {outs ins req : List String} {fx : List (String × Nat)} {used : List String}
    (h : tabOK sts outs ins req fx used = true) : ∃ l, sts = .ok l ∧ Tab l outs ins req fx used := by
  unfold tabOK at h
  split at h
  · cases h
  · rename_i l
    simp only [Bool.and_eq_true, List.all_eq_true, List.any_eq_true, beq_iff_eq, List.contains_iff_mem] at h
    obtain ⟨⟨⟨⟨h1, h2⟩, h3⟩, h4⟩, h5⟩ := h
    exact ⟨l, rfl, sameMem_iff h1, sameMem_iff h2, sameMem_iff h3, fun x hx a ha => h4 x hx a ha, fun a ha => h5 a ha⟩

/-- The signals of the write channels that a component drives and those that it does not. -/
def wOuts (p : Proto) : Side → List String
  | .master => masterWriteOut p
  | .slave => slaveWriteOut p

def wIns (p : Proto) : Side → List String
  | .master => slaveWriteOut p
  | .slave => masterWriteOut p

def rOuts (p : Proto) : Side → List String
  | .master => masterReadOut p
  | .slave => slaveReadOut p

def rIns (p : Proto) : Side → List String
  | .master => slaveReadOut p
  | .slave => masterReadOut p

def wUsed : Proto → List String
  | .axi => ["wdata", "wstrb", "awaddr", "bid", "awid"]
  | .lite => ["wdata", "wstrb", "awaddr"]

def rUsed : Proto → List String
  | .axi => ["rdata", "araddr", "rid", "arid"]
  | .lite => ["rdata", "araddr"]

theorem writeTab (p : Proto) (s : Side) : ∃ l, streams (writeChans p s) = .ok l ∧
    Tab l (wOuts p s) (wIns p s) (writeRequired p) (writeFixed p) (wUsed p) := by
  apply tab_of
  cases p <;> cases s <;> decide +kernel

theorem readTab (p : Proto) (s : Side) : ∃ l, streams (readChans p s) = .ok l ∧
    Tab l (rOuts p s) (rIns p s) (readRequired p) (readFixed p) (rUsed p) := by
  apply tab_of
  cases p <;> cases s <;> decide +kernel

/-! ## Halves -/

/-- What a half is, once it exists: `req`, `fx` and so on are the tables, `w` gives the widths of the signals. -/
structure IsPart (d : Design) (pfx : Option Str) (outs ins : List String) (data : String) (x : Part) : Prop where
  drives : ∀ n, n ∈ x.drives ↔ ∃ s ∈ outs, n = fullName pfx s ∧ d n ≠ none
  has : ∀ a, a ∈ x.has ↔ ∃ s ∈ outs ++ ins, a = s.toList ∧ d (fullName pfx s) ≠ none
  lanes : ∃ n, d (fullName pfx data) = some n ∧ n = 8 * x.lanes

section
variable {d : Design} {pfx : Option Str} {sts : List (Stream × Role)} {bs : List (Stream × Role × Bus)}
  {outs ins req used : List String} {fx : List (String × Nat)}

theorem IsBuses.existB (hb : IsBuses d pfx sts bs) : ∀ x ∈ bs, ∀ s ∈ x.1.signals, d (sigName pfx s) ≠ none := by
  intro x hx
  have : (x.1, x.2.1) ∈ sts := by rw [← hb.map]; exact List.mem_map.2 ⟨x, hx, rfl⟩
  exact hb.exist _ this

theorem IsBuses.len (hb : IsBuses d pfx sts bs) (ht : Tab sts outs ins req fx used) {a : String} (ha : a ∈ used) :
    lenOf bs a = d (fullName pfx a) := by
  apply lenOf_eq bs hb.bus
  rw [hb.map]
  exact ht.uses a ha

theorem req_iff (ht : Tab sts outs ins req fx used) :
    (∀ x ∈ sts, ∀ s ∈ x.1.signals, d (sigName pfx s) ≠ none) ↔ ∀ s ∈ req, d (fullName pfx s) ≠ none := by
  constructor
  · intro h s hs
    obtain ⟨x, hx, hs'⟩ := List.mem_flatMap.1 ((ht.need s.toList).2 (List.mem_map.2 ⟨s, hs, rfl⟩))
    rw [fullName_eq]
    exact h x hx _ hs'
  · intro h x hx a ha
    obtain ⟨s, hs, rfl⟩ := List.mem_map.1 ((ht.need a).1 (List.mem_flatMap.2 ⟨x, hx, ha⟩))
    rw [← fullName_eq]
    exact h s hs

theorem lookup_mem {α : Type} [BEq α] [LawfulBEq α] {β : Type} {l : List (α × β)} {a : α} {b : β} (h : l.lookup a = some b) : (a, b) ∈ l := by
  induction l with
  | nil => cases h
  | cons x l ih =>
    obtain ⟨k, v⟩ := x
    rw [List.lookup] at h
    by_cases hk : a = k
    · subst hk; simp at h; subst h; exact List.mem_cons_self
    · have : (a == k) = false := by simpa using hk
      rw [this] at h
      exact List.mem_cons_of_mem _ (ih h)

theorem lookup_of_mem {α : Type} [BEq α] [LawfulBEq α] {β : Type} {l : List (α × β)} (hn : (l.map Prod.fst).Nodup) {a : α} {b : β}
    (h : (a, b) ∈ l) : l.lookup a = some b := by
  induction l with
  | nil => cases h
  | cons x l ih =>
    obtain ⟨k, v⟩ := x
    rw [List.map_cons, List.nodup_cons] at hn
    rw [List.lookup]
    rcases List.mem_cons.1 h with h | h
    · cases h; simp
    · have hk : a ≠ k := fun e => hn.1 (List.mem_map.2 ⟨_, h, e⟩)
      have : (a == k) = false := by simpa using hk
      rw [this]
      exact ih hn.2 h

theorem width_iff (ht : Tab sts outs ins req fx used) (hnd : (fx.map fun y => y.1.toList).Nodup)
    (hfx : ∀ y ∈ fx, y.1.toList ∈ (outs ++ ins).map String.toList) :
    (∀ x ∈ sts, WidthsOK d pfx x.1) ↔ ∀ s n, (s, n) ∈ fx → ∀ m, d (fullName pfx s) = some m → m = n := by
  have hnd' : ((fx.map fun y => (y.1.toList, y.2)).map Prod.fst).Nodup := by rw [List.map_map]; exact hnd
  constructor
  · intro h s n hs m hm
    obtain ⟨x, hx, ha⟩ := List.mem_flatMap.1 ((ht.whole s.toList).2 (hfx _ hs))
    apply h x hx s.toList ha m n (by rw [← fullName_eq]; exact hm)
    rw [ht.width x hx _ ha]
    exact lookup_of_mem hnd' (List.mem_map.2 ⟨(s, n), hs, rfl⟩)
  · intro h x hx a ha n w hn hw
    rw [ht.width x hx a ha] at hw
    obtain ⟨y, hy, he⟩ := List.mem_map.1 (lookup_mem hw)
    simp only [Prod.mk.injEq] at he
    obtain ⟨rfl, rfl⟩ := he
    exact h y.1 y.2 hy n (by rw [fullName_eq]; exact hn)

theorem part_has (hb : IsBuses d pfx sts bs) (ht : Tab sts outs ins req fx used) (a : Str) :
    a ∈ (bs.flatMap fun x => x.2.2.handles.map Prod.fst) ↔ ∃ s ∈ outs ++ ins, a = s.toList ∧ d (fullName pfx s) ≠ none := by
  rw [List.mem_flatMap]
  constructor
  · rintro ⟨x, hx, ha⟩
    obtain ⟨h1, h2⟩ := ((hb.bus x hx).has a).1 ha
    have hx' : (x.1, x.2.1) ∈ sts := by rw [← hb.map]; exact List.mem_map.2 ⟨x, hx, rfl⟩
    obtain ⟨s, hs, rfl⟩ := List.mem_map.1 ((ht.whole a).1 (List.mem_flatMap.2 ⟨_, hx', h1⟩))
    exact ⟨s, hs, rfl, by rw [fullName_eq]; exact h2⟩
  · rintro ⟨s, hs, rfl, hd⟩
    obtain ⟨y, hy, ha⟩ := List.mem_flatMap.1 ((ht.whole s.toList).2 (List.mem_map.2 ⟨s, hs, rfl⟩))
    rw [← hb.map] at hy
    obtain ⟨x, hx, rfl⟩ := List.mem_map.1 hy
    exact ⟨x, hx, ((hb.bus x hx).has _).2 ⟨ha, by rw [← fullName_eq]; exact hd⟩⟩

theorem part_drives (hb : IsBuses d pfx sts bs) (ht : Tab sts outs ins req fx used) {ns : List Str} (h : createEnds bs = .ok ns) (n : Str) :
    n ∈ ns ↔ ∃ s ∈ outs, n = fullName pfx s ∧ d n ≠ none := by
  rw [(createEnds_ok hb.bus hb.existB h).2 n, hb.map]
  constructor
  · rintro ⟨a, ha, h1, h2⟩
    obtain ⟨s, hs, rfl⟩ := List.mem_map.1 ((ht.out a).1 ha)
    exact ⟨s, hs, by rw [fullName_eq]; exact h1, h2⟩
  · rintro ⟨s, hs, h1, h2⟩
    exact ⟨s.toList, (ht.out _).2 (List.mem_map.2 ⟨s, hs, rfl⟩), by rw [← fullName_eq]; exact h1, h2⟩

theorem ends_widths (hb : IsBuses d pfx sts bs) {ns : List Str} (h : createEnds bs = .ok ns) : ∀ x ∈ sts, WidthsOK d pfx x.1 := by
  intro x hx
  rw [← hb.map] at hx
  obtain ⟨y, hy, rfl⟩ := List.mem_map.1 hx
  exact (createEnds_ok hb.bus hb.existB h).1 y hy

theorem ends_error (hb : IsBuses d pfx sts bs) {e : PyErr} (h : createEnds bs = .error e) :
    e = .assertionError ∧ ¬ ∀ x ∈ sts, WidthsOK d pfx x.1 := by
  obtain ⟨h1, x, h2, h3⟩ := createEnds_error hb.bus hb.existB h
  exact ⟨h1, fun hw => h3 (hw (x.1, x.2.1) (by rw [← hb.map]; exact List.mem_map.2 ⟨x, h2, rfl⟩))⟩

end

theorem writeFixed_nodup (p : Proto) : ((writeFixed p).map fun y => y.1.toList).Nodup := by cases p <;> decide +kernel
theorem readFixed_nodup (p : Proto) : ((readFixed p).map fun y => y.1.toList).Nodup := by cases p <;> decide +kernel
theorem writeFixed_mem (p : Proto) (s : Side) : ∀ y ∈ writeFixed p, y.1.toList ∈ (wOuts p s ++ wIns p s).map String.toList := by
  cases p <;> cases s <;> decide +kernel
theorem readFixed_mem (p : Proto) (s : Side) : ∀ y ∈ readFixed p, y.1.toList ∈ (rOuts p s ++ rIns p s).map String.toList := by
  cases p <;> cases s <;> decide +kernel

/-- Everything about a half of a bus. -/
theorem write_half (p : Proto) (s : Side) (d : Design) (pfx : Option Str) :
    match (connectWrite p s d pfx : Py (List (Stream × Role × Bus))) with
    | .error e => e = .attributeError ∧ ∃ x ∈ writeRequired p, d (fullName pfx x) = none
    | .ok bs => (∀ x ∈ writeRequired p, d (fullName pfx x) ≠ none) ∧
      match newWrite p bs with
      | .error e => e = .assertionError ∧ ¬ Fits (.bus p s .write) (fun x => d (fullName pfx x))
      | .ok x => Fits (.bus p s .write) (fun x => d (fullName pfx x)) ∧ IsPart d pfx (wOuts p s) (wIns p s) "wdata" x ∧
        d (fullName pfx "awaddr") = some x.addrWidth ∧ (p = .axi → d (fullName pfx "awid") = some x.idWidth) := by
  obtain ⟨sts, hs, ht⟩ := writeTab p s
  unfold connectWrite
  rw [hs]
  simp only
  cases hc : connectAll d pfx sts with
  | error e =>
    obtain ⟨h1, x, hx, a, ha, hd⟩ := connectAll_error hc
    obtain ⟨r, hr, rfl⟩ := List.mem_map.1 ((ht.need a).1 (List.mem_flatMap.2 ⟨x, hx, ha⟩))
    exact ⟨h1, r, hr, by rw [fullName_eq]; exact hd⟩
  | ok bs =>
    simp only
    have hb := connectAll_ok hc
    have hreq := (req_iff (d := d) (pfx := pfx) ht).1 hb.exist
    refine ⟨hreq, ?_⟩
    have hw := width_iff (d := d) (pfx := pfx) ht (writeFixed_nodup p) (writeFixed_mem p s)
    unfold newWrite
    cases he : createEnds bs with
    | error e =>
      obtain ⟨h1, h2⟩ := ends_error hb he
      exact ⟨h1, fun hf => h2 (hw.2 hf.fixed)⟩
    | ok ns =>
      simp only
      have hwid := hw.1 (ends_widths hb he)
      have l1 := hb.len ht (a := "wdata") (by cases p <;> decide)
      have l2 := hb.len ht (a := "wstrb") (by cases p <;> decide)
      have l3 := hb.len ht (a := "awaddr") (by cases p <;> decide)
      have l4 : p = .axi → lenOf bs "bid" = d (fullName pfx "bid") := by rintro rfl; exact hb.len ht (a := "bid") (by decide)
      have l5 : p = .axi → lenOf bs "awid" = d (fullName pfx "awid") := by rintro rfl; exact hb.len ht (a := "awid") (by decide)
      obtain ⟨n, hn⟩ := Option.ne_none_iff_exists'.1 (hreq "wdata" (by cases p <;> decide))
      obtain ⟨k, hk⟩ := Option.ne_none_iff_exists'.1 (hreq "awaddr" (by cases p <;> decide))
      rw [l1, l2, l3, hn, hk]
      simp only [Option.getD_some]
      by_cases c1 : strbOk (n / 8) (d (fullName pfx "wstrb")) = true
      · rw [if_neg (by rw [c1]; decide)]
        have c1' : ∀ m, d (fullName pfx "wstrb") = some m → n / 8 = m := by
          intro m hm; rw [hm] at c1; simpa [strbOk] using c1
        by_cases c2 : n / 8 * 8 = n
        · rw [if_neg (fun h => h c2)]
          by_cases c3 : (p == .lite || lenOf bs "bid" == lenOf bs "awid") = true
          · rw [if_neg (by rw [c3]; decide)]
            have c3' : p = .axi → d (fullName pfx "bid") = d (fullName pfx "awid") := by
              intro hp
              rw [← l4 hp, ← l5 hp]
              rw [Bool.or_eq_true] at c3
              rcases c3 with h | h
              · subst hp; exact absurd h (by decide)
              · simpa using h
            refine ⟨⟨hreq, hwid, ?_, ?_, ?_, fun ⟨r, hr⟩ => by cases hr⟩, ⟨part_drives hb ht he, part_has hb ht, ⟨n, hn, by dsimp only; omega⟩⟩, rfl, ?_⟩
            · intro x hx m hm
              simp only [dataSignals, List.mem_singleton] at hx
              subst hx
              rw [hn] at hm; cases hm
              omega
            · intro x y hx m m' hm hm'
              simp only [strobes, List.mem_singleton, Prod.mk.injEq] at hx
              obtain ⟨rfl, rfl⟩ := hx
              rw [hn] at hm'; cases hm'
              exact c1' m hm
            · intro x y hx
              cases p with
              | lite => simp [same] at hx
              | axi =>
                simp only [same, List.mem_singleton, Prod.mk.injEq] at hx
                obtain ⟨rfl, rfl⟩ := hx
                exact c3' rfl
            · rintro rfl
              obtain ⟨i, hi⟩ := Option.ne_none_iff_exists'.1 (hreq "awid" (by decide))
              rw [l5 rfl, hi]; rfl
          · rw [if_pos (by simpa using c3)]
            refine ⟨rfl, fun hf => c3 ?_⟩
            cases p with
            | lite => rfl
            | axi =>
              rw [l4 rfl, l5 rfl, hf.same "bid" "awid" (by simp [same])]
              simp
        · rw [if_pos c2]
          refine ⟨rfl, fun hf => c2 ?_⟩
          have := hf.bytes "wdata" (by simp [dataSignals]) n hn
          omega
      · rw [if_pos (by simpa using c1)]
        refine ⟨rfl, fun hf => c1 ?_⟩
        cases hm : d (fullName pfx "wstrb") with
        | none => rfl
        | some m =>
          have := hf.strobes "wstrb" "wdata" (by simp [strobes]) m n hm hn
          simp [strbOk, this]

/-- Everything about a half of a bus. -/
theorem read_half (p : Proto) (s : Side) (d : Design) (pfx : Option Str) :
    match (connectRead p s d pfx : Py (List (Stream × Role × Bus))) with
    | .error e => e = .attributeError ∧ ∃ x ∈ readRequired p, d (fullName pfx x) = none
    | .ok bs => (∀ x ∈ readRequired p, d (fullName pfx x) ≠ none) ∧
      match newRead p bs with
      | .error e => e = .assertionError ∧ ¬ Fits (.bus p s .read) (fun x => d (fullName pfx x))
      | .ok x => Fits (.bus p s .read) (fun x => d (fullName pfx x)) ∧ IsPart d pfx (rOuts p s) (rIns p s) "rdata" x ∧
        d (fullName pfx "araddr") = some x.addrWidth ∧ (p = .axi → d (fullName pfx "arid") = some x.idWidth) := by
  obtain ⟨sts, hs, ht⟩ := readTab p s
  unfold connectRead
  rw [hs]
  simp only
  cases hc : connectAll d pfx sts with
  | error e =>
    obtain ⟨h1, x, hx, a, ha, hd⟩ := connectAll_error hc
    obtain ⟨r, hr, rfl⟩ := List.mem_map.1 ((ht.need a).1 (List.mem_flatMap.2 ⟨x, hx, ha⟩))
    exact ⟨h1, r, hr, by rw [fullName_eq]; exact hd⟩
  | ok bs =>
    simp only
    have hb := connectAll_ok hc
    have hreq := (req_iff (d := d) (pfx := pfx) ht).1 hb.exist
    refine ⟨hreq, ?_⟩
    have hw := width_iff (d := d) (pfx := pfx) ht (readFixed_nodup p) (readFixed_mem p s)
    unfold newRead
    cases he : createEnds bs with
    | error e =>
      obtain ⟨h1, h2⟩ := ends_error hb he
      exact ⟨h1, fun hf => h2 (hw.2 hf.fixed)⟩
    | ok ns =>
      simp only
      have hwid := hw.1 (ends_widths hb he)
      have l1 := hb.len ht (a := "rdata") (by cases p <;> decide)
      have l3 := hb.len ht (a := "araddr") (by cases p <;> decide)
      have l4 : p = .axi → lenOf bs "rid" = d (fullName pfx "rid") := by rintro rfl; exact hb.len ht (a := "rid") (by decide)
      have l5 : p = .axi → lenOf bs "arid" = d (fullName pfx "arid") := by rintro rfl; exact hb.len ht (a := "arid") (by decide)
      obtain ⟨n, hn⟩ := Option.ne_none_iff_exists'.1 (hreq "rdata" (by cases p <;> decide))
      obtain ⟨k, hk⟩ := Option.ne_none_iff_exists'.1 (hreq "araddr" (by cases p <;> decide))
      rw [l1, l3, hn, hk]
      simp only [Option.getD_some]
      by_cases c2 : n / 8 * 8 = n
      · rw [if_neg (fun h => h c2)]
        by_cases c3 : (p == .lite || lenOf bs "rid" == lenOf bs "arid") = true
        · rw [if_neg (by rw [c3]; decide)]
          have c3' : p = .axi → d (fullName pfx "rid") = d (fullName pfx "arid") := by
            intro hp
            rw [← l4 hp, ← l5 hp]
            rw [Bool.or_eq_true] at c3
            rcases c3 with h | h
            · subst hp; exact absurd h (by decide)
            · simpa using h
          refine ⟨⟨hreq, hwid, ?_, ?_, ?_, fun ⟨r, hr⟩ => by cases hr⟩, ⟨part_drives hb ht he, part_has hb ht, ⟨n, hn, by dsimp only; omega⟩⟩, rfl, ?_⟩
          · intro x hx m hm
            simp only [dataSignals, List.mem_singleton] at hx
            subst hx
            rw [hn] at hm; cases hm
            omega
          · intro x y hx
            simp [strobes] at hx
          · intro x y hx
            cases p with
            | lite => simp [same] at hx
            | axi =>
              simp only [same, List.mem_singleton, Prod.mk.injEq] at hx
              obtain ⟨rfl, rfl⟩ := hx
              exact c3' rfl
          · rintro rfl
            obtain ⟨i, hi⟩ := Option.ne_none_iff_exists'.1 (hreq "arid" (by decide))
            rw [l5 rfl, hi]; rfl
        · rw [if_pos (by simpa using c3)]
          refine ⟨rfl, fun hf => c3 ?_⟩
          cases p with
          | lite => rfl
          | axi =>
            rw [l4 rfl, l5 rfl, hf.same "rid" "arid" (by simp [same])]
            simp
      · rw [if_pos c2]
        refine ⟨rfl, fun hf => c2 ?_⟩
        have := hf.bytes "rdata" (by simp [dataSignals]) n hn
        omega

/-! ## Components -/

/-- The signals of the other end. -/
def inputs : Kind → List String
  | .bus p s .write => wIns p s
  | .bus p s .read => rIns p s
  | .bus p s .both => wIns p s ++ rIns p s
  | .apb .master => outputs (.apb .slave)
  | .apb .slave => outputs (.apb .master)
  | .axis .source => ["tready"]
  | .axis .sink => ["tdata", "tvalid", "tlast", "tkeep", "tid", "tdest", "tuser"]
  | .axis .monitor => ["tdata", "tvalid", "tlast", "tkeep", "tid", "tdest", "tuser", "tready"]

theorem fits_both (p : Proto) (s : Side) (w : String → Option Nat) :
    Fits (.bus p s .both) w ↔ Fits (.bus p s .write) w ∧ Fits (.bus p s .read) w := by
  constructor
  · intro h
    refine ⟨⟨fun x hx => h.exist x (List.mem_append_left _ hx), fun x n hx => h.fixed x n (List.mem_append_left _ hx), fun x hx => h.bytes x ?_,
      fun x y hx => h.strobes x y hx, fun x y hx => h.same x y ?_, (fun ⟨r, hr⟩ => by cases hr)⟩,
      ⟨fun x hx => h.exist x (List.mem_append_right _ hx), fun x n hx => h.fixed x n (List.mem_append_right _ hx), fun x hx => h.bytes x ?_,
      (fun x y hx => by simp [strobes] at hx), fun x y hx => h.same x y ?_, (fun ⟨r, hr⟩ => by cases hr)⟩⟩
    · simp only [dataSignals, List.mem_singleton] at hx; subst hx; simp [dataSignals]
    · cases p with
      | lite => simp [same] at hx
      | axi => simp only [same, List.mem_singleton] at hx; rw [hx]; simp [same]
    · simp only [dataSignals, List.mem_singleton] at hx; subst hx; simp [dataSignals]
    · cases p with
      | lite => simp [same] at hx
      | axi => simp only [same, List.mem_singleton] at hx; rw [hx]; simp [same]
  · rintro ⟨h1, h2⟩
    refine ⟨fun x hx => ?_, fun x n hx => ?_, fun x hx => ?_, fun x y hx => h1.strobes x y hx, fun x y hx => ?_, fun ⟨r, hr⟩ => by cases hr⟩
    · rcases List.mem_append.1 hx with h | h
      · exact h1.exist x h
      · exact h2.exist x h
    · rcases List.mem_append.1 hx with h | h
      · exact h1.fixed x n h
      · exact h2.fixed x n h
    · simp only [dataSignals, List.mem_cons, List.not_mem_nil, or_false] at hx
      rcases hx with rfl | rfl
      · exact h1.bytes _ (by simp [dataSignals])
      · exact h2.bytes _ (by simp [dataSignals])
    · cases p with
      | lite => simp [same] at hx
      | axi =>
        simp only [same, List.mem_cons, List.not_mem_nil, or_false] at hx
        rcases hx with h | h
        · exact h1.same x y (by rw [h]; simp [same])
        · exact h2.same x y (by rw [h]; simp [same])

/-- Everything about a component. -/
def AttachSpec (k : Kind) (d : Design) (pfx : Option Str) (r : Py (List Part)) : Prop :=
  match r with
  | .error e => (e = .attributeError ↔ ∃ x ∈ required k, d (fullName pfx x) = none) ∧ ¬ Fits k (fun x => d (fullName pfx x))
  | .ok ps => Fits k (fun x => d (fullName pfx x)) ∧
    (∀ n, n ∈ drives ps ↔ ∃ s ∈ outputs k, n = fullName pfx s ∧ d n ≠ none) ∧
    (∀ a, a ∈ ps.flatMap Part.has ↔ ∃ s ∈ outputs k ++ inputs k, a = s.toList ∧ d (fullName pfx s) ≠ none)

theorem wOuts_eq (p : Proto) (s : Side) : outputs (.bus p s .write) = wOuts p s := by cases s <;> rfl
theorem rOuts_eq (p : Proto) (s : Side) : outputs (.bus p s .read) = rOuts p s := by cases s <;> rfl
theorem bOuts_eq (p : Proto) (s : Side) : outputs (.bus p s .both) = wOuts p s ++ rOuts p s := by cases s <;> rfl

theorem attach_write (p : Proto) (s : Side) (d : Design) (pfx : Option Str) :
    AttachSpec (.bus p s .write) d pfx (attach (.bus p s .write) d pfx) := by
  have h := write_half p s d pfx
  unfold attach
  simp only
  cases hc : connectWrite p s d pfx with
  | error e =>
    rw [hc] at h
    obtain ⟨h1, x, hx, hd⟩ := h
    exact ⟨⟨fun _ => ⟨x, hx, hd⟩, fun _ => h1⟩, fun hf => hf.exist x hx hd⟩
  | ok bs =>
    rw [hc] at h
    obtain ⟨hr, h⟩ := h
    simp only
    cases hn : newWrite p bs with
    | error e =>
      rw [hn] at h
      obtain ⟨h1, h2⟩ := h
      exact ⟨⟨fun he => (by rw [h1] at he; cases he), fun ⟨x, hx, hd⟩ => absurd hd (hr x hx)⟩, h2⟩
    | ok x =>
      rw [hn] at h
      obtain ⟨hf, hp, -⟩ := h
      refine ⟨hf, fun n => ?_, fun a => ?_⟩
      · rw [wOuts_eq]; simpa [drives] using hp.drives n
      · rw [wOuts_eq]; simpa [inputs] using hp.has a

theorem attach_read (p : Proto) (s : Side) (d : Design) (pfx : Option Str) :
    AttachSpec (.bus p s .read) d pfx (attach (.bus p s .read) d pfx) := by
  have h := read_half p s d pfx
  unfold attach
  simp only
  cases hc : connectRead p s d pfx with
  | error e =>
    rw [hc] at h
    obtain ⟨h1, x, hx, hd⟩ := h
    exact ⟨⟨fun _ => ⟨x, hx, hd⟩, fun _ => h1⟩, fun hf => hf.exist x hx hd⟩
  | ok bs =>
    rw [hc] at h
    obtain ⟨hr, h⟩ := h
    simp only
    cases hn : newRead p bs with
    | error e =>
      rw [hn] at h
      obtain ⟨h1, h2⟩ := h
      exact ⟨⟨fun he => (by rw [h1] at he; cases he), fun ⟨x, hx, hd⟩ => absurd hd (hr x hx)⟩, h2⟩
    | ok x =>
      rw [hn] at h
      obtain ⟨hf, hp, -⟩ := h
      refine ⟨hf, fun n => ?_, fun a => ?_⟩
      · rw [rOuts_eq]; simpa [drives] using hp.drives n
      · rw [rOuts_eq]; simpa [inputs] using hp.has a

theorem attach_both (p : Proto) (s : Side) (d : Design) (pfx : Option Str) :
    AttachSpec (.bus p s .both) d pfx (attach (.bus p s .both) d pfx) := by
  have h := write_half p s d pfx
  have g := read_half p s d pfx
  unfold attach
  simp only
  cases hc : connectWrite p s d pfx with
  | error e =>
    rw [hc] at h
    obtain ⟨h1, x, hx, hd⟩ := h
    exact ⟨⟨fun _ => ⟨x, List.mem_append_left _ hx, hd⟩, fun _ => h1⟩, fun hf => hf.exist x (List.mem_append_left _ hx) hd⟩
  | ok bs =>
    rw [hc] at h
    obtain ⟨hr, h⟩ := h
    simp only
    cases gc : connectRead p s d pfx with
    | error e =>
      rw [gc] at g
      obtain ⟨h1, x, hx, hd⟩ := g
      exact ⟨⟨fun _ => ⟨x, List.mem_append_right _ hx, hd⟩, fun _ => h1⟩, fun hf => hf.exist x (List.mem_append_right _ hx) hd⟩
    | ok cs =>
      rw [gc] at g
      obtain ⟨gr, g⟩ := g
      have all : ∀ x ∈ required (.bus p s .both), d (fullName pfx x) ≠ none := by
        intro x hx
        rcases List.mem_append.1 hx with h | h
        · exact hr x h
        · exact gr x h
      simp only
      cases hn : newWrite p bs with
      | error e =>
        rw [hn] at h
        obtain ⟨h1, h2⟩ := h
        exact ⟨⟨fun he => (by rw [h1] at he; cases he), fun ⟨x, hx, hd⟩ => absurd hd (all x hx)⟩, fun hf => h2 ((fits_both _ _ _).1 hf).1⟩
      | ok x =>
        rw [hn] at h
        obtain ⟨hf, hp, -⟩ := h
        simp only
        cases gn : newRead p cs with
        | error e =>
          rw [gn] at g
          obtain ⟨h1, h2⟩ := g
          exact ⟨⟨fun he => (by rw [h1] at he; cases he), fun ⟨x, hx, hd⟩ => absurd hd (all x hx)⟩, fun hf => h2 ((fits_both _ _ _).1 hf).2⟩
        | ok y =>
          rw [gn] at g
          obtain ⟨gf, gp, -⟩ := g
          refine ⟨(fits_both _ _ _).2 ⟨hf, gf⟩, fun n => ?_, fun a => ?_⟩
          · rw [bOuts_eq]
            have e : drives [x, y] = x.drives ++ y.drives := by simp [drives]
            rw [e, List.mem_append, hp.drives n, gp.drives n]
            simp only [List.mem_append, or_and_right, exists_or]
          · rw [bOuts_eq]
            have e : [x, y].flatMap Part.has = x.has ++ y.has := by simp
            rw [e, List.mem_append, hp.has a, gp.has a]
            simp only [inputs, List.mem_append]
            constructor
            · rintro (⟨s, hs, h⟩ | ⟨s, hs, h⟩)
              · exact ⟨s, by rcases hs with h | h <;> simp [h], h⟩
              · exact ⟨s, by rcases hs with h | h <;> simp [h], h⟩
            · rintro ⟨s, (hs | hs) | (hs | hs), h⟩
              · exact .inl ⟨s, .inl hs, h⟩
              · exact .inr ⟨s, .inl hs, h⟩
              · exact .inl ⟨s, .inr hs, h⟩
              · exact .inr ⟨s, .inr hs, h⟩

theorem mem_toList {l : List String} {a : Str} : a ∈ l.map String.toList ↔ ∃ s ∈ l, a = s.toList := by
  rw [List.mem_map]; exact ⟨fun ⟨s, h, e⟩ => ⟨s, h, e.symm⟩, fun ⟨s, h, e⟩ => ⟨s, h, e.symm⟩⟩

/-- The names on a bus, by a table. -/
theorem IsBus.namesTab {d : Design} {pfx : Option Str} {all : List Str} {b : Bus} (h : IsBus d pfx all b) {attrs : List Str} {outs : List String}
    (ho : sameMem (attrs.filter fun a => a ∈ all) (outs.map String.toList) = true) (n : Str) :
    n ∈ b.names attrs ↔ ∃ s ∈ outs, n = fullName pfx s ∧ d n ≠ none := by
  rw [h.names]
  constructor
  · rintro ⟨a, h1, h2, h3, h4⟩
    obtain ⟨s, hs, rfl⟩ := mem_toList.1 ((sameMem_iff ho a).1 (by simp [h1, h2]))
    exact ⟨s, hs, by rw [fullName_eq]; exact h3, h4⟩
  · rintro ⟨s, hs, h3, h4⟩
    have := (sameMem_iff ho s.toList).2 (mem_toList.2 ⟨s, hs, rfl⟩)
    simp only [List.mem_filter, decide_eq_true_eq] at this
    exact ⟨s.toList, this.1, this.2, by rw [← fullName_eq]; exact h3, h4⟩

theorem IsBus.hasTab {d : Design} {pfx : Option Str} {all : List Str} {b : Bus} (h : IsBus d pfx all b) {l : List String}
    (ho : sameMem all (l.map String.toList) = true) (a : Str) :
    a ∈ b.handles.map Prod.fst ↔ ∃ s ∈ l, a = s.toList ∧ d (fullName pfx s) ≠ none := by
  rw [h.has, sameMem_iff ho, mem_toList]
  constructor
  · rintro ⟨⟨s, hs, rfl⟩, hd⟩; exact ⟨s, hs, rfl, by rw [fullName_eq]; exact hd⟩
  · rintro ⟨s, hs, rfl, hd⟩; exact ⟨⟨s, hs, rfl⟩, by rw [← fullName_eq]; exact hd⟩

theorem IsBus.lenS {d : Design} {pfx : Option Str} {all : List Str} {b : Bus} (h : IsBus d pfx all b) {s : String} (hs : s.toList ∈ all) :
    b.len s.toList = d (fullName pfx s) := by rw [h.len, if_pos hs, fullName_eq]

theorem connect_spec {signals optional : List String} {d : Design} {pfx : Option Str} :
    match connect (signals.map String.toList) (optional.map String.toList) d pfx with
    | .error e => e = .attributeError ∧ ∃ s ∈ signals, d (fullName pfx s) = none
    | .ok b => (∀ s ∈ signals, d (fullName pfx s) ≠ none) ∧ IsBus d pfx (signals.map String.toList ++ optional.map String.toList) b := by
  cases h : connect (signals.map String.toList) (optional.map String.toList) d pfx with
  | error e =>
    obtain ⟨h1, a, h2, h3⟩ := connect_error h
    obtain ⟨s, hs, rfl⟩ := mem_toList.1 h2
    exact ⟨h1, s, hs, by rw [fullName_eq]; exact h3⟩
  | ok b =>
    obtain ⟨h1, h2⟩ := connect_ok h
    exact ⟨fun s hs => by rw [fullName_eq]; exact h1 _ (mem_toList.2 ⟨s, hs, rfl⟩), h2⟩

theorem attach_apb (s : Side) (d : Design) (pfx : Option Str) : AttachSpec (.apb s) d pfx (attach (.apb s) d pfx) := by
  have hc := connect_spec (signals := ["paddr", "psel", "penable", "pwrite", "pwdata", "pstrb", "pready", "prdata"])
    (optional := ["pprot", "pslverr"]) (d := d) (pfx := pfx)
  unfold attach attachApb
  simp only
  change match connect apbSignals.1 apbSignals.2 d pfx with
    | .error e => e = .attributeError ∧ ∃ x ∈ required (.apb s), d (fullName pfx x) = none
    | .ok b => (∀ x ∈ required (.apb s), d (fullName pfx x) ≠ none) ∧ IsBus d pfx (apbSignals.1 ++ apbSignals.2) b at hc
  cases h : connect apbSignals.1 apbSignals.2 d pfx with
  | error e =>
    rw [h] at hc
    obtain ⟨h1, x, hx, hd⟩ := hc
    exact ⟨⟨fun _ => ⟨x, hx, hd⟩, fun _ => h1⟩, fun hf => hf.exist x hx hd⟩
  | ok b =>
    rw [h] at hc
    obtain ⟨hr, hb⟩ := hc
    simp only
    obtain ⟨n, hn⟩ := Option.ne_none_iff_exists'.1 (hr "pwdata" (by simp [required]))
    rw [hb.lenS (s := "pwdata") (by decide), hb.lenS (s := "pstrb") (by decide), hn]
    simp only [Option.getD_some]
    by_cases c1 : strbOk (n / 8) (d (fullName pfx "pstrb")) = true
    · rw [if_neg (by rw [c1]; decide)]
      by_cases c2 : n / 8 * 8 = n
      · rw [if_neg (fun h => h c2)]
        refine ⟨⟨hr, (fun x n hx => by cases hx), ?_, ?_, (fun x y hx => by cases hx), (fun ⟨r, hr⟩ => by cases hr)⟩, fun n => ?_, fun a => ?_⟩
        · intro x hx m hm
          simp only [dataSignals, List.mem_singleton] at hx
          subst hx
          rw [hn] at hm; cases hm
          omega
        · intro x y hx m m' hm hm'
          simp only [strobes, List.mem_singleton, Prod.mk.injEq] at hx
          obtain ⟨rfl, rfl⟩ := hx
          rw [hn] at hm'; cases hm'
          rw [hm] at c1
          simpa [strbOk] using c1
        · simp only [drives, List.flatMap_cons, List.flatMap_nil, List.append_nil]
          exact hb.namesTab (by cases s <;> decide +kernel) n
        · simp only [List.flatMap_cons, List.flatMap_nil, List.append_nil]
          exact hb.hasTab (by cases s <;> decide +kernel) a
      · rw [if_pos c2]
        refine ⟨⟨fun he => (by cases he), fun ⟨x, hx, hd⟩ => absurd hd (hr x hx)⟩, fun hf => c2 ?_⟩
        have := hf.bytes "pwdata" (by simp [dataSignals]) n hn
        omega
    · rw [if_pos (by simpa using c1)]
      refine ⟨⟨fun he => (by cases he), fun ⟨x, hx, hd⟩ => absurd hd (hr x hx)⟩, fun hf => c1 ?_⟩
      cases hm : d (fullName pfx "pstrb") with
      | none => rfl
      | some m =>
        have := hf.strobes "pstrb" "pwdata" (by simp [strobes]) m n hm hn
        simp [strbOk, this]

theorem attach_axis (r : Role) (d : Design) (pfx : Option Str) : AttachSpec (.axis r) d pfx (attach (.axis r) d pfx) := by
  have hc := connect_spec (signals := ["tdata"])
    (optional := ["tvalid", "tready", "tlast", "tkeep", "tid", "tdest", "tuser"]) (d := d) (pfx := pfx)
  unfold attach attachAxis
  simp only
  change match connect axisSignals.1 axisSignals.2 d pfx with
    | .error e => e = .attributeError ∧ ∃ s ∈ required (.axis r), d (fullName pfx s) = none
    | .ok b => (∀ s ∈ required (.axis r), d (fullName pfx s) ≠ none) ∧ IsBus d pfx (axisSignals.1 ++ axisSignals.2) b at hc
  cases h : connect axisSignals.1 axisSignals.2 d pfx with
  | error e =>
    rw [h] at hc
    obtain ⟨h1, x, hx, hd⟩ := hc
    exact ⟨⟨fun _ => ⟨x, hx, hd⟩, fun _ => h1⟩, fun hf => hf.exist x hx hd⟩
  | ok b =>
    rw [h] at hc
    obtain ⟨hr, hb⟩ := hc
    simp only
    obtain ⟨n, hn⟩ := Option.ne_none_iff_exists'.1 (hr "tdata" (by simp [required]))
    rw [hb.lenS (s := "tdata") (by decide), hb.lenS (s := "tkeep") (by decide), hn]
    simp only [Option.getD_some]
    have hg := Axis.C130_accepts n (d (fullName pfx "tkeep")) none none ((d (fullName pfx "tkeep")).getD (n / 8)) (by simp)
    simp only at hg
    obtain ⟨g1, g2, g3⟩ := hg
    cases hge : Axis.geometry n (d (fullName pfx "tkeep")) none none with
    | error e =>
      refine ⟨⟨fun he => ?_, fun ⟨x, hx, hd⟩ => absurd hd (hr x hx)⟩, fun hf => ?_⟩
      · subst he
        unfold Axis.geometry at hge
        exfalso
        cases hk : d (fullName pfx "tkeep") with
        | none =>
          rw [hk] at hge
          simp only [Axis.floorDiv] at hge
          by_cases z : n / 8 = 0
          · rw [if_pos z] at hge; cases hge
          · rw [if_neg z] at hge
            simp only at hge
            split at hge <;> cases hge
        | some m =>
          rw [hk] at hge
          simp only [Axis.floorDiv, Option.isSome_none, Bool.or_self, Bool.false_eq_true, if_false] at hge
          by_cases z : m = 0
          · rw [if_pos z] at hge; cases hge
          · rw [if_neg z] at hge
            simp only at hge
            split at hge <;> cases hge
      · obtain ⟨l, hl, h0, q, hq⟩ := hf.lanes ⟨r, rfl⟩ n hn
        have hl' : (d (fullName pfx "tkeep")).getD (n / 8) = l := by
          rcases hl with hl | ⟨hl, rfl⟩
          · rw [hl]; rfl
          · rw [hl]; rfl
        have := (g3 l q).2 ⟨by simp, hl'.symm, by omega, by rw [hl']; exact hq.symm⟩
        rw [hge] at this; cases this
    | ok x =>
      obtain ⟨l, sz⟩ := x
      obtain ⟨-, g4, g5, g6⟩ := (g3 l sz).1 hge
      refine ⟨⟨hr, (fun x n hx => by cases hx), (fun x hx => by cases hx), (fun x y hx => by cases hx), (fun x y hx => by cases hx), ?_⟩,
        fun n => ?_, fun a => ?_⟩
      · intro _ n' hn'
        rw [hn] at hn'; cases hn'
        refine ⟨l, ?_, by omega, ⟨sz, by rw [g4]; exact g6.symm⟩⟩
        cases hk : d (fullName pfx "tkeep") with
        | none => rw [hk] at g4; exact .inr ⟨rfl, g4⟩
        | some m => rw [hk] at g4; exact .inl (by rw [g4]; rfl)
      · simp only [drives, List.flatMap_cons, List.flatMap_nil, List.append_nil]
        have e : b.names (axisInitWrites r) ++ b.names (axisRunWrites r) = b.names (axisInitWrites r ++ axisRunWrites r) := by
          unfold Bus.names; rw [List.filterMap_append]
        rw [e]
        exact hb.namesTab (by cases r <;> decide +kernel) n
      · simp only [List.flatMap_cons, List.flatMap_nil, List.append_nil]
        exact hb.hasTab (by cases r <;> decide +kernel) a

theorem attach_spec (k : Kind) (d : Design) (pfx : Option Str) : AttachSpec k d pfx (attach k d pfx) := by
  cases k with
  | bus p s h =>
    cases h with
    | write => exact attach_write p s d pfx
    | read => exact attach_read p s d pfx
    | both => exact attach_both p s d pfx
  | apb s => exact attach_apb s d pfx
  | axis r => exact attach_axis r d pfx

/-! ## Names -/

theorem split_last {p q s t : Str} {c : Char} (hs : c ∉ s) (ht : c ∉ t) (h : p ++ c :: s = q ++ c :: t) : p = q ∧ s = t := by
  rcases List.append_eq_append_iff.1 h with ⟨x, hx1, hx2⟩ | ⟨x, hx1, hx2⟩
  · cases x with
    | nil => simp at hx1 hx2; exact ⟨hx1.symm, hx2⟩
    | cons y x =>
      simp at hx2
      exact absurd (by rw [hx2.2]; simp) hs
  · cases x with
    | nil => simp at hx1 hx2; exact ⟨hx1, hx2.symm⟩
    | cons y x =>
      simp at hx2
      exact absurd (by rw [hx2.2]; simp) ht

/-- A name without an underscore. -/
def Plain (s : String) : Prop := '_' ∉ s.toList

theorem fullName_inj {p q : Option Str} {s t : String} (hs : Plain s) (ht : Plain t) (h : fullName p s = fullName q t) :
    p.getD [] = q.getD [] ∧ s = t := by
  unfold fullName at h
  by_cases hp : p.getD [] = []
  · rw [if_pos hp] at h
    by_cases hq : q.getD [] = []
    · rw [if_pos hq] at h
      exact ⟨by rw [hp, hq], String.toList_inj.1 h⟩
    · rw [if_neg hq] at h
      exact absurd (by rw [h]; simp) hs
  · rw [if_neg hp] at h
    by_cases hq : q.getD [] = []
    · rw [if_pos hq] at h
      exact absurd (by rw [← h]; simp) ht
    · rw [if_neg hq] at h
      have h' : p.getD [] ++ '_' :: s.toList = q.getD [] ++ '_' :: t.toList := by simpa using h
      obtain ⟨h1, h2⟩ := split_last hs ht h'
      exact ⟨h1, String.toList_inj.1 h2⟩

instance (s : String) : Decidable (Plain s) := by unfold Plain; infer_instance

theorem outputs_plain (k : Kind) : ∀ s ∈ outputs k, Plain s := by
  cases k with
  | bus p s h => cases p <;> cases s <;> cases h <;> decide +kernel
  | apb s => cases s <;> decide +kernel
  | axis r => cases r <;> decide +kernel

theorem inputs_plain (k : Kind) : ∀ s ∈ inputs k, Plain s := by
  cases k with
  | bus p s h => cases p <;> cases s <;> cases h <;> decide +kernel
  | apb s => cases s <;> decide +kernel
  | axis r => cases r <;> decide +kernel

end Verif.Wiring
