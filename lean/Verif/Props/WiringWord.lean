import Verif.Model.WiringWord
import Verif.Props.Wiring

/-!
# C139: the configurations that AXI-lite and APB components read off the design
-/

namespace Verif.Wiring

open DefineStream (Str)

/-- **C139**: a component with both halves is its write half and its read half, connected to the same design; it can be connected exactly if both can. -/
theorem C139_both (p : Proto) (s : Side) (d : Design) (pfx : Option Str) (x y : Part) :
    attach (.bus p s .both) d pfx = .ok [x, y] ↔ attach (.bus p s .write) d pfx = .ok [x] ∧ attach (.bus p s .read) d pfx = .ok [y] := by
  unfold attach
  simp only
  cases connectWrite p s d pfx with
  | error e => exact ⟨(fun h => by cases h), fun h => by cases h.1⟩
  | ok w =>
    cases connectRead p s d pfx with
    | error e => exact ⟨(fun h => by cases h), fun h => by cases h.2⟩
    | ok r =>
      simp only
      cases newWrite p w with
      | error e => exact ⟨(fun h => by cases h), fun h => by cases h.1⟩
      | ok a =>
        cases newRead p r with
        | error e => exact ⟨(fun h => by cases h), fun h => by cases h.2⟩
        | ok b => simp [Except.map]

/-- **C139**: the write half of an AXI-lite master or slave has as many byte lanes as `wdata` has bytes and the address width of `awaddr`, and knows of
`awprot` and `wstrb` exactly if the design has them. -/
theorem C139_lite_write_config (s : Side) {d : Design} {pfx : Option Str} {ps : List Part} (h : attach (.bus .lite s .write) d pfx = .ok ps) :
    ∃ x, ps = [x] ∧ d (fullName pfx "wdata") = some (8 * x.liteWriteCfg.lanes) ∧ d (fullName pfx "awaddr") = some x.liteWriteCfg.addrWidth ∧
      x.liteWriteCfg.prot = (d (fullName pfx "awprot")).isSome ∧ x.liteWriteCfg.strb = (d (fullName pfx "wstrb")).isSome := by
  have hw := write_half .lite s d pfx
  have h' := h
  unfold attach at h
  simp only at h
  cases hc : connectWrite .lite s d pfx with
  | error e => rw [hc] at h; cases h
  | ok bs =>
    rw [hc] at h hw
    simp only at h hw
    cases hn : newWrite .lite bs with
    | error e => rw [hn] at h; cases h
    | ok x =>
      rw [hn] at h hw
      injection h with h
      subst h
      obtain ⟨-, -, hp, ha, -⟩ := hw
      obtain ⟨n, h1, h2⟩ := hp.lanes
      exact ⟨x, rfl, by rw [h1, h2]; rfl, ha, has_eq h' "awprot" (by cases s <;> decide), has_eq h' "wstrb" (by cases s <;> decide)⟩

/-- **C139**: likewise the read half, from `rdata`, `araddr` and `arprot`. -/
theorem C139_lite_read_config (s : Side) {d : Design} {pfx : Option Str} {ps : List Part} (h : attach (.bus .lite s .read) d pfx = .ok ps) :
    ∃ x, ps = [x] ∧ d (fullName pfx "rdata") = some (8 * x.liteReadCfg.lanes) ∧ d (fullName pfx "araddr") = some x.liteReadCfg.addrWidth ∧
      x.liteReadCfg.prot = (d (fullName pfx "arprot")).isSome := by
  have hw := read_half .lite s d pfx
  have h' := h
  unfold attach at h
  simp only at h
  cases hc : connectRead .lite s d pfx with
  | error e => rw [hc] at h; cases h
  | ok bs =>
    rw [hc] at h hw
    simp only at h hw
    cases hn : newRead .lite bs with
    | error e => rw [hn] at h; cases h
    | ok x =>
      rw [hn] at h hw
      injection h with h
      subst h
      obtain ⟨-, -, hp, ha, -⟩ := hw
      obtain ⟨n, h1, h2⟩ := hp.lanes
      exact ⟨x, rfl, by rw [h1, h2]; rfl, ha, has_eq h' "arprot" (by cases s <;> decide)⟩

/-- **C139**: likewise an APB master or slave, from `pwdata`, `paddr` and `pprot`; `pstrb` always exists. -/
theorem C139_apb_config (s : Side) {d : Design} {pfx : Option Str} {ps : List Part} (h : attach (.apb s) d pfx = .ok ps) :
    ∃ x, ps = [x] ∧ d (fullName pfx "pwdata") = some (8 * x.apbCfg.lanes) ∧ d (fullName pfx "paddr") = some x.apbCfg.addrWidth ∧
      x.apbCfg.prot = (d (fullName pfx "pprot")).isSome ∧ x.apbCfg.strb = true := by
  have hc := connect_spec (signals := ["paddr", "psel", "penable", "pwrite", "pwdata", "pstrb", "pready", "prdata"])
    (optional := ["pprot", "pslverr"]) (d := d) (pfx := pfx)
  have h' := h
  unfold attach attachApb at h
  simp only at h
  change match connect apbSignals.1 apbSignals.2 d pfx with
    | .error e => e = .attributeError ∧ ∃ x ∈ required (.apb s), d (fullName pfx x) = none
    | .ok b => (∀ x ∈ required (.apb s), d (fullName pfx x) ≠ none) ∧ IsBus d pfx (apbSignals.1 ++ apbSignals.2) b at hc
  cases hb : connect apbSignals.1 apbSignals.2 d pfx with
  | error e => rw [hb] at h; cases h
  | ok b =>
    rw [hb] at h hc
    obtain ⟨hr, hi⟩ := hc
    simp only at h
    obtain ⟨n, hn⟩ := Option.ne_none_iff_exists'.1 (hr "pwdata" (by simp [required]))
    obtain ⟨a, ha⟩ := Option.ne_none_iff_exists'.1 (hr "paddr" (by simp [required]))
    have hs := hr "pstrb" (by simp [required])
    rw [hi.lenS (s := "pwdata") (by decide), hi.lenS (s := "pstrb") (by decide), hi.lenS (s := "paddr") (by decide), hn, ha] at h
    simp only [Option.getD_some] at h
    by_cases c1 : strbOk (n / 8) (d (fullName pfx "pstrb")) = true
    · rw [if_neg (by rw [c1]; decide)] at h
      by_cases c2 : n / 8 * 8 = n
      · rw [if_neg (fun h => h c2)] at h
        injection h with h
        subst h
        refine ⟨_, rfl, ?_, ha, has_eq h' "pprot" (by cases s <;> decide), ?_⟩
        · rw [hn]
          simp only [Part.apbCfg]
          congr 1
          omega
        · refine (has_eq h' "pstrb" (by cases s <;> decide)).trans ?_
          exact Option.isSome_iff_ne_none.2 hs
      · rw [if_pos c2] at h; cases h
    · rw [if_pos (by simpa using c1)] at h; cases h

theorem lanes_pow {n l e : Nat} (h : n = 8 * l) (he : n = 8 * 2 ^ e) : l = 2 ^ e := by omega

/-- **C139**: an AXI-lite master and an AXI-lite slave can be connected to every legal interface, and then have the same configuration: a positive number of
byte lanes, as the theorems about their operations require, and the same address width, for writes and for reads. -/
theorem C139_lite_std {d : Design} {pfx : Option Str} (h : Legal (.bus .lite .master .both) (fun s => d (fullName pfx s))) :
    ∃ m n x y, attach (.bus .lite .master .both) d pfx = .ok [m, n] ∧ attach (.bus .lite .slave .both) d pfx = .ok [x, y] ∧
      (∃ e, m.liteWriteCfg.lanes = 2 ^ e) ∧ (∃ e, n.liteReadCfg.lanes = 2 ^ e) ∧
      x.liteWriteCfg = m.liteWriteCfg ∧ y.liteReadCfg = n.liteReadCfg := by
  have hm := C139_legal _ _ _ h
  have hs : ∃ ps, attach (.bus .lite .slave .both) d pfx = .ok ps :=
    (C139_accepts_partial _ _ _).2 ⟨h.exist, h.fixed, h.bytes, h.strobes, h.same, (fun ⟨r, hr⟩ => by cases hr)⟩
  have two : ∀ s ps, attach (.bus .lite s .both) d pfx = .ok ps → ∃ x y, ps = [x, y] := by
    intro s ps h
    unfold attach at h
    simp only at h
    repeat' split at h
    all_goals first
      | (cases h; done)
      | exact ⟨_, _, by injection h with h; exact h.symm⟩
  obtain ⟨ps, hps⟩ := hm
  obtain ⟨qs, hqs⟩ := hs
  obtain ⟨m, n, rfl⟩ := two _ _ hps
  obtain ⟨x, y, rfl⟩ := two _ _ hqs
  obtain ⟨m1, m2⟩ := (C139_both ..).1 hps
  obtain ⟨x1, x2⟩ := (C139_both ..).1 hqs
  obtain ⟨_, e1, a1, a2, a3, a4⟩ := C139_lite_write_config _ m1
  obtain ⟨_, e2, b1, b2, b3, b4⟩ := C139_lite_write_config _ x1
  obtain ⟨_, e3, c1, c2, c3⟩ := C139_lite_read_config _ m2
  obtain ⟨_, e4, d1, d2, d3⟩ := C139_lite_read_config _ x2
  injection e1 with e1; injection e2 with e2; injection e3 with e3; injection e4 with e4
  subst e1 e2 e3 e4
  obtain ⟨e, he⟩ := h.pow "wdata" (by simp [dataSignals]) _ a1
  obtain ⟨f, hf⟩ := h.pow "rdata" (by simp [dataSignals]) _ c1
  refine ⟨m, n, x, y, hps, hqs, ⟨e, lanes_pow rfl he⟩, ⟨f, lanes_pow rfl hf⟩, ?_, ?_⟩
  · have l : x.liteWriteCfg.lanes = m.liteWriteCfg.lanes := by
      rw [a1] at b1; injection b1 with b1; omega
    have w : x.liteWriteCfg.addrWidth = m.liteWriteCfg.addrWidth := by
      rw [a2] at b2; injection b2 with b2; exact b2.symm
    have p := b3.trans a3.symm
    have q := b4.trans a4.symm
    generalize x.liteWriteCfg = u at *
    generalize m.liteWriteCfg = v at *
    cases u; cases v
    simp only at l w p q
    subst l w p q
    rfl
  · have l : y.liteReadCfg.lanes = n.liteReadCfg.lanes := by
      rw [c1] at d1; injection d1 with d1; omega
    have w : y.liteReadCfg.addrWidth = n.liteReadCfg.addrWidth := by
      rw [c2] at d2; injection d2 with d2; exact d2.symm
    have p := d3.trans c3.symm
    have q : y.liteReadCfg.strb = n.liteReadCfg.strb := rfl
    generalize y.liteReadCfg = u at *
    generalize n.liteReadCfg = v at *
    cases u; cases v
    simp only at l w p q
    subst l w p q
    rfl

/-- **C139**: likewise an APB master and an APB slave. -/
theorem C139_apb_std {d : Design} {pfx : Option Str} (h : Legal (.apb .master) (fun s => d (fullName pfx s))) :
    ∃ m x, attach (.apb .master) d pfx = .ok [m] ∧ attach (.apb .slave) d pfx = .ok [x] ∧
      (∃ e, m.apbCfg.lanes = 2 ^ e) ∧ d (fullName pfx "prdata") = some (8 * m.apbCfg.lanes) ∧ x.apbCfg = m.apbCfg := by
  obtain ⟨ps, hm⟩ := C139_legal _ _ _ h
  have hs : ∃ ps, attach (.apb .slave) d pfx = .ok ps :=
    (C139_accepts_partial _ _ _).2 ⟨h.exist, h.fixed, h.bytes, h.strobes, h.same, (fun ⟨r, hr⟩ => by cases hr)⟩
  obtain ⟨qs, hs⟩ := hs
  obtain ⟨m, rfl, a1, a2, a3, a4⟩ := C139_apb_config _ hm
  obtain ⟨x, rfl, b1, b2, b3, b4⟩ := C139_apb_config _ hs
  obtain ⟨e, he⟩ := h.pow "pwdata" (by simp [dataSignals]) _ a1
  refine ⟨m, x, hm, hs, ⟨e, lanes_pow rfl he⟩, (h.apb ⟨_, rfl⟩).1.trans a1, ?_⟩
  have l : x.apbCfg.lanes = m.apbCfg.lanes := by
    rw [a1] at b1; injection b1 with b1; omega
  have w : x.apbCfg.addrWidth = m.apbCfg.addrWidth := by
    rw [a2] at b2; injection b2 with b2; exact b2.symm
  have p := b3.trans a3.symm
  have q := b4.trans a4.symm
  generalize x.apbCfg = u at *
  generalize m.apbCfg = v at *
  cases u; cases v
  simp only at l w p q
  subst l w p q
  rfl

/-! A 32-bit AXI-lite interface without `arprot`, and a 16-bit APB interface. -/

def exWord : Design := fun n =>
  ([("awaddr", 16), ("awprot", 3), ("awvalid", 1), ("awready", 1), ("wdata", 32), ("wstrb", 4), ("wvalid", 1), ("wready", 1), ("bresp", 2), ("bvalid", 1),
    ("bready", 1), ("araddr", 16), ("arvalid", 1), ("arready", 1), ("rdata", 32), ("rresp", 2), ("rvalid", 1), ("rready", 1),
    ("paddr", 12), ("psel", 1), ("penable", 1), ("pwrite", 1), ("pwdata", 16), ("pstrb", 2), ("pready", 1), ("prdata", 16)].map
      fun x : String × Nat => (x.1.toList, x.2)).lookup n

example : (attach (.bus .lite .master .both) exWord none).map (fun ps => ps.map fun x => (x.lanes, x.addrWidth, x.liteWriteCfg.prot, x.liteWriteCfg.strb, x.liteReadCfg.prot)) =
    .ok [(4, 16, true, true, false), (4, 16, false, false, false)] := by decide +kernel
example : (attach (.apb .slave) exWord none).map (fun ps => ps.map fun x => (x.apbCfg.lanes, x.apbCfg.addrWidth, x.apbCfg.prot, x.apbCfg.strb)) =
    .ok [(2, 12, false, true)] := by decide +kernel

theorem exWord_apb : Legal (.apb .master) (fun s => exWord (fullName none s)) := by
  refine ⟨⟨by decide +kernel, (fun s n h => by cases h), ?_, ?_, (fun s t h => by cases h), (fun ⟨r, hr⟩ => by cases hr)⟩, ?_, fun _ => ⟨by decide +kernel, ?_⟩⟩
  · intro s hs n hn
    simp only [dataSignals, List.mem_singleton] at hs
    subst hs
    have : exWord (fullName none "pwdata") = some 16 := by decide +kernel
    rw [this] at hn; cases hn; decide
  · intro s t hs m n hm hn
    simp only [strobes, List.mem_singleton, Prod.mk.injEq] at hs
    obtain ⟨rfl, rfl⟩ := hs
    have e1 : exWord (fullName none "pwdata") = some 16 := by decide +kernel
    have e2 : exWord (fullName none "pstrb") = some 2 := by decide +kernel
    simp only [e1, e2] at hm hn
    cases hm; cases hn; rfl
  · intro s hs n hn
    simp only [dataSignals, List.mem_singleton] at hs
    subst hs
    have : exWord (fullName none "pwdata") = some 16 := by decide +kernel
    rw [this] at hn; cases hn; exact ⟨1, rfl⟩
  · have : ∀ x ∈ [("psel", 1), ("penable", 1), ("pwrite", 1), ("pready", 1), ("pslverr", 1), ("pprot", 3)],
        exWord (fullName none x.1) = none ∨ exWord (fullName none x.1) = some x.2 := by decide +kernel
    intro s n hs m hm
    rcases this _ hs with h | h
    · rw [h] at hm; cases hm
    · rw [h] at hm; cases hm; rfl

theorem exWord_lite : Legal (.bus .lite .master .both) (fun s => exWord (fullName none s)) := by
  refine ⟨⟨by decide +kernel, ?_, ?_, ?_, (fun s t h => by cases h), (fun ⟨r, hr⟩ => by cases hr)⟩, ?_, fun ⟨s, hs⟩ => by cases hs⟩
  · have : ∀ x ∈ fixed (.bus .lite .master .both), exWord (fullName none x.1) = none ∨ exWord (fullName none x.1) = some x.2 := by decide +kernel
    intro s n hs m hm
    rcases this _ hs with h | h
    · rw [h] at hm; cases hm
    · rw [h] at hm; cases hm; rfl
  · have : ∀ s ∈ dataSignals (.bus .lite .master .both), exWord (fullName none s) = some 32 := by decide +kernel
    intro s hs n hn
    rw [this _ hs] at hn; cases hn; decide
  · intro s t hs m n hm hn
    simp only [strobes, List.mem_singleton, Prod.mk.injEq] at hs
    obtain ⟨rfl, rfl⟩ := hs
    have e1 : exWord (fullName none "wdata") = some 32 := by decide +kernel
    have e2 : exWord (fullName none "wstrb") = some 4 := by decide +kernel
    simp only [e1, e2] at hm hn
    cases hm; cases hn; rfl
  · have : ∀ s ∈ dataSignals (.bus .lite .master .both), exWord (fullName none s) = some 32 := by decide +kernel
    intro s hs n hn
    rw [this _ hs] at hn; cases hn; exact ⟨2, rfl⟩

example : ∃ m n, attach (.bus .lite .master .both) exWord none = .ok [m, n] := by
  obtain ⟨m, n, -, -, h, -⟩ := C139_lite_std exWord_lite
  exact ⟨m, n, h⟩
example : ∃ m, attach (.apb .master) exWord none = .ok [m] := by
  obtain ⟨m, -, h, -⟩ := C139_apb_std exWord_apb
  exact ⟨m, h⟩

end Verif.Wiring
