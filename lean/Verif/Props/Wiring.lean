import Verif.Proof.Wiring
import Verif.Props.Axi
import Verif.Props.AxiSlave

/-!
# C138, C139: connecting masters, slaves, sources, sinks and monitors to a design
-/

namespace Verif.Wiring

open DefineStream (Str Stream Widths defineStream)

/-! ## C138 -/

/-- **C138**: a component drives exactly those of the signals that its role drives that exist in the design, under the names made of its prefix and
the name of the signal. -/
theorem C138_drives {k : Kind} {d : Design} {pfx : Option Str} {ps : List Part} (h : attach k d pfx = .ok ps) (n : Str) :
    n ∈ drives ps ↔ ∃ s ∈ outputs k, n = fullName pfx s ∧ d n ≠ none := by
  have hs := attach_spec k d pfx
  rw [h] at hs
  exact hs.2.1 n

/-- **C138**: when the two ends of an interface are connected to the same signals, every signal that either end uses has exactly one driver. -/
theorem C138_one_driver {k k' : Kind} (hk : Ends k k') {d : Design} {pfx : Option Str} {ps qs : List Part}
    (h : attach k d pfx = .ok ps) (h' : attach k' d pfx = .ok qs) (s : String)
    (hs : s.toList ∈ ps.flatMap Part.has ∨ s.toList ∈ qs.flatMap Part.has) :
    (fullName pfx s ∈ drives ps ∧ fullName pfx s ∉ drives qs) ∨ (fullName pfx s ∉ drives ps ∧ fullName pfx s ∈ drives qs) := by
  have e1 := attach_spec k d pfx
  rw [h] at e1
  have e2 := attach_spec k' d pfx
  rw [h'] at e2
  have key : outputs k ++ inputs k = outputs k ++ outputs k' ∧ (∀ s ∈ outputs k' ++ inputs k', s ∈ outputs k ++ outputs k') ∧
      ∀ s ∈ outputs k, s ∉ outputs k' := by
    cases hk with
    | bus p hh => clear e1 e2 h h'; cases p <;> cases hh <;> decide +kernel
    | apb => decide +kernel
    | axis => decide +kernel
  obtain ⟨k1, k2, k3⟩ := key
  have hs' : s ∈ outputs k ++ outputs k' ∧ d (fullName pfx s) ≠ none := by
    rcases hs with hs | hs
    · obtain ⟨t, ht, he, hd⟩ := (e1.2.2 _).1 hs
      rw [String.toList_inj.1 he]
      exact ⟨by rw [← k1]; exact ht, hd⟩
    · obtain ⟨t, ht, he, hd⟩ := (e2.2.2 _).1 hs
      rw [String.toList_inj.1 he]
      exact ⟨k2 t ht, hd⟩
  have plain : ∀ t ∈ outputs k ++ outputs k', Plain t := by
    intro t ht
    rcases List.mem_append.1 ht with h | h
    · exact outputs_plain k t h
    · exact outputs_plain k' t h
  obtain ⟨hm, hd⟩ := hs'
  rcases List.mem_append.1 hm with hm' | hm'
  · refine .inl ⟨(e1.2.1 _).2 ⟨s, hm', rfl, hd⟩, fun hc => ?_⟩
    obtain ⟨t, ht, he, -⟩ := (e2.2.1 _).1 hc
    have := (fullName_inj (plain s hm) (plain t (List.mem_append_right _ ht)) he).2
    subst this
    exact k3 s hm' ht
  · refine .inr ⟨fun hc => ?_, (e2.2.1 _).2 ⟨s, hm', rfl, hd⟩⟩
    obtain ⟨t, ht, he, -⟩ := (e1.2.1 _).1 hc
    have := (fullName_inj (plain s hm) (plain t (List.mem_append_left _ ht)) he).2
    subst this
    exact k3 s ht hm'

theorem compatible_disjoint {k k' : Kind} (h : Compatible k k') : ∀ s ∈ outputs k, s ∉ outputs k' := by
  cases k with
  | bus p s h1 =>
    cases k' with
    | bus p' s' h1' =>
      cases p <;> cases s <;> cases h1 <;> cases p' <;> cases s' <;> cases h1' <;>
        first | decide +kernel | (exfalso; revert h; unfold Compatible; decide)
    | apb s' => cases p <;> cases s <;> cases h1 <;> cases s' <;> decide +kernel
    | axis r => cases p <;> cases s <;> cases h1 <;> cases r <;> decide +kernel
  | apb s =>
    cases k' with
    | bus p' s' h1' => cases s <;> cases p' <;> cases s' <;> cases h1' <;> decide +kernel
    | apb s' => cases s <;> cases s' <;> first | decide +kernel | (exfalso; revert h; unfold Compatible; decide)
    | axis r => cases s <;> cases r <;> decide +kernel
  | axis r =>
    cases k' with
    | bus p' s' h1' => cases r <;> cases p' <;> cases s' <;> cases h1' <;> decide +kernel
    | apb s => cases r <;> cases s <;> decide +kernel
    | axis r' => cases r <;> cases r' <;> first | decide +kernel | (exfalso; revert h; unfold Compatible; decide)

/-- **C138**: no two components drive the same signal of a design, if they have different prefixes or roles that may share one. -/
theorem C138_no_contention {k k' : Kind} {d : Design} {pfx pfx' : Option Str} {ps qs : List Part}
    (h : attach k d pfx = .ok ps) (h' : attach k' d pfx' = .ok qs) (hc : pfx.getD [] ≠ pfx'.getD [] ∨ Compatible k k') (n : Str) :
    ¬ (n ∈ drives ps ∧ n ∈ drives qs) := by
  rintro ⟨h1, h2⟩
  obtain ⟨s, hs, e, -⟩ := (C138_drives h n).1 h1
  obtain ⟨t, ht, e', -⟩ := (C138_drives h' n).1 h2
  obtain ⟨hp, rfl⟩ := fullName_inj (outputs_plain k s hs) (outputs_plain k' t ht) (e.symm.trans e')
  rcases hc with hc | hc
  · exact hc hp
  · exact compatible_disjoint hc s hs ht

/-- **C138**, a monitor drives nothing. -/
theorem C138_monitor {d : Design} {pfx : Option Str} {ps : List Part} (h : attach (.axis .monitor) d pfx = .ok ps) : drives ps = [] := by
  apply List.eq_nil_iff_forall_not_mem.2
  intro n hn
  obtain ⟨s, hs, -⟩ := (C138_drives h n).1 hn
  cases hs

/-- **C138**, for the classes that `define_stream` makes from any arguments: a source drives all signals but `ready`, a sink `ready` only, and
a monitor nothing (of those that exist). -/
theorem C138_stream {signals : List Str} {optional : Option (List Str)} {valid ready : Option Str} {widths : Option Widths} {st : Stream}
    (hst : defineStream signals optional valid ready widths = .ok st) (hvr : st.ready ≠ some st.valid)
    {d : Design} {pfx : Option Str} {b : Bus} (hb : connect st.signals st.optional d pfx = .ok b)
    {r : Role} {names : List Str} (h : streamEnd r st b = .ok names) (n : Str) :
    n ∈ names ↔ ∃ s ∈ st.signals ++ st.optional, n = fullName pfx (String.ofList s) ∧ d n ≠ none ∧ channelDrives st.ready r s := by
  simp only [fullName_eq, String.toList_ofList]
  have hf : ∀ s ∈ st.fields, st.ready ≠ some s := by
    unfold defineStream at hst
    simp only at hst
    split at hst
    · cases hst
    · injection hst with hst
      subst hst
      intro s hs
      have := (List.mem_filter.1 hs).2
      simp only [Bool.not_eq_true', Bool.or_eq_false_iff, beq_eq_false_iff_ne] at this
      exact fun e => this.1 e.symm
  obtain ⟨-, hb⟩ := connect_ok hb
  unfold streamEnd at h
  split at h
  · cases h
  · injection h with h
    subst h
    rw [List.mem_append, hb.names, hb.names]
    constructor
    · rintro (⟨a, h1, h2, h3, h4⟩ | ⟨a, h1, h2, h3, h4⟩)
      · refine ⟨a, h2, h3, h4, ?_⟩
        cases r with
        | monitor => simp [initWrites, Role.readyInit, Role.validInit, Role.initX] at h1
        | sink => simpa [initWrites, Role.readyInit, Role.validInit, Role.initX, channelDrives] using h1
        | source =>
          simp only [initWrites, Role.readyInit, Role.validInit, Role.initX, Bool.false_eq_true, if_false, if_true, List.nil_append,
            List.mem_append, List.mem_singleton, List.mem_filter, Bool.not_eq_true', Bool.or_eq_false_iff, beq_eq_false_iff_ne] at h1
          rcases h1 with rfl | ⟨-, -, h⟩
          · exact hvr
          · exact fun e => h e.symm
      · refine ⟨a, h2, h3, h4, ?_⟩
        cases r with
        | monitor => cases h1
        | sink => simpa [runWrites, channelDrives] using h1
        | source =>
          rcases List.mem_append.1 h1 with h | h
          · exact hf a h
          · cases List.mem_singleton.1 h; exact hvr
    · rintro ⟨s, h1, h2, h3, h4⟩
      cases r with
      | monitor => cases h4
      | sink => exact .inr ⟨s, by simpa [runWrites, channelDrives] using h4, h1, h2, h3⟩
      | source =>
        by_cases hv : s = st.valid
        · exact .inr ⟨s, by subst hv; exact List.mem_append_right _ List.mem_cons_self, h1, h2, h3⟩
        · refine .inl ⟨s, ?_, h1, h2, h3⟩
          simp only [initWrites, Role.readyInit, Role.validInit, Role.initX, Bool.false_eq_true, if_false, if_true, List.nil_append,
            List.mem_append, List.mem_singleton, List.mem_filter, Bool.not_eq_true', Bool.or_eq_false_iff, beq_eq_false_iff_ne]
          exact .inr ⟨List.mem_append.1 h1, hv, fun e => h4 e.symm⟩

/-- A stream `x` with a data signal, an optional user signal that the design does not have, and a handshake: what its three kinds of end drive. -/
example : (match defineStream ["data".toList, "valid".toList, "ready".toList] (some ["user".toList]) with
    | .error _ => []
    | .ok st =>
      match connect st.signals st.optional
        (fun n => [("x_data".toList, 8), ("x_valid".toList, 1), ("x_ready".toList, 1)].lookup n) (some "x".toList) with
      | .error _ => []
      | .ok b => [Role.source, .sink, .monitor].map fun r =>
          match streamEnd r st b with
          | .ok l => l.eraseDups.map String.ofList
          | .error _ => ["error"]) =
    [["x_valid", "x_data"], ["x_ready"], []] := by decide +kernel

/-- A design with two AXI interfaces `a` and `b_c`, with some of the optional signals, and an AXI stream without a prefix. -/
def exDesign : Design := fun n =>
  (([("awid", 4), ("awaddr", 32), ("awlen", 8), ("awsize", 3), ("awburst", 2), ("awprot", 3), ("awvalid", 1), ("awready", 1), ("wdata", 32),
    ("wstrb", 4), ("wlast", 1), ("wvalid", 1), ("wready", 1), ("bid", 4), ("bresp", 2), ("bvalid", 1), ("bready", 1), ("arid", 4), ("araddr", 32),
    ("arlen", 8), ("arsize", 3), ("arburst", 2), ("arvalid", 1), ("arready", 1), ("rid", 4), ("rdata", 32), ("rresp", 2), ("rlast", 1),
    ("rvalid", 1), ("rready", 1)].flatMap fun x : String × Nat => [(("a_" ++ x.1).toList, x.2), (("b_c_" ++ x.1).toList, x.2)]) ++
    [("tdata".toList, 16), ("tvalid".toList, 1), ("tready".toList, 1)]).lookup n

example : (attach (.bus .axi .master .both) exDesign (some "a".toList)).map (fun ps => ps.map fun x => (x.lanes, x.addrWidth, x.idWidth, x.drives.eraseDups.length)) =
    .ok [(4, 32, 4, 12), (4, 32, 4, 7)] := by decide +kernel
example : (attach (.bus .axi .slave .both) exDesign (some "b_c".toList)).map (fun ps => (drives ps).eraseDups.map String.ofList) =
    .ok ["b_c_awready", "b_c_wready", "b_c_bvalid", "b_c_bid", "b_c_bresp", "b_c_arready", "b_c_rvalid", "b_c_rid", "b_c_rdata", "b_c_rlast",
      "b_c_rresp"] := by decide +kernel
example : (attach (.axis .source) exDesign none).map (fun ps => (drives ps).eraseDups.map String.ofList) = .ok ["tvalid", "tdata"] := by decide +kernel
example : attach (.apb .slave) exDesign (some "a".toList) = .error .attributeError := by decide +kernel
-- Why the prefixes must differ: two masters on one prefix drive the same signals.
example : ∃ ps, attach (.bus .axi .master .both) exDesign (some "a".toList) = .ok ps ∧ "a_awid".toList ∈ drives ps := by
  have : (attach (.bus .axi .master .both) exDesign (some "a".toList)).map (fun ps => decide ("a_awid".toList ∈ drives ps)) = .ok true := by decide +kernel
  cases h : attach (.bus .axi .master .both) exDesign (some "a".toList) with
  | error e => rw [h] at this; cases this
  | ok ps => rw [h] at this; exact ⟨ps, rfl, by simpa [Except.map] using this⟩

/-! ## C139 -/

/-- **C139**, what is checked: a component can be connected to a design exactly when the required signals exist, the signals of fixed width that exist
have it, the data consists of whole bytes, the strobes have a bit per byte, and the identifiers have the same width. -/
theorem C139_accepts_partial (k : Kind) (d : Design) (pfx : Option Str) :
    (∃ ps, attach k d pfx = .ok ps) ↔ Fits k (fun s => d (fullName pfx s)) := by
  have hs := attach_spec k d pfx
  cases h : attach k d pfx with
  | error e =>
    rw [h] at hs
    exact ⟨(fun ⟨_, h⟩ => by cases h), fun hf => absurd hf hs.2⟩
  | ok ps =>
    rw [h] at hs
    exact ⟨fun _ => hs.1, fun _ => ⟨ps, rfl⟩⟩

/-- **C139**: in particular to every legal interface. -/
theorem C139_legal (k : Kind) (d : Design) (pfx : Option Str) (h : Legal k (fun s => d (fullName pfx s))) : ∃ ps, attach k d pfx = .ok ps :=
  (C139_accepts_partial k d pfx).2 h.toFits

/-- **C139**: a required signal is missing exactly when the failure is an `AttributeError`. -/
theorem C139_missing (k : Kind) (d : Design) (pfx : Option Str) :
    attach k d pfx = .error .attributeError ↔ ∃ s ∈ required k, d (fullName pfx s) = none := by
  have hs := attach_spec k d pfx
  cases h : attach k d pfx with
  | error e =>
    rw [h] at hs
    rw [← hs.1]
    exact ⟨(fun h => by injection h), fun h => by rw [h]⟩
  | ok ps =>
    rw [h] at hs
    exact ⟨(fun h => by cases h), fun ⟨s, h1, h2⟩ => absurd h2 (hs.1.exist s h1)⟩

/-- **C139**: an AXI master or slave gets the widths of its write half from the design: as many byte lanes as `wdata` has bytes, and the widths of
`awaddr` and `awid`. -/
theorem C139_write_config (s : Side) {d : Design} {pfx : Option Str} {ps : List Part} (h : attach (.bus .axi s .write) d pfx = .ok ps) :
    ∃ x, ps = [x] ∧ d (fullName pfx "wdata") = some (8 * x.lanes) ∧ d (fullName pfx "awaddr") = some x.addrWidth ∧
      d (fullName pfx "awid") = some x.idWidth := by
  have hw := write_half .axi s d pfx
  unfold attach at h
  simp only at h
  cases hc : connectWrite .axi s d pfx with
  | error e => rw [hc] at h; cases h
  | ok bs =>
    rw [hc] at h hw
    simp only at h hw
    cases hn : newWrite .axi bs with
    | error e => rw [hn] at h; cases h
    | ok x =>
      rw [hn] at h hw
      injection h with h
      subst h
      obtain ⟨-, -, hp, ha, hi⟩ := hw
      obtain ⟨n, h1, h2⟩ := hp.lanes
      exact ⟨x, rfl, by rw [h1, h2], ha, hi trivial⟩

/-- **C139**: likewise its read half, from `rdata`, `araddr` and `arid`. -/
theorem C139_read_config (s : Side) {d : Design} {pfx : Option Str} {ps : List Part} (h : attach (.bus .axi s .read) d pfx = .ok ps) :
    ∃ x, ps = [x] ∧ d (fullName pfx "rdata") = some (8 * x.lanes) ∧ d (fullName pfx "araddr") = some x.addrWidth ∧
      d (fullName pfx "arid") = some x.idWidth := by
  have hw := read_half .axi s d pfx
  unfold attach at h
  simp only at h
  cases hc : connectRead .axi s d pfx with
  | error e => rw [hc] at h; cases h
  | ok bs =>
    rw [hc] at h hw
    simp only at h hw
    cases hn : newRead .axi bs with
    | error e => rw [hn] at h; cases h
    | ok x =>
      rw [hn] at h hw
      injection h with h
      subst h
      obtain ⟨-, -, hp, ha, hi⟩ := hw
      obtain ⟨n, h1, h2⟩ := hp.lanes
      exact ⟨x, rfl, by rw [h1, h2], ha, hi trivial⟩

theorem has_eq {k : Kind} {d : Design} {pfx : Option Str} {x : Part} (h : attach k d pfx = .ok [x]) (s : String) (hs : s ∈ outputs k ++ inputs k) :
    decide (s.toList ∈ x.has) = (d (fullName pfx s)).isSome := by
  have e := attach_spec k d pfx
  rw [h] at e
  have e' := e.2.2 s.toList
  simp only [List.flatMap_cons, List.flatMap_nil, List.append_nil] at e'
  rw [Bool.eq_iff_iff, decide_eq_true_iff, e', Option.isSome_iff_ne_none]
  constructor
  · rintro ⟨t, _, ht, hd⟩
    rwa [String.toList_inj.1 ht]
  · exact fun hd => ⟨s, hs, rfl, hd⟩

/-- **C139**: which optional signals an AXI master takes into account on its write side: exactly those of the design. -/
theorem C139_write_present {d : Design} {pfx : Option Str} {x : Part} (h : attach (.bus .axi .master .write) d pfx = .ok [x]) (m : Int) :
    (x.writeCfg m).maxBurstLenArg = m ∧
    (x.writeCfg m).present = { lock := (d (fullName pfx "awlock")).isSome, cache := (d (fullName pfx "awcache")).isSome
                               prot := (d (fullName pfx "awprot")).isSome, qos := (d (fullName pfx "awqos")).isSome
                               region := (d (fullName pfx "awregion")).isSome, user := (d (fullName pfx "awuser")).isSome
                               wuser := (d (fullName pfx "wuser")).isSome } := by
  refine ⟨rfl, ?_⟩
  unfold Part.writeCfg
  simp only
  rw [has_eq h "awlock" (by decide), has_eq h "awcache" (by decide), has_eq h "awprot" (by decide), has_eq h "awqos" (by decide),
    has_eq h "awregion" (by decide), has_eq h "awuser" (by decide), has_eq h "wuser" (by decide)]

/-- **C139**: likewise on its read side. -/
theorem C139_read_present {d : Design} {pfx : Option Str} {x : Part} (h : attach (.bus .axi .master .read) d pfx = .ok [x]) (m : Int) :
    (x.readCfg m).lanes = x.lanes ∧ (x.readCfg m).addrWidth = x.addrWidth ∧ (x.readCfg m).idWidth = x.idWidth ∧ (x.readCfg m).maxBurstLenArg = m ∧
    (x.readCfg m).present.lock = (d (fullName pfx "arlock")).isSome ∧ (x.readCfg m).present.cache = (d (fullName pfx "arcache")).isSome ∧
    (x.readCfg m).present.prot = (d (fullName pfx "arprot")).isSome ∧ (x.readCfg m).present.qos = (d (fullName pfx "arqos")).isSome ∧
    (x.readCfg m).present.region = (d (fullName pfx "arregion")).isSome ∧ (x.readCfg m).present.user = (d (fullName pfx "aruser")).isSome := by
  refine ⟨rfl, rfl, rfl, rfl, ?_⟩
  unfold Part.readCfg
  simp only
  exact ⟨has_eq h "arlock" (by decide), has_eq h "arcache" (by decide), has_eq h "arprot" (by decide), has_eq h "arqos" (by decide),
    has_eq h "arregion" (by decide), has_eq h "aruser" (by decide)⟩

/-- **C139**: an AXI master connected to a legal interface of up to 4096 bytes has a configuration for which the theorems about its operations hold. -/
theorem C139_std {d : Design} {pfx : Option Str} (h : Legal (.bus .axi .master .write) (fun s => d (fullName pfx s)))
    (hmax : ∀ n, d (fullName pfx "wdata") = some n → n ≤ 8 * 4096) :
    ∃ x, attach (.bus .axi .master .write) d pfx = .ok [x] ∧ ∀ maxBurstLen, (x.writeCfg maxBurstLen).Std ∧
      (x.writeCfg maxBurstLen).lanes = x.lanes ∧ (x.writeCfg maxBurstLen).addrWidth = x.addrWidth ∧ (x.writeCfg maxBurstLen).idWidth = x.idWidth := by
  obtain ⟨ps, hps⟩ := C139_legal _ _ _ h
  obtain ⟨x, rfl, h1, -, -⟩ := C139_write_config _ hps
  refine ⟨x, hps, fun m => ⟨⟨?_⟩, rfl, rfl, rfl⟩⟩
  obtain ⟨e, he⟩ := h.pow "wdata" (by simp [dataSignals]) _ h1
  refine ⟨e, by show x.lanes = 2 ^ e; omega, ?_⟩
  have := hmax _ h1
  apply Nat.le_of_not_lt
  intro hlt
  have : 2 ^ 13 ≤ 2 ^ e := Nat.pow_le_pow_right (by omega) hlt
  omega

/-- A 24-bit AXI interface, all else being legal. -/
def design24 : Design := fun n => if n = "wdata".toList ∨ n = "rdata".toList then some 24 else if n = "wstrb".toList then some 3 else
  exDesign ("a_".toList ++ n)

/-- **C139 is false of the code**: an AXI master and an AXI slave can be connected to an interface of 24 bits, although the master issues bursts for it
that the slave refuses: `write(0, b'...')` of three bytes. -/
theorem C139_violated :
    ∃ x y, attach (.bus .axi .master .write) design24 none = .ok [x] ∧ attach (.bus .axi .slave .write) design24 none = .ok [y] ∧
      ¬ Legal (.bus .axi .master .write) (fun s => design24 (fullName none s)) ∧
      ∃ cmd a w id bl nid, Axi.acceptWrite (x.writeCfg 256) { address := 0, length := 3 } [1, 2, 3] (.int 0) = .ok cmd ∧
        Axi.processWrite (x.writeCfg 256) 0 cmd [1, 2, 3] (.int 0) = .ok ([.inl a, .inr w], id, bl, nid) ∧
        ∀ (σ : Type) (t : Target σ) (st : σ), Axi.slaveWrite t y.lanes true a [w] st = (.failed .assertionError, st) := by
  have h1 : (attach (.bus .axi .master .write) design24 none).map (fun ps => ps.map fun x =>
      (x.lanes, x.addrWidth, x.idWidth, [(x.writeCfg 256).present.lock, (x.writeCfg 256).present.cache, (x.writeCfg 256).present.prot,
        (x.writeCfg 256).present.qos, (x.writeCfg 256).present.region, (x.writeCfg 256).present.user, (x.writeCfg 256).present.wuser])) =
      .ok [(3, 32, 4, [false, false, true, false, false, false, false])] := by
    decide +kernel
  have h2 : (attach (.bus .axi .slave .write) design24 none).map (fun ps => ps.map fun x => x.lanes) = .ok [3] := by decide +kernel
  cases g1 : attach (.bus .axi .master .write) design24 none with
  | error e => rw [g1] at h1; cases h1
  | ok ps =>
    cases g2 : attach (.bus .axi .slave .write) design24 none with
    | error e => rw [g2] at h2; cases h2
    | ok qs =>
      obtain ⟨x, rfl, -⟩ := C139_write_config _ g1
      obtain ⟨y, rfl, -⟩ := C139_write_config _ g2
      rw [g1] at h1
      rw [g2] at h2
      simp only [Except.map, List.map_cons, List.map_nil, Except.ok.injEq, List.cons.injEq, Prod.mk.injEq, and_true] at h1 h2
      obtain ⟨l1, l2, l3, p1, p2, p3, p4, p5, p6, p7⟩ := h1
      refine ⟨x, y, rfl, rfl, fun hl => ?_, ?_⟩
      · obtain ⟨e, he⟩ := hl.pow "wdata" (by simp [dataSignals]) 24 (by decide +kernel)
        rcases e with _ | _ | e
        · omega
        · omega
        · rw [Nat.pow_succ, Nat.pow_succ] at he; omega
      · have hcfg : x.writeCfg 256 = { lanes := 3, addrWidth := 32, idWidth := 4, maxBurstLenArg := 256, present :=
            { lock := false, cache := false, prot := true, qos := false, region := false, user := false, wuser := false } } := by
          have : x.writeCfg 256 = { lanes := x.lanes, addrWidth := x.addrWidth, idWidth := x.idWidth, maxBurstLenArg := 256
                                    present := (x.writeCfg 256).present } := rfl
          rw [this, l1, l2, l3]
          generalize (x.writeCfg 256).present = P at p1 p2 p3 p4 p5 p6 p7
          cases P
          dsimp only at p1 p2 p3 p4 p5 p6 p7
          rw [p1, p2, p3, p4, p5, p6, p7]
        rw [hcfg]
        exact ⟨_, _, _, _, _, _, rfl, rfl, fun σ t st => Axi.C65_write_illegal t _ _ _ _ _ (.inl (by rw [h2]; decide))⟩

/-- **C139 is false of the code** for APB: nothing about `prdata` is checked. -/
theorem C139_violated_apb :
    let d : Design := fun n => ([("paddr", 32), ("psel", 1), ("penable", 1), ("pwrite", 1), ("pwdata", 32), ("pstrb", 4), ("pready", 1),
      ("prdata", 8)].map fun x : String × Nat => (x.1.toList, x.2)).lookup n
    (∃ ps, attach (.apb .master) d none = .ok ps) ∧ (∃ ps, attach (.apb .slave) d none = .ok ps) ∧
      ¬ Legal (.apb .master) (fun s => d (fullName none s)) := by
  intro d
  have h1 : (attach (.apb .master) d none).map (fun _ => ()) = .ok () := by decide +kernel
  have h2 : (attach (.apb .slave) d none).map (fun _ => ()) = .ok () := by decide +kernel
  refine ⟨?_, ?_, fun hl => absurd (hl.apb ⟨_, rfl⟩).1 (by decide +kernel)⟩
  · cases h : attach (.apb .master) d none with
    | error e => rw [h] at h1; cases h1
    | ok ps => exact ⟨ps, rfl⟩
  · cases h : attach (.apb .slave) d none with
    | error e => rw [h] at h2; cases h2
    | ok ps => exact ⟨ps, rfl⟩

end Verif.Wiring
