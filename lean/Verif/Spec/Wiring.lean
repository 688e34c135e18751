import Verif.Model.Wiring

/-!
# What it means to be connected properly to a design (C138, C139)

The tables of signals are those of the AXI, AXI-lite, APB and AXI stream specifications.
-/

namespace Verif.Wiring

open DefineStream (Str)

/-- The name in the design of the signal `s` of an interface with the given prefix: `prefix_s`, or just `s` without a prefix. -/
def fullName (pfx : Option Str) (s : String) : Str :=
  if pfx.getD [] = [] then s.toList else pfx.getD [] ++ "_".toList ++ s.toList

/-- Which signals of a user-defined stream with the given `ready` signal an end drives. -/
def channelDrives (ready : Option Str) : Role → Str → Prop
  | .source, s => ready ≠ some s
  | .sink, s => ready = some s
  | .monitor, _ => False

/-- The signals that a master drives on the write channels. -/
def masterWriteOut : Proto → List String
  | .axi => ["awid", "awaddr", "awlen", "awsize", "awburst", "awlock", "awcache", "awprot", "awqos", "awregion", "awuser", "awvalid",
      "wdata", "wstrb", "wlast", "wuser", "wvalid", "bready"]
  | .lite => ["awaddr", "awprot", "awvalid", "wdata", "wstrb", "wvalid", "bready"]

/-- The signals that a slave drives on the write channels. -/
def slaveWriteOut : Proto → List String
  | .axi => ["awready", "wready", "bid", "bresp", "buser", "bvalid"]
  | .lite => ["awready", "wready", "bresp", "bvalid"]

/-- The signals that a master drives on the read channels. -/
def masterReadOut : Proto → List String
  | .axi => ["arid", "araddr", "arlen", "arsize", "arburst", "arlock", "arcache", "arprot", "arqos", "arregion", "aruser", "arvalid", "rready"]
  | .lite => ["araddr", "arprot", "arvalid", "rready"]

/-- The signals that a slave drives on the read channels. -/
def slaveReadOut : Proto → List String
  | .axi => ["arready", "rid", "rdata", "rresp", "rlast", "ruser", "rvalid"]
  | .lite => ["arready", "rdata", "rresp", "rvalid"]

/-- The signals that a component may drive. -/
def outputs : Kind → List String
  | .bus p .master .write => masterWriteOut p
  | .bus p .master .read => masterReadOut p
  | .bus p .master .both => masterWriteOut p ++ masterReadOut p
  | .bus p .slave .write => slaveWriteOut p
  | .bus p .slave .read => slaveReadOut p
  | .bus p .slave .both => slaveWriteOut p ++ slaveReadOut p
  | .apb .master => ["paddr", "pprot", "psel", "penable", "pwrite", "pwdata", "pstrb"]
  | .apb .slave => ["pready", "prdata", "pslverr"]
  | .axis .source => ["tdata", "tvalid", "tlast", "tkeep", "tid", "tdest", "tuser"]
  | .axis .sink => ["tready"]
  | .axis .monitor => []

/-- All the signals that a component drives. -/
def drives (ps : List Part) : List Str := ps.flatMap Part.drives

/-- The two ends of one interface: a master and a slave, a source and a sink. -/
inductive Ends : Kind → Kind → Prop
  | bus (p : Proto) (h : Half) : Ends (.bus p .master h) (.bus p .slave h)
  | apb : Ends (.apb .master) (.apb .slave)
  | axis : Ends (.axis .source) (.axis .sink)

/-- Components that may share one prefix: a master and a slave; the two halves of a bus; a source and a sink; anything and a monitor; components
for different kinds of interface. -/
def Compatible : Kind → Kind → Prop
  | .bus _ s h, .bus _ s' h' => s ≠ s' ∨ (h = .write ∧ h' = .read) ∨ (h = .read ∧ h' = .write)
  | .apb s, .apb s' => s ≠ s'
  | .axis r, .axis r' => r ≠ r' ∨ r = .monitor
  | _, _ => True

/-- The signals that must exist, those of fixed width with their width, the data signals with their strobes, and the identifiers that must be
as wide as each other, on the write channels. -/
def writeRequired : Proto → List String
  | .axi => ["awid", "awaddr", "awlen", "awsize", "awburst", "awvalid", "awready", "wdata", "wlast", "wvalid", "wready", "bid", "bvalid", "bready"]
  | .lite => ["awaddr", "awvalid", "awready", "wdata", "wvalid", "wready", "bvalid", "bready"]

/-- See `writeRequired`. -/
def writeFixed : Proto → List (String × Nat)
  | .axi => [("awvalid", 1), ("awready", 1), ("wvalid", 1), ("wready", 1), ("bvalid", 1), ("bready", 1), ("awlen", 8), ("awsize", 3),
      ("awburst", 2), ("awlock", 1), ("awcache", 4), ("awprot", 3), ("awqos", 4), ("awregion", 4), ("wlast", 1), ("bresp", 2)]
  | .lite => [("awvalid", 1), ("awready", 1), ("wvalid", 1), ("wready", 1), ("bvalid", 1), ("bready", 1), ("awprot", 3), ("bresp", 2)]

/-- The required signals of the read channels. -/
def readRequired : Proto → List String
  | .axi => ["arid", "araddr", "arlen", "arsize", "arburst", "arvalid", "arready", "rid", "rdata", "rlast", "rvalid", "rready"]
  | .lite => ["araddr", "arvalid", "arready", "rdata", "rvalid", "rready"]

/-- The signals of fixed width of the read channels. -/
def readFixed : Proto → List (String × Nat)
  | .axi => [("arvalid", 1), ("arready", 1), ("rvalid", 1), ("rready", 1), ("arlen", 8), ("arsize", 3), ("arburst", 2), ("arlock", 1),
      ("arcache", 4), ("arprot", 3), ("arqos", 4), ("arregion", 4), ("rlast", 1), ("rresp", 2)]
  | .lite => [("arvalid", 1), ("arready", 1), ("rvalid", 1), ("rready", 1), ("arprot", 3), ("rresp", 2)]

/-- The signals without which a component cannot be connected. -/
def required : Kind → List String
  | .bus p _ .write => writeRequired p
  | .bus p _ .read => readRequired p
  | .bus p _ .both => writeRequired p ++ readRequired p
  | .apb _ => ["paddr", "psel", "penable", "pwrite", "pwdata", "pstrb", "pready", "prdata"]
  | .axis _ => ["tdata"]

/-- The signals whose width is fixed (and checked). -/
def fixed : Kind → List (String × Nat)
  | .bus p _ .write => writeFixed p
  | .bus p _ .read => readFixed p
  | .bus p _ .both => writeFixed p ++ readFixed p
  | .apb _ => []
  | .axis _ => []

/-- The data signals, which consist of whole bytes. -/
def dataSignals : Kind → List String
  | .bus _ _ .write => ["wdata"]
  | .bus _ _ .read => ["rdata"]
  | .bus _ _ .both => ["wdata", "rdata"]
  | .apb _ => ["pwdata"]
  | .axis _ => []

/-- Strobe signals, which have one bit per byte of the data signal. -/
def strobes : Kind → List (String × String)
  | .bus _ _ .write => [("wstrb", "wdata")]
  | .bus _ _ .read => []
  | .bus _ _ .both => [("wstrb", "wdata")]
  | .apb _ => [("pstrb", "pwdata")]
  | .axis _ => []

/-- Pairs of signals of the same width. -/
def same : Kind → List (String × String)
  | .bus .axi _ .write => [("bid", "awid")]
  | .bus .axi _ .read => [("rid", "arid")]
  | .bus .axi _ .both => [("bid", "awid"), ("rid", "arid")]
  | _ => []

/-- What the components check of a design. `w s` is the width of the signal `s` of the interface, if it exists. -/
structure Fits (k : Kind) (w : String → Option Nat) : Prop where
  exist : ∀ s ∈ required k, w s ≠ none
  fixed : ∀ s n, (s, n) ∈ fixed k → ∀ m, w s = some m → m = n
  bytes : ∀ s ∈ dataSignals k, ∀ n, w s = some n → 8 ∣ n
  strobes : ∀ s t, (s, t) ∈ strobes k → ∀ m n, w s = some m → w t = some n → n / 8 = m
  same : ∀ s t, (s, t) ∈ same k → w s = w t
  lanes : (∃ r, k = .axis r) → ∀ n, w "tdata" = some n → ∃ l, (w "tkeep" = some l ∨ w "tkeep" = none ∧ l = n / 8) ∧ 0 < l ∧ l ∣ n

/-- What the interface specifications ask beyond that: the data signals of AXI, AXI-lite and APB have a power of two of bytes, the data signals of
both directions of APB are as wide as each other, and the other signals of APB have their widths. -/
structure Legal (k : Kind) (w : String → Option Nat) : Prop extends Fits k w where
  pow : ∀ s ∈ dataSignals k, ∀ n, w s = some n → ∃ e, n = 8 * 2 ^ e
  apb : (∃ s, k = .apb s) → w "prdata" = w "pwdata" ∧
    ∀ s n, (s, n) ∈ [("psel", 1), ("penable", 1), ("pwrite", 1), ("pready", 1), ("pslverr", 1), ("pprot", 3)] → ∀ m, w s = some m → m = n

end Verif.Wiring
