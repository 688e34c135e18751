import Verif.Model.DefineStream
import Verif.Model.AxisGeometry
import Verif.Model.Axi

/-!
# Model of how components are connected to a design

`Bus` objects (`from_prefix`, `from_entity`), the channel types of AXI and AXI-lite, and the constructors of the masters, slaves, sources,
sinks and monitors: which signals of the design they look up, which checks they make, and which signals they ever write.

Simplifications: a design is the function from the names of its signals to their widths, and names are compared as they are (`cocotb_bus` by
default ignores the case of the names of required signals). The constructors' other effects are in the models of the components.
-/

namespace Verif.Wiring

open DefineStream (Str Stream Widths defineStream bind)

/-- The signals of a design, with their widths: `hasattr(entity, name)`, `len(getattr(entity, name))` (stream.py 125-127). -/
abbrev Design := Str → Option Nat

/-- The name of a signal of the design (`cocotb_bus.bus.Bus.__init__`: `name + "_" + signal if name else signal`); `from_entity` passes no
prefix (stream.py 43-54, axis.py 244-253, apb.py 76-85). -/
def sigName (pfx : Option Str) (sig : Str) : Str :=
  match pfx with
  | some (c :: p) => (c :: p) ++ '_' :: sig
  | _ => sig

/-- A `Bus`: its attributes, each with the name and width of the signal of the design (stream.py 38-54, axis.py 239-253, apb.py 71-85). -/
structure Bus where
  handles : List (Str × Str × Nat)

/-- `Bus.__init__`, with the class's `_signals` and `_optional_signals` (`cocotb_bus`; stream.py 43-44, axis.py 244-245, apb.py 76-77). -/
def connect (signals optional : List Str) (d : Design) (pfx : Option Str) : Py Bus :=
  if signals.any (fun s => (d (sigName pfx s)).isNone) then .error .attributeError
  else .ok ⟨(signals ++ optional).filterMap fun s => (d (sigName pfx s)).map fun w => (s, sigName pfx s, w)⟩

/-- `len(bus.attr)`; `none` if `not hasattr(bus, attr)` (stream.py 112, 117, 123-125). -/
def Bus.len (b : Bus) (a : Str) : Option Nat := (b.handles.lookup a).map Prod.snd

/-- The signals of the design behind those of the attributes that exist (stream.py 112-134). -/
def Bus.names (b : Bus) (attrs : List Str) : List Str := attrs.filterMap fun a => (b.handles.lookup a).map Prod.fst

/-- Which end of a stream a component is (stream.py 211, 290, 370; axis.py 430, 597, 741). -/
inductive Role
  | source
  | sink
  | monitor
  deriving DecidableEq, Repr

/-- `_init_x` (stream.py 82, 216, 293, 372; axis.py 263, 434, 601, 745). -/
def Role.initX : Role → Bool
  | .source => true
  | _ => false

/-- `_valid_init is not None` (stream.py 85, 218, 295, 374; axis.py 265, 436, 603, 747). -/
def Role.validInit : Role → Bool
  | .source => true
  | _ => false

/-- `_ready_init is not None` (stream.py 87, 219, 296, 375; axis.py 266, 437, 604, 748). -/
def Role.readyInit : Role → Bool
  | .sink => true
  | _ => false

/-- The attributes that a stream component writes in its constructor (`setimmediatevalue`), if the bus has them (stream.py 112-133). -/
def initWrites (r : Role) (st : Stream) : List Str :=
  (if r.readyInit then st.ready.toList else []) ++ (if r.validInit then [st.valid] else []) ++
    (if r.initX then (st.signals ++ st.optional).filter fun s => !(s == st.valid || some s == st.ready) else [])

/-- The attributes that a stream component writes later, if the bus has them: a source drives the fields of a transaction and `valid`
(stream.py 253-258, 274-282), a sink `ready` (stream.py 390-395, 424), a monitor nothing (stream.py 341-366). -/
def runWrites (r : Role) (st : Stream) : List Str :=
  match r with
  | .source => st.fields ++ [st.valid]
  | .sink => st.ready.toList
  | .monitor => []

/-- `StreamBase.__init__` (stream.py 90-139) of the classes that `define_stream` makes: the signals of the design that the component writes. -/
def streamEnd (r : Role) (st : Stream) (b : Bus) : Py (List Str) :=
  match bind st b.len with
  | .error e => .error e
  | .ok _ => .ok (b.names (initWrites r st) ++ b.names (runWrites r st))

/-- The arguments of one `define_stream` call (axi_channels.py 28-67, axil_channels.py 28-58). -/
structure Chan where
  signals : List String
  optional : List String
  widths : List (String × Nat) := []

/-- The call (axi_channels.py 28-67, axil_channels.py 28-58). -/
def Chan.stream (c : Chan) : Py Stream :=
  defineStream (c.signals.map String.toList) (some (c.optional.map String.toList)) none none
    (some (c.widths.map fun x => (some x.1.toList, x.2)))

/-- axi_channels.py 28-33. -/
def axiAW : Chan where
  signals := ["awid", "awaddr", "awlen", "awsize", "awburst", "awvalid", "awready"]
  optional := ["awlock", "awcache", "awprot", "awqos", "awregion", "awuser"]
  widths := [("awlen", 8), ("awsize", 3), ("awburst", 2), ("awlock", 1), ("awcache", 4), ("awprot", 3), ("awqos", 4), ("awregion", 4)]

/-- axi_channels.py 36-40. -/
def axiW : Chan where
  signals := ["wdata", "wlast", "wvalid", "wready"]
  optional := ["wstrb", "wuser"]
  widths := [("wlast", 1)]

/-- axi_channels.py 43-47. -/
def axiB : Chan where
  signals := ["bid", "bvalid", "bready"]
  optional := ["bresp", "buser"]
  widths := [("bresp", 2)]

/-- axi_channels.py 50-55. -/
def axiAR : Chan where
  signals := ["arid", "araddr", "arlen", "arsize", "arburst", "arvalid", "arready"]
  optional := ["arlock", "arcache", "arprot", "arqos", "arregion", "aruser"]
  widths := [("arlen", 8), ("arsize", 3), ("arburst", 2), ("arlock", 1), ("arcache", 4), ("arprot", 3), ("arqos", 4), ("arregion", 4)]

/-- axi_channels.py 58-62. -/
def axiR : Chan where
  signals := ["rid", "rdata", "rlast", "rvalid", "rready"]
  optional := ["rresp", "ruser"]
  widths := [("rresp", 2), ("rlast", 1)]

/-- axil_channels.py 28-32. -/
def liteAW : Chan where
  signals := ["awaddr", "awvalid", "awready"]
  optional := ["awprot"]
  widths := [("awprot", 3)]

/-- axil_channels.py 35-38. -/
def liteW : Chan where
  signals := ["wdata", "wvalid", "wready"]
  optional := ["wstrb"]

/-- axil_channels.py 41-45. -/
def liteB : Chan where
  signals := ["bvalid", "bready"]
  optional := ["bresp"]
  widths := [("bresp", 2)]

/-- axil_channels.py 48-52. -/
def liteAR : Chan where
  signals := ["araddr", "arvalid", "arready"]
  optional := ["arprot"]
  widths := [("arprot", 3)]

/-- axil_channels.py 55-59. -/
def liteR : Chan where
  signals := ["rdata", "rvalid", "rready"]
  optional := ["rresp"]
  widths := [("rresp", 2)]

/-- The two families of five channels (axi_channels.py, axil_channels.py). -/
inductive Proto
  | axi
  | lite
  deriving DecidableEq, Repr

/-- Masters and slaves; a RAM is a slave (axi_ram.py 29-90, axil_ram.py 29-90). -/
inductive Side
  | master
  | slave
  deriving DecidableEq, Repr

/-- The write half, the read half, or both (`AxiMasterWrite`, `AxiMasterRead`, `AxiMaster`; likewise the others). -/
inductive Half
  | write
  | read
  | both
  deriving DecidableEq, Repr

/-- The components that can be connected. -/
inductive Kind
  | bus (p : Proto) (s : Side) (h : Half)
  | apb (s : Side)
  | axis (r : Role)
  deriving DecidableEq, Repr

/-- The channels of a write half, in the order in which `from_prefix` connects them, with the end that the constructor creates
(axi_channels.py 65-87, axil_channels.py 62-84; axi_master.py 211-215, axi_slave.py 53-57, axil_master.py 101-105, axil_slave.py 53-57). -/
def writeChans (p : Proto) (s : Side) : List (Chan × Role) :=
  match p, s with
  | .axi, .master => [(axiAW, .source), (axiW, .source), (axiB, .sink)]
  | .axi, .slave => [(axiAW, .sink), (axiW, .sink), (axiB, .source)]
  | .lite, .master => [(liteAW, .source), (liteW, .source), (liteB, .sink)]
  | .lite, .slave => [(liteAW, .sink), (liteW, .sink), (liteB, .source)]

/-- The channels of a read half (axi_channels.py 90-109, axil_channels.py 87-106; axi_master.py 653-656, axi_slave.py 224-227,
axil_master.py 361-364, axil_slave.py 179-182). -/
def readChans (p : Proto) (s : Side) : List (Chan × Role) :=
  match p, s with
  | .axi, .master => [(axiAR, .source), (axiR, .sink)]
  | .axi, .slave => [(axiAR, .sink), (axiR, .source)]
  | .lite, .master => [(liteAR, .source), (liteR, .sink)]
  | .lite, .slave => [(liteAR, .sink), (liteR, .source)]

/-- The stream types of the channels (made when the module is imported) and their ends (axi_channels.py 28-62, axil_channels.py 28-59). -/
def streams : List (Chan × Role) → Py (List (Stream × Role))
  | [] => .ok []
  | (c, r) :: rest =>
    match c.stream with
    | .error e => .error e
    | .ok st =>
      match streams rest with
      | .error e => .error e
      | .ok l => .ok ((st, r) :: l)

/-- `from_prefix` / `from_entity` of the classes with several channels (axi_channels.py 71-83, 95-105, 117-127; axil_channels.py 68-80,
92-102, 114-124). -/
def connectAll (d : Design) (pfx : Option Str) : List (Stream × Role) → Py (List (Stream × Role × Bus))
  | [] => .ok []
  | (st, r) :: rest =>
    match connect st.signals st.optional d pfx with
    | .error e => .error e
    | .ok b =>
      match connectAll d pfx rest with
      | .error e => .error e
      | .ok l => .ok ((st, r, b) :: l)

/-- The constructor's channel ends, one after the other (axi_master.py 211-215, 653-656; axi_slave.py 53-57, 224-227; axil_master.py 101-105,
361-364; axil_slave.py 53-57, 179-182): the signals of the design that they write. -/
def createEnds : List (Stream × Role × Bus) → Py (List Str)
  | [] => .ok []
  | (st, r, b) :: rest =>
    match streamEnd r st b with
    | .error e => .error e
    | .ok names =>
      match createEnds rest with
      | .error e => .error e
      | .ok l => .ok (names ++ l)

/-- One half of a component, or a whole one: `byte_lanes`, `address_width`, `id_width`, the attributes that its buses have, and the signals
of the design that it writes (axi_master.py 233-252, 672-687; axi_slave.py 59-69, 229-235; axil_master.py 119-126, 377-382;
axil_slave.py 60-66, 184-187; apb.py 153-161, 483-491). -/
structure Part where
  lanes : Nat
  addrWidth : Nat
  idWidth : Nat
  has : List Str
  drives : List Str
  deriving DecidableEq

/-- `len(self.x_channel.bus.attr)`: the attributes of the buses have different names. A missing required attribute does not occur (the
constructor gets connected buses). -/
def lenOf (bs : List (Stream × Role × Bus)) (a : String) : Option Nat := bs.findSome? fun x => x.2.2.len a.toList

/-- `if self.wstrb_present: assert self.byte_lanes == len(wstrb)` (axi_master.py 271-272, axi_slave.py 85-86, axil_master.py 143-144,
axil_slave.py 81-82, apb.py 177-178, 505-506). -/
def strbOk (lanes : Nat) (strb : Option Nat) : Bool :=
  match strb with
  | some n => lanes == n
  | none => true

/-- `AxiMasterWrite.__init__`, `AxiSlaveWrite.__init__`, `AxiLiteMasterWrite.__init__`, `AxiLiteSlaveWrite.__init__`
(axi_master.py 211-273, axi_slave.py 53-89, axil_master.py 101-145, axil_slave.py 53-83). -/
def newWrite (p : Proto) (bs : List (Stream × Role × Bus)) : Py Part :=
  match createEnds bs with
  | .error e => .error e
  | .ok drives =>
    let width := (lenOf bs "wdata").getD 0
    let lanes := width / 8
    let idOk := p == .lite || lenOf bs "bid" == lenOf bs "awid"
    if !strbOk lanes (lenOf bs "wstrb") then .error .assertionError
    else if lanes * 8 ≠ width then .error .assertionError
    else if !idOk then .error .assertionError
    else .ok { lanes := lanes, addrWidth := (lenOf bs "awaddr").getD 0, idWidth := (lenOf bs "awid").getD 0,
               has := bs.flatMap fun x => x.2.2.handles.map Prod.fst, drives := drives }

/-- `AxiMasterRead.__init__`, `AxiSlaveRead.__init__`, `AxiLiteMasterRead.__init__`, `AxiLiteSlaveRead.__init__`
(axi_master.py 653-710, axi_slave.py 224-253, axil_master.py 361-399, axil_slave.py 179-202). -/
def newRead (p : Proto) (bs : List (Stream × Role × Bus)) : Py Part :=
  match createEnds bs with
  | .error e => .error e
  | .ok drives =>
    let width := (lenOf bs "rdata").getD 0
    let lanes := width / 8
    let idOk := p == .lite || lenOf bs "rid" == lenOf bs "arid"
    if lanes * 8 ≠ width then .error .assertionError
    else if !idOk then .error .assertionError
    else .ok { lanes := lanes, addrWidth := (lenOf bs "araddr").getD 0, idWidth := (lenOf bs "arid").getD 0,
               has := bs.flatMap fun x => x.2.2.handles.map Prod.fst, drives := drives }

/-- `XWriteBus.from_prefix`, then the write half on it. -/
def connectWrite (p : Proto) (s : Side) (d : Design) (pfx : Option Str) : Py (List (Stream × Role × Bus)) :=
  match streams (writeChans p s) with
  | .error e => .error e
  | .ok sts => connectAll d pfx sts

/-- `XReadBus.from_prefix`, then the read half on it. -/
def connectRead (p : Proto) (s : Side) (d : Design) (pfx : Option Str) : Py (List (Stream × Role × Bus)) :=
  match streams (readChans p s) with
  | .error e => .error e
  | .ok sts => connectAll d pfx sts

/-- The attributes of the buses of APB (apb.py 73-74): required and optional. -/
def apbSignals : List Str × List Str :=
  (["paddr", "psel", "penable", "pwrite", "pwdata", "pstrb", "pready", "prdata"].map String.toList, ["pprot", "pslverr"].map String.toList)

/-- What an APB component writes, if the bus has it: `ApbMaster` (apb.py 181-189, 306-307, 404-443) and `ApbSlave` (apb.py 509-512, 528, 541,
612-624). -/
def apbWrites (s : Side) : List Str :=
  match s with
  | .master => ["paddr", "pprot", "psel", "penable", "pwrite", "pwdata", "pstrb"].map String.toList
  | .slave => ["pready", "prdata", "pslverr"].map String.toList

/-- `ApbBus.from_prefix`, and `ApbMaster.__init__` (apb.py 130-189) or `ApbSlave.__init__` (apb.py 462-512) on it. -/
def attachApb (s : Side) (d : Design) (pfx : Option Str) : Py Part :=
  match connect apbSignals.1 apbSignals.2 d pfx with
  | .error e => .error e
  | .ok b =>
    let width := (b.len "pwdata".toList).getD 0
    let lanes := width / 8
    if !strbOk lanes (b.len "pstrb".toList) then .error .assertionError
    else if lanes * 8 ≠ width then .error .assertionError
    else .ok { lanes := lanes, addrWidth := (b.len "paddr".toList).getD 0, idWidth := 0, has := b.handles.map Prod.fst
               drives := b.names (apbWrites s) }

/-- The attributes of an AXI stream bus (axis.py 241-242): required and optional. -/
def axisSignals : List Str × List Str :=
  (["tdata"].map String.toList, ["tvalid", "tready", "tlast", "tkeep", "tid", "tdest", "tuser"].map String.toList)

/-- What an AXI stream component writes in its constructor, if the bus has it (axis.py 301-315). -/
def axisInitWrites (r : Role) : List Str :=
  (if r.validInit then ["tvalid".toList] else []) ++ (if r.readyInit then ["tready".toList] else []) ++
    (if r.initX then (axisSignals.1 ++ axisSignals.2).filter fun s => !(s == "tvalid".toList || s == "tready".toList) else [])

/-- What an AXI stream component writes later, if the bus has it: the source (axis.py 491-505, 570-589), the sink (axis.py 771, 841), the monitor
nothing (axis.py 692-738). -/
def axisRunWrites (r : Role) : List Str :=
  match r with
  | .source => ["tdata", "tvalid", "tlast", "tkeep", "tid", "tdest", "tuser"].map String.toList
  | .sink => ["tready".toList]
  | .monitor => []

/-- `AxiStreamBus.from_prefix`, and the constructor of `AxiStreamSource`, `AxiStreamSink` or `AxiStreamMonitor` on it without `byte_size` and
`byte_lanes` (axis.py 268-349). -/
def attachAxis (r : Role) (d : Design) (pfx : Option Str) : Py Part :=
  match connect axisSignals.1 axisSignals.2 d pfx with
  | .error e => .error e
  | .ok b =>
    match Axis.geometry ((b.len "tdata".toList).getD 0) (b.len "tkeep".toList) none none with
    | .error e => .error e
    | .ok (lanes, _) => .ok { lanes := lanes, addrWidth := 0, idWidth := 0, has := b.handles.map Prod.fst
                              drives := b.names (axisInitWrites r) ++ b.names (axisRunWrites r) }

/-- A component connected to a design: `K(XBus.from_prefix(design, prefix), …)`, or `from_entity` without a prefix. The result are its halves
(axi_channels.py 112-133, axil_channels.py 109-130; axi_master.py 1039-1046, axi_slave.py 340-347, axil_master.py 583-591,
axil_slave.py 252-259). -/
def attach (k : Kind) (d : Design) (pfx : Option Str) : Py (List Part) :=
  match k with
  | .bus p s .write =>
    match connectWrite p s d pfx with
    | .error e => .error e
    | .ok w => (newWrite p w).map fun x => [x]
  | .bus p s .read =>
    match connectRead p s d pfx with
    | .error e => .error e
    | .ok r => (newRead p r).map fun x => [x]
  | .bus p s .both =>
    match connectWrite p s d pfx with
    | .error e => .error e
    | .ok w =>
      match connectRead p s d pfx with
      | .error e => .error e
      | .ok r =>
        match newWrite p w with
        | .error e => .error e
        | .ok x =>
          match newRead p r with
          | .error e => .error e
          | .ok y => .ok [x, y]
  | .apb s => (attachApb s d pfx).map fun x => [x]
  | .axis r => (attachAxis r d pfx).map fun x => [x]

/-- The configuration of an AXI master's write half (axi_master.py 222-252). -/
def Part.writeCfg (x : Part) (maxBurstLen : Int) : Axi.Cfg where
  lanes := x.lanes
  addrWidth := x.addrWidth
  idWidth := x.idWidth
  maxBurstLenArg := maxBurstLen
  present :=
    { lock := "awlock".toList ∈ x.has, cache := "awcache".toList ∈ x.has, prot := "awprot".toList ∈ x.has, qos := "awqos".toList ∈ x.has
      region := "awregion".toList ∈ x.has, user := "awuser".toList ∈ x.has, wuser := "wuser".toList ∈ x.has }

/-- The configuration of an AXI master's read half (axi_master.py 662-687). -/
def Part.readCfg (x : Part) (maxBurstLen : Int) : Axi.Cfg where
  lanes := x.lanes
  addrWidth := x.addrWidth
  idWidth := x.idWidth
  maxBurstLenArg := maxBurstLen
  present :=
    { lock := "arlock".toList ∈ x.has, cache := "arcache".toList ∈ x.has, prot := "arprot".toList ∈ x.has, qos := "arqos".toList ∈ x.has
      region := "arregion".toList ∈ x.has, user := "aruser".toList ∈ x.has }

end Verif.Wiring
