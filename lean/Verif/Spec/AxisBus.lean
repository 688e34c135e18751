import Verif.Model.Axis
import Verif.Spec.Axis

/-!
# Specification vocabulary for AXI streams at clock level
-/

namespace Verif.Axis

/-- The total number of bytes of some frames. -/
def bytes (l : List Frame) : Nat := (l.map fun f => f.tdata.length).sum

/-- The beats transferred according to a trace. -/
def xfers (c : Cfg) (tr : List (Option Sample)) : List Beat :=
  tr.flatMap fun o => match o with
    | some a => if (!c.hasValid || a.valid) && (!c.hasReady || a.ready) then [a.beat] else []
    | none => []

/-- Beats cut into packets behind every `tlast` (behind every beat if the bus has no `tlast`): the complete packets, and the
beats of the unfinished one. -/
def packets (c : Cfg) (bs : List Beat) : List (List Beat) × List Beat :=
  bs.foldl (fun p b => if !c.hasLast || b.tlast then (p.1 ++ [p.2 ++ [b]], []) else (p.1, p.2 ++ [b])) ([], [])

/-- The frame that a receiver makes of the beats of a packet: the lanes of all beats in order. -/
def frameOf (c : Cfg) (bs : List Beat) : Frame :=
  { isBytes := decide (c.size = 8)
    tdata := bs.flatMap fun b => (List.range c.lanes).map fun k => (((b.tdata >>> (k * c.size)) % 2 ^ c.size : Nat) : Int)
    tkeep := .list (if c.hasKeep then bs.flatMap fun b => (List.range c.lanes).map fun k => (((b.tkeep >>> k) % 2 : Nat) : Int)
      else [])
    tid := .list (if c.hasId then bs.flatMap fun b => List.replicate c.lanes b.tid else [])
    tdest := .list (if c.hasDest then bs.flatMap fun b => List.replicate c.lanes b.tdest else [])
    tuser := .list (if c.hasUser then bs.flatMap fun b => List.replicate c.lanes b.tuser else []) }

/-- The bytes that `read` gets from a received frame: those of the compacted frame. -/
def Frame.payload (f : Frame) : List Int :=
  match f.compact with
  | .ok g => g.tdata
  | .error _ => []

/-- Events that discard nothing. -/
def SrcEv.clean : SrcEv → Bool
  | .clear => false
  | .reset true => false
  | _ => true

/-- Events other than `clear()`. -/
def SrcEv.noClear : SrcEv → Bool
  | .clear => false
  | _ => true

/-- Events other than `pause = False`. -/
def SrcEv.noResume : SrcEv → Bool
  | .pause false => false
  | _ => true

/-- Events that discard nothing. -/
def SnkEv.clean : SnkEv → Bool
  | .clear => false
  | .reset true => false
  | _ => true

/-- Events that make the sink miss nothing. -/
def SnkEv.noReset : SnkEv → Bool
  | .reset true => false
  | _ => true

/-- Events other than `clear()`. -/
def SnkEv.noClear : SnkEv → Bool
  | .clear => false
  | _ => true

/-- Events of a sink whose frames are only taken by `read`. -/
def SnkEv.onlyReads : SnkEv → Bool
  | .recv _ => false
  | e => e.clean

/-- Events of a monitor that discard nothing. -/
def MonEv.clean : MonEv → Bool
  | .clear => false
  | .reset true => false
  | _ => true

/-- Events that make the monitor miss nothing. -/
def MonEv.noReset : MonEv → Bool
  | .reset true => false
  | _ => true

/-- Events that discard nothing. -/
def NetEv.clean : NetEv → Bool
  | .srcClear => false
  | .srcReset true => false
  | .snkClear => false
  | .snkReset true => false
  | _ => true

/-- One clock cycle of a sink: the environment sets the bus, the sink runs, writes take effect. -/
def SnkSys.cycle (c : Cfg) (s : SnkSys) (v : Bool) (b : Beat) : SnkSys :=
  [SnkEv.env v b, .wake, .commit, .tick, .run, .commit].foldl (SnkSys.step c) s

/-- The part of a clock cycle up to the edge: woken coroutines run, writes take effect. -/
def cycleHead : List NetEv := [.srcWake, .snkWake, .commit, .snkWake, .commit, .tick]

/-- The part after the edge, with the two coroutines in either order. -/
def cycleTail (b : Bool) : List NetEv := (if b then [.srcRun, .snkRun] else [.snkRun, .srcRun]) ++ [.commit]

/-- One clock cycle without user calls. -/
def Net.cycle (c : NetCfg) (b : Bool) (s : Net) : Net := (cycleHead ++ cycleTail b).foldl (Net.step c) s

/-- Several clock cycles. -/
def Net.cycles (c : NetCfg) (bs : List Bool) (s : Net) : Net := bs.foldl (fun s b => s.cycle c b) s

/-- A running, unpaused pair between two clock edges, with frames that can be transmitted. -/
structure NetRun (s : Net) : Prop where
  s0 : s.src.crashed = false
  s1 : s.src.pc ≠ .off
  s2 : s.src.pc ≠ .due
  k1 : s.snk.pc ≠ .off
  k2 : s.snk.pc ≠ .due
  sp : s.src.pause = false
  kp : s.snk.pause = false
  fr : ∀ f ∈ s.src.sent, f.proper

/-- Events other than `pause = False`. -/
def SnkEv.noResume : SnkEv → Bool
  | .pause false => false
  | _ => true

end Verif.Axis
