import Verif.Model.Stream

/-!
# Specification vocabulary for streams: what a recorded bus trace means
-/

namespace Verif.Stream

variable {α : Type}

/-- The items transferred according to a trace. -/
def xfers (c : Cfg) (tr : List (Option (Sample α))) : List α :=
  tr.flatMap fun o => match o with
    | some a => if (!c.hasValid || a.valid) && (!c.hasReady || a.ready) then a.data.toList else []
    | none => []

/-- Events that discard nothing. -/
def SrcEv.clean : SrcEv α → Bool
  | .clear => false
  | .reset true => false
  | _ => true

/-- Events after which `idle_event` is exact. -/
def SrcEv.noClear : SrcEv α → Bool
  | .clear => false
  | _ => true

/-- Events that make the sink miss nothing. -/
def SnkEv.noReset : SnkEv α → Bool
  | .reset true => false
  | _ => true

/-- Events that keep the sink's queue. -/
def SnkEv.noClear : SnkEv α → Bool
  | .clear => false
  | _ => true

/-- Events that make the monitor miss nothing. -/
def MonEv.noReset : MonEv α → Bool
  | .reset true => false
  | _ => true

/-- Events that keep the monitor's queue. -/
def MonEv.noClear : MonEv α → Bool
  | .clear => false
  | _ => true

/-- Events that drop nothing. -/
def NetEv.clean : NetEv α → Bool
  | .srcClear => false
  | .srcReset true => false
  | .snkClear => false
  | .snkReset true => false
  | _ => true

/-- One clock cycle of a sink: the environment sets the bus, the sink runs, writes take effect. -/
def SnkSys.cycle (c : Cfg) (s : SnkSys α) (v : Bool) (d : α) : SnkSys α :=
  [SnkEv.env v d, .wake, .commit, .tick, .run, .commit].foldl (SnkSys.step c) s

/-- The part of a clock cycle up to the edge: woken coroutines run, writes take effect. -/
def cycleHead : List (NetEv α) := [.srcWake, .snkWake, .commit, .snkWake, .commit, .tick]

/-- The part after the edge, with the two coroutines in either order. -/
def cycleTail (b : Bool) : List (NetEv α) := (if b then [.srcRun, .snkRun] else [.snkRun, .srcRun]) ++ [.commit]

/-- One clock cycle without user calls. -/
def Net.cycle (c : NetCfg) (b : Bool) (s : Net α) : Net α := (cycleHead ++ cycleTail b).foldl (Net.step c) s

/-- Several clock cycles. -/
def Net.cycles (c : NetCfg) (bs : List Bool) (s : Net α) : Net α := bs.foldl (fun s b => s.cycle c b) s

/-- A running, unpaused pair between two clock edges. -/
structure NetRun (s : Net α) : Prop where
  s1 : s.src.pc ≠ .off
  s2 : s.src.pc ≠ .due
  k1 : s.snk.pc ≠ .off
  k2 : s.snk.pc ≠ .due
  sp : s.src.pause = false
  kp : s.snk.pause = false

/-- Events other than `pause = False`. -/
def SrcEv.noResume : SrcEv α → Bool
  | .pause false => false
  | _ => true

/-- Events other than `pause = False`. -/
def SnkEv.noResume : SnkEv α → Bool
  | .pause false => false
  | _ => true

end Verif.Stream
