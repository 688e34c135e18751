import Verif.Model.AxiClock
import Verif.Model.LiteClock
import Verif.Model.PauseGen

/-!
# Pause generators at the ends of the AXI and AXI-lite channels
-/

namespace Verif.PauseGen

open Verif.AxiSys (Chan CSys CEv canTick)
open Verif.Axi
open Verif.LiteOps (Clk ClkEv Halves)
open Verif.Stream (Net)

deriving instance DecidableEq for Chan

/-- The source or the sink of a channel; each has its own `pause` and generator (stream.py 170-178). -/
structure End where
  chan : Chan
  snk : Bool
  deriving DecidableEq

/-- All of them (the ten channel ends of axi_master.py 212-216, 654-656 and axi_slave.py 54-58, 225-227). -/
def busEnds : List End :=
  [⟨.aw, false⟩, ⟨.aw, true⟩, ⟨.w, false⟩, ⟨.w, true⟩, ⟨.b, false⟩, ⟨.b, true⟩, ⟨.ar, false⟩, ⟨.ar, true⟩, ⟨.r, false⟩, ⟨.r, true⟩]

/-- `pause` of the source or the sink (stream.py 183-185). -/
def pauseOf {α : Type} (s : Net α) : Bool → Bool
  | false => s.src.pause
  | true => s.snk.pause

/-- The `pause` setter of the source or the sink (stream.py 187-191). -/
def setter (snk v : Bool) : AxiSys.Inner := if snk then .snkPause v else .srcPause v

/-- A source connected to a sink (`Model/Stream.lean`), of any stream type; `false` is the source (stream.py 214-289, 370-435). -/
def netBase {α : Type} (c : Stream.NetCfg) : Base Bool (Net α) (Stream.NetEv α) where
  step s e := s.step c e
  isTick
    | .tick => true
    | _ => false
  ready s := s.settled && s.src.pc.still && s.snk.pc.still
  setPause k v := if k then .snkPause v else .srcPause v
  pause := pauseOf

/-- An AXI master and slave connected by five channels (`Model/AxiClock.lean`) (axi_master.py 1038-1078, axi_slave.py 339-347). -/
def axiBase {σ : Type} (c : Cfg) (wa : Nat → AxiSys.WArgs) (ra : Nat → Req) (t : Target σ) : Base End (CSys σ) CEv where
  step s e := s.step c wa ra t e
  isTick
    | .tick => true
    | _ => false
  ready s := canTick s.w.aw && canTick s.w.w && canTick s.w.b && canTick s.r.ar && canTick s.r.r
  setPause k v := .chan k.chan (setter k.snk v)
  pause s k := match k.chan with
    | .aw => pauseOf s.w.aw k.snk
    | .w => pauseOf s.w.w k.snk
    | .b => pauseOf s.w.b k.snk
    | .ar => pauseOf s.r.ar k.snk
    | .r => pauseOf s.r.r k.snk

/-- An AXI-lite master and slave connected by five channels (`Model/LiteClock.lean`) (axil_master.py 582-616, axil_slave.py 251-259). -/
def liteBase {χ α β ρ χ' ρ' σ : Type} (h : Halves χ α β) (f : χ → σ → ρ × σ) (g : χ' → σ → ρ' × σ) :
    Base End (Clk χ α β ρ χ' ρ' σ) (ClkEv χ ρ χ' ρ') where
  step s e := s.step h f g e
  isTick
    | .tick => true
    | _ => false
  ready s := canTick s.w.aw && canTick s.w.w && canTick s.w.b && canTick s.r.ar && canTick s.r.r
  setPause k v := .chan k.chan (setter k.snk v)
  pause s k := match k.chan with
    | .aw => pauseOf s.w.aw k.snk
    | .w => pauseOf s.w.w k.snk
    | .b => pauseOf s.w.b k.snk
    | .ar => pauseOf s.r.ar k.snk
    | .r => pauseOf s.r.r k.snk

end Verif.PauseGen
