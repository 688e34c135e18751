import Verif.Model.AxiSystem
import Verif.Model.LiteOps
import Verif.Model.WordBus
import Verif.Model.Apb
import Verif.Spec.LiteSystem
import Verif.Spec.Apb

/-!
# Several interfaces on one target

Multi-port memories: RAMs of any of the three kinds made with the `mem` object of another one (memory.py 29-35; axi_ram.py 45-53,
axil_ram.py 45-53, apb.py 626-634), each connected to a master; and, more generally, slaves with the same `target`. The test bench
may access the target directly too. Every port has its own `Memory`, with its own `size`; since this is `len(self.mem)` of the
common `mem` object, the ports' `Memory` objects are equal, and one is modelled.
-/

namespace Verif

/-- What is fixed at construction, and the arguments of the calls made: port `i` of a kind has the parameters given for it, and
its call number `k` (of `write`, or of `read`) the arguments given for it
(axi_master.py 1032-1078, axil_master.py 582-616, apb.py 130-301). -/
structure Ports (σ : Type) where
  t : Target σ
  axi : Nat → Axi.Cfg
  wa : Nat → Nat → AxiSys.WArgs
  ra : Nat → Nat → Axi.Req
  lite : Nat → Word.Cfg
  lw : Nat → Nat → LiteOps.WCall
  lr : Nat → Nat → LiteOps.RCall
  apb : Nat → Word.Cfg
  ac : Nat → Nat → Apb.Call
  /-- `pslverr_present` -/
  slverr : Nat → Bool
  /-- what a direct `write(address, data)` by the test bench does (memory.py 41-42 for a memory) -/
  direct : Nat → Bytes → σ → σ

/-- AXI, AXI-lite and APB masters, any number of each, connected to slaves on one target
(axi_ram.py 45-53, axil_ram.py 45-53, apb.py 626-634, memory.py 29-35). -/
structure Multi (σ : Type) where
  axiW : Nat → AxiSys.WPort := fun _ => {}
  axiR : Nat → AxiSys.RPort := fun _ => {}
  liteW : Nat → LiteOps.Port Word.WXfer (Py Resp) := fun _ => {}
  liteR : Nat → LiteOps.Port Word.RXfer (Nat × Resp) := fun _ => {}
  apb : Nat → Apb.Sys σ
  mem : σ

/-- Events: of the write or read side of AXI port `i`, of AXI-lite port `i`, of APB port `i`, or the test bench writes to the target
directly (memory.py 41-42). -/
inductive MultiEv
  | axiW (i : Nat) (e : AxiSys.WEv)
  | axiR (i : Nat) (e : AxiSys.REv)
  | liteW (i : Nat) (e : LiteOps.PortEv Word.WXfer (Py Resp))
  | liteR (i : Nat) (e : LiteOps.PortEv Word.RXfer (Nat × Resp))
  | apb (i : Nat) (e : Apb.Ev)
  | direct (a : Nat) (d : Bytes)

/-- `f` with the value `x` at `i` (bookkeeping of the states of the ports; no code). -/
def setAt {α : Type} (f : Nat → α) (i : Nat) (x : α) : Nat → α := fun j => if j = i then x else f j

namespace Multi

variable {σ : Type}

/-- One event: a port works on the target as everyone has left it (axi_ram.py 33-34, 41-42; axil_ram.py 33-34, 41-42;
apb.py 630-634; the methods of the ports work on the same object, memory.py 30-31). -/
def step (E : Ports σ) (s : Multi σ) : MultiEv → Multi σ
  | .axiW i e =>
    let x := (s.axiW i).step (E.axi i) (E.wa i) E.t s.mem e
    { s with axiW := setAt s.axiW i x.1, mem := x.2 }
  | .axiR i e =>
    let x := (s.axiR i).step (E.axi i) (E.ra i) E.t s.mem e
    { s with axiR := setAt s.axiR i x.1, mem := x.2 }
  | .liteW i e =>
    let x := (s.liteW i).step (Word.slaveWrite E.t (E.lite i).lanes true) s.mem e
    { s with liteW := setAt s.liteW i x.1, mem := x.2 }
  | .liteR i e =>
    let x := (s.liteR i).step (Word.slaveRead E.t (E.lite i).lanes) s.mem e
    { s with liteR := setAt s.liteR i x.1, mem := x.2 }
  | .apb i e =>
    let y := ((s.apb i).put s.mem).step (E.slverr i) (Apb.access E.t (E.apb i).lanes true) e
    { s with apb := setAt s.apb i y, mem := y.s.mem }
  | .direct a d => { s with mem := E.direct a d s.mem }

/-- After construction, with the target in state `st` (axi_ram.py 45-53, axil_ram.py 45-53, apb.py 466-516). -/
def start (st : σ) : Multi σ := { apb := fun _ => Apb.Sys.start st, mem := st }

/-- After the first `n` of the events (axi_ram.py 45-53, axil_ram.py 45-53, apb.py 466-516, then any events). -/
def at_ (E : Ports σ) (st : σ) (evs : List MultiEv) (n : Nat) : Multi σ := (evs.take n).foldl (step E) (start st)

end Multi
end Verif
