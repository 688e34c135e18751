import Verif.Model.AxiClock

/-!
# A channel of which one end is reset

The source of a channel belongs to one component and the sink to the other; each sees the reset of its own component
(axi_master.py 211-216, 653-656, axi_slave.py 53-58, 224-227).
-/

namespace Verif.AxiSys

open Verif.Stream (Net)

variable {α : Type}

/-- The component of the source is put in reset: a blocked `send()` is gone, the queue is cleared and `valid` dropped (axi_master.py 430-443,
axi_slave.py 98-107, stream.py 145-161, 253-258). The history of the channel starts again. -/
def downSrc (s : Net α) : Net α :=
  { src := { s.src.clear.reset true with waiters := [], sent := [] }
    snk := { s.snk with got := [], captured := [] }
    settled := false }

/-- The component of the sink is put in reset: the queue is cleared and `ready` dropped (axi_master.py 430-443, axi_slave.py 98-107,
stream.py 145-161, 388-393). The history of the channel starts again. -/
def downSnk (s : Net α) : Net α :=
  { src := { s.src with sent := [] }
    snk := { s.snk.clear.reset true with got := [], captured := [] }
    settled := false }

/-- The component of the source comes out of reset: its coroutine starts (stream.py 163-166). -/
def upSrc (s : Net α) : Net α := { s with src := s.src.reset false, settled := false }

/-- The component of the sink comes out of reset (stream.py 163-166). -/
def upSnk (s : Net α) : Net α := { s with snk := s.snk.reset false, settled := false }

end Verif.AxiSys
