import Verif.Model.Wiring
import Verif.Model.WordBus

/-!
# What AXI-lite and APB components read off the design they are connected to

Addition to `Model/Wiring.lean`: the configurations with which `Model/WordBus.lean` describes the operations.
-/

namespace Verif.Wiring

/-- The configuration of the write half of an AXI-lite master (axil_master.py 119-126). -/
def Part.liteWriteCfg (x : Part) : Word.Cfg where
  lanes := x.lanes
  addrWidth := x.addrWidth
  prot := "awprot".toList ∈ x.has
  strb := "wstrb".toList ∈ x.has

/-- The configuration of the read half of an AXI-lite master (axil_master.py 377-382); it has no strobes. -/
def Part.liteReadCfg (x : Part) : Word.Cfg where
  lanes := x.lanes
  addrWidth := x.addrWidth
  prot := "arprot".toList ∈ x.has

/-- The configuration of an APB master (apb.py 153-161). -/
def Part.apbCfg (x : Part) : Word.Cfg where
  lanes := x.lanes
  addrWidth := x.addrWidth
  prot := "pprot".toList ∈ x.has
  strb := "pstrb".toList ∈ x.has

end Verif.Wiring
