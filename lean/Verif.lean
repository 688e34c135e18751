import Verif.Props.SparseMemory
import Verif.Props.Memory
import Verif.Props.Buddy
import Verif.Props.AddressSpace
import Verif.Props.Axi
import Verif.Props.AxiSlave
import Verif.Props.Stream
import Verif.Props.AxiOps
import Verif.Props.AxiLite
import Verif.Props.LiteOps
import Verif.Props.LiteSystem
import Verif.Props.LiteProgress
import Verif.Props.Apb
import Verif.Props.ApbRam
import Verif.Props.AxisFrame
import Verif.Props.AxisMore
import Verif.Props.Reset
import Verif.Props.Hexdump
import Verif.Props.DefineStream
import Verif.Props.Wait
import Verif.Props.AxiSystem
import Verif.Props.AxiSysRam
import Verif.Props.AxiSysProgress
import Verif.Props.AxiClock
import Verif.Props.AxiClockProgress
import Verif.Props.AxiClockPauses
import Verif.Props.LiteClock
import Verif.Props.LiteClockProgress
import Verif.Props.LiteClockPauses
import Verif.Props.PauseGen
import Verif.Props.PauseGenBus
import Verif.Props.Mapped
import Verif.Props.AxiSysMapped
import Verif.Props.LiteMapped
import Verif.Props.ClockMapped
import Verif.Props.ApbMapped
import Verif.Props.Words
import Verif.Props.LiteClockApart
import Verif.Props.AxiClockApart
import Verif.Props.MultiPort
import Verif.Props.ByteWrite
import Verif.Props.Timed
import Verif.Props.Sideband
import Verif.Props.ApbClock
import Verif.Props.AxisIdle
import Verif.Props.PauseGenApb
import Verif.Props.AxisLive
import Verif.Props.PauseGenAxis
import Verif.Props.StreamLive
import Verif.Props.PauseGenStream
import Verif.Props.StreamTap
import Verif.Props.AxisTap
import Verif.Props.StreamSpeed
import Verif.Props.AxisSpeed
import Verif.Props.AxisTime
import Verif.Props.PoolSpace
import Verif.Props.AxisGeometry
import Verif.Props.LiteSplit
import Verif.Props.LiteSplitLive
import Verif.Props.ApbSplit
import Verif.Props.ApbSplitLive
import Verif.Props.AxisSplit
import Verif.Props.AxisOnward
import Verif.Props.AxiSplit
import Verif.Props.AxiSplitLive
import Verif.Props.StreamReset
import Verif.Props.Wiring
import Verif.Props.WiringWord
import Verif.Props.Transfer
import Verif.Props.RegionIndex
import Verif.Props.Alias
import Verif.Props.Readers
import Verif.Props.AxisReaders
import Verif.Props.StreamReaders
import Verif.Props.AxisMonReaders
import Verif.Props.LiteClockSplit
import Verif.Props.AxiClockSplit
