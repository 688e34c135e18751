import Verif.Model.AddressSpace
import Verif.Model.AxiSystem
import Verif.Spec.LiteSystem
import Verif.Spec.Apb

/-!
# Word accessors of the bus masters

`AxiMaster`, `AxiLiteMaster` and `ApbMaster` inherit `read_words`, `write_words` and their special cases (`_dwords`, `_qwords`, `_word`, ...)
from `MemoryInterface` (address_space.py 74-129). These call the `read` and `write` of the master. (For other interfaces see
`Iface.readWords`, `Iface.writeWords` in `Model/AddressSpace.lean`.)
-/

namespace Verif

/-- The call of `AxiMaster.write` that `write_words(address, words, byteorder, ws, ...)` makes (address_space.py 106-111); with `ws` 4 and 8 and
one-element lists these are the other accessors (113-129). -/
def AxiSys.WArgs.ofWords (a : AxiSys.WArgs) (address : Int) (words : List Int) (bo : ByteOrder) (ws : Nat) : Prop :=
  a.req.address = address ∧ Memory.packWords bo ws words = .ok a.data

/-- The call of `AxiMaster.read` that `read_words(address, count, byteorder, ws, ...)` makes (address_space.py 75); also for 81-85, 90-97. -/
def Axi.Req.ofWords (a : Axi.Req) (address : Int) (count ws : Nat) : Prop :=
  a.address = address ∧ a.length = (count * ws : Nat)

/-- The same for `AxiLiteMaster` (address_space.py 106-129). -/
def LiteOps.WCall.ofWords (a : LiteOps.WCall) (address : Int) (words : List Int) (bo : ByteOrder) (ws : Nat) : Prop :=
  a.address = address ∧ Memory.packWords bo ws words = .ok a.data

/-- The same for `AxiLiteMaster` (address_space.py 74-97). -/
def LiteOps.RCall.ofWords (a : LiteOps.RCall) (address : Int) (count ws : Nat) : Prop :=
  a.address = address ∧ a.length = (count * ws : Nat)

/-- The same for `ApbMaster` (address_space.py 106-129). -/
def Apb.Call.ofWriteWords (a : Apb.Call) (address : Int) (words : List Int) (bo : ByteOrder) (ws : Nat) : Prop :=
  ∃ d p, a = .write address d p ∧ Memory.packWords bo ws words = .ok d

/-- The same for `ApbMaster` (address_space.py 74-97). -/
def Apb.Call.ofReadWords (a : Apb.Call) (address : Int) (count ws : Nat) : Prop :=
  ∃ p, a = .read address (count * ws : Nat) p

/-- What `read_words` returns, given what the `read` of the master returned: the data are taken by `bytes(...)` (axi_master.py 106-107, axil_master.py
82-83, apb.py 67-68) and split (address_space.py 75-79); the response code is dropped. -/
def wordsOf (bo : ByteOrder) (ws count : Nat) (r : Bytes × Resp) : List Nat := Memory.unpackWords bo ws r.1 count

/-- What `write_words` returns, given what the `write` of the master returned: nothing (address_space.py 111). -/
def wroteWords (_ : Resp) : Unit := ()

end Verif
