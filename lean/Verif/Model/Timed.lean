import Verif.Model.AddressSpace
import Verif.Model.MultiPort
import Verif.Spec.MultiPort

/-!
# Interface objects whose accesses take time

`Model/AddressSpace.lean` runs every access of a window or address space at once. Regions may be bus masters, though (README, "Address space abstraction"):
then `await region.read(...)` takes simulated time, and everything else goes on meanwhile. Here an access is described by its beginning and its end:
instants are numbers of events of the whole simulation, between two instants anything else may happen, and a coroutine runs without interruption except in
the `await`s. `AddressSpace.regions` may change during an access; the loops work on the list made at the beginning (address_space.py 299, 321).
Simplification: the data of a write is a value; a `bytearray` that the caller changes while the write is going on is not modelled.
-/

namespace Verif

/-- What `await obj.read(...)` evaluates to: bytes (address_space.py 196, 228, 316), the response object of a bus master (axi_master.py 100-107, axil_master.py
76-83, apb.py 61-68), or `None` if a reset has flushed the operation (axi_master.py 444-447, 854-857; axil_master.py 224-227, 475-478; apb.py 313-316). -/
inductive Obj
  | bytes (d : Bytes)
  | resp (d : Bytes) (r : Resp)
  | none

/-- `bytes(obj)` (address_space.py 312; `__bytes__` of axi_master.py 106, axil_master.py 82, apb.py 67). -/
def Obj.toBytes : Obj → Py Bytes
  | .bytes d => .ok d
  | .resp d _ => .ok d
  | .none => .error .typeError

/-- An interface object (address_space.py 32-149). `Read a n i j r`: a call of `read(a, n)` made at instant `i` may return or raise `r` at instant `j`; `Write a d i j r`:
the same for `write(a, d)`, which returns the response of a bus master, or `None`. -/
structure Dev where
  size : Nat
  Read : Int → Int → Nat → Nat → Py Obj → Prop
  Write : Int → Bytes → Nat → Nat → Py (Option Resp) → Prop

namespace Dev

/-- A memory or sparse memory region over memory objects with the contents `S t` at instant `t`: the access is one event, without suspension
(address_space.py 188-199, 220-231). -/
def ofIface {σ : Type} (p : Iface σ) (S : Nat → σ) : Dev where
  size := p.size
  Read a n i j r := j = i + 1 ∧ S (i + 1) = (p.read a n (S i)).2 ∧
    r = match (p.read a n (S i)).1 with
      | .error e => .error e
      | .ok d => .ok (.bytes d)
  Write a d i j r := j = i + 1 ∧ S (i + 1) = (p.write a d (S i)).2 ∧
    r = match (p.write a d (S i)).1 with
      | .error e => .error e
      | .ok () => .ok none

/-- `Window` (address_space.py 70-72, 102-104, 152-170): `read` passes on what the parent returns, `write` returns nothing. -/
def window (p : Dev) (offset : Int) (size : Nat) : Dev where
  size := size
  Read a n i j r :=
    match Iface.checkRange size a n with
    | .error e => j = i ∧ r = .error e
    | .ok () =>
      match Iface.getParentAddress size offset a with
      | .error e => j = i ∧ r = .error e
      | .ok a' => p.Read a' n i j r
  Write a d i j r :=
    match Iface.checkRange size a d.length with
    | .error e => j = i ∧ r = .error e
    | .ok () =>
      match Iface.getParentAddress size offset a with
      | .error e => j = i ∧ r = .error e
      | .ok a' => ∃ r', p.Write a' d i j r' ∧
        r = match r' with
          | .error e => .error e
          | .ok _ => .ok none

variable {σ : Type}

/-- Body of the loop of `AddressSpace.read` (address_space.py 303-316); `D e` is the region object of entry `e`. -/
def readLoop (D : Entry σ → Dev) : List (Entry σ) → Int → Int → Bytes → Nat → Nat → Py Obj → Prop
  | [], _, length, acc, i, j, r => j = i ∧ r = if length > 0 then .error .exception else .ok (.bytes acc)
  | e :: rest, address, length, acc, i, j, r =>
    if e.base > address then j = i ∧ r = .error .exception
    else
      let segAddr := address - e.base
      let segLen := min (e.size - segAddr) length
      ∃ m x, (D e).Read (AddressSpace.segTarget e address segAddr) segLen i m x ∧
        match x with
        | .error er => j = m ∧ r = .error er
        | .ok o =>
          match o.toBytes with
          | .error er => j = m ∧ r = .error er
          | .ok d => readLoop D rest (address + segLen) (length - segLen) (acc ++ d) m j r

/-- Body of the loop of `AddressSpace.write` (address_space.py 324-337): what the `write` of a region returns is ignored. -/
def writeLoop (D : Entry σ → Dev) : List (Entry σ) → Int → Int → Int → Bytes → Nat → Nat → Py (Option Resp) → Prop
  | [], _, _, length, _, i, j, r => j = i ∧ r = if length > 0 then .error .exception else .ok none
  | e :: rest, address, start, length, data, i, j, r =>
    if e.base > address then j = i ∧ r = .error .exception
    else
      let segAddr := address - e.base
      let segLen := min (e.size - segAddr) length
      ∃ m x, (D e).Write (AddressSpace.segTarget e address segAddr) (pySlice data start.toNat (start + segLen).toNat) i m x ∧
        match x with
        | .error er => j = m ∧ r = .error er
        | .ok _ => writeLoop D rest (address + segLen) (start + segLen) (length - segLen) data m j r

/-- `AddressSpace` (address_space.py 298-337); the `region` fields of the entries are not used, `D e` is the region object of entry `e`. -/
def space (s : AddressSpace σ) (D : Entry σ → Dev) : Dev where
  size := s.size
  Read a n i j r :=
    match s.findRegions a n with
    | .error e => j = i ∧ r = .error e
    | .ok [] => j = i ∧ r = .error .exception
    | .ok regions => readLoop D regions a n [] i j r
  Write a d i j r :=
    match s.findRegions a d.length with
    | .error e => j = i ∧ r = .error e
    | .ok [] => j = i ∧ r = .error .exception
    | .ok regions => writeLoop D regions a 0 d.length d i j r

end Dev

/-- A system of bus masters connected to slaves on a target of their own, as part of the simulation: at instant `t`, the first `now t` of its events have
happened (`Model/MultiPort.lean`). -/
structure Far (σ : Type) where
  E : Ports σ
  st : σ
  evs : List MultiEv
  now : Nat → Nat

namespace Far

variable {σ : Type}

/-- The system at instant `t` (models no line of /repo). -/
def at_ (F : Far σ) (t : Nat) : Multi σ := Multi.at_ F.E F.st F.evs (F.now t)

/-- The operation is issued by the event at instant `i` (axi_master.py 415-420, 827-831; axil_master.py 200-203, 451-454; apb.py 266-269, 291-294). -/
def issues (F : Far σ) (x : Tx) (i : Nat) : Prop := ¬ x.issued (F.at_ i) ∧ x.issued (F.at_ (i + 1))

/-- The reset has flushed the operation, whose caller is given `None` (axi_master.py 444-460, 854-870; axil_master.py 224-245, 475-496; apb.py 313-325). -/
def flushed (F : Far σ) (x : Tx) (j : Nat) : Prop :=
  match x with
  | .axiW p op => (op, none) ∈ ((F.at_ j).axiW p).m.results
  | .axiR p op => (op, none) ∈ ((F.at_ j).axiR p).m.results
  | .liteW p op => (op, none) ∈ ((F.at_ j).liteW p).m.results
  | .liteR p op => (op, none) ∈ ((F.at_ j).liteR p).m.results
  | .apb p op => (op, none) ∈ ((F.at_ j).apb p).m.results

/-- `await master.read(...)` of an accepted call: the operation `x` is issued, and then its event is awaited (axi_master.py 831-834, axil_master.py 454-457,
apb.py 294-297). -/
def awaitRead (F : Far σ) (x : Tx) (i j : Nat) (r : Py Obj) : Prop :=
  F.issues x i ∧ i < j ∧ ((∃ d rs, x.gaveData F.E (F.at_ j) d rs ∧ r = .ok (.resp d rs)) ∨ (F.flushed x j ∧ r = .ok .none))

/-- `await master.write(...)` of an accepted call (axi_master.py 420-423, axil_master.py 203-205, apb.py 269-271). -/
def awaitWrite (F : Far σ) (x : Tx) (i j : Nat) (r : Py (Option Resp)) : Prop :=
  F.issues x i ∧ i < j ∧ ((∃ rs, x.gaveResp F.E (F.at_ j) rs ∧ r = .ok (some rs)) ∨ (F.flushed x j ∧ r = .ok none))

/-- The `AxiMaster` of port `p` (axi_master.py 357-423, 780-834, 1038-1078): a call, with any further keyword arguments, is rejected at once or makes an
operation. -/
def axiMaster (F : Far σ) (p : Nat) : Dev where
  size := 2 ^ (F.E.axi p).addrWidth
  Read a n i j r :=
    (∃ q e, q.address = a ∧ q.length = n ∧ Axi.acceptRead (F.E.axi p) q = .error e ∧ j = i ∧ r = .error e) ∨
    ∃ op, (F.E.ra p op.key).address = a ∧ (F.E.ra p op.key).length = n ∧ F.awaitRead (.axiR p op) i j r
  Write a d i j r :=
    (∃ q u e, q.address = a ∧ Axi.acceptWrite (F.E.axi p) q d u = .error e ∧ j = i ∧ r = .error e) ∨
    ∃ op, (F.E.wa p op.key).req.address = a ∧ (F.E.wa p op.key).data = d ∧ F.awaitWrite (.axiW p op) i j r

/-- The `AxiLiteMaster` of port `p` (axil_master.py 184-205, 436-457, 582-616). -/
def liteMaster (F : Far σ) (p : Nat) : Dev where
  size := 2 ^ (F.E.lite p).addrWidth
  Read a n i j r :=
    (∃ prot e, Word.acceptRead (F.E.lite p) a n prot = .error e ∧ j = i ∧ r = .error e) ∨
    ∃ op, (F.E.lr p op.key).address = a ∧ (F.E.lr p op.key).length = n ∧ F.awaitRead (.liteR p op) i j r
  Write a d i j r :=
    (∃ prot e, Word.acceptWrite (F.E.lite p) a (.bytes d) prot = .error e ∧ j = i ∧ r = .error e) ∨
    ∃ op, (F.E.lw p op.key).address = a ∧ (F.E.lw p op.key).data = d ∧ F.awaitWrite (.liteW p op) i j r

/-- The `ApbMaster` of port `p` (apb.py 163, 250-297). -/
def apbMaster (F : Far σ) (p : Nat) : Dev where
  size := 2 ^ (F.E.apb p).addrWidth
  Read a n i j r :=
    (∃ prot e, Word.acceptRead (F.E.apb p) a n prot = .error e ∧ j = i ∧ r = .error e) ∨
    ∃ op prot, F.E.ac p op.key = .read a n prot ∧ F.awaitRead (.apb p op) i j r
  Write a d i j r :=
    (∃ prot e, Word.acceptWrite (F.E.apb p) a (.bytes d) prot = .error e ∧ j = i ∧ r = .error e) ∨
    ∃ op prot, F.E.ac p op.key = .write a d prot ∧ F.awaitWrite (.apb p op) i j r

end Far
end Verif
