import Verif.Model.MultiPort
import Verif.Spec.AxiSystem

/-!
# Specification vocabulary for several interfaces on one target
-/

namespace Verif

/-- An operation: the port it was issued on, and itself. -/
inductive Tx
  | axiW (i : Nat) (op : AxiOps.Op)
  | axiR (i : Nat) (op : AxiOps.Op)
  | liteW (i : Nat) (op : LiteOps.Op Word.WXfer)
  | liteR (i : Nat) (op : LiteOps.Op Word.RXfer)
  | apb (i : Nat) (op : Apb.Op)

namespace Tx

variable {σ : Type}

/-- The operation has been issued. -/
def issued (S : Multi σ) : Tx → Prop
  | axiW i op => op ∈ (S.axiW i).m.issued
  | axiR i op => op ∈ (S.axiR i).m.issued
  | liteW i op => op ∈ (S.liteW i).m.issued
  | liteR i op => op ∈ (S.liteR i).m.issued
  | apb i op => op ∈ (S.apb i).m.issued

/-- The caller has been given a result, or has been told that the operation was dropped by a reset. -/
def ended (S : Multi σ) : Tx → Prop
  | axiW i op => ∃ r, (op, r) ∈ (S.axiW i).m.results
  | axiR i op => ∃ r, (op, r) ∈ (S.axiR i).m.results
  | liteW i op => ∃ r, (op, r) ∈ (S.liteW i).m.results
  | liteR i op => ∃ r, (op, r) ∈ (S.liteR i).m.results
  | apb i op => ∃ r, (op, r) ∈ (S.apb i).m.results

/-- The caller has been given a result (computed from the responses). -/
def done (S : Multi σ) : Tx → Prop
  | axiW i op => ∃ got, (op, some got) ∈ (S.axiW i).m.results
  | axiR i op => ∃ got, (op, some got) ∈ (S.axiR i).m.results
  | liteW i op => ∃ got, (op, some got) ∈ (S.liteW i).m.results
  | liteR i op => ∃ got, (op, some got) ∈ (S.liteR i).m.results
  | apb i op => ∃ got, (op, some got) ∈ (S.apb i).m.results

/-- The operation has been issued and its caller has not been told of its end. -/
def outstanding (S : Multi σ) (x : Tx) : Prop := x.issued S ∧ ¬ x.ended S

/-- Both operations go through the same port and the same side of it (an APB port has only one), and the first was issued before the
second. -/
def before (S : Multi σ) : Tx → Tx → Prop
  | axiW i a, axiW j b => i = j ∧ [a, b].Sublist (S.axiW i).m.issued
  | axiR i a, axiR j b => i = j ∧ [a, b].Sublist (S.axiR i).m.issued
  | liteW i a, liteW j b => i = j ∧ [a, b].Sublist (S.liteW i).m.issued
  | liteR i a, liteR j b => i = j ∧ [a, b].Sublist (S.liteR i).m.issued
  | apb i a, apb j b => i = j ∧ [a, b].Sublist (S.apb i).m.issued
  | _, _ => False

/-- The operation is a write of these bytes to this address. -/
def writes (E : Ports σ) : Tx → Option (Nat × Bytes)
  | axiW i op => some ((E.wa i op.key).req.address.toNat, (E.wa i op.key).data)
  | liteW i op => some ((E.lw i op.key).address.toNat, (E.lw i op.key).data)
  | apb i op =>
    match E.ac i op.key with
    | .write a d _ => some (a.toNat, d)
    | .read .. => none
  | _ => none

/-- The operation is a read of that many bytes from this address. -/
def reads (E : Ports σ) : Tx → Option (Nat × Nat)
  | axiR i op => some ((E.ra i op.key).address.toNat, (E.ra i op.key).length.toNat)
  | liteR i op => some ((E.lr i op.key).address.toNat, (E.lr i op.key).length.toNat)
  | apb i op =>
    match E.ac i op.key with
    | .read a n _ => some (a.toNat, n.toNat)
    | .write .. => none
  | _ => none

/-- Bytes per beat: what the AXI request asks for, or the width of the bus. -/
def unit (E : Ports σ) : Tx → Nat
  | axiW i op => AxiSys.beatBytes (E.axi i) (E.wa i op.key).req
  | axiR i op => AxiSys.beatBytes (E.axi i) (E.ra i op.key)
  | liteW i _ => (E.lite i).lanes
  | liteR i _ => (E.lite i).lanes
  | apb i _ => (E.apb i).lanes

/-- The caller of `write` has been given the response `r`. -/
def gaveResp (E : Ports σ) (S : Multi σ) (x : Tx) (r : Resp) : Prop :=
  match x with
  | axiW i op => ∃ got, (op, some got) ∈ (S.axiW i).m.results ∧ (E.wa i op.key).returns (E.axi i) got r
  | liteW i op => ∃ got, (op, some got) ∈ (S.liteW i).m.results ∧ (E.lw i op.key).returns (E.lite i) got r
  | apb i op => ∃ got, (op, some got) ∈ (S.apb i).m.results ∧ (E.ac i op.key).outcome (E.apb i) got = some (.written r)
  | _ => False

/-- The caller of `read` has been given the data `d` and the response `r`. -/
def gaveData (E : Ports σ) (S : Multi σ) (x : Tx) (d : Bytes) (r : Resp) : Prop :=
  match x with
  | axiR i op => ∃ got, (op, some got) ∈ (S.axiR i).m.results ∧ AxiSys.returnsR (E.axi i) (E.ra i op.key) got d r
  | liteR i op => ∃ got, (op, some got) ∈ (S.liteR i).m.results ∧ (E.lr i op.key).returns (E.lite i) got d r
  | apb i op => ∃ got, (op, some got) ∈ (S.apb i).m.results ∧ (E.ac i op.key).outcome (E.apb i) got = some (.data d r)
  | _ => False

/-- What one beat of the operation does to the target: a beat of one of the bursts of an AXI operation, or a transfer of an AXI-lite
or APB operation. -/
def beat (E : Ports σ) (x : Tx) (st st' : σ) : Prop :=
  match x with
  | axiW i op => ∃ l b k w ok, (E.wa i op.key).sends (E.axi i) l ∧ b ∈ l ∧ b.2[k]? = some w ∧
      AxiSys.WroteBeat (E.axi i) E.t b.1 k w st ok st'
  | axiR i op => ∃ l a k r, AxiSys.sendsR (E.axi i) (E.ra i op.key) l ∧ (a, k) ∈ AxiSys.rBeats l ∧
      AxiSys.ReadBeat (E.axi i) E.t a k st r st'
  | liteW i op => ∃ x ∈ op.xs, st' = (Word.slaveWrite E.t (E.lite i).lanes true x st).2
  | liteR i op => ∃ x ∈ op.xs, st' = (Word.slaveRead E.t (E.lite i).lanes x st).2
  | apb i op => ∃ x ∈ op.xs, st' = (Apb.access E.t (E.apb i).lanes true x st).2

end Tx

/-- AXI port `i` with the target, as a system of its own. -/
def Multi.axi {σ : Type} (S : Multi σ) (i : Nat) : AxiSys.Sys σ := { w := S.axiW i, r := S.axiR i, mem := S.mem }

/-- The test bench writes these bytes to this address of the memory. -/
def poke (a : Nat) (d : Bytes) : Memory → Memory := fun m => (m.write a d).2

end Verif
