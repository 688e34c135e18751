import Verif.Model.Apb
import Verif.Spec.FlatMem

/-!
# Specification vocabulary for APB
-/

namespace Verif.Apb

/-- The APB protocol between the values of the master's signals at one rising clock edge (`b`, with the slave's
`pready` at that edge) and at the next one (`b'`), with no reset in between. -/
structure Protocol (b : Bus) (pready : Bool) (b' : Bus) : Prop where
  /-- `penable` is only ever set together with `psel` -/
  enable_selected : b.penable = true → b.psel = true
  /-- `penable` comes only after a setup cycle: `psel` without `penable`, or an access that has not been answered -/
  enable_after_setup : b'.penable = true → b.psel = true ∧ (b.penable = false ∨ pready = false)
  /-- a setup cycle is followed by an access cycle for the same transfer -/
  setup_then_access : b.psel = true → b.penable = false → b' = { b with penable := true }
  /-- an access cycle that is not answered is repeated, with everything stable -/
  wait_stable : b.psel = true → b.penable = true → pready = false → b' = b
  /-- an answered access ends: `penable` is low in the following cycle -/
  answered : b.psel = true → b.penable = true → pready = true → b'.penable = false

/-- The last result signalled to the caller of `op` (what the caller's event holds). -/
def resultOf (rs : List (Op × Option (List Rsp))) (op : Op) : Option (Option (List Rsp)) :=
  ((rs.filter fun x => x.1 = op).getLast?).map (·.2)

/-- One transfer performed on a target, together with the register `prdata`: the sample the master is to get. -/
def serveOne {σ : Type} (slverr : Bool) (f : Access σ) (x : Xfer) (st : σ × Nat) : Rsp × (σ × Nat) :=
  let ((d, err), m) := f x st.1
  ((d.getD st.2, if slverr && err then Resp.slverr else Resp.okay), (m, d.getD st.2))

/-- One transfer performed on the target in state `st`: the sample `r` that the master gets, and the new state. A write leaves
`prdata` as it was. -/
def Did {σ : Type} (slverr : Bool) (f : Access σ) (x : Xfer) (st : σ) (r : Rsp) (st' : σ) : Prop :=
  st' = (f x st).2 ∧ r.2 = (if slverr && (f x st).1.2 then Resp.slverr else Resp.okay) ∧
    ∀ d, (f x st).1.1 = some d → r.1 = d

/-- The transfers of `op` were performed on the target (`μ` its states) at the instants `ts` before `n`, one by one in order, each
while `op` was under way (issued, and its caller not told of its end), and `got` are the samples. -/
def Executed {σ : Type} (slverr : Bool) (f : Access σ) (M : Nat → Master) (μ : Nat → σ) (n : Nat) (op : Op) (got : List Rsp)
    (ts : List Nat) : Prop :=
  got.length = op.xs.length ∧ ts.length = op.xs.length ∧ ts.Pairwise (· < ·) ∧
    ∀ (i : Nat) (x : Xfer) (r : Rsp) (t : Nat), op.xs[i]? = some x → got[i]? = some r → ts[i]? = some t →
      t < n ∧ (op ∈ (M t).issued ∧ ∀ r, (op, r) ∉ (M t).results) ∧ Did slverr f x (μ t) r (μ (t + 1))

/-- Transfers performed one after the other. -/
def serveAll {σ : Type} (slverr : Bool) (f : Access σ) : List Xfer → σ × Nat → List Rsp × (σ × Nat)
  | [], st => ([], st)
  | x :: xs, st =>
    let (r, st) := serveOne slverr f x st
    let (rs, st) := serveAll slverr f xs st
    (r :: rs, st)

/-- Operations executed one after the other, each completely before the next: their samples, and the final state. -/
def serial {σ : Type} (slverr : Bool) (f : Access σ) : List Op → σ × Nat → List (Op × List Rsp) × (σ × Nat)
  | [], st => ([], st)
  | op :: ops, st =>
    let (rs, st) := serveAll slverr f op.xs st
    let (l, st) := serial slverr f ops st
    ((op, rs) :: l, st)

end Verif.Apb

namespace Verif.Apb

/-- The events between two clock edges, without a reset. -/
def MEv.quiet : MEv → Bool
  | .edge .. => false
  | .reset true => false
  | _ => true

/-- The number of accesses answered since the last reset: clock edges at which `psel`, `penable` and `pready` were all
set. -/
def answered (slverr : Bool) (evs : List MEv) : Nat :=
  (evs.foldl (fun (p : Master × Nat) e =>
    (p.1.step slverr e,
     match e with
     | .edge _ pready _ _ => if p.1.bus.psel && p.1.bus.penable && pready then p.2 + 1 else p.2
     | .reset true => 0
     | _ => p.2)) ({}, 0)).2

/-- A call of `write(address, data, prot)` or of `read(address, length, prot)`. -/
inductive Call
  | write (address : Int) (data : Bytes) (prot : Int)
  | read (address length : Int) (prot : Int)

/-- The bytes a call touches lie in `[0, size)`. -/
def Call.within (size : Nat) : Call → Prop
  | .write a d _ => a.toNat + d.length ≤ size
  | .read a n _ => a.toNat + n.toNat ≤ size

/-- `op` is the operation that the call makes of its arguments, if accepted. -/
def Call.makes (c : Word.Cfg) : Call → Op → Prop
  | .write a d p, op => ∃ cmd xs, Word.acceptWrite c a (.bytes d) p = .ok (cmd, d) ∧ Word.writeXfers c cmd d = .ok xs ∧
      op.xs = xs.map .write
  | .read a n p, op => ∃ cmd, Word.acceptRead c a n p = .ok cmd ∧ op.xs = (Word.readXfers c cmd).map .read

/-- What a caller gets: `ApbWriteResp.resp`, or `ApbReadResp.data` and `.resp`. -/
inductive Outcome
  | written (resp : Resp)
  | data (d : Bytes) (resp : Resp)
  deriving DecidableEq, Repr

/-- The outcome of a call whose operation consumed the samples `rs`. -/
def Call.outcome (c : Word.Cfg) : Call → List Rsp → Option Outcome
  | .write a d p, rs =>
    match Word.acceptWrite c a (.bytes d) p with
    | .ok (cmd, _) => (Word.writeResult c cmd (rs.map (·.2))).map fun r => .written r.1
    | .error _ => none
  | .read a n p, rs =>
    match Word.acceptRead c a n p with
    | .ok cmd => (Word.readResult c cmd rs).map fun r => .data r.1 r.2.1
    | .error _ => none

/-- What a call should do on a flat memory. -/
def Call.onFlat : Call → FlatMem → Outcome × FlatMem
  | .write a d _, m => (.written .okay, m.store a.toNat d)
  | .read a n _, m => (.data (m.load a.toNat n.toNat) .okay, m)

/-- What a sequence of calls, one after the other, should do on a flat memory. -/
def flatRun : List Call → FlatMem → List Outcome × FlatMem
  | [], m => ([], m)
  | a :: as, m =>
    let (o, m) := a.onFlat m
    let (os, m) := flatRun as m
    (o :: os, m)

end Verif.Apb
