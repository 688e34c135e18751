import Verif.Model.LiteOps
import Verif.Model.WordBus

/-!
# Specification vocabulary for an AXI-lite master connected to a RAM
-/

namespace Verif.LiteOps

variable {χ ρ : Type}

/-- The operation has been issued and its caller has not been given a result yet. -/
def Outstanding (s : Lite χ ρ) (op : Op χ) : Prop := op ∈ s.issued ∧ ∀ r, (op, r) ∉ s.results

/-- `a` was issued before `b`. -/
def Before (s : Lite χ ρ) (a b : Op χ) : Prop := [a, b].Sublist s.issued

/-- The transfers of `op` were executed by `f` on the target (`μ` its states) at the instants `ts` before `n`, one by one in
order, each while `op` was outstanding, and `got` are the responses. -/
def Executed {σ : Type} (f : χ → σ → ρ × σ) (M : Nat → Lite χ ρ) (μ : Nat → σ) (n : Nat) (op : Op χ) (got : List ρ)
    (ts : List Nat) : Prop :=
  got.length = op.xs.length ∧ ts.length = op.xs.length ∧ ts.Pairwise (· < ·) ∧
    ∀ (i : Nat) (x : χ) (r : ρ) (t : Nat), op.xs[i]? = some x → got[i]? = some r → ts[i]? = some t →
      t < n ∧ Outstanding (M t) op ∧ (r, μ (t + 1)) = f x (μ t)

/-- The arguments of a call of `write(address, data, prot)`. -/
structure WCall where
  address : Int
  data : Bytes
  prot : Int := 2

/-- The write of the call covers the byte at address `b`. -/
def WCall.covers (a : WCall) (b : Nat) : Prop := a.address.toNat ≤ b ∧ b < a.address.toNat + a.data.length

/-- The arguments of a call of `read(address, length, prot)`. -/
structure RCall where
  address : Int
  length : Int
  prot : Int := 2

/-- `op` is the operation that the call makes of its arguments, if accepted. -/
def WCall.makes (c : Word.Cfg) (a : WCall) (op : Op Word.WXfer) : Prop :=
  ∃ cmd, Word.acceptWrite c a.address (.bytes a.data) a.prot = .ok (cmd, a.data) ∧
    Word.writeXfers c cmd a.data = .ok op.xs

def RCall.makes (c : Word.Cfg) (a : RCall) (op : Op Word.RXfer) : Prop :=
  ∃ cmd, Word.acceptRead c a.address a.length a.prot = .ok cmd ∧ Word.readXfers c cmd = op.xs

/-- What the caller of `read` gets, from the responses its operation consumed. -/
def RCall.returns (c : Word.Cfg) (a : RCall) (got : List (Nat × Resp)) (data : Bytes) (resp : Resp) : Prop :=
  ∃ cmd, Word.acceptRead c a.address a.length a.prot = .ok cmd ∧ Word.readResult c cmd got = some (data, resp, [])

/-- What the caller of `write` gets, from the responses its operation consumed. -/
def WCall.returns (c : Word.Cfg) (a : WCall) (got : List (Py Resp)) (resp : Resp) : Prop :=
  ∃ cmd rs, Word.acceptWrite c a.address (.bytes a.data) a.prot = .ok (cmd, a.data) ∧ got = rs.map .ok ∧
    Word.writeResult c cmd rs = some (resp, [])

/-- An `AxiLiteMaster` connected to an `AxiLiteRam`. -/
abbrev RamSys := Duo Word.WXfer (Py Resp) Word.RXfer (Nat × Resp) Memory
abbrev RamEv := DuoEv Word.WXfer (Py Resp) Word.RXfer (Nat × Resp)

/-- The system after the first `n` events of a history that begins with a RAM `m0`. -/
def ramAt (c : Word.Cfg) (m0 : Memory) (evs : List RamEv) (n : Nat) : RamSys :=
  Duo.run (Word.slaveWrite ramTarget c.lanes true) (Word.slaveRead ramTarget c.lanes) { mem := m0 } (evs.take n)

end Verif.LiteOps
