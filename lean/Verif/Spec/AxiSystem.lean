import Verif.Model.AxiSystem
import Verif.Spec.AxiRules

/-!
# Specification vocabulary for an AXI master connected to a slave
-/

namespace Verif.AxiSys

open Verif.Axi Verif.AxiOps

/-- The operation has been issued and its caller has not been given a result yet. -/
def Outstanding {ρ : Type} (s : Master ρ) (op : Op) : Prop := op ∈ s.issued ∧ ∀ r, (op, r) ∉ s.results

/-- The bursts that AW and W transactions form: each AW transaction with the next `awlen + 1` W transactions. -/
def bursts : List ABeat → List WBeat → List (ABeat × List WBeat)
  | [], _ => []
  | a :: as, ws => (a, ws.take a.beats) :: bursts as (ws.drop a.beats)

/-- The call is accepted, and `_process_write` sends the bursts `l` for it. -/
def WArgs.sends (c : Cfg) (a : WArgs) (l : List (ABeat × List WBeat)) : Prop :=
  ∃ cmd curId out id bl nid, acceptWrite c a.req a.data a.wuser = .ok cmd ∧
    processWrite c curId cmd a.data a.wuser = .ok (out, id, bl, nid) ∧ l = bursts (awsOf out) (wsOf out)

/-- What the caller of `write` is given, from the B transactions that the operation consumed. -/
def WArgs.returns (c : Cfg) (a : WArgs) (got : List BBeat) (resp : Resp) : Prop :=
  ∃ cmd curId out id bl nid users, acceptWrite c a.req a.data a.wuser = .ok cmd ∧
    processWrite c curId cmd a.data a.wuser = .ok (out, id, bl, nid) ∧ writeResult bl got = .ok (resp, users, [])

/-- The call is accepted, and `_process_read` sends the AR transactions `l` for it. -/
def sendsR (c : Cfg) (a : Req) (l : List ABeat) : Prop :=
  ∃ cmd curId, acceptRead c a = .ok cmd ∧ l = (processRead c curId cmd).1

/-- What the caller of `read` is given, from the R transactions that the operation consumed. -/
def returnsR (c : Cfg) (a : Req) (got : List RBeat) (data : Bytes) (resp : Resp) : Prop :=
  ∃ cmd curId users, acceptRead c a = .ok cmd ∧
    readResult c cmd (processRead c curId cmd).2.2.1 got = .ok (data, resp, users, [])

/-- The system after the first `n` of the events. -/
def Sys.at {σ : Type} (c : Cfg) (wa : Nat → WArgs) (ra : Nat → Req) (t : Target σ) (st : σ) (evs : List Ev) (n : Nat) : Sys σ :=
  Sys.run c wa ra t st (evs.take n)

/-- The beats of read bursts, in order: each burst has the beats `0 .. arlen`. -/
def rBeats (l : List ABeat) : List (ABeat × Nat) := l.flatMap fun a => (List.range a.beats).map fun k => (a, k)

/-- Bytes per beat that a request asks for; the default is the width of the bus. -/
def beatBytes (c : Cfg) (r : Req) : Nat :=
  match r.size with
  | some s => if s < 0 then c.lanes else 2 ^ s.toNat
  | none => c.lanes

/-- Beat `k` of a write burst executed on a target: the writes of the strobed lanes, up to the first that fails. `ok` says
whether none failed. -/
def WroteBeat {σ : Type} (c : Cfg) (t : Target σ) (a : ABeat) (k : Nat) (w : WBeat) (st : σ) (ok : Bool) (st' : σ) : Prop :=
  attempt t.write (writeOps c.lanes (beatWord c.lanes a k) (digitsLE c.lanes w.data) w.strb) st = (ok, st')

/-- Beat `k` of a read burst executed on a target: the whole bus word is read; a failing read gives SLVERR and zeros. -/
def ReadBeat {σ : Type} (c : Cfg) (t : Target σ) (a : ABeat) (k : Nat) (st : σ) (r : RBeat) (st' : σ) : Prop :=
  r.id = a.id ∧ r.last = decide (k = a.len) ∧
  match t.read (beatWord c.lanes a k) c.lanes st with
  | (.ok d, st2) => r.resp = .okay ∧ r.data = fromBytesLE d ∧ st' = st2
  | (.error _, st2) => r.resp = .slverr ∧ r.data = 0 ∧ st' = st2

/-- The completed write `op`, which got the B transactions `got`, was executed exactly. `bs` are its bursts, with an instant and an
outcome for every beat:
* they are the bursts that the call sends;
* the B transaction of a burst says OKAY if all its beats succeeded, else SLVERR, and the caller is given a response computed
  from these;
* the beats were executed on the target one by one in order, each at an instant (before `n`) at which the operation was
  outstanding. -/
def WriteDone {σ : Type} (c : Cfg) (wa : Nat → WArgs) (t : Target σ) (S : Nat → Sys σ) (n : Nat) (op : Op) (got : List BBeat)
    (bs : List ((ABeat × List WBeat) × List (Nat × Bool))) : Prop :=
  (wa op.key).sends c (bs.map (·.1)) ∧
  got = bs.map (fun b => { id := b.1.1.id, resp := if b.2.all (·.2) then .okay else .slverr }) ∧
  (wa op.key).returns c got (lastNonOkay (got.map (·.resp))) ∧
  ((bs.flatMap (·.2)).map (·.1)).Pairwise (· < ·) ∧
  ∀ b ∈ bs, b.2.length = b.1.2.length ∧ ∀ (k τ : Nat) (ok : Bool) (w : WBeat), b.2[k]? = some (τ, ok) →
    b.1.2[k]? = some w → τ < n ∧ Outstanding (S τ).w.m op ∧ WroteBeat c t b.1.1 k w (S τ).mem ok (S (τ + 1)).mem

/-- The completed read `op`, which got the R transactions `got`, was executed exactly: beat by beat in order, at the instants
`τs` (before `n`), at which the operation was outstanding; `got` are the outcomes, from which the data and the response that
the caller is given are computed. -/
def ReadDone {σ : Type} (c : Cfg) (ra : Nat → Req) (t : Target σ) (S : Nat → Sys σ) (n : Nat) (op : Op) (got : List RBeat)
    (τs : List Nat) : Prop :=
  ∃ ars : List ABeat, sendsR c (ra op.key) ars ∧
    (∃ data, returnsR c (ra op.key) got data (lastNonOkay (got.map (·.resp)))) ∧
    got.length = (rBeats ars).length ∧ τs.length = got.length ∧ τs.Pairwise (· < ·) ∧
    ∀ (i τ k : Nat) (a : ABeat) (r : RBeat), τs[i]? = some τ → (rBeats ars)[i]? = some (a, k) → got[i]? = some r →
      τ < n ∧ Outstanding (S τ).r.m op ∧ ReadBeat c t a k (S τ).mem r (S (τ + 1)).mem

/-- The pieces of the coroutines of the write side, as opposed to calls and reset. -/
def WEv.progress : WEv → Bool
  | .write | .init | .reset _ => false
  | _ => true

/-- The pieces of the coroutines of the read side, as opposed to calls and reset. -/
def REv.progress : REv → Bool
  | .read | .init | .reset _ => false
  | _ => true

/-- `a` was issued before `b`. -/
def Before {ρ : Type} (s : Master ρ) (a b : Op) : Prop := [a, b].Sublist s.issued

/-- The pieces of the coroutines, as opposed to calls and reset. -/
def Ev.progress : Ev → Bool
  | .w e => e.progress
  | .r e => e.progress

end Verif.AxiSys
