import Verif.Py

/-!
# Model of the operation bookkeeping of `AxiLiteMasterWrite`/`AxiLiteMasterRead` (axil_master.py)

Command queue, response queue, in-flight counter and reset. The two sides have the same structure, so the model is
generic: an operation is a key with the list of its transfers (`χ`; `Model/WordBus.lean` computes them), and its result
is the list of the responses (`ρ`) it consumed (`Model/WordBus.lean` turns that list into
`AxiLiteWriteResp`/`AxiLiteReadResp`).

Scheduling: every `await` is a possible interruption. Events are single atomic pieces of the coroutines, in any
order; an event that is not possible does nothing. Sending is one event for each transfer (the code sends AW and W one
after the other, each possibly waiting for space in the channel); when it happens is up to the schedule.
-/

namespace Verif.LiteOps

/-- An operation: `key` identifies the call (axil_master.py 40-83, 184-208, 436-460). -/
structure Op (χ : Type) where
  key : Nat
  xs : List χ
  deriving DecidableEq, Repr

/-- The state of the master (axil_master.py 108-117, 366-375). -/
structure Lite (χ ρ : Type) where
  /-- `write_command_queue` -/
  queue : List (Op χ) := []
  /-- `current_write_command`, with its transfers still to be sent -/
  cur : Option (Op χ × List χ) := none
  /-- `int_write_resp_command_queue` -/
  respQ : List (Op χ) := []
  /-- `current_write_resp_command`, the number of responses still to come, and those it got -/
  respCur : Option (Op χ × Nat × List ρ) := none
  /-- responses in `b_channel` -/
  bch : List ρ := []
  inFlight : Int := 0
  idleEv : Bool := true
  running : Bool := false
  /-- `init_write` wrappers that have not run yet -/
  wrappers : List (Op χ) := []
  /-- history: operations that entered `write()` -/
  issued : List (Op χ) := []
  /-- history: every `event.set(...)`: the operation and its result (`none`: flushed) -/
  results : List (Op χ × Option (List ρ)) := []
  /-- history since the last reset: operations issued, transfers sent, responses arrived, operations completed -/
  epoch : List (Op χ) := []
  sent : List χ := []
  arrived : List ρ := []
  done : List (Op χ × List ρ) := []

/-- Events of the master (axil_master.py 152-344, 406-580). -/
inductive Ev (χ ρ : Type)
  | write (op : Op χ)
  | init (op : Op χ)
  | runInit (i : Nat)
  | take
  | send
  | resp (r : ρ)
  | respTake
  | respGet
  | respDone
  | reset (v : Bool)

namespace Lite

variable {χ ρ : Type}

/-- `write()`/`read()` after the argument checks (axil_master.py 197-205, 449-457). -/
def write (s : Lite χ ρ) (op : Op χ) : Lite χ ρ :=
  { s with inFlight := s.inFlight + 1, idleEv := false, queue := s.queue ++ [op], issued := s.issued ++ [op]
           epoch := s.epoch ++ [op] }

/-- `idle` (axil_master.py 177-178, 429-430). -/
def idle (s : Lite χ ρ) : Bool := decide (s.inFlight = 0)

/-- `_process_write` gets a command and queues the response command before its first transfer
(axil_master.py 258-272, 509-517). Putting into the unbounded queue does not suspend, and an operation without transfers
goes straight to the end of the loop body (axil_master.py 314, 532). -/
def take (s : Lite χ ρ) : Lite χ ρ :=
  match s.running, s.cur, s.queue with
  | true, none, op :: rest =>
    { s with queue := rest, respQ := s.respQ ++ [op], cur := if op.xs.isEmpty then none else some (op, op.xs) }
  | _, _, _ => s

/-- `_process_write` sends a transfer; after the last one the current command is cleared (axil_master.py 311-314,
530-532). -/
def send (s : Lite χ ρ) : Lite χ ρ :=
  match s.running, s.cur with
  | true, some (op, x :: rem) =>
    { s with sent := s.sent ++ [x], cur := if rem.isEmpty then none else some (op, rem) }
  | _, _ => s

/-- A response arrives in the channel (it is ignored while the component is in reset: the sink is not running and its
queue is cleared) (axil_master.py 320, 545). -/
def resp (s : Lite χ ρ) (r : ρ) : Lite χ ρ :=
  if s.running then { s with bch := s.bch ++ [r], arrived := s.arrived ++ [r] } else s

/-- `_process_write_resp` gets a command (axil_master.py 318-319, 536-537). -/
def respTake (s : Lite χ ρ) : Lite χ ρ :=
  match s.running, s.respCur, s.respQ with
  | true, none, op :: rest => { s with respQ := rest, respCur := some (op, op.xs.length, []) }
  | _, _, _ => s

/-- `_process_write_resp` gets a response (axil_master.py 323-329, 546-564). -/
def respGet (s : Lite χ ρ) : Lite χ ρ :=
  match s.running, s.respCur, s.bch with
  | true, some (op, rem + 1, got), r :: rest => { s with respCur := some (op, rem, got ++ [r]), bch := rest }
  | _, _, _ => s

/-- `_process_write_resp` completes the operation (axil_master.py 334-343, 570-579). -/
def respDone (s : Lite χ ρ) : Lite χ ρ :=
  match s.running, s.respCur with
  | true, some (op, 0, got) =>
    { s with respCur := none, results := s.results ++ [(op, some got)], inFlight := s.inFlight - 1
             idleEv := s.idleEv || decide (s.inFlight - 1 = 0), done := s.done ++ [(op, got)] }
  | _, _ => s

/-- `_handle_reset` (axil_master.py 210-254, 462-505): flushes the queue, the current command, the response queue and
the current response command, in that order; a command whose transfers are being sent is flushed twice. -/
def reset (s : Lite χ ρ) (v : Bool) : Lite χ ρ :=
  if v then
    let flushed := s.queue ++ (s.cur.map (·.1)).toList ++ s.respQ ++ (s.respCur.map (·.1)).toList
    { s with running := false, queue := [], cur := none, respQ := [], respCur := none, bch := [], inFlight := 0
             idleEv := true, results := s.results ++ flushed.map (fun o => (o, none)), epoch := [], sent := []
             arrived := [], done := [] }
  else { s with running := true }

/-- One event (axil_master.py 152-344, 406-580). -/
def step (s : Lite χ ρ) : Ev χ ρ → Lite χ ρ
  | .write op => s.write op
  | .init op => { s with wrappers := s.wrappers ++ [op] }
  | .runInit i =>
    match s.wrappers[i]? with
    | some op => { s with wrappers := s.wrappers.eraseIdx i }.write op
    | none => s
  | .take => s.take
  | .send => s.send
  | .resp r => s.resp r
  | .respTake => s.respTake
  | .respGet => s.respGet
  | .respDone => s.respDone
  | .reset v => s.reset v

/-- A whole history from construction (axil_master.py 87-150, 347-404, then any events). -/
def exec (evs : List (Ev χ ρ)) : Lite χ ρ := evs.foldl step {}

end Lite

/-- One side (write or read) of an AXI-lite master connected to that side of an AXI-lite slave: the master, the
transfers in the request channels and the responses in the response channel. The channels are FIFOs (`C43` shows that the
stream components deliver every transaction exactly once and in order); AW and W are taken in pairs by the slave
(axil_slave.py 109-114), so a write transfer is one entry. -/
structure Port (χ ρ : Type) where
  m : Lite χ ρ := {}
  req : List χ := []
  rsp : List ρ := []

/-- Events of a port (axil_master.py 152-580, axil_slave.py 89-248). -/
inductive PortEv (χ ρ : Type)
  /-- a step of the master other than `resp`, `send` and `reset` -/
  | master (e : Ev χ ρ)
  | send
  /-- the slave serves the first pending transfer -/
  | serve
  /-- a response reaches the master -/
  | deliver
  /-- reset of master and slave -/
  | reset (v : Bool)

/-- The events a master performs by itself, or that its user causes (axil_master.py 152-580). -/
def own {χ ρ : Type} : Ev χ ρ → Bool
  | .resp _ | .send | .reset _ => false
  | _ => true

namespace Port

variable {χ ρ σ : Type}

/-- One event. `f` is what the slave does with a transfer on its target (`slaveWrite`/`slaveRead` of
`Model/WordBus.lean`; axil_slave.py 107-158, 225-244), in one piece: the RAM's `_read`/`_write` do not suspend
(axil_ram.py 33-34, 41-42); targets that suspend are covered in `Model/LiteClock.lean`. Reset clears the channels (axil_slave.py 92-105, 211-223). -/
def step (f : χ → σ → ρ × σ) (s : Port χ ρ) (mem : σ) : PortEv χ ρ → Port χ ρ × σ
  | .master e => (if own e then { s with m := s.m.step e } else s, mem)
  | .send =>
    (match s.m.running, s.m.cur with
    | true, some (_, x :: _) => { s with m := s.m.step .send, req := s.req ++ [x] }
    | _, _ => s, mem)
  | .serve =>
    match s.req with
    | x :: rest => ({ s with req := rest, rsp := s.rsp ++ [(f x mem).1] }, (f x mem).2)
    | [] => (s, mem)
  | .deliver =>
    (match s.rsp with
    | r :: rest => { s with rsp := rest, m := s.m.step (.resp r) }
    | [] => s, mem)
  | .reset v =>
    (if v then { m := s.m.step (.reset true), req := [], rsp := [] } else { s with m := s.m.step (.reset false) }, mem)

end Port

/-- `AxiLiteMaster` (axil_master.py 582-616) connected to an `AxiLiteSlave`/`AxiLiteRam` (axil_slave.py 251-260,
axil_ram.py 45-53): a write side and a read side, which run concurrently on the same target. -/
structure Duo (χ ρ χ' ρ' σ : Type) where
  w : Port χ ρ := {}
  r : Port χ' ρ' := {}
  mem : σ

/-- Events of the connected system (axil_master.py 582-616, axil_slave.py 251-259). -/
inductive DuoEv (χ ρ χ' ρ' : Type)
  | w (e : PortEv χ ρ)
  | r (e : PortEv χ' ρ')

namespace Duo

variable {χ ρ χ' ρ' σ : Type}

/-- One event (axil_master.py 582-616, axil_slave.py 251-259). -/
def step (f : χ → σ → ρ × σ) (g : χ' → σ → ρ' × σ) (s : Duo χ ρ χ' ρ' σ) : DuoEv χ ρ χ' ρ' → Duo χ ρ χ' ρ' σ
  | .w e => { s with w := (s.w.step f s.mem e).1, mem := (s.w.step f s.mem e).2 }
  | .r e => { s with r := (s.r.step g s.mem e).1, mem := (s.r.step g s.mem e).2 }

/-- A whole history, from a state (axil_master.py 583-590, axil_slave.py 252-259, then any events). -/
def run (f : χ → σ → ρ × σ) (g : χ' → σ → ρ' × σ) (s : Duo χ ρ χ' ρ' σ) (evs : List (DuoEv χ ρ χ' ρ')) :
    Duo χ ρ χ' ρ' σ := evs.foldl (step f g) s

end Duo
end Verif.LiteOps
