import Verif.Model.WordBus

/-!
# Model of `ApbMaster` and `ApbSlave` (apb.py), clock edge by clock edge

The data path (cutting a request into transfers, performing one transfer on the target, assembling the result) is
`Model/WordBus.lean`. Here: the coroutine `_run` of the master with its command queue, in-flight counter and reset, the
coroutine `_run` of the slave, the bus signals between them, and the pauses of both.

Scheduling. Both coroutines only act at rising clock edges, where they read the values the signals had before the edge
and write values that hold after it; so an edge is one event that computes both sides from the same old signals. Calls,
resets and the wake-up of a master that waits for its queue happen between edges, in any order and number. `pause` is a
variable that a generator or the user changes at will: every edge comes with an arbitrary value for each side.

Simplifications: log messages are dropped; signals carry numbers (no `x`/`z`); the signals that a transfer does not use
(`pprot` when not connected) are carried but not looked at.
-/

namespace Verif.Apb

/-- The signals driven by the master (apb.py 68-70). -/
structure Bus where
  psel : Bool := false
  penable : Bool := false
  pwrite : Bool := false
  paddr : Nat := 0
  pprot : Int := 0
  pwdata : Nat := 0
  pstrb : Nat := 0
  deriving DecidableEq, Repr

/-- One transfer of a write or of a read (apb.py 41-68, 334-343). -/
inductive Xfer
  | write (x : Word.WXfer)
  | read (x : Word.RXfer)
  deriving DecidableEq, Repr

/-- Address, control and data of a transfer are driven, and `psel` (apb.py 405-417); a read drives zero data
(`val = 0`, 391) and no strobes (400). -/
def Bus.drive (b : Bus) : Xfer → Bus
  | .write x => { b with paddr := x.addr, pprot := x.prot, pwrite := true, pwdata := x.data, pstrb := x.strb
                         psel := true }
  | .read x => { b with paddr := x.addr, pprot := x.prot, pwrite := false, pwdata := 0, pstrb := 0, psel := true }

/-- What the master samples at the end of a transfer: `prdata` and whether `pslverr` was set (apb.py 428-430). -/
abbrev Rsp := Nat × Resp

/-- A command (`ApbWriteCmd`/`ApbReadCmd`, apb.py 41-45, 55-59) with the transfers it will make; `key` identifies the
call. -/
structure Op where
  key : Nat
  xs : List Xfer
  deriving DecidableEq, Repr

/-- Where the master's `_run` is (apb.py 334-462). -/
inductive MPc
  /-- not running (in reset) -/
  | stopped
  /-- at the first `await clock_edge_event` (337) -/
  | init
  /-- at `await self.command_queue.get()` (341) -/
  | get
  /-- at the `await clock_edge_event` after it (342): the command is only in the local variable `cmd` -/
  | got (op : Op)
  /-- at `while self.pause: await` (402-403), before transfer `x`; `xs` transfers follow, `rs` was sampled so far -/
  | pause (op : Op) (x : Xfer) (xs : List Xfer) (rs : List Rsp)
  /-- transfer `x` is driven with `psel`, at the `await` before `penable` (419) -/
  | setup (op : Op) (x : Xfer) (xs : List Xfer) (rs : List Rsp)
  /-- `penable` is set, at one of the `await`s before the test of `pready` (422-424) -/
  | access (op : Op) (x : Xfer) (xs : List Xfer) (rs : List Rsp)
  deriving DecidableEq, Repr

/-- The state of an `ApbMaster` (apb.py 136-193). -/
structure Master where
  /-- `command_queue` -/
  queue : List Op := []
  /-- `current_command` -/
  cur : Option Op := none
  pc : MPc := .stopped
  bus : Bus := {}
  inFlight : Int := 0
  idleEv : Bool := true
  /-- `init_write`/`init_read` wrappers that have not run yet (apb.py 216, 239) -/
  wrappers : List Op := []
  /-- history: operations that entered `write()`/`read()` -/
  issued : List Op := []
  /-- history: every `cmd.event.set(...)`: the operation and its result (`none`: flushed by a reset) -/
  results : List (Op × Option (List Rsp)) := []
  /-- history: commands that a reset found in the local variable `cmd` only, and dropped -/
  lost : List Op := []
  /-- history since the last reset: operations issued and operations completed with the samples they consumed -/
  epoch : List Op := []
  done : List (Op × List Rsp) := []

/-- Events of a master with arbitrary surroundings (calls: apb.py 195-301; coroutine: 334-462; reset: 302-332). -/
inductive MEv
  /-- a call of `write()`/`read()` -/
  | call (op : Op)
  /-- a call of `init_write()`/`init_read()`; the wrapper it starts runs later -/
  | init (op : Op)
  | runInit (i : Nat)
  /-- the master waiting for its queue wakes up -/
  | resume
  /-- a rising clock edge: the master's `pause`, and the slave's signals -/
  | edge (pause pready : Bool) (prdata : Nat) (pslverr : Bool)
  | reset (v : Bool)

namespace Master

/-- `write()`/`read()` after the argument checks (apb.py 266-271, 290-295). -/
def call (s : Master) (op : Op) : Master :=
  { s with inFlight := s.inFlight + 1, idleEv := false, queue := s.queue ++ [op], issued := s.issued ++ [op]
           epoch := s.epoch ++ [op] }

/-- `idle` (apb.py 243-244). -/
def idle (s : Master) : Bool := decide (s.inFlight = 0)

/-- A command completes (apb.py 445-462). `self.current_write_command = None` (457) sets an attribute that nothing
reads: `current_command` keeps the command. -/
def finish (s : Master) (op : Op) (rs : List Rsp) : Master :=
  { s with results := s.results ++ [(op, some rs)], inFlight := s.inFlight - 1
           idleEv := s.idleEv || decide (s.inFlight - 1 = 0), done := s.done ++ [(op, rs)] }

/-- A transfer is about to be driven (apb.py 402-419): wait while paused. -/
def enter (s : Master) (paused : Bool) (op : Op) (x : Xfer) (xs : List Xfer) (rs : List Rsp) : Master :=
  if paused then { s with pc := .pause op x xs rs }
  else { s with pc := .setup op x xs rs, bus := s.bus.drive x }

/-- The head of the loop with the given queue (apb.py 339-345): take commands without waiting until one has a transfer
to drive or the queue is empty. A command without transfers (an empty read or write at an aligned address) completes on
the spot. -/
def next (paused : Bool) : List Op → Master → Master
  | [], s => { s with queue := [], pc := .get }
  | op :: rest, s =>
    match op.xs with
    | [] => next paused rest ({ s with cur := some op }.finish op [])
    | x :: xs => { s with queue := rest, cur := some op }.enter paused op x xs []

/-- A rising clock edge. `slverr` is `pslverr_present` (apb.py 334-462). -/
def edge (slverr : Bool) (s : Master) (paused pready : Bool) (prdata : Nat) (pslverr : Bool) : Master :=
  match s.pc with
  | .stopped => s
  | .get => s
  | .init => next paused s.queue s
  | .got op => next paused (op :: s.queue) s
  | .pause op x xs rs => s.enter paused op x xs rs
  | .setup op x xs rs => { s with pc := .access op x xs rs, bus := { s.bus with penable := true } }
  | .access op _ xs rs =>
    if pready then
      -- apb.py 426-443
      let s := { s with bus := { s.bus with penable := false, psel := false } }
      let rs := rs ++ [(prdata, if slverr && pslverr then Resp.slverr else Resp.okay)]
      match xs with
      | x :: xs => s.enter paused op x xs rs
      | [] => next paused s.queue (s.finish op rs)
    else s

/-- The master that waits for its queue gets a command (apb.py 341). -/
def resume (s : Master) : Master :=
  match s.pc, s.queue with
  | .get, op :: rest => { s with pc := .got op, queue := rest }
  | _, _ => s

/-- The command in the local variable `cmd` of a `_run` that waits for the edge after `get()` (apb.py 336-341). -/
def inHand (s : Master) : List Op :=
  match s.pc with
  | .got op => [op]
  | _ => []

/-- `_handle_reset` (apb.py 302-332). -/
def reset (s : Master) (v : Bool) : Master :=
  if v then
    { s with bus := { s.bus with psel := false, penable := false }, pc := .stopped, queue := [], cur := none
             results := s.results ++ (s.queue ++ s.cur.toList).map (fun o => (o, none)), inFlight := 0, idleEv := true
             lost := s.lost ++ s.inHand, epoch := [], done := [] }
  else if s.pc = .stopped then { s with pc := .init } else s

/-- One event (apb.py 195-462). -/
def step (slverr : Bool) (s : Master) : MEv → Master
  | .call op => s.call op
  | .init op => { s with wrappers := s.wrappers ++ [op] }
  | .runInit i =>
    match s.wrappers[i]? with
    | some op => { s with wrappers := s.wrappers.eraseIdx i }.call op
    | none => s
  | .resume => s.resume
  | .edge paused pready prdata pslverr => s.edge slverr paused pready prdata pslverr
  | .reset v => s.reset v

/-- A whole history from construction (apb.py 131-193, then any events). -/
def exec (slverr : Bool) (evs : List MEv) : Master := evs.foldl (step slverr) {}

end Master

/-- Where the slave's `_run` is (apb.py 538-624). -/
inductive SPc
  /-- not running (in reset) -/
  | stopped
  /-- at the `await clock_edge_event` at the head of the loop (544) -/
  | idle
  /-- at `while self.pause: await` (557-558), having latched `paddr` (549) -/
  | paused (paddr : Nat)
  /-- inside `await self._write(...)`/`await self._read(...)` (593, 602) -/
  | busy
  /-- `pready` is set, at the `await` that follows (617) -/
  | ready
  deriving DecidableEq, Repr

/-- The state of an `ApbSlave` with a target in state `mem` (apb.py 465-516). -/
structure Slave (σ : Type) where
  pc : SPc := .stopped
  pready : Bool := false
  prdata : Nat := 0
  pslverr : Bool := false
  mem : σ
  /-- history since the last reset: the requests performed on the target, as latched from the bus -/
  log : List Xfer := []

/-- What the slave reads from the bus when it performs an access (apb.py 549-564). -/
def Bus.request (b : Bus) : Xfer :=
  if b.pwrite then .write ⟨b.paddr, b.pprot, b.pwdata, b.pstrb⟩ else .read ⟨b.paddr, b.pprot⟩

/-- What an access does to the target: the new `prdata`, if it is driven, and whether the access failed (apb.py 518-522, 560-615). -/
abbrev Access (σ : Type) := Xfer → σ → (Option Nat × Bool) × σ

/-- The body of the slave's loop (apb.py 549, 560-615). -/
def access {σ : Type} (t : Target σ) (lanes : Nat) (strb : Bool) : Access σ
  | .write x, st =>
    match Word.slaveWrite t lanes strb x st with
    | (.ok r, st) => ((none, r == .slverr), st)
    -- `to_bytes` on a value wider than the signal it came from: does not happen with a word on the bus
    | (.error _, st) => ((none, true), st)
  | .read x, st =>
    match Word.slaveRead t lanes x st with
    | ((d, r), st) => ((some d, r == .slverr), st)

namespace Slave

variable {σ : Type}

/-- The access is performed and `prdata`, `pslverr`, `pready` are driven (apb.py 560-616). An access that takes
time (`slow`) has its effect at once and drives `pready` later. Simplification: `prdata`/`pslverr` are driven at once
even then; nobody looks at them before `pready`. -/
def perform (f : Access σ) (s : Slave σ) (slow : Bool) (b : Bus) : Slave σ :=
  let ((d, err), m) := f b.request s.mem
  { s with mem := m, prdata := d.getD s.prdata, pslverr := err, log := s.log ++ [b.request]
           pc := if slow then .busy else .ready, pready := !slow }

/-- A rising clock edge (apb.py 543-624). -/
def edge (f : Access σ) (s : Slave σ) (paused slow : Bool) (b : Bus) : Slave σ :=
  match s.pc with
  | .stopped => s
  | .idle =>
    if b.psel then
      if paused then { s with pc := .paused b.paddr } else s.perform f slow b
    else s
  | .paused a => if paused then s else s.perform f slow { b with paddr := a }
  | .busy => if slow then s else { s with pc := .ready, pready := true }
  | .ready => { s with pc := .idle, pready := false }

/-- `_handle_reset` (apb.py 524-536) and the start of `_run` (541). -/
def reset (s : Slave σ) (v : Bool) : Slave σ :=
  if v then { s with pc := .stopped, pready := false, log := [] }
  else if s.pc = .stopped then { s with pc := .idle, pready := false } else s

end Slave

/-- A master connected to a slave, with a common clock and a common reset (apb.py 130-193, 465-516; tests connect them by a common bus). -/
structure Sys (σ : Type) where
  m : Master := {}
  s : Slave σ
  /-- history: the target and `prdata` at the last reset (or at the beginning) -/
  base : σ × Nat

/-- Events of a master connected to a slave (calls: apb.py 195-301; coroutines: 334-462, 538-624; reset: 302-332, 524-536). -/
inductive Ev
  | call (op : Op)
  | init (op : Op)
  | runInit (i : Nat)
  | resume
  /-- a rising clock edge: `pause` of the master, `pause` of the slave, and whether the slave's target takes longer -/
  | edge (mpause spause slow : Bool)
  | reset (v : Bool)

namespace Sys

variable {σ : Type}

/-- One event (apb.py 195-462, 518-624). -/
def step (slverr : Bool) (f : Access σ) (y : Sys σ) : Ev → Sys σ
  | .call op => { y with m := y.m.step slverr (.call op) }
  | .init op => { y with m := y.m.step slverr (.init op) }
  | .runInit i => { y with m := y.m.step slverr (.runInit i) }
  | .resume => { y with m := y.m.step slverr .resume }
  | .edge mp sp slow =>
    { y with m := y.m.step slverr (.edge mp y.s.pready y.s.prdata y.s.pslverr), s := y.s.edge f sp slow y.m.bus }
  | .reset v =>
    { y with m := y.m.step slverr (.reset v), s := y.s.reset v
             base := if v then (y.s.mem, y.s.prdata) else y.base }

/-- The same with the target in state `st`: someone else, with access to the same target, may have changed it since (apb.py 626-634,
where the memory object may be shared, memory.py 30-32; apb.py 466-470, a `target` shared with others). -/
def put (y : Sys σ) (st : σ) : Sys σ := { y with s := { y.s with mem := st } }

/-- After construction (apb.py 131-193, 466-516). -/
def start (st : σ) : Sys σ := { s := { mem := st }, base := (st, 0) }

/-- A whole history from construction, on a target in state `st` (apb.py 131-193, 466-516, then any events). -/
def exec (slverr : Bool) (f : Access σ) (st : σ) (evs : List Ev) : Sys σ := evs.foldl (step slverr f) (start st)

end Sys
end Verif.Apb
