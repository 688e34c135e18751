import Verif.Py

/-!
# Model of the operation bookkeeping of `AxiMasterWrite`/`AxiMasterRead` (axi_master.py)

Command queue, ID choice, in-flight counter, the per-ID response workers (`TagContext`,
`TagContextManager`) and reset. The write and the read side have the same structure; they differ in how many
responses a burst gets (writes: one B beat; reads: one R beat per data beat). What the beats contain is in `Model/Axi.lean`:
here an operation is a key with the list of its bursts, and its result is the list of the responses it consumed
(`Model/Axi.lean` turns that list into `AxiWriteResp`/`AxiReadResp`).

Scheduling: every `await` is a possible interruption. Events are single atomic pieces of the coroutines, in any
order; an event that is not possible does nothing. Some pieces are finer than in the code (the code does not suspend
between consuming an available response and completing), so the model has more schedules than the code.
-/

namespace Verif.AxiOps

/-- An operation. `key` identifies the call, `id?` is the requested ID (`None`: choose one), `bursts` has one entry
for each burst: the number of its responses minus one (write: always 0; read: `arlen`). -/
structure Op where
  key : Nat
  id? : Option Nat := none
  bursts : List Nat := []
  deriving DecidableEq, Repr

/-- The number of responses of an operation (`burst_list` of axi_master.py 599-604, 964-984). -/
def Op.need (o : Op) : Nat := (o.bursts.map (· + 1)).sum

/-- The command a worker is processing (axi_master.py 112-116, 140-143; 598-631, 963-1029): the bursts still to be
completed (the first one counting down) and the responses so far. -/
structure Job (ρ : Type) where
  op : Op
  rem : List Nat
  got : List ρ

/-- `TagContext` (axi_master.py 110-117). -/
structure Ctx (ρ : Type) where
  tag : Option Nat := none
  cmds : List Op := []
  cur : Option (Job ρ) := none
  resps : List ρ := []
  /-- `_cr is not None` -/
  started : Bool := false

/-- `TagContextManager` (axi_master.py 155-160). `_context_list` is `ctxs 0, ..., ctxs (count - 1)`; the dictionary
`_context_mapping` is a partial function. -/
structure Mgr (ρ : Type) where
  count : Nat := 0
  ctxs : Nat → Ctx ρ := fun _ => {}
  idle : List Nat := []
  map : Nat → Option Nat := fun _ => none

/-- Update of a function at one point (`active_id[id]`, `contexts[tag]`, axi_master.py 162-181, 493-496). -/
def upd {β : Type} (f : Nat → β) (i : Nat) (x : β) : Nat → β := fun j => if j = i then x else f j

namespace Mgr

variable {ρ : Type}

/-- `_get_context` (axi_master.py 162-173): the index of the context. -/
def getContext (m : Mgr ρ) (tag : Nat) : Nat × Mgr ρ :=
  match m.map tag with
  | some i => (i, m)
  | none =>
    match m.idle.getLast? with
    | some i =>
      (i, { m with idle := m.idle.dropLast, ctxs := upd m.ctxs i { m.ctxs i with started := true, tag := some tag }
                   map := upd m.map tag (some i) })
    | none =>
      (m.count, { m with count := m.count + 1, ctxs := upd m.ctxs m.count { tag := some tag, started := true }
                         map := upd m.map tag (some m.count) })

/-- `start_cmd` (axi_master.py 175-177). -/
def startCmd (m : Mgr ρ) (tag : Nat) (op : Op) : Mgr ρ :=
  let (i, m) := m.getContext tag
  { m with ctxs := upd m.ctxs i { m.ctxs i with cmds := (m.ctxs i).cmds ++ [op] } }

/-- `put_resp` (axi_master.py 179-181). -/
def putResp (m : Mgr ρ) (tag : Nat) (r : ρ) : Mgr ρ :=
  let (i, m) := m.getContext tag
  { m with ctxs := upd m.ctxs i { m.ctxs i with resps := (m.ctxs i).resps ++ [r] } }

/-- `_set_idle` (axi_master.py 183-187). -/
def setIdle (m : Mgr ρ) (i : Nat) : Mgr ρ :=
  match (m.ctxs i).tag with
  | some t =>
    match m.map t with
    | some _ =>
      { m with map := upd m.map t none, idle := m.idle ++ [i], ctxs := upd m.ctxs i { m.ctxs i with tag := none } }
    | none => { m with ctxs := upd m.ctxs i { m.ctxs i with tag := none } }
  | none => m

/-- The worker takes the next command (axi_master.py 141-143). -/
def take (m : Mgr ρ) (i : Nat) : Mgr ρ :=
  let c := m.ctxs i
  match c.started, c.cur, c.cmds with
  | true, none, op :: rest =>
    { m with ctxs := upd m.ctxs i { c with cmds := rest, cur := some ⟨op, op.bursts, []⟩ } }
  | _, _, _ => m

/-- The worker gets a response (axi_master.py 119-120, 604-605, 967-969). Also gives the tag (whose `active_id` is then
checked) and whether that response completed a burst (then `active_id` is decremented). -/
def get (m : Mgr ρ) (i : Nat) : Option (Nat × Bool) × Mgr ρ :=
  let c := m.ctxs i
  match c.started, c.cur, c.resps, c.tag with
  | true, some ⟨op, n :: rem, got⟩, r :: rest, some t =>
    let rem := if n = 0 then rem else (n - 1) :: rem
    (some (t, decide (n = 0)), { m with ctxs := upd m.ctxs i { c with resps := rest, cur := some ⟨op, rem, got ++ [r]⟩ } })
  | _, _, _, _ => (none, m)

/-- The worker completes its command, and becomes idle if both of its queues are empty (axi_master.py 143-147). -/
def finish (m : Mgr ρ) (i : Nat) : Option (Nat × Op × List ρ) × Mgr ρ :=
  let c := m.ctxs i
  match c.started, c.cur, c.tag with
  | true, some ⟨op, [], got⟩, some t =>
    let m := { m with ctxs := upd m.ctxs i { c with cur := none } }
    (some (t, op, got), if c.cmds.isEmpty && c.resps.isEmpty then m.setIdle i else m)
  | _, _, _ => (none, m)

/-- `TagContext._flush` (axi_master.py 129-142): the flushed commands and the new state. -/
def flushCtx (m : Mgr ρ) (i : Nat) : List Op × Mgr ρ :=
  let m := { m with ctxs := upd m.ctxs i { m.ctxs i with started := false } }
  let m := m.setIdle i
  let c := m.ctxs i
  ((c.cur.map (·.op)).toList ++ c.cmds, { m with ctxs := upd m.ctxs i { c with cur := none, cmds := [], resps := [] } })

/-- The loop of `flush` over contexts `i, i + 1, ..., i + n - 1`. -/
def flushFrom (m : Mgr ρ) (i : Nat) : Nat → List Op × Mgr ρ
  | 0 => ([], m)
  | n + 1 =>
    let (ops, m) := m.flushCtx i
    let (ops', m) := m.flushFrom (i + 1) n
    (ops ++ ops', m)

/-- `flush` (axi_master.py 189-193). -/
def flush (m : Mgr ρ) : List Op × Mgr ρ := m.flushFrom 0 m.count

end Mgr

/-- `AxiMasterWrite`/`AxiMasterRead` as far as operations are concerned (axi_master.py 205-232, 647-670). -/
structure Master (ρ : Type) where
  /-- `write_command_queue` -/
  queue : List Op := []
  /-- `current_write_command`, the ID chosen for it, and how many of its bursts have been issued -/
  cur : Option (Op × Nat × Nat) := none
  mgr : Mgr ρ := {}
  curId : Nat := 0
  active : Nat → Nat := fun _ => 0
  inFlight : Int := 0
  idleEv : Bool := true
  /-- `_process_write_cr`/`_process_write_resp_cr` are running -/
  running : Bool := false
  /-- `init_write` wrappers that have not run yet -/
  wrappers : List Op := []
  /-- an "unexpected burst ID" assertion failed on arrival of a response / inside a worker -/
  respFailed : Bool := false
  workFailed : Bool := false
  /-- history: operations that entered `write()` -/
  issued : List Op := []
  /-- history: every `event.set(...)`: the operation and its result (`none`: flushed) -/
  results : List (Op × Option (List ρ)) := []
  /-- history since the last reset: bursts issued, commands started, responses arrived and operations completed, by ID -/
  sent : List (Nat × Nat) := []
  started : List (Nat × Op) := []
  arrived : List (Nat × ρ) := []
  done : List (Nat × Op × List ρ) := []

/-- Events of the master (axi_master.py 282-636, 717-1035). -/
inductive Ev (ρ : Type)
  | write (op : Op)
  | init (op : Op)
  | runInit (i : Nat)
  | take
  | burst
  | start
  | resp (tag : Nat) (r : ρ)
  | workTake (i : Nat)
  | workGet (i : Nat)
  | workDone (i : Nat)
  | reset (v : Bool)

namespace Master

variable {ρ : Type}

/-- `write()` after its argument checks (axi_master.py 412-420). -/
def write (s : Master ρ) (op : Op) : Master ρ :=
  { s with inFlight := s.inFlight + 1, idleEv := false, queue := s.queue ++ [op], issued := s.issued ++ [op] }

/-- `idle` (axi_master.py 350-351). -/
def idle (s : Master ρ) : Bool := decide (s.inFlight = 0)

/-- `_process_write` gets a command and chooses its ID (axi_master.py 475-476, 499-503). -/
def take (idCount : Nat) (s : Master ρ) : Master ρ :=
  match s.running, s.cur, s.queue with
  | true, none, op :: rest =>
    match op.id? with
    | some t => { s with queue := rest, cur := some (op, t, 0) }
    | none => { s with queue := rest, cur := some (op, s.curId, 0), curId := (s.curId + 1) % idCount }
  | _, _, _ => s

/-- `_process_write` issues a burst (axi_master.py 526-549). -/
def burst (s : Master ρ) : Master ρ :=
  match s.running, s.cur with
  | true, some (op, t, n) =>
    match op.bursts[n]? with
    | some k => { s with cur := some (op, t, n + 1), active := upd s.active t (s.active t + 1), sent := s.sent ++ [(t, k)] }
    | none => s
  | _, _ => s

/-- All bursts have been issued: `start_cmd` (axi_master.py 583-586). -/
def start (s : Master ρ) : Master ρ :=
  match s.running, s.cur with
  | true, some (op, t, n) =>
    if n = op.bursts.length then
      { s with cur := none, mgr := s.mgr.startCmd t op, started := s.started ++ [(t, op)] }
    else s
  | _, _ => s

/-- `_process_write_resp` gets a response (axi_master.py 588-596). -/
def resp (s : Master ρ) (t : Nat) (r : ρ) : Master ρ :=
  if s.running && !s.respFailed then
    if s.active t = 0 then { s with respFailed := true }
    else { s with mgr := s.mgr.putResp t r, arrived := s.arrived ++ [(t, r)] }
  else s

/-- A worker gets a response: `active_id` is checked, and decremented at the end of a burst (axi_master.py 604-620,
967-1013). A failed check is recorded in `workFailed` (what happens then is not modelled further: `C70` shows that it does
not happen). The `rlast` checks are part of `Model/Axi.lean`. -/
def workGet (s : Master ρ) (i : Nat) : Master ρ :=
  match s.mgr.get i with
  | (none, m) => { s with mgr := m }
  | (some (t, last), m) =>
    if s.active t = 0 then { s with workFailed := true }
    else { s with mgr := m, active := if last then upd s.active t (s.active t - 1) else s.active }

/-- A worker completes an operation (axi_master.py 626-635, 143-147). -/
def workDone (s : Master ρ) (i : Nat) : Master ρ :=
  match s.mgr.finish i with
  | (some (t, op, rs), m) =>
    { s with mgr := m, results := s.results ++ [(op, some rs)], inFlight := s.inFlight - 1
             idleEv := s.idleEv || decide (s.inFlight - 1 = 0), done := s.done ++ [(t, op, rs)] }
  | (none, m) => { s with mgr := m }

/-- `_handle_reset` (axi_master.py 430-471): flushes the queue, the current command and the workers, in that order. -/
def reset (s : Master ρ) (v : Bool) : Master ρ :=
  if v then
    let flushed := s.queue ++ (s.cur.map (·.1)).toList ++ s.mgr.flush.1
    { s with running := false, queue := [], cur := none, mgr := s.mgr.flush.2, curId := 0, active := fun _ => 0
             inFlight := 0, idleEv := true, results := s.results ++ flushed.map (fun o => (o, none))
             respFailed := false, sent := [], started := [], arrived := [], done := [] }
  else { s with running := true }

/-- One event (axi_master.py 282-636, 717-1035). -/
def step (idCount : Nat) (s : Master ρ) : Ev ρ → Master ρ
  | .write op => s.write op
  | .init op => { s with wrappers := s.wrappers ++ [op] }
  | .runInit i =>
    match s.wrappers[i]? with
    | some op => { s with wrappers := s.wrappers.eraseIdx i }.write op
    | none => s
  | .take => s.take idCount
  | .burst => s.burst
  | .start => s.start
  | .resp t r => s.resp t r
  | .workTake i => { s with mgr := s.mgr.take i }
  | .workGet i => s.workGet i
  | .workDone i => s.workDone i
  | .reset v => s.reset v

/-- A whole history from construction (axi_master.py 197-280, 639-715, then any events). -/
def exec (idCount : Nat) (evs : List (Ev ρ)) : Master ρ := evs.foldl (step idCount) {}

end Master
end Verif.AxiOps
