import Verif.Py

/-!
# Several readers of one sink or monitor

A call of `recv()` or `read()` that finds nothing is suspended in `Queue.get()` and goes on later. `Model/Stream.lean` and `Model/Axis.lean` have no such
state (a suspended call is a later call there); here there may be any number of suspended calls at the same time.

`Queue` is cocotb's: `get()` of an empty queue waits in a FIFO, every `put_nowait` sets the event of the first that waits, and a call whose event was set
looks again when it gets its turn: if the queue is empty by then, it waits again, at the end. A call that is cancelled before its
event was set is skipped; cancelling one whose event was set (and which has not yet run) is not modelled. `active_event` and occupancy counters are not
modelled here (see C88, C54). The bytes of a frame are those of `tdata` after `compact()` (`payload` of `Model/Axis.lean`).
-/

namespace Verif.Readers

/-- A call: `recv()` (`count = none`) or `read(count)`; `id` tells calls apart (axis.py 631-643, stream.py 315-317). -/
structure Call where
  id : Nat
  count : Option Int
  deriving DecidableEq, Repr

/-- A sink or monitor as seen from its readers (axis.py 616-654, stream.py 306-321). -/
structure Rx (α : Type) where
  queue : List α := []
  /-- suspended in `queue.get()` -/
  getters : List Call := []
  /-- the event was set, the coroutine has not run since -/
  woken : List Call := []
  readQueue : List Int := []
  /-- history: items put into the queue -/
  captured : List α := []
  /-- history: which call took which item (`none`: `clear()`) -/
  taken : List (Option Call × α) := []
  /-- history: items returned by `recv()` and `recv_nowait()`, in the order of return -/
  items : List (Nat × α) := []
  /-- history: what `read()` and `read_nowait()` returned, in the order of return -/
  out : List (Nat × List Int) := []

/-- What can happen (axis.py 357-366, 631-654, 730, 831, stream.py 145-150, 315-321, 363, 421). -/
inductive Ev (α : Type)
  /-- an item is received from the bus -/
  | put (x : α)
  | recv (id : Nat)
  | recvNowait (id : Nat)
  | read (id : Nat) (count : Int)
  | readNowait (id : Nat) (count : Int)
  /-- a suspended call whose event was set gets its turn -/
  | turn (i : Nat)
  /-- a suspended call is cancelled -/
  | cancel (i : Nat)
  | clear

namespace Rx

variable {α : Type} (bytes : α → List Int)

/-- `queue.put_nowait` (axis.py 730, 831, stream.py 363, 421): the first suspended call is woken. -/
def put (s : Rx α) (x : α) : Rx α :=
  let s := { s with queue := s.queue ++ [x], captured := s.captured ++ [x] }
  match s.getters with
  | [] => s
  | g :: rest => { s with getters := rest, woken := s.woken ++ [g] }

/-- `recv()` up to its return or suspension (axis.py 631-633, stream.py 315-317). -/
def recv (s : Rx α) (c : Call) : Rx α :=
  match s.queue with
  | [] => { s with getters := s.getters ++ [c] }
  | x :: q => { s with queue := q, taken := s.taken ++ [(some c, x)], items := s.items ++ [(c.id, x)] }

/-- `recv_nowait()` (axis.py 635-637, stream.py 319-321); raises if there is nothing. -/
def recvNowait (s : Rx α) (c : Call) : Rx α :=
  match s.queue with
  | [] => s
  | x :: q => { s with queue := q, taken := s.taken ++ [(some c, x)], items := s.items ++ [(c.id, x)] }

/-- `read_nowait(count)` (axis.py 645-654); its loop over the queue is written as one assignment. -/
def readNowait (s : Rx α) (c : Call) (count : Int) : Rx α :=
  let all := s.readQueue ++ s.queue.flatMap bytes
  let n := if count < 0 then all.length else count.toNat
  { s with queue := [], taken := s.taken ++ s.queue.map (fun x => (some c, x)), readQueue := all.drop n
           out := s.out ++ [(c.id, all.take n)] }

/-- The loop of `read(count)` from `await self.recv()` on (axis.py 640-643): until a frame has bytes, or nothing is left and the call is suspended. -/
def readLoop (c : Call) (count : Int) : List α → Rx α → Rx α
  | [], s => { s with queue := [], getters := s.getters ++ [c] }
  | x :: q, s =>
    let s := { s with queue := q, taken := s.taken ++ [(some c, x)], readQueue := s.readQueue ++ bytes x }
    if s.readQueue = [] then readLoop c count q s else s.readNowait bytes c count

/-- `read(count)` up to its return or suspension (axis.py 639-643). -/
def read (s : Rx α) (c : Call) (count : Int) : Rx α :=
  if s.readQueue = [] then readLoop bytes c count s.queue s else s.readNowait bytes c count

/-- A suspended call goes on after `await event.wait()` in `Queue.get()` (axis.py 632, 641, stream.py 316). -/
def resume (s : Rx α) (c : Call) : Rx α :=
  match c.count with
  | none => s.recv c
  | some n => readLoop bytes c n s.queue s

/-- `clear()` (axis.py 357-366, stream.py 145-150). -/
def clear (s : Rx α) : Rx α := { s with queue := [], taken := s.taken ++ s.queue.map (fun x => (none, x)) }

/-- One event (axis.py 357-366, 631-654, stream.py 145-150, 315-321). -/
def step (s : Rx α) : Ev α → Rx α
  | .put x => s.put x
  | .recv id => s.recv ⟨id, none⟩
  | .recvNowait id => s.recvNowait ⟨id, none⟩
  | .read id n => s.read bytes ⟨id, some n⟩ n
  | .readNowait id n => s.readNowait bytes ⟨id, some n⟩ n
  | .turn i =>
    match s.woken[i]? with
    | none => s
    | some c => { s with woken := s.woken.eraseIdx i }.resume bytes c
  | .cancel i => { s with getters := s.getters.eraseIdx i }
  | .clear => s.clear

/-- A whole history (axis.py 616-654, stream.py 306-321, from construction). -/
def exec (evs : List (Ev α)) : Rx α := evs.foldl (step bytes) {}

end Rx
end Verif.Readers
