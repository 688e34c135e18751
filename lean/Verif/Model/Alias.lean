import Verif.Model.Axis

/-!
# Frames as Python objects: which lists a frame shares with others

`Model/AxisFrame.lean` treats frames as values. Here the lists of a frame (`tdata`, `tkeep`, `tid`, `tdest`, `tuser` of axis.py 43-92) are objects that
may be reachable in several ways and are changed in place. The user of a source may do anything with the objects they have a reference to,
at any time; the objects that only the source refers to (`queue`, `current_frame` and the variable `frame` of `_run`) are out of reach: reaching
into these attributes of a source is not modelled.
-/

namespace Verif.Alias

open Verif.Axis (Side Frame stretch delAt collapse)

/-- The list and `bytearray` objects; `next` is the identity of the object created next (Python's object store). -/
structure Heap where
  obj : Nat → List Int := fun _ => []
  next : Nat := 0

/-- A sideband attribute of a frame: `None`, an integer or a reference to a list (axis.py 45-48). -/
inductive RSide
  | none
  | scalar (v : Int)
  | ref (r : Nat)
  deriving DecidableEq, Repr

/-- The attributes of an `AxiStreamFrame` object (axis.py 43-52). -/
structure RFrame where
  isBytes : Bool
  tdata : Nat
  tkeep : RSide
  tid : RSide
  tdest : RSide
  tuser : RSide
  deriving DecidableEq, Repr

namespace Heap

/-- Creating a list (Python's object store). -/
def alloc (h : Heap) (l : List Int) : Nat × Heap :=
  (h.next, { obj := fun r => if r = h.next then l else h.obj r, next := h.next + 1 })

/-- Changing a list in place. -/
def set (h : Heap) (r : Nat) (l : List Int) : Heap := { h with obj := fun i => if i = r then l else h.obj i }

end Heap

/-- The value of an attribute at a moment. -/
def RSide.val (h : Heap) : RSide → Side
  | .none => .none
  | .scalar v => .scalar v
  | .ref r => .list (h.obj r)

/-- The value of a frame at a moment. -/
def RFrame.val (h : Heap) (f : RFrame) : Frame :=
  { isBytes := f.isBytes, tdata := h.obj f.tdata, tkeep := f.tkeep.val h, tid := f.tid.val h, tdest := f.tdest.val h
    tuser := f.tuser.val h }

/-- The list that an attribute refers to. -/
def RSide.refs : RSide → List Nat
  | .ref r => [r]
  | _ => []

/-- Whether an attribute is an integer (`list()` of it raises, axis.py 59). -/
def RSide.isScalar : RSide → Bool
  | .scalar _ => true
  | _ => false

/-- The lists that a frame refers to. -/
def RFrame.refs (f : RFrame) : List Nat := f.tdata :: (f.tkeep.refs ++ f.tid.refs ++ f.tdest.refs ++ f.tuser.refs)

namespace Heap

/-- An attribute with a new list as value (the right-hand sides of axis.py 58-73, 98-125). -/
def put (h : Heap) : Side → RSide × Heap
  | .none => (.none, h)
  | .scalar v => (.scalar v, h)
  | .list l => (.ref (h.alloc l).1, (h.alloc l).2)

/-- `AxiStreamFrame(frame)` (axis.py 53-76): `list()` makes new lists; `list()` of an integer `tkeep` raises. -/
def copyFrame (h : Heap) (f : RFrame) : Py RFrame × Heap :=
  let (d, h) := h.alloc (h.obj f.tdata)
  if f.tkeep.isScalar then (.error .typeError, h)
  else
    let (k, h) := h.put (f.tkeep.val h)
    let (i, h) := h.put (f.tid.val h)
    let (de, h) := h.put (f.tdest.val h)
    let (u, h) := h.put (f.tuser.val h)
    (.ok ⟨f.isBytes, d, k, i, de, u⟩, h)

/-- `AxiStreamFrame(tdata, tkeep, tid, tdest, tuser)` for `bytes`, `bytearray` (`isBytes`) or another sequence (axis.py 77-89): only `tdata` is copied. -/
def newFrame (h : Heap) (isBytes : Bool) (data : Nat) (k i d u : RSide) : RFrame × Heap :=
  let (x, h) := h.alloc (h.obj data)
  (⟨isBytes, x, k, i, d, u⟩, h)

/-- `normalize` (axis.py 94-125): each attribute gets a new list. -/
def normalize (h : Heap) (f : RFrame) : Py Unit × RFrame × Heap :=
  let n := (h.obj f.tdata).length
  match (f.tkeep.val h).fitKeep n with
  | .error e => (.error e, f, h)
  | .ok s =>
    let (k, h) := h.put s
    let f := { f with tkeep := k }
    match (f.tid.val h).fit n with
    | .error e => (.error e, f, h)
    | .ok s =>
      let (k, h) := h.put s
      let f := { f with tid := k }
      match (f.tdest.val h).fit n with
      | .error e => (.error e, f, h)
      | .ok s =>
        let (k, h) := h.put s
        let f := { f with tdest := k }
        match (f.tuser.val h).fit n with
        | .error e => (.error e, f, h)
        | .ok s =>
          let (k, h) := h.put s
          (.ok (), { f with tuser := k }, h)

/-- `if k < len(l): del l[k]`, in place (axis.py 132-141); `len()` of `None` or of an integer raises. -/
def del (h : Heap) (k : Nat) : RSide → Py Unit × Heap
  | .ref r => (.ok (), h.set r (delAt (h.obj r) k))
  | _ => (.error .typeError, h)

/-- Deleting entry `k` from one list after the other (axis.py 132-141). -/
def delAll (k : Nat) : List RSide → Heap → Py Unit × Heap
  | [], h => (.ok (), h)
  | s :: rest, h =>
    match h.del k s with
    | (.error e, h) => (.error e, h)
    | (.ok _, h) => delAll k rest h

/-- The loop of `compact` over `k = n-1, ..., 0` on the lists themselves (axis.py 130-141). -/
def compactLoop (f : RFrame) (keep : Nat) : Nat → Heap → Py Unit × Heap
  | 0, h => (.ok (), h)
  | k + 1, h =>
    match (h.obj keep)[k]? with
    | none => (.error .indexError, h)
    | some v =>
      if v = 0 then
        match delAll k [.ref f.tdata, f.tkeep, f.tid, f.tdest, f.tuser] h with
        | (.error e, h) => (.error e, h)
        | (.ok _, h) => compactLoop f keep k h
      else compactLoop f keep k h

/-- An attribute after consolidation: `None`, the common value, or the list itself (axis.py 148-151, 153-156, 158-161). -/
def settle (h : Heap) : RSide → Py RSide
  | .ref r =>
    match collapse (h.obj r) with
    | .none => .ok .none
    | .scalar v => .ok (.scalar v)
    | .list _ => .ok (.ref r)
  | _ => .error .typeError

/-- `compact` (axis.py 127-161): the lists of the frame are changed in place, then the attributes are assigned one after the other. -/
def compact (h : Heap) (f : RFrame) : Py Unit × RFrame × Heap :=
  match f.tkeep with
  | .ref k =>
    match (if (h.obj k).length ≠ 0 then compactLoop f k (h.obj f.tdata).length h else (.ok (), h)) with
    | (.error e, h) => (.error e, f, h)
    | (.ok _, h) =>
      let f := { f with tkeep := .none }
      match h.settle f.tid with
      | .error e => (.error e, f, h)
      | .ok s =>
        let f := { f with tid := s }
        match h.settle f.tdest with
        | .error e => (.error e, f, h)
        | .ok s =>
          let f := { f with tdest := s }
          match h.settle f.tuser with
          | .error e => (.error e, f, h)
          | .ok s => (.ok (), { f with tuser := s }, h)
  | _ => (.error .typeError, f, h)

end Heap

/-- A source, the user's objects and the store. `owned`: the lists that the user has a reference to. `frames`: their frame objects. `queue` and
`current`: the frames in the source (axis.py 277-299, 441-445); `current` has been normalized, as far as that did not raise. -/
structure World where
  heap : Heap := {}
  owned : Nat → Bool := fun _ => false
  frames : List RFrame := []
  queue : List RFrame := []
  current : Option RFrame := none

/-- What can happen: the user works with their objects, calls `send` (when it is accepted) or `clear`, and the source works on what it has. -/
inductive Ev
  /-- a new list or `bytearray` -/
  | list (l : List Int)
  /-- a list is changed in place, in any way -/
  | change (r : Nat) (l : List Int)
  /-- `AxiStreamFrame(tdata, tkeep, ...)` -/
  | frame (isBytes : Bool) (data : Nat) (k i d u : RSide)
  /-- attributes of frame `n` are assigned -/
  | assign (n : Nat) (f : RFrame)
  /-- `AxiStreamFrame(frame)` -/
  | copy (n : Nat)
  /-- `normalize()` of one of their frames -/
  | normalize (n : Nat)
  /-- `compact()` of one of their frames -/
  | compact (n : Nat)
  /-- `send(frame)` or `send_nowait(frame)` accepted -/
  | send (n : Nat)
  /-- `send(data)`, `send_nowait(data)`, `write(data)` or `write_nowait(data)` accepted -/
  | sendData (isBytes : Bool) (data : Nat)
  /-- the source takes the next frame -/
  | take
  /-- the source is done with its frame, or drops it in reset; `tx_complete` gets it -/
  | complete
  /-- `clear()` -/
  | clear

namespace World

/-- After an action of the user: everything created by it is within their reach. -/
def mine (w : World) (h : Heap) : World :=
  { w with heap := h, owned := fun r => w.owned r || (decide (w.heap.next ≤ r) && decide (r < h.next)) }

/-- Whether the user has references to all lists of the frame. -/
def has (w : World) (f : RFrame) : Bool := f.refs.all w.owned

/-- `not frame`: there is no frame or its `tdata` is empty (axis.py 534, 229-230). -/
def ready (w : World) : Bool :=
  match w.current with
  | none => true
  | some f => (w.heap.obj f.tdata).isEmpty

/-- Queueing a copy of a frame (axis.py 451-452, 461-462). -/
def accept (w : World) (f : RFrame) : World :=
  match w.heap.copyFrame f with
  | (.error _, h) => { w with heap := h }
  | (.ok g, h) => { w with heap := h, queue := w.queue ++ [g] }

/-- One event (axis.py 43-161, 447-472, 397-401, 488-509, 534-545, 566-569). An action on an object that the user does not have does nothing.
If `normalize` raises in the source, its coroutine ends with the frame in `current_frame`, and only a reset gets it out of there (`complete`);
here `take` may happen after that too if the frame is empty. -/
def step (w : World) : Ev → World
  | .list l => w.mine (w.heap.alloc l).2
  | .change r l => if w.owned r then { w with heap := w.heap.set r l } else w
  | .frame b data k i d u =>
    if w.owned data && (k.refs ++ i.refs ++ d.refs ++ u.refs).all w.owned then
      let (f, h) := w.heap.newFrame b data k i d u
      { w.mine h with frames := w.frames ++ [f] }
    else w
  | .assign n f => if w.has f then { w with frames := w.frames.set n f } else w
  | .copy n =>
    match w.frames[n]? with
    | none => w
    | some f =>
      match w.heap.copyFrame f with
      | (.error _, h) => w.mine h
      | (.ok g, h) => { w.mine h with frames := w.frames ++ [g] }
  | .normalize n =>
    match w.frames[n]? with
    | none => w
    | some f =>
      let (_, g, h) := w.heap.normalize f
      { w.mine h with frames := w.frames.set n g }
  | .compact n =>
    match w.frames[n]? with
    | none => w
    | some f =>
      let (_, g, h) := w.heap.compact f
      { w.mine h with frames := w.frames.set n g }
  | .send n =>
    match w.frames[n]? with
    | none => w
    | some f => w.accept f
  | .sendData b data =>
    if w.owned data then
      let (f, h) := w.heap.newFrame b data .none .none .none .none
      { w with heap := h, queue := w.queue ++ [f] }
    else w
  | .take =>
    match w.ready, w.queue with
    | true, f :: rest =>
      let (_, g, h) := w.heap.normalize f
      { w with heap := h, queue := rest, current := some g }
    | _, _ => w
  | .complete =>
    match w.current with
    | none => w
    | some f => { w with current := none, frames := w.frames ++ [f], owned := fun r => w.owned r || f.refs.contains r }
  | .clear => { w with queue := [] }

/-- A whole history (axis.py 43-161, 447-545, from construction). -/
def exec (evs : List Ev) : World := evs.foldl step {}

end World

/-! ## Generic streams -/

/-- A source made by `define_stream` and the user's transaction objects: `objs` are the objects' contents, `queue` holds references, `driven` (history)
is what was put on the bus (stream.py 225-238, 267-276). -/
structure ObjWorld where
  objs : Nat → Int := fun _ => 0
  queue : List Nat := []
  driven : List Int := []

/-- A field of an object is assigned; `send(obj)`; the source drives the next item (stream.py 225-238, 275-276). -/
inductive ObjEv
  | change (n : Nat) (v : Int)
  | send (n : Nat)
  | drive

/-- One event (stream.py 225-238, 275-276): `send` queues the object itself; its fields are read when it is driven. -/
def ObjWorld.step (w : ObjWorld) : ObjEv → ObjWorld
  | .change n v => { w with objs := fun i => if i = n then v else w.objs i }
  | .send n => { w with queue := w.queue ++ [n] }
  | .drive =>
    match w.queue with
    | [] => w
    | n :: rest => { w with queue := rest, driven := w.driven ++ [w.objs n] }

/-- A whole history (stream.py 225-238, 275-276). -/
def ObjWorld.exec (evs : List ObjEv) : ObjWorld := evs.foldl ObjWorld.step {}

end Verif.Alias
