import Verif.Model.Alias

/-!
# Specification: a source that holds values

What a source would do if frames were values: it queues the value that a frame has at the moment when `send` accepts it, and no later event but the
source's own changes it.
-/

namespace Verif.Alias

open Verif.Axis (Frame)

/-- The frames in the source, as values. -/
structure Vals where
  queue : List Frame := []
  current : Option Frame := none
  deriving DecidableEq

/-- Events that concern the source. -/
inductive VEv
  | send (f : Frame)
  | take
  | complete
  | clear
  | other

namespace Vals

/-- `send` queues the value, `take` normalizes the oldest, unless there is a frame with data to be transmitted. -/
def step (s : Vals) : VEv → Vals
  | .send f =>
    match f.copy with
    | .error _ => s
    | .ok g => { s with queue := s.queue ++ [g] }
  | .take =>
    match s.current, s.queue with
    | none, f :: rest => { queue := rest, current := some f.normalize.2 }
    | some c, f :: rest => if c.tdata = [] then { queue := rest, current := some f.normalize.2 } else s
    | _, [] => s
  | .complete => { s with current := none }
  | .clear => { s with queue := [] }
  | .other => s

end Vals

namespace World

/-- What an event means to a source that holds values: for `send`, the value of the argument at that moment. -/
def meaning (w : World) : Ev → VEv
  | .send n =>
    match w.frames[n]? with
    | none => .other
    | some f => .send (f.val w.heap)
  | .sendData b data => if w.owned data then .send { isBytes := b, tdata := w.heap.obj data } else .other
  | .take => .take
  | .complete => .complete
  | .clear => .clear
  | _ => .other

/-- The meanings of the events of a history. -/
def trace (w : World) : List Ev → List VEv
  | [] => []
  | e :: evs => w.meaning e :: (w.step e).trace evs

/-- What the source holds, as values at this moment. -/
def sees (w : World) : Vals :=
  { queue := w.queue.map (·.val w.heap), current := w.current.map (·.val w.heap) }

end World

namespace ObjWorld

/-- The contents of the objects at the moments when they were sent. -/
def sent (w : ObjWorld) : List ObjEv → List Int
  | [] => []
  | .send n :: evs => w.objs n :: (w.step (.send n)).sent evs
  | e :: evs => (w.step e).sent evs

/-- No object is assigned to while it is queued. -/
def leftAlone (w : ObjWorld) : List ObjEv → Prop
  | [] => True
  | .change n v :: evs => n ∉ w.queue ∧ (w.step (.change n v)).leftAlone evs
  | e :: evs => (w.step e).leftAlone evs

end ObjWorld
end Verif.Alias
