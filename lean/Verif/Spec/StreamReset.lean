import Verif.Spec.Stream

/-!
# Specification of C137: what a reset or `clear()` of a stream connection costs
-/

namespace Verif.Stream

variable {α : Type}

/-- `valid` and `ready` (if there is one) are both up. -/
def Net.handshake (c : NetCfg) (s : Net α) : Bool := s.src.valid && (!c.hasReady || s.snk.ready)

/-- The item that the source presents, unless the clock edge that the source has just seen transfers it. -/
def Net.presented (c : NetCfg) (s : Net α) : List α :=
  if s.src.pc = .due ∧ s.handshake c = true then [] else if s.src.nvalid then s.src.ndata.toList else []

/-- The item that the sink is about to take from the clock edge it has just seen. -/
def Net.arriving (c : NetCfg) (s : Net α) : List α :=
  if s.snk.pc = .due ∧ s.handshake c = true then s.src.data.toList else []

/-- All items that are in the connection or have been received, in the order of arrival. -/
def Net.kept (c : NetCfg) (s : Net α) : List α :=
  s.snk.got ++ s.snk.queue ++ s.arriving c ++ s.presented c ++ s.src.queue

/-- What an event throws away: resetting the source, the item it presents; resetting the sink, an item that it has just seen
transferred; `clear()`, the queue. -/
def Net.drops (c : NetCfg) (s : Net α) : NetEv α → List α
  | .srcReset true => s.presented c
  | .snkReset true => s.arriving c
  | .srcClear => s.src.queue
  | .snkClear => s.snk.queue
  | _ => []

/-- What a history throws away. -/
def Net.lost (c : NetCfg) (s : Net α) : List (NetEv α) → List α
  | [] => []
  | e :: evs => s.drops c e ++ Net.lost c (s.step c e) evs

/-- Assertions of a reset. -/
def NetEv.asserts : NetEv α → Bool
  | .srcReset true => true
  | .snkReset true => true
  | _ => false

/-- Events other than `clear()`. -/
def NetEv.noClear : NetEv α → Bool
  | .srcClear => false
  | .snkClear => false
  | _ => true

/-- Events other than asserting the sink's reset. -/
def NetEv.sinkOn : NetEv α → Bool
  | .snkReset true => false
  | _ => true

end Verif.Stream
