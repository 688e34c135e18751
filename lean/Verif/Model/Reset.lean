import Verif.Py

/-!
# Model of `cocotbext/axi/reset.py`

A component with its `Reset` mixin and the reset signal it watches. Signal values are `none` for a value that `int()` rejects
(`'x'`/`'z'`), else the truth value of the number.

Simplification: an edge and the reaction of `_run_reset` to it are one step (cocotb resumes a coroutine that awaits `Edge` at
once). Fields marked "history" are not in the code.
-/

namespace Verif.Reset

/-- `Reset` (reset.py 30-38); `armed` says that the coroutine `_run_reset` awaits `Edge` (it starts some time after
the constructor). -/
structure Rst where
  localReset : Bool := false
  ext : Bool := false
  state : Bool := true
  armed : Bool := false
  /-- the value of the reset signal -/
  level : Option Bool := none
  /-- history: the calls of `_handle_reset` -/
  calls : List Bool := []
  deriving DecidableEq

namespace Rst

/-- `_update_reset` (reset.py 48-52). -/
def update (s : Rst) : Rst :=
  let new := s.localReset || s.ext
  if s.state ≠ new then { s with state := new, calls := s.calls ++ [new] } else s

/-- `_init_reset` (reset.py 30-38), called with the signal at `level`. -/
def init (level : Option Bool) : Rst := ({ level := level } : Rst).update

/-- `assert_reset` (reset.py 40-46). -/
def assertReset (s : Rst) : Option Bool → Rst
  | none => ({ ({ s with localReset := true } : Rst).update with localReset := false } : Rst).update
  | some v => ({ s with localReset := v } : Rst).update

/-- The reaction of `_run_reset` to an edge (reset.py 59-69). -/
def edge (s : Rst) (active : Bool) : Rst :=
  match s.level with
  | none => s
  | some true => ({ s with ext := active } : Rst).update
  | some false => ({ s with ext := !active } : Rst).update

end Rst

/-- What can happen to a component: the scheduler starts `_run_reset` (reset.py 36), the reset signal is driven, the user calls
`assert_reset`. -/
inductive Ev
  | start
  | drive (v : Option Bool)
  | call (v : Option Bool)

/-- One event; driving the value that the signal has is no edge (reset.py 40-69). -/
def step (active : Bool) (s : Rst) : Ev → Rst
  | .start => { s with armed := true }
  | .drive v =>
    if s.armed && decide (v ≠ s.level) then ({ s with level := v } : Rst).edge active else { s with level := v }
  | .call v => s.assertReset v

/-- A history from the constructor, with the reset signal at `level` then (reset.py 30-38, then any events). -/
def exec (active : Bool) (level : Option Bool) (evs : List Ev) : Rst := evs.foldl (step active) (Rst.init level)

end Verif.Reset
