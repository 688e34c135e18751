import Verif.Model.Reset

/-!
# What a component's reset should be
-/

namespace Verif.Reset

/-- The value left by the last `assert_reset` call: its argument; `assert_reset()` is a pulse. -/
def lastLocal (evs : List Ev) : Bool :=
  evs.foldl (fun b e => match e with
    | .call (some v) => v
    | .call none => false
    | _ => b) false

/-- The last value of the reset signal that is a number. -/
def lastLevel (level : Option Bool) (evs : List Ev) : Option Bool :=
  evs.foldl (fun b e => match e with
    | .drive (some v) => some v
    | _ => b) level

/-- The last number that the signal changed to while somebody watched it (`watched`), given its `level`. -/
def lastSeen : (watched : Bool) → (level seen : Option Bool) → List Ev → Option Bool
  | _, _, seen, [] => seen
  | _, level, seen, .start :: evs => lastSeen true level seen evs
  | w, level, seen, .call _ :: evs => lastSeen w level seen evs
  | w, level, seen, .drive v :: evs =>
    if w && decide (v ≠ level) then lastSeen w v (v <|> seen) evs else lastSeen w v seen evs

/-- The reset demanded after every step of a history, a pulse counting as two steps. -/
def demanded (active : Bool) : (loc ext : Bool) → List Ev → List Bool
  | _, _, [] => []
  | loc, ext, .start :: evs => demanded active loc ext evs
  | _, ext, .call (some v) :: evs => (v || ext) :: demanded active v ext evs
  | _, ext, .call none :: evs => true :: ext :: demanded active false ext evs
  | loc, ext, .drive none :: evs => demanded active loc ext evs
  | loc, _, .drive (some v) :: evs => (loc || (v == active)) :: demanded active loc (v == active) evs

/-- The elements of a list that differ from the one before, the first being compared with `prev`. -/
def changes : (prev : Bool) → List Bool → List Bool
  | _, [] => []
  | prev, x :: l => if x = prev then changes prev l else x :: changes x l

end Verif.Reset
