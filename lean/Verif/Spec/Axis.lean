import Verif.Model.AxisFrame

/-!
# Specification vocabulary for AXI stream frames
-/

namespace Verif.Axis

/-- The value of a sideband for byte `k`: the default if absent, the same value for all bytes if a scalar, else the `k`-th
element of the list, the last one for all further bytes. -/
def Side.value (dflt : Int) : Side → Nat → Int
  | .none, _ => dflt
  | .scalar v, _ => v
  | .list l, k => l.getD (min k (l.length - 1)) 0

/-- The frames whose sidebands make sense: none is an empty list, and `tkeep` is not an integer. -/
def Frame.proper (f : Frame) : Prop :=
  (∀ v, f.tkeep ≠ .scalar v) ∧ f.tkeep ≠ .list [] ∧ f.tid ≠ .list [] ∧ f.tdest ≠ .list [] ∧ f.tuser ≠ .list []

instance (s : Side) : Decidable (∀ v, s ≠ .scalar v) :=
  match s with
  | .scalar v => isFalse (fun h => h v rfl)
  | .none => isTrue (by simp)
  | .list _ => isTrue (by simp)

instance (f : Frame) : Decidable f.proper := inferInstanceAs (Decidable (_ ∧ _))

/-- Digits in base `2 ^ size`, least significant first, as a number. -/
def packed (size : Nat) : List Nat → Nat
  | [] => 0
  | d :: ds => d + 2 ^ size * packed size ds

/-- Beat number `k` of a frame: lane `i` has byte `k * lanes + i`, masked to the lane, and its `tkeep` bit, or zeros behind
the end of the frame; `tid`, `tdest` and `tuser` are those of the last byte in the beat; `tlast` marks the beat with the
last byte. -/
def beatAt (c : Cfg) (f : Frame) (k : Nat) : Beat :=
  let n := f.tdata.length
  let last := min ((k + 1) * c.lanes) n - 1
  { tdata := packed c.size ((List.range c.lanes).map fun i =>
      if k * c.lanes + i < n then maskTo c.size (f.tdata.getD (k * c.lanes + i) 0) else 0)
    tkeep := packed 1 ((List.range c.lanes).map fun i =>
      if k * c.lanes + i < n then maskTo 1 (f.tkeep.value 1 (k * c.lanes + i)) else 0)
    tlast := decide ((k + 1) * c.lanes ≥ n)
    tid := f.tid.value 0 last, tdest := f.tdest.value 0 last, tuser := f.tuser.value 0 last }

/-- The number of beats. -/
def beatCount (c : Cfg) (f : Frame) : Nat := (f.tdata.length + (c.lanes - 1)) / c.lanes

/-- The beats of a frame. -/
def beats (c : Cfg) (f : Frame) : List Beat := (List.range (beatCount c f)).map (beatAt c f)

/-- The elements of `l` whose `keep` entry is not zero. -/
def kept (keep l : List Int) : List Int := ((keep.zip l).filter (fun p => p.1 ≠ 0)).map (·.2)

/-- The indices of the bytes of a frame that a receiver keeps: those with bit 0 of `tkeep` set. -/
def keptIdx (f : Frame) : List Nat := (List.range f.tdata.length).filter fun k => maskTo 1 (f.tkeep.value 1 k) ≠ 0

/-- A list that is constant, as a receiver reports it. -/
def constSide (has : Bool) (empty : Bool) (v : Int) : Side := if has && !empty then .scalar v else .none

end Verif.Axis
