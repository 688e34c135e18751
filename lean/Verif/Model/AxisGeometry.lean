import Verif.Model.AxisFrame

/-!
# Model of how the AXI stream components divide `tdata` into byte lanes (axis.py 298-345)

Simplification: the constructor arguments `byte_size` and `byte_lanes` are not negative.
-/

namespace Verif.Axis

/-- `a // b` (axis.py 327, 329). -/
def floorDiv (a b : Nat) : Py Nat := if b = 0 then .error .exception else .ok (a / b)

/-- `AxiStreamBase.__init__`: `(byte_lanes, byte_size)`, from the width of `tdata`, the width of `tkeep` if it is connected and the arguments
`byte_size` and `byte_lanes` (axis.py 298-299, 317-329, 343-345). -/
def geometry (width : Nat) (keep byteSize byteLanes : Option Nat) : Py (Nat × Nat) :=
  let lanes : Py Nat := match keep with
    | some k => if byteSize.isSome || byteLanes.isSome then .error .valueError else .ok k
    | none =>
      match byteLanes with
      | some n => if byteSize.isSome then .error .valueError else .ok n
      | none =>
        match byteSize with
        | some b => floorDiv width b
        | none => .ok (width / 8)
  match lanes with
  | .error e => .error e
  | .ok lanes =>
    match floorDiv width lanes with
    | .error e => .error e
    | .ok size => if lanes * size ≠ width then .error .valueError else .ok (lanes, size)

end Verif.Axis
