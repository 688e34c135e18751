import Verif.Py

/-!
# Model of `AxiStreamFrame` (axis.py 42-236) and of the beats of a frame

Simplifications: frames are values; which lists they share with others is the subject of `Model/Alias.lean`
(`AxiStreamSource.send` copies the frame it is given, axis.py 451, 461). Sidebands are `None`, integers (`bool` is an integer)
or lists of integers. Simulation times are left out.
-/

namespace Verif.Axis

/-- A sideband attribute of a frame: `None`, an integer or a list (axis.py 45-48). -/
inductive Side
  | none
  | scalar (v : Int)
  | list (l : List Int)
  deriving DecidableEq, Repr

/-- `AxiStreamFrame` (axis.py 43-92). `isBytes`: `tdata` is a `bytearray` (then its elements are bytes), not a list. -/
structure Frame where
  isBytes : Bool := true
  tdata : List Int := []
  tkeep : Side := .none
  tid : Side := .none
  tdest : Side := .none
  tuser : Side := .none
  deriving DecidableEq, Repr

/-- `bool(frame)`: there is no `__bool__`, so it is `len(frame.tdata) != 0` (axis.py 229-230). -/
def Frame.truthy (f : Frame) : Bool := !f.tdata.isEmpty

/-! ## normalize -/

/-- `l[:n] + [l[-1]]*(n-len(l))` (axis.py 99, 107, 115, 123): raises on an empty list whatever `n` is. -/
def stretch (n : Nat) (l : List Int) : Py (List Int) :=
  match l.getLast? with
  | Option.none => .error .indexError
  | some v => .ok (l.take n ++ List.replicate (n - l.length) v)

/-- Normalizing `tkeep` (axis.py 98-101); an integer has no slices. -/
def Side.fitKeep (n : Nat) : Side → Py Side
  | .none => .ok (.list (List.replicate n 1))
  | .scalar _ => .error .typeError
  | .list l => (stretch n l).map .list

/-- Normalizing `tid`, `tdest` or `tuser` (axis.py 103-109, 111-117, 119-125). -/
def Side.fit (n : Nat) : Side → Py Side
  | .none => .ok (.list (List.replicate n 0))
  | .scalar v => .ok (.list (List.replicate n v))
  | .list l => (stretch n l).map .list

/-- `normalize` (axis.py 94-125): the fields are replaced one after the other. -/
def Frame.normalize (f : Frame) : Py Unit × Frame :=
  let n := f.tdata.length
  match f.tkeep.fitKeep n with
  | .error e => (.error e, f)
  | .ok k =>
    let f := { f with tkeep := k }
    match f.tid.fit n with
    | .error e => (.error e, f)
    | .ok k =>
      let f := { f with tid := k }
      match f.tdest.fit n with
      | .error e => (.error e, f)
      | .ok k =>
        let f := { f with tdest := k }
        match f.tuser.fit n with
        | .error e => (.error e, f)
        | .ok k => (.ok (), { f with tuser := k })

/-! ## compact -/

/-- `if k < len(l): del l[k]` (axis.py 132-141). -/
def delAt (l : List Int) (k : Nat) : List Int := if k < l.length then l.eraseIdx k else l

/-- The five lists that `compact` works on (axis.py 127-161). -/
structure Lists where
  data : List Int
  keep : List Int
  id : List Int
  dest : List Int
  user : List Int
  deriving DecidableEq, Repr

/-- The loop of `compact` over `k = n-1, ..., 0` (axis.py 130-141). -/
def compactLoop : Nat → Lists → Py Lists
  | 0, l => .ok l
  | k + 1, l =>
    match l.keep[k]? with
    | none => .error .indexError
    | some v =>
      compactLoop k (if v = 0 then ⟨delAt l.data k, delAt l.keep k, delAt l.id k, delAt l.dest k, delAt l.user k⟩ else l)

/-- Consolidation of a sideband (axis.py 148-151, 153-156, 158-161). -/
def collapse (l : List Int) : Side :=
  match l with
  | [] => .none
  | v :: _ => if l.all (fun i => decide (v = i)) then .scalar v else .list l

/-- `compact` (axis.py 127-161). Simplification: where it raises, the state the frame is left in is not described. -/
def Frame.compact (f : Frame) : Py Frame :=
  match f.tkeep, f.tid, f.tdest, f.tuser with
  | .list k, .list i, .list d, .list u =>
    match (if k.length ≠ 0 then compactLoop f.tdata.length ⟨f.tdata, k, i, d, u⟩ else .ok ⟨f.tdata, k, i, d, u⟩) with
    | .error e => .error e
    | .ok l => .ok { f with tdata := l.data, tkeep := .none, tid := collapse l.id, tdest := collapse l.dest
                            tuser := collapse l.user }
  -- the loop finds `tkeep` too short before it gets to the others
  | .list k, _, _, _ => if k.length ≠ 0 ∧ k.length < f.tdata.length then .error .indexError else .error .typeError
  -- `len()` of `None` or of an integer
  | _, _, _, _ => .error .typeError

/-! ## equality -/

/-- The comparison of one of `tid`, `tdest`, `tuser` (axis.py 180-190, 192-202, 204-214). -/
def Side.same : Side → Side → Bool
  | .none, _ => true
  | _, .none => true
  | .scalar v, .list l => l.all fun k => decide (v = k)
  | .list l, .scalar v => l.all fun k => decide (v = k)
  | .scalar v, .scalar w => decide (v = w)
  | .list l, .list m => decide (l = m)

/-- The comparison of `tkeep` (axis.py 176-178). -/
def Side.sameKeep : Side → Side → Bool
  | .none, _ => true
  | _, .none => true
  | a, b => decide (a = b)

/-- `__eq__` of two frames (axis.py 169-216); a `bytearray` is never equal to a list. -/
def Frame.eq (f g : Frame) : Bool :=
  decide (f.isBytes = g.isBytes) && decide (f.tdata = g.tdata) && f.tkeep.sameKeep g.tkeep && f.tid.same g.tid &&
    f.tdest.same g.tdest && f.tuser.same g.tuser

/-! ## Beats -/

/-- The geometry of the bus (axis.py 298-330) and which signals it has; the queue limits (444-445, 753-754). -/
structure Cfg where
  lanes : Nat
  size : Nat
  hasValid : Bool := true
  hasReady : Bool := true
  hasLast : Bool := true
  hasKeep : Bool := true
  hasId : Bool := true
  hasDest : Bool := true
  hasUser : Bool := true
  limitBytes : Int := -1
  limitFrames : Int := -1

/-- The payload signals of one clock cycle. A signal that the bus does not have is carried along and not looked at
(axis.py 239-242, 548-575). -/
structure Beat where
  tdata : Nat := 0
  tlast : Bool := false
  tkeep : Nat := 0
  tid : Int := 0
  tdest : Int := 0
  tuser : Int := 0
  deriving DecidableEq, Repr

/-- `x & (2**b - 1)` for a Python integer. -/
def maskTo (b : Nat) (x : Int) : Nat := (x % (2 ^ b : Nat)).toNat

/-- Element `k` of a normalized sideband; it is a list that is long enough (axis.py 555-561). -/
def Side.at (s : Side) (k : Nat) : Int :=
  match s with
  | .list l => l.getD k 0
  | _ => 0

/-- The loop that fills the lanes of a beat from `frame_offset` on (axis.py 555-569): `n` lanes are left, `lane` is next.
Returns the beat and the new `frame_offset`. -/
def fill (c : Cfg) (f : Frame) : (n lane off : Nat) → Beat → Beat × Nat
  | 0, _, off, b => (b, off)
  | n + 1, lane, off, b =>
    let b := { b with tdata := b.tdata ||| (maskTo c.size (f.tdata.getD off 0) <<< (lane * c.size))
                      tkeep := b.tkeep ||| (maskTo 1 (f.tkeep.at off) <<< lane)
                      tid := f.tid.at off, tdest := f.tdest.at off, tuser := f.tuser.at off }
    if off + 1 ≥ f.tdata.length then ({ b with tlast := true }, off + 1) else fill c f n (lane + 1) (off + 1) b

/-- The next beat of a normalized frame (axis.py 548-569). -/
def nextBeat (c : Cfg) (f : Frame) (off : Nat) : Beat × Nat := fill c f c.lanes 0 off {}

/-- A new frame of a monitor or sink (axis.py 705-708, 806-809). -/
def emptyFrame (c : Cfg) : Frame :=
  { isBytes := decide (c.size = 8), tkeep := .list [], tid := .list [], tdest := .list [], tuser := .list [] }

/-- `frame.x.append(v)` if the signal exists (axis.py 712-721, 813-822). -/
def Side.push (s : Side) (has : Bool) (v : Int) : Side :=
  match s with
  | .list l => .list (if has then l ++ [v] else l)
  | s => s

/-- Lane `k` of a beat is appended to the frame (axis.py 713-721, 814-822). -/
def Frame.pushLane (c : Cfg) (f : Frame) (b : Beat) (k : Nat) : Frame :=
  { f with tdata := f.tdata ++ [(((b.tdata >>> (k * c.size)) % 2 ^ c.size : Nat) : Int)]
           tkeep := f.tkeep.push c.hasKeep ((b.tkeep >>> k) % 2 : Nat)
           tid := f.tid.push c.hasId b.tid, tdest := f.tdest.push c.hasDest b.tdest
           tuser := f.tuser.push c.hasUser b.tuser }

/-- All lanes of a beat are appended to the frame (axis.py 712-721, 813-822). -/
def Frame.pushBeat (c : Cfg) (f : Frame) (b : Beat) : Frame := (List.range c.lanes).foldl (fun f k => f.pushLane c b k) f

end Verif.Axis
