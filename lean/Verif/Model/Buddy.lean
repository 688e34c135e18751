import Verif.Py

/-!
# Model of `cocotbext/axi/buddy_allocator.py`
-/

namespace Verif

/-- `BuddyAllocator` objects (buddy_allocator.py 26-33). `allocations` is the dict as an association
list. Simplification: `size` and `min_alloc` are natural numbers. -/
structure Buddy where
  size : Nat
  minAlloc : Nat
  freeLists : List (List Nat)
  allocations : List (Nat × Nat)
  deriving DecidableEq, Repr

namespace Buddy

/-- `BuddyAllocator.__init__` (buddy_allocator.py 27-33). For `size ≥ 1` (for 0, Python's
`(-1).bit_length()` is 1; every `alloc` then fails, as it does here). -/
def init (size : Nat) (minAlloc : Nat := 1) : Buddy :=
  { size := size
    minAlloc := minAlloc
    freeLists := List.replicate (bitLength (size - 1)) [] ++ [[0]]
    allocations := [] }

/-- The outer `while bucket < len(self.free_lists)` loop of `alloc` up to the first non-empty list
(buddy_allocator.py 44-48). `rem` is `len(self.free_lists) - bucket`. -/
def findBucket (fl : List (List Nat)) (bucket : Nat) : (rem : Nat) → Option Nat
  | 0 => none
  | rem + 1 =>
    if fl[bucket]? = some [] then findBucket fl (bucket + 1) rem
    else some bucket

/-- `self.free_lists[b].pop(0)` (buddy_allocator.py 52, 59); `IndexError` if the list is empty. -/
def popFront (fl : List (List Nat)) (b : Nat) : Py (Nat × List (List Nat)) :=
  match fl[b]? with
  | some (x :: r) => .ok (x, fl.set b r)
  | _ => .error .indexError

/-- `self.free_lists[b].append(x)` for a valid index (buddy_allocator.py 54-55, 89). -/
def pushBack (fl : List (List Nat)) (b x : Nat) : List (List Nat) := fl.modify b (· ++ [x])

/-- The inner `while bucket > orig_bucket` splitting loop (buddy_allocator.py 50-55);
`steps = bucket - orig_bucket`. -/
def splitLoop (orig : Nat) : (steps : Nat) → List (List Nat) → Py (List (List Nat))
  | 0, fl => .ok fl
  | steps + 1, fl =>
    match popFront fl (orig + steps + 1) with
    | .error e => .error e
    | .ok (block, fl) =>
      splitLoop orig steps (pushBack (pushBack fl (orig + steps) block) (orig + steps)
        (block + 2 ^ (orig + steps)))

/-- `self.allocations[block] = bucket` (buddy_allocator.py 60). -/
def dictSet (d : List (Nat × Nat)) (k v : Nat) : List (Nat × Nat) :=
  (k, v) :: d.filter (fun p => p.1 ≠ k)

/-- `BuddyAllocator.alloc` (buddy_allocator.py 35-65); the argument is any `int`. -/
def alloc (s : Buddy) (size : Int) : Py Nat × Buddy :=
  if size < 1 ∨ size > s.size then (.error .valueError, s)
  else
    let size := max size.toNat s.minAlloc
    let orig := bitLength (size - 1)
    match findBucket s.freeLists orig (s.freeLists.length - orig) with
    | none => (.error .exception, s)
    | some bucket =>
      match splitLoop orig (bucket - orig) s.freeLists with
      | .error e => (.error e, s)
      | .ok fl =>
        match popFront fl orig with
        | .error _ => (.error .exception, { s with freeLists := fl })
        | .ok (block, fl) =>
          (.ok block, { s with freeLists := fl, allocations := dictSet s.allocations block orig })

/-- The `while bucket < len(self.free_lists)` merging loop of `free` (buddy_allocator.py 73-90);
`rem = len(self.free_lists) - bucket`. Running off the end raises (line 92). The buddy address
`addr - size` is only formed when `addr // size` is odd, so it is not negative. -/
def freeLoop (addr bucket : Nat) : (rem : Nat) → List (List Nat) → Py Unit × List (List Nat)
  | 0, fl => (.error .exception, fl)
  | rem + 1, fl =>
    let size := 2 ^ bucket
    let buddy := if (addr / size) % 2 = 1 then addr - size else addr + size
    match fl[bucket]? with
    | none => (.error .indexError, fl)
    | some l =>
      if buddy ∈ l then
        freeLoop (min addr buddy) (bucket + 1) rem (fl.set bucket (l.erase buddy))
      else (.ok (), pushBack fl bucket addr)

/-- `BuddyAllocator.free` (buddy_allocator.py 67-92); the argument is any `int`. -/
def free (s : Buddy) (addr : Int) : Py Unit × Buddy :=
  if addr < 0 then (.error .valueError, s)
  else
    match s.allocations.lookup addr.toNat with
    | none => (.error .valueError, s)
    | some bucket =>
      let r := freeLoop addr.toNat bucket (s.freeLists.length - bucket) s.freeLists
      (r.1, { s with freeLists := r.2, allocations := s.allocations.filter (fun p => p.1 ≠ addr.toNat) })

end Buddy
end Verif
