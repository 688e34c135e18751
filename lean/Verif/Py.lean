/-!
# The Python semantics used by the model

Exceptions are values (`PyErr`), bytes are `UInt8`, Python's `bytes`/`bytearray` are `List UInt8`.
-/

namespace Verif

/-- The Python exception classes that the modelled code can raise. -/
inductive PyErr
  | valueError
  | indexError
  | typeError
  | overflowError
  | attributeError
  | assertionError
  | keyError
  | queueFull
  | queueEmpty
  | exception
  | notImplemented
  deriving DecidableEq, Repr

/-- Python result: a value or a raised exception. -/
abbrev Py (α : Type) := Except PyErr α

deriving instance DecidableEq for Except

/-- `bytes` / `bytearray`. -/
abbrev Bytes := List UInt8

/-- `l[a:b]` for non-negative `a`, `b`. -/
def pySlice {α : Type} (l : List α) (a b : Nat) : List α := (l.take b).drop a

/-- `l[a:b] = d` on a `bytearray`, for non-negative `a`, `b` (may change the length). -/
def pySliceAssign {α : Type} (l : List α) (a b : Nat) (d : List α) : List α :=
  l.take a ++ d ++ l.drop (max a b)

/-- One bound of `slice.indices(n)` for a positive step: negative values count from the end, the result
is clamped to `[0, n]`; a missing bound is replaced by `dflt`. -/
def sliceBound (v : Option Int) (dflt : Nat) (n : Nat) : Nat :=
  match v with
  | none => dflt
  | some x =>
    if x < 0 then (if x + n < 0 then 0 else (x + n).toNat)
    else (if (n : Int) < x then n else x.toNat)

/-- `int.bit_length()` for non-negative integers. -/
def bitLength (n : Nat) : Nat := if n = 0 then 0 else n.log2 + 1

/-- Byte order argument of `to_bytes` / `from_bytes`. -/
inductive ByteOrder
  | little
  | big
  deriving DecidableEq, Repr

/-- Little-endian digits: `n.to_bytes(ws, 'little')` without the overflow check. -/
def digitsLE : Nat → Nat → Bytes
  | 0, _ => []
  | ws + 1, n => UInt8.ofNat n :: digitsLE ws (n / 256)

/-- `w.to_bytes(ws, byteorder)` for an `int` `w`: `OverflowError` when negative or too large. -/
def toBytes (ws : Nat) (bo : ByteOrder) (w : Int) : Py Bytes :=
  if w < 0 then .error .overflowError
  else if 256 ^ ws ≤ w.toNat then .error .overflowError
  else .ok (match bo with
    | .little => digitsLE ws w.toNat
    | .big => (digitsLE ws w.toNat).reverse)

/-- `int.from_bytes(data, 'little')`. -/
def fromBytesLE : Bytes → Nat
  | [] => 0
  | b :: bs => b.toNat + 256 * fromBytesLE bs

/-- `int.from_bytes(data, byteorder)`. -/
def fromBytes (bo : ByteOrder) (d : Bytes) : Nat :=
  match bo with
  | .little => fromBytesLE d
  | .big => fromBytesLE d.reverse

/-- `bytes(list_of_ints)` element conversion: `ValueError` outside `range(256)`. -/
def toByte (v : Int) : Py UInt8 :=
  if v < 0 ∨ 256 ≤ v then .error .valueError else .ok (UInt8.ofNat v.toNat)

/-- `bytes(list_of_ints)`. -/
def pyBytes : List Int → Py Bytes
  | [] => .ok []
  | v :: l =>
    match toByte v with
    | .error e => .error e
    | .ok b =>
      match pyBytes l with
      | .error e => .error e
      | .ok d => .ok (b :: d)

/-- `len(obj)` for an object whose `__len__` returns `n`: CPython raises `OverflowError` when it does
not fit in `Py_ssize_t` (63 bits). -/
def pyLen (n : Nat) : Py Nat := if n < 2 ^ 63 then .ok n else .error .overflowError

end Verif
