import Verif.Py

/-!
# How to read a hex dump

A line is a label in hexadecimal, `": "`, the hex column, which has room for `row` groups `"xx "`, a space, and the text column.
-/

namespace Verif.Hexdump

/-- The value of a hexadecimal digit. -/
def digitVal (c : Char) : Option Nat := ("0123456789abcdef".toList).findIdx? (· == c)

/-- The value of a hexadecimal number. -/
def hexVal (s : List Char) : Option Nat :=
  s.foldl (fun v c => match v, digitVal c with
    | some v, some d => some (16 * v + d)
    | _, _ => none) (some 0)

/-- The bytes in a hex column: groups of two digits and a space, then only spaces. -/
def unhex : List Char → Option Bytes
  | a :: b :: ' ' :: rest =>
    if a = ' ' then (if b = ' ' ∧ rest.all (· == ' ') then some [] else none)
    else match digitVal a, digitVal b, unhex rest with
      | some x, some y, some l => some (UInt8.ofNat (16 * x + y) :: l)
      | _, _, _ => none
  | [] => some []
  | _ => none

/-- The label of a line. -/
def label (l : List Char) : Option Nat := hexVal (l.takeWhile (· != ':'))

/-- The bytes in the hex column of a line. -/
def bytesOf (row : Nat) (l : List Char) : Option Bytes := unhex (((l.dropWhile (· != ':')).drop 2).take (3 * row))

/-- The text column of a line. -/
def textOf (row : Nat) (l : List Char) : List Char := ((l.dropWhile (· != ':')).drop 2).drop (3 * row + 1)

/-- A byte as text: itself if it is a visible ASCII character, else a dot. -/
def asText (b : UInt8) : Char := if '!'.toNat ≤ b.toNat ∧ b.toNat ≤ '~'.toNat then Char.ofNat b.toNat else '.'

/-- The bytes that a dump should show. -/
def requested (data : Bytes) (start : Nat) (length : Option Nat) : Bytes :=
  match length with
  | none => data.drop start
  | some n => (data.drop start).take n

/-- Row `i` of a dump. -/
def rowOf (d : Bytes) (row i : Nat) : Bytes := (d.drop (i * row)).take row

end Verif.Hexdump
