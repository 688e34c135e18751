import Verif.Py

/-!
# Model of `define_stream`, `StreamTransaction` and the signal checks of `StreamBase` (`cocotbext/axi/stream.py`)

A Python `str` is the list of its characters. Simplification: `str.lower` acts on ASCII letters (signal names are ASCII).
-/

namespace Verif.DefineStream

/-- A Python `str` (the names in stream.py 438-499). -/
abbrev Str := List Char

/-- `s.lower().endswith(suffix)` (stream.py 448, 455). -/
def endsWith (suffix s : Str) : Bool := suffix.isSuffixOf (s.map Char.toLower)

/-- The loops of lines 447-449 and 454-456: the last name that ends in `suffix`. -/
def detect (suffix : Str) (l : List Str) : Option Str :=
  l.foldl (fun r s => if endsWith suffix s then some s else r) none

/-- `signals += name` for a `str`: a list extended with a string gets its characters, one by one (stream.py 450-451, 458-459). -/
def extend (l : List Str) (name : Str) : List Str := l ++ name.map fun c => [c]

/-- A `dict` of widths; the key `None` can occur (`signal_widths`, stream.py 438, 461-468). -/
abbrev Widths := List (Option Str × Nat)

/-- `if key not in d: d[key] = 1` (stream.py 464-468). -/
def setDefault (d : Widths) (key : Option Str) : Widths :=
  match d.lookup key with
  | some _ => d
  | none => d ++ [(key, 1)]

/-- What `define_stream` makes: the class attributes of the bus, source, sink and monitor (`_signals`, `_optional_signals`,
`_signal_widths`, `_ready_signal`, `_valid_signal`), and the fields of the transaction (its `_signals`) (stream.py 476-499). -/
structure Stream where
  signals : List Str
  optional : List Str
  widths : Widths
  ready : Option Str
  valid : Str
  fields : List Str
  deriving DecidableEq

/-- `define_stream` (stream.py 438-499). With no valid signal, line 451 is `signals += None`. -/
def defineStream (signals : List Str) (optionalSignals : Option (List Str) := none) (validSignal readySignal : Option Str := none)
    (signalWidths : Option Widths := none) : Py Stream :=
  let optional := optionalSignals.getD []
  let all := signals ++ optional
  let valid := match validSignal with
    | some v => some v
    | none => detect "valid".toList all
  match valid with
  | none => .error .typeError
  | some v =>
    let signals := if v ∈ all then signals else extend signals v
    let (ready, signals) := match readySignal with
      | none => (detect "ready".toList all, signals)
      | some r => (some r, if r ∈ all then signals else extend signals r)
    let widths := setDefault (setDefault (signalWidths.getD []) (some v)) ready
    .ok { signals := signals, optional := optional, widths := widths, ready := ready, valid := v,
          fields := all.filter fun s => !(some s == ready || s == v) }

/-- The caller's `signals` list and `signal_widths` dict after `define_stream`: it extends and sets items in the objects it was given, and puts the
same objects into the classes (stream.py 450-451, 458-459, 461-468, 476-494). -/
def argsAfter (signals : List Str) (optionalSignals : Option (List Str) := none) (validSignal readySignal : Option Str := none)
    (signalWidths : Option Widths := none) : List Str × Option Widths :=
  match defineStream signals optionalSignals validSignal readySignal signalWidths with
  | .ok st => (st.signals, signalWidths.map fun _ => st.widths)
  | .error _ => (signals, signalWidths)

/-- `StreamTransaction.__init__` (stream.py 61-69): the fields of the object; `object.__init__` raises `TypeError` for keyword
arguments that are left over. (No two keyword arguments have the same name.) -/
def transaction (fields : List Str) (kwargs : List (Str × Int)) : Py (List (Str × Int)) :=
  let obj := fields.map fun f => (f, (kwargs.lookup f).getD 0)
  if kwargs.all (fun kv => decide (kv.1 ∈ fields)) then .ok obj else .error .typeError

/-- The signals that a `StreamBase` has: its `valid` and `ready` handles (stream.py 112-137). -/
structure Bound where
  valid : Bool
  ready : Bool
  deriving DecidableEq

/-- `cocotb_bus.bus.Bus.__init__` as used by `StreamBus.__init__` (stream.py 43-44): a required signal must exist; and the checks of
`StreamBase.__init__` (stream.py 110-124), where `bus` gives the widths of the signals that exist. -/
def bind (st : Stream) (bus : Str → Option Nat) : Py Bound :=
  if st.signals.any (fun s => (bus s).isNone) then .error .attributeError
  else if (st.signals ++ st.optional).all (fun s => match bus s with
      | none => true
      | some w => match st.widths.lookup (some s) with
        | none => true
        | some w' => w == w') then
    .ok { valid := (bus st.valid).isSome, ready := match st.ready with
      | none => false
      | some r => (bus r).isSome }
  else .error .assertionError

end Verif.DefineStream
