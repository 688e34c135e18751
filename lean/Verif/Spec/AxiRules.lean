import Verif.Model.Axi
import Verif.Spec.Bytes

/-!
# Specification: the AXI address rules

Independent of the model's functions (only its transaction records are used). The formulae are those of the AMBA
AXI specification, "Address structure": `Number_Bytes`, `Burst_Length`, `Aligned_Address`, `Wrap_Boundary`,
`Address_N`, and the byte lanes of each transfer.
-/

namespace Verif.Axi

/-- `Number_Bytes`. -/
def ABeat.nbytes (a : ABeat) : Nat := 2 ^ a.size
/-- `Burst_Length`. -/
def ABeat.beats (a : ABeat) : Nat := a.len + 1
/-- `Aligned_Address`. -/
def ABeat.aligned (a : ABeat) : Nat := a.addr / a.nbytes * a.nbytes
/-- `Wrap_Boundary`. -/
def ABeat.wrapBoundary (a : ABeat) : Nat := a.addr / (a.nbytes * a.beats) * (a.nbytes * a.beats)

/-- The (aligned) address of transfer `n` (counted from 0): FIXED stays, INCR increments, WRAP increments
and wraps at `Wrap_Boundary + Number_Bytes * Burst_Length`. -/
def beatAddr (a : ABeat) (n : Nat) : Nat :=
  match a.burst with
  | .fixed => a.aligned
  | .incr => a.aligned + n * a.nbytes
  | .wrap =>
    if a.aligned + n * a.nbytes < a.wrapBoundary + a.nbytes * a.beats then a.aligned + n * a.nbytes
    else a.aligned + n * a.nbytes - a.nbytes * a.beats

/-- The bus word (first byte address of the `lanes`-byte word) that carries transfer `n`. -/
def beatWord (lanes : Nat) (a : ABeat) (n : Nat) : Nat := beatAddr a n / lanes * lanes

/-- What the W beats `ws` of a burst mean: the (address, byte) assignments of its strobed lanes, transfer by
transfer; `n` is the number of the first one. -/
def decodeBeats (lanes : Nat) (a : ABeat) : Nat → List WBeat → List (Nat × UInt8)
  | _, [] => []
  | n, w :: ws => strobed lanes (beatWord lanes a n) w.data w.strb ++ decodeBeats lanes a (n + 1) ws

/-- What the AW and W channels together mean: burst `i` owns the next `awlen+1` W beats. `none` if the W
channel does not hold exactly the announced number of beats. -/
def decode (lanes : Nat) : List ABeat → List WBeat → Option (List (Nat × UInt8))
  | [], [] => some []
  | [], _ :: _ => none
  | a :: as, ws =>
    if ws.length < a.beats then none
    else (decode lanes as (ws.drop a.beats)).map (decodeBeats lanes a 0 (ws.take a.beats) ++ ·)

/-- `wlast` (or `rlast`) framing of a burst of `n` beats: set exactly on the last. -/
def lastFlags (n : Nat) : List Bool := List.replicate (n - 1) false ++ [true]

/-- WLAST framing: the W channel splits into one group of `awlen+1` beats per burst, in order, and `wlast` is
set exactly on the last beat of each group. -/
def Framed : List ABeat → List WBeat → Prop
  | [], ws => ws = []
  | a :: as, ws => (ws.take a.beats).map (·.last) = lastFlags a.beats ∧ Framed as (ws.drop a.beats)

/-- A burst may not cross a 4 KiB boundary: first and last byte of the burst lie in the same 4 KiB page. -/
def Within4K (a : ABeat) : Prop := a.aligned / 4096 = (a.aligned + a.beats * a.nbytes - 1) / 4096

instance (a : ABeat) : Decidable (Within4K a) := by unfold Within4K; infer_instance

instance instDecFramed : (as : List ABeat) → (ws : List WBeat) → Decidable (Framed as ws)
  | [], ws => by unfold Framed; infer_instance
  | a :: as, ws => by
    unfold Framed
    have := instDecFramed as (ws.drop a.beats)
    infer_instance

/-- The aligned addresses of the `nb`-byte containers that a request for `n` bytes at `addr` needs, in
order: from the container of `addr` up to `addr + n`. -/
def containers (nb addr n : Nat) : List Nat :=
  (List.range ((addr + n + nb - 1) / nb - addr / nb)).map fun k => (addr / nb + k) * nb

/-- The bursts `as` are legal and tile the request of `n` bytes at `addr` with transfers of `2^size` bytes
and at most `maxLen` beats per burst. -/
structure LegalTiling (maxLen addr n size : Nat) (as : List ABeat) : Prop where
  /-- burst length: at least one beat, at most `maxLen` -/
  len : ∀ a ∈ as, 1 ≤ a.beats ∧ a.beats ≤ maxLen
  kind : ∀ a ∈ as, a.size = size ∧ a.burst = .incr
  page : ∀ a ∈ as, Within4K a
  /-- the transfers of all bursts, in order, are exactly the containers of the request -/
  tile : (as.flatMap fun a => (List.range a.beats).map (beatAddr a)) = containers (2 ^ size) addr n
  /-- the first burst starts at the requested (possibly unaligned) address -/
  first : ∀ a, as.head? = some a → a.addr = addr
  /-- the other bursts start at aligned addresses -/
  rest : ∀ a ∈ as.tail, a.addr = a.aligned

/-- The strobes of transfer `n` of a burst only use lanes of its container: the lanes from the (first)
address up to the end of the addressed `Number_Bytes` bytes. -/
def StrobeLegal (lanes : Nat) (a : ABeat) (n : Nat) (w : WBeat) : Prop :=
  ∀ i, w.strb.testBit i → i < lanes ∧
    (if n = 0 then a.addr else beatAddr a n) ≤ beatWord lanes a n + i ∧
      beatWord lanes a n + i < beatAddr a n + a.nbytes

/-- All W beats of all bursts have legal strobes. -/
def StrobesLegal (lanes : Nat) : List ABeat → List WBeat → Prop
  | [], _ => True
  | a :: as, ws => (∀ n w, n < a.beats → ws[n]? = some w → StrobeLegal lanes a n w) ∧
      StrobesLegal lanes as (ws.drop a.beats)

/-- Performing writes in order; the first failing one ends them. The result says whether none failed. -/
def attempt {σ : Type} (write : Nat → Bytes → σ → Py Unit × σ) : List (Nat × Bytes) → σ → Bool × σ
  | [], st => (true, st)
  | (a, d) :: ops, st =>
    match write a d st with
    | (.ok (), st) => attempt write ops st
    | (.error _, st) => (false, st)

/-- Serving the W beats of a burst: the writes of every beat are attempted; the result says whether none
failed. -/
def serve {σ : Type} (write : Nat → Bytes → σ → Py Unit × σ) : List (List (Nat × Bytes)) → σ → Bool × σ
  | [], st => (true, st)
  | ops :: rest, st =>
    let r := attempt write ops st
    let r' := serve write rest r.2
    (r.1 && r'.1, r'.2)

/-- The transactions sent on AW, in order. -/
def awsOf (out : List (ABeat ⊕ WBeat)) : List ABeat := out.filterMap fun
  | .inl a => some a
  | .inr _ => none

/-- The transactions sent on W, in order. -/
def wsOf (out : List (ABeat ⊕ WBeat)) : List WBeat := out.filterMap fun
  | .inl _ => none
  | .inr w => some w

/-- The last response that is not OKAY, or OKAY if there is none. -/
def lastNonOkay (l : List Resp) : Resp := ((l.filter (· ≠ .okay)).getLast?).getD .okay

/-- RLAST framing of R beats for the given burst lengths: one group per burst, in order. -/
def FramedR : List Nat → List RBeat → Prop
  | [], rs => rs = []
  | L :: Ls, rs => (rs.take L).map (·.last) = lastFlags L ∧ FramedR Ls (rs.drop L)

end Verif.Axi
