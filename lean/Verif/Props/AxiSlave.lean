import Verif.Proof.AxiE2E

/-!
# C25, C26, C28, C64, C65: AXI slaves
-/

namespace Verif.Axi

/-! ## C25 -/

/-- **C25.** A slave serving a legal burst over any target performs, for every W beat, a list of writes that
stands for exactly the strobed bytes of the beat at its AXI address, as separate maximal runs in ascending
order (all lanes when `wstrb` is not connected). It consumes exactly the burst's beats and answers with the
burst's ID: OKAY if no write failed, SLVERR otherwise. -/
theorem C25_write_burst {σ : Type} (t : Target σ) (lanes : Nat) (strbPresent : Bool) (a : ABeat)
    (ws rest : List WBeat) (st : σ) (hnb : a.nbytes ≤ lanes) (h4 : a.burst = .incr → Within4K a)
    (hl : ws.map (·.last) = lastFlags a.beats) (hd : ∀ w ∈ ws, w.data < 256 ^ lanes) :
    ∃ opss : List (List (Nat × Bytes)), opss.length = a.beats ∧
      (∀ (n : Nat) (w : WBeat) (ops : List (Nat × Bytes)), ws[n]? = some w → opss[n]? = some ops →
        opPairs ops = strobed lanes (beatWord lanes a n) w.data (if strbPresent then w.strb else 2 ^ lanes - 1) ∧
        RunsOK (beatWord lanes a n) (beatWord lanes a n + lanes) ops) ∧
      slaveWrite t lanes strbPresent a (ws ++ rest) st =
        (.done ({ id := a.id, resp := if (serve t.write opss st).1 then .okay else .slverr }, rest),
          (serve t.write opss st).2) := by
  have hlen : ws.length = a.beats := by
    have := congrArg List.length hl
    rwa [List.length_map, lastFlags_length a.beats (Nat.succ_pos _)] at this
  refine ⟨beatOps lanes strbPresent a 0 ws, by rw [beatOps_length, hlen], ?_,
    slaveWrite_spec t lanes strbPresent a ws rest st hnb h4 hl hd⟩
  intro n w ops hw hops
  rw [beatOps_getElem?, hw] at hops
  simp only [Option.map_some, Option.some.injEq, Nat.zero_add] at hops
  subst hops
  exact ⟨writeOps_pairs _ _ _ _, writeOps_runs _ _ _ _ (digitsLE_length _ _)⟩

/-- A WRAP burst of two 2-byte beats at address 6 of a 4-byte bus. -/
def exWrap : ABeat := { id := 3, addr := 6, len := 1, size := 1, burst := .wrap, side := {} }
def exWs : List WBeat := [⟨0x22110000, 12, false, 0⟩, ⟨0x4433, 3, true, 0⟩]

example : exWrap.nbytes ≤ 4 ∧ (exWrap.burst = .incr → Within4K exWrap) ∧
    exWs.map (·.last) = lastFlags exWrap.beats ∧ ∀ w ∈ exWs, w.data < 256 ^ 4 := by
  refine ⟨by decide, by simp [exWrap], rfl, by decide⟩

/-! ## C26 -/

/-- The target reads of a burst as a sequence: reading word `ns[0]`, then `ns[1]`, ... gives `results`. -/
def ReadSeq {σ : Type} (read : Nat → Nat → σ → Py Bytes × σ) (lanes : Nat) :
    List Nat → σ → List (Py Bytes) → σ → Prop
  | [], st, rs, st' => rs = [] ∧ st' = st
  | w :: ws, st, rs, st' => ∃ r rest, rs = r :: rest ∧ (read w lanes st).1 = r ∧
      ReadSeq read lanes ws (read w lanes st).2 rest st'

/-- The bus data of a target read: its bytes little endian, zero if it failed. -/
def busWord (r : Py Bytes) : Nat := match r with | .ok d => fromBytesLE d | .error _ => 0
/-- The response of a target read. -/
def busResp (r : Py Bytes) : Resp := match r with | .ok _ => .okay | .error _ => .slverr

theorem fromBytesLE_zeros (n : Nat) : fromBytesLE (List.replicate n 0) = 0 := by
  induction n with
  | zero => rfl
  | succ n ih => simp [List.replicate_succ, fromBytesLE, ih]

theorem readBeats_facts {σ : Type} (t : Target σ) (lanes : Nat) (a : ABeat) (rem n : Nat) (st : σ) :
    ∃ results, ReadSeq t.read lanes ((List.range' n rem).map (beatWord lanes a)) st results
        (readBeats t lanes a rem n st).2 ∧ results.length = rem ∧
      (readBeats t lanes a rem n st).1.map (·.data) = results.map busWord ∧
      (readBeats t lanes a rem n st).1.map (·.resp) = results.map busResp ∧
      (∀ r ∈ (readBeats t lanes a rem n st).1, r.id = a.id) ∧
      (readBeats t lanes a rem n st).1.map (·.last) = (List.range' 0 rem).map fun j => decide (j + 1 = rem) := by
  induction rem generalizing n st with
  | zero => exact ⟨[], ⟨rfl, rfl⟩, rfl, rfl, rfl, by simp [readBeats], rfl⟩
  | succ rem ih =>
    simp only [readBeats, List.range'_succ, List.map_cons]
    rcases hr : t.read (beatWord lanes a n) lanes st with ⟨res, st'⟩
    obtain ⟨results, h1, h2, h3, h4, h5, h6⟩ := ih (n + 1) st'
    refine ⟨res :: results, ⟨res, results, rfl, by rw [hr], ?_⟩, by simp [h2], ?_, ?_, ?_, ?_⟩
    · rw [hr]; cases res <;> exact h1
    · cases res with
      | ok d => simp only [List.map_cons, h3, busWord]
      | error e => simp only [List.map_cons, h3, busWord, fromBytesLE_zeros]
    · cases res with
      | ok d => simp only [List.map_cons, h4, busResp]
      | error e => simp only [List.map_cons, h4, busResp]
    · intro r hm
      cases res <;>
      · simp only [List.mem_cons] at hm
        rcases hm with rfl | hm
        · rfl
        · exact h5 r hm
    · have e : (List.range' 1 rem).map (fun j => decide (j + 1 = rem + 1)) =
          (List.range' 0 rem).map fun j => decide (j + 1 = rem) := by
        rw [List.range'_eq_map_range, List.range'_eq_map_range, List.map_map, List.map_map]
        apply List.map_congr_left
        intro j _
        simp only [Function.comp, decide_eq_decide]
        omega
      cases res <;>
      · simp only [h6, Nat.zero_add, e, List.cons.injEq, and_true, decide_eq_decide]
        omega

/-- **C26.** A slave serving a legal read burst over any target reads the bus word of every beat at its AXI
address, once and in order, and sends exactly `arlen+1` beats, all with `rid = arid`, `rlast` exactly on the
last; each carries the word read with OKAY, or zero with SLVERR if the target read raised. -/
theorem C26_read_burst {σ : Type} (t : Target σ) (lanes : Nat) (a : ABeat) (st : σ) (hnb : a.nbytes ≤ lanes)
    (h4 : a.burst = .incr → Within4K a) :
    ∃ rs st' results, slaveRead t lanes a st = (.done rs, st') ∧
      ReadSeq t.read lanes ((List.range a.beats).map (beatWord lanes a)) st results st' ∧
      rs.length = a.beats ∧ (∀ r ∈ rs, r.id = a.id) ∧ rs.map (·.last) = lastFlags a.beats ∧
      rs.map (·.data) = results.map busWord ∧ rs.map (·.resp) = results.map busResp := by
  obtain ⟨results, h1, h2, h3, h4', h5, h6⟩ := readBeats_facts t lanes a a.beats 0 st
  refine ⟨(readBeats t lanes a a.beats 0 st).1, (readBeats t lanes a a.beats 0 st).2, results,
    slaveRead_spec t lanes a st hnb h4, ?_, ?_, h5, ?_, h3, h4'⟩
  · rw [List.range_eq_range']; exact h1
  · have := congrArg List.length h3; simpa [h2] using this
  · rw [h6]
    have hpos : 0 < a.beats := Nat.succ_pos _
    apply List.ext_getElem
    · simp [lastFlags_length _ hpos]
    · intro i i1 i2
      rw [lastFlags_getElem]
      simp only [List.getElem_map, List.getElem_range', decide_eq_decide]
      omega

/-! ## C28 -/

/-- The address of beat `n` by the AXI formulae, WRAP as a modulus: the addresses cycle through the
`nb*len`-byte block that contains the start address. -/
def axiAddr (burst : Burst) (addr nb len n : Nat) : Nat :=
  match burst with
  | .fixed => addr / nb * nb
  | .incr => addr / nb * nb + n * nb
  | .wrap => addr / (nb * len) * (nb * len) + (addr / nb * nb - addr / (nb * len) * (nb * len) + n * nb) % (nb * len)

theorem beatAddr_axiAddr (a : ABeat) (n : Nat) (h : n ≤ a.beats) :
    beatAddr a n = axiAddr a.burst a.addr a.nbytes a.beats n := by
  have hpos := a.nbytes_pos
  have hb : a.burst = .fixed ∨ a.burst = .incr ∨ a.burst = .wrap := by cases a.burst <;> simp
  rcases hb with hb | hb | hb
  · simp only [beatAddr, axiAddr, hb]; rfl
  · simp only [beatAddr, axiAddr, hb]; rfl
  · obtain ⟨j, hj, hjb⟩ := wrap_facts a
    simp only [beatAddr, axiAddr, hb]
    have e1 : a.addr / a.nbytes * a.nbytes = a.aligned := rfl
    have e2 : a.addr / (a.nbytes * a.beats) * (a.nbytes * a.beats) = a.wrapBoundary := rfl
    rw [e1, e2, hj]
    have h1 := Nat.mul_le_mul_right a.nbytes h
    have h2 := (Nat.mul_lt_mul_right hpos).2 hjb
    have h3 : a.nbytes * a.beats = a.beats * a.nbytes := Nat.mul_comm _ _
    rw [h3]
    split
    · rw [Nat.mod_eq_of_lt (by omega)]; omega
    · have : a.wrapBoundary + j * a.nbytes - a.wrapBoundary + n * a.nbytes =
        (j * a.nbytes + n * a.nbytes - a.beats * a.nbytes) + a.beats * a.nbytes := by omega
      rw [this, Nat.add_mod_right, Nat.mod_eq_of_lt (by omega)]
      omega

/-- **C28.** The address the slave uses for beat `n` (its stepping function applied `n` times to the aligned
address) is the one of the AXI formulae, for INCR, FIXED and WRAP bursts of every length, size and address. -/
theorem C28_addresses (a : ABeat) (n : Nat) (h : n < a.beats) :
    Nat.repeat (slaveNext a.burst (2 ^ a.size) (a.addr / (2 ^ a.size * (a.len + 1)) * (2 ^ a.size * (a.len + 1)))
        (a.addr / (2 ^ a.size * (a.len + 1)) * (2 ^ a.size * (a.len + 1)) + 2 ^ a.size * (a.len + 1))) n
      (a.addr / 2 ^ a.size * 2 ^ a.size) = axiAddr a.burst a.addr (2 ^ a.size) (a.len + 1) n := by
  suffices hs : ∀ n, n ≤ a.beats → Nat.repeat (slaveNext a.burst a.nbytes a.wrapBoundary
      (a.wrapBoundary + a.nbytes * a.beats)) n a.aligned = beatAddr a n by
    have := hs n (Nat.le_of_lt h)
    rw [beatAddr_axiAddr a n (Nat.le_of_lt h)] at this
    exact this
  intro n
  induction n with
  | zero => intro _; rw [beatAddr_zero]; rfl
  | succ n ih =>
    intro hn
    simp only [Nat.repeat]
    rw [ih (by omega)]
    exact beatAddr_step a n (by omega)

/-- A WRAP burst of 4 words at `0x38` visits `0x38, 0x3c, 0x30, 0x34`. -/
example : (List.range 4).map (axiAddr .wrap 0x38 4 4) = [0x38, 0x3c, 0x30, 0x34] := rfl

/-! ## C64 -/

/-- **C64.** An `AxiRam` whose size is a whole number of bus words executes any legal AW/W traffic of any
master (all burst types, narrow and unaligned transfers, arbitrary strobes): the memory receives exactly the
assignments the traffic stands for, in order and modulo the size; one OKAY response per burst, with its ID, in
order; all W beats are consumed. -/
theorem C64_ram_executes_traffic (lanes : Nat) (as : List ABeat) (ws : List WBeat) (m : Memory) (hm : m.WF)
    (hs : 0 < m.size) (pairs : List (Nat × UInt8)) (hdec : decode lanes as ws = some pairs) (hfr : Framed as ws)
    (hnb : ∀ a ∈ as, a.nbytes ≤ lanes) (h4 : ∀ a ∈ as, a.burst = .incr → Within4K a)
    (hd : ∀ w ∈ ws, w.data < 256 ^ lanes) (hfit : lanes ∣ m.size ∨ ∀ p ∈ pairs, p.1 < m.size) :
    ∃ m', slaveWrites ramTarget lanes true as ws m =
        (.done (as.map fun a => { id := a.id, resp := .okay }, []), m') ∧ m'.WF ∧ m'.size = m.size ∧
      m'.contents = m.contents.puts (modPairs m.size pairs) :=
  slaveWrites_ram lanes as ws m hm hs pairs hdec hfr hnb h4 hd hfit

example : decode 4 [exWrap] exWs = some [(6, 0x11), (7, 0x22), (4, 0x33), (5, 0x44)] ∧ Framed [exWrap] exWs := by
  constructor <;> decide

/-! ## C65 -/

/-- **C65.** The slave refuses illegal bursts (a transfer wider than the bus, or an INCR burst crossing a
4 KiB boundary) without touching the target and without answering: for reads. -/
theorem C65_read_illegal {σ : Type} (t : Target σ) (lanes : Nat) (a : ABeat) (st : σ)
    (h : ¬ a.nbytes ≤ lanes ∨ (a.burst = .incr ∧ ¬ Within4K a)) :
    slaveRead t lanes a st = (.failed .assertionError, st) := by
  unfold slaveRead
  simp only
  by_cases hnb : 2 ^ a.size ≤ lanes
  · rcases h with h | ⟨hb, h⟩
    · exact absurd hnb h
    · rw [if_neg (fun hh => hh hnb), if_pos]
      exact ⟨hb, fun hh => h (check4k_conv a hh)⟩
  · rw [if_pos hnb]

/-- **C65**, for writes. -/
theorem C65_write_illegal {σ : Type} (t : Target σ) (lanes : Nat) (sp : Bool) (a : ABeat) (ws : List WBeat) (st : σ)
    (h : ¬ a.nbytes ≤ lanes ∨ (a.burst = .incr ∧ ¬ Within4K a)) :
    slaveWrite t lanes sp a ws st = (.failed .assertionError, st) := by
  unfold slaveWrite
  simp only
  by_cases hnb : 2 ^ a.size ≤ lanes
  · rcases h with h | ⟨hb, h⟩
    · exact absurd hnb h
    · rw [if_neg (fun hh => hh hnb), if_pos]
      exact ⟨hb, fun hh => h (check4k_conv a hh)⟩
  · rw [if_pos hnb]

example : ¬ Within4K { id := 0, addr := 0xffc, len := 1, size := 2, burst := .incr, side := {} } := by decide

/-- **C65, framing.** If `wlast` is wrong on some beat of an otherwise legal burst, the slave stops without
answering, after having performed the writes of the beats up to and including that one. -/
theorem C65_write_bad_last {σ : Type} (t : Target σ) (lanes : Nat) (sp : Bool) (a : ABeat) (ws rest : List WBeat)
    (w : WBeat) (st : σ) (hnb : a.nbytes ≤ lanes) (h4 : a.burst = .incr → Within4K a) (hn : ws.length < a.beats)
    (hl : ∀ x ∈ ws, x.last = false) (hd : ∀ x ∈ ws ++ [w], x.data < 256 ^ lanes)
    (hbad : w.last ≠ decide (ws.length + 1 = a.beats)) :
    slaveWrite t lanes sp a (ws ++ w :: rest) st =
      (.failed .assertionError, (serve t.write (beatOps lanes sp a 0 (ws ++ [w])) st).2) :=
  slaveWrite_bad t lanes sp a ws rest w st hnb h4 hn hl hd hbad

end Verif.Axi
