import Verif.Proof.Transfer
import Verif.Props.Wiring

/-!
# C142: what crosses a connection, and what the results of operations report
-/

namespace Verif.Wiring

open DefineStream (Str Stream Widths defineStream transaction)
open Axi (BBeat RBeat)

/-- **C142**, for the classes that `define_stream` makes from any arguments: a transaction is sent exactly when every field with a signal has a value that
its signal can carry. What arrives then has, for every field, the value that was sent, or zero if the design does not have the signal. Otherwise the
source fails with an `OverflowError`. -/
theorem C142_transfer {signals : List Str} {optional : Option (List Str)} {valid ready : Option Str} {widths : Option Widths} {st : Stream}
    (hst : defineStream signals optional valid ready widths = .ok st) {d : Design} {pfx : Option Str} {b : Bus}
    (hb : connect st.signals st.optional d pfx = .ok b) (w : Wires) (sent : List (Str × Int)) (hk : ∀ kv ∈ sent, kv.1 ∈ st.fields) :
    match transfer st d pfx w sent with
    | .ok t => t = (st.fields.map fun f => (f, seen (d (fullName pfx (String.ofList f))) ((sent.lookup f).getD 0))) ∧
        ∀ f ∈ st.fields, ∀ k, d (fullName pfx (String.ofList f)) = some k → Carries k ((sent.lookup f).getD 0)
    | .error e => e = .overflowError ∧
        ∃ f ∈ st.fields, ∃ k, d (fullName pfx (String.ofList f)) = some k ∧ ¬ Carries k ((sent.lookup f).getD 0) := by
  simp only [fullName_eq, String.toList_ofList]
  apply transfer_spec _ d pfx (connect_ok hb).1 w sent hk
  unfold defineStream at hst
  simp only at hst
  split at hst
  · cases hst
  · injection hst with hst
    subst hst
    intro f hf
    simp only [List.mem_filter, List.mem_append] at hf ⊢
    rcases hf.1 with h | h
    · left
      have ext : ∀ (l : List Str) (x : Str), f ∈ l → f ∈ DefineStream.extend l x := fun l x hl => List.mem_append_left _ hl
      split <;> (try split) <;> (try split) <;> first | exact h | exact ext _ _ h | exact ext _ _ (ext _ _ h)
    · exact .inr h

/-- A stream with a data signal, an optional user signal that the design has and one that it has not: what arrives; and a value too large. -/
def exPulse : Py (Trans × Py Trans) :=
  match defineStream ["data".toList, "valid".toList] (some ["user".toList, "dest".toList]) with
  | .error e => .error e
  | .ok st =>
    let d : Design := fun n => [("x_data".toList, 8), ("x_valid".toList, 1), ("x_user".toList, 4)].lookup n
    match transfer st d (some "x".toList) (fun _ => 9) [("data".toList, 200), ("user".toList, -1), ("dest".toList, 3)] with
    | .error e => .error e
    | .ok t => .ok (t, transfer st d (some "x".toList) (fun _ => 9) [("data".toList, 256)])

example : exPulse = .ok ([("data".toList, 200), ("user".toList, 15), ("dest".toList, 0)], .error .overflowError) := by decide +kernel

theorem bOK {p : Proto} {s : Side} {d : Design} {pfx : Option Str} {ps : List Part} (h : attach (.bus p s .write) d pfx = .ok ps) : BOK d pfx := by
  have e := attach_spec (.bus p s .write) d pfx
  rw [h] at e
  refine ⟨fun x hx => e.1.exist x ?_, fun m hm => e.1.fixed "bresp" 2 ?_ m hm⟩
  · simp only [List.mem_cons, List.not_mem_nil, or_false] at hx
    rcases hx with rfl | rfl <;> cases p <;> simp [required, writeRequired]
  · cases p <;> simp [fixed, writeFixed]

theorem rOK {p : Proto} {s : Side} {d : Design} {pfx : Option Str} {ps : List Part} (h : attach (.bus p s .read) d pfx = .ok ps) : ROK d pfx := by
  have e := attach_spec (.bus p s .read) d pfx
  rw [h] at e
  refine ⟨fun x hx => e.1.exist x ?_, fun m hm => e.1.fixed "rresp" 2 ?_ m hm⟩
  · simp only [List.mem_cons, List.not_mem_nil, or_false] at hx
    rcases hx with rfl | rfl | rfl <;> cases p <;> simp [required, readRequired]
  · cases p <;> simp [fixed, readFixed]

/-- **C142**, AXI writes: whatever the slave answers to the bursts of an operation, the result has the operation's address and length; the response is the
last one that is not OKAY if the design has `bresp`, and OKAY otherwise; and the user values are those of all bursts, in order, if the design has `buser`,
and `None` otherwise. The full claim, that the result shows a failure, is false: `C142_violated`. -/
theorem C142_write_partial {d : Design} {pfx : Option Str} {x : Part} (h : attach (.bus .axi .master .write) d pfx = .ok [x]) (cmd : Axi.Cmd)
    (bursts : List Nat) (bs : List BBeat) (hn : bs.length = bursts.length) (w : Wires)
    (hid : ∀ b ∈ bs, Unsigned (d (fullName pfx "bid")) b.id) (huser : ∀ b ∈ bs, Unsigned (d (fullName pfx "buser")) b.user) :
    ∃ got, arriveAll (arriveB d pfx w) bs = .ok got ∧ x.writeResp cmd bursts got = .ok
      { address := cmd.address, length := cmd.length, resp := reported (d (fullName pfx "bresp")).isSome (bs.map (·.resp))
        user := reportedUser (d (fullName pfx "buser")).isSome (bs.map (·.user)) } := by
  have e := attach_spec (.bus .axi .master .write) d pfx
  rw [h] at e
  have hid' : d (fullName pfx "bid") ≠ none := e.1.exist "bid" (by simp [required, writeRequired])
  refine ⟨_, arriveAll_ok fun b hb => arriveB_eq (bOK h) hid' w b (hid b hb) (huser b hb), ?_⟩
  have key := Axi.writeRespLoop_spec bursts (bs.map fun b : BBeat =>
    ({ id := b.id, resp := if (d (fullName pfx "bresp")).isSome then b.resp else .okay
       user := if (d (fullName pfx "buser")).isSome then b.user else 0 } : BBeat)) [] .okay [] (by simpa using hn)
  rw [List.append_nil] at key
  unfold Part.writeResp Axi.writeResult
  rw [key, has_eq h "buser" (by decide)]
  simp only [List.map_map, List.nil_append]
  have e1 := foldResp_masked (d (fullName pfx "bresp")).isSome (bs.map (·.resp))
  rw [List.map_map] at e1
  rw [show foldResp .okay (bs.map ((fun b : BBeat => b.resp) ∘ fun b : BBeat =>
      ({ id := b.id, resp := if (d (fullName pfx "bresp")).isSome then b.resp else .okay
         user := if (d (fullName pfx "buser")).isSome then b.user else 0 } : BBeat))) = _ from e1]
  cases (d (fullName pfx "buser")).isSome <;> rfl

/-- **C142**, AXI reads: whatever the slave answers, the result has the operation's address and the same data as over a connection with all signals; the
response and the user values are those over such a connection if the design has `rresp` and `ruser`, and otherwise OKAY and `None`. A protocol error in what
the slave answers is noticed just the same. -/
theorem C142_read_partial {d : Design} {pfx : Option Str} {x : Part} (h : attach (.bus .axi .master .read) d pfx = .ok [x]) (maxBurstLen : Int) (cmd : Axi.Cmd)
    (bursts : List Nat) (rs : List RBeat) (w : Wires) (hid : ∀ b ∈ rs, Unsigned (d (fullName pfx "rid")) b.id)
    (huser : ∀ b ∈ rs, Unsigned (d (fullName pfx "ruser")) b.user) (hdata : ∀ b ∈ rs, Unsigned (d (fullName pfx "rdata")) b.data) :
    ∃ got, arriveAll (arriveR d pfx w) rs = .ok got ∧ x.readResp maxBurstLen cmd bursts got =
      match Axi.readResult (x.readCfg maxBurstLen) cmd bursts rs with
      | .error e => .error e
      | .ok (data, resp, user, _) => .ok
        { address := cmd.address, data := data, resp := if (d (fullName pfx "rresp")).isSome then resp else .okay
          user := reportedUser (d (fullName pfx "ruser")).isSome user } := by
  have e := attach_spec (.bus .axi .master .read) d pfx
  rw [h] at e
  have hid' : d (fullName pfx "rid") ≠ none := e.1.exist "rid" (by simp [required, readRequired])
  have hlast : d (fullName pfx "rlast") = some 1 := by
    cases hl : d (fullName pfx "rlast") with
    | none => exact absurd hl (e.1.exist "rlast" (by simp [required, readRequired]))
    | some m => rw [e.1.fixed "rlast" 1 (by simp [fixed, readFixed]) m hl]
  refine ⟨_, arriveAll_ok fun b hb => arriveR_eq (rOK h) hid' hlast w b (hid b hb) (huser b hb) (hdata b hb), ?_⟩
  have key := readRespBursts_mask (x.readCfg maxBurstLen) cmd (d (fullName pfx "rresp")).isSome (d (fullName pfx "ruser")).isSome bursts rs
    ((cmd.address / 2 ^ cmd.size) * 2 ^ cmd.size - (cmd.address / (x.readCfg maxBurstLen).lanes) * (x.readCfg maxBurstLen).lanes) true [] .okay [] []
    (fun _ => rfl)
  have hok : maskResp (d (fullName pfx "rresp")).isSome .okay = .okay := by unfold maskResp; split <;> rfl
  rw [hok] at key
  unfold Part.readResp Axi.readResult
  simp only
  rw [show (rs.map fun b : RBeat => ({ id := b.id, data := b.data, resp := if (d (fullName pfx "rresp")).isSome then b.resp else .okay, last := b.last
                                       user := if (d (fullName pfx "ruser")).isSome then b.user else 0 } : RBeat)) =
      rs.map (maskR (d (fullName pfx "rresp")).isSome (d (fullName pfx "ruser")).isSome) from rfl, has_eq h "ruser" (by decide)]
  cases hr : Axi.readRespBursts (x.readCfg maxBurstLen) cmd bursts rs
      ((cmd.address / 2 ^ cmd.size) * 2 ^ cmd.size - (cmd.address / (x.readCfg maxBurstLen).lanes) * (x.readCfg maxBurstLen).lanes) true [] .okay [] with
  | error e =>
    rw [hr] at key
    simp only at key ⊢
    rw [key]
  | ok y =>
    obtain ⟨data, resp, user, rest⟩ := y
    rw [hr] at key
    obtain ⟨user₂, hu, he⟩ := key
    simp only
    rw [he]
    simp only [reportedUser, maskResp]
    cases hq : (d (fullName pfx "ruser")).isSome with
    | false => rfl
    | true => rw [hu hq]

/-- **C142**, AXI-lite writes: likewise. -/
theorem C142_lite_write_partial {d : Design} {pfx : Option Str} {x : Part} (h : attach (.bus .lite .master .write) d pfx = .ok [x]) (c : Word.Cfg)
    (cmd : Word.Cmd) (bs : List Resp) (hn : bs.length = Word.cycles c cmd) (w : Wires) :
    ∃ got, arriveAll (arriveLiteB d pfx w) bs = .ok got ∧
      Word.writeResult c cmd got = some (reported (d (fullName pfx "bresp")).isSome bs, []) := by
  refine ⟨_, arriveAll_ok fun b _ => arriveLiteB_eq (bOK h) w b, ?_⟩
  unfold Word.writeResult
  rw [if_neg (by rw [List.length_map]; omega), List.take_of_length_le (by rw [List.length_map]; omega),
    List.drop_of_length_le (by rw [List.length_map]; omega), foldResp_masked]

/-- **C142**, AXI-lite reads: likewise. -/
theorem C142_lite_read_partial {d : Design} {pfx : Option Str} {x : Part} (h : attach (.bus .lite .master .read) d pfx = .ok [x]) (c : Word.Cfg)
    (cmd : Word.Cmd) (rs : List (Nat × Resp)) (w : Wires) (hdata : ∀ b ∈ rs, Unsigned (d (fullName pfx "rdata")) b.1) :
    ∃ got, arriveAll (arriveLiteR d pfx w) rs = .ok got ∧
      (Word.readResult c cmd got).map (fun y => (y.1, y.2.1)) =
        (Word.readResult c cmd rs).map fun y => (y.1, if (d (fullName pfx "rresp")).isSome then y.2.1 else .okay) := by
  refine ⟨_, arriveAll_ok fun b hb => arriveLiteR_eq (rOK h) w b (hdata b hb), ?_⟩
  have key := wordReadLoop_mask c cmd (d (fullName pfx "rresp")).isSome (Word.cycles c cmd) rs [] .okay
  have hok : maskResp (d (fullName pfx "rresp")).isSome .okay = .okay := by unfold maskResp; split <;> rfl
  rw [hok] at key
  unfold Word.readResult
  rw [show (rs.map fun b => (b.1, if (d (fullName pfx "rresp")).isSome then b.2 else .okay)) =
    rs.map fun b => (b.1, maskResp (d (fullName pfx "rresp")).isSome b.2) from rfl, key, Option.map_map]
  rfl

/-- **C142**: with `bresp` connected, the result of a write is OKAY exactly when every burst was answered with OKAY. -/
theorem C142_detected_partial {d : Design} {pfx : Option Str} {x : Part} (h : attach (.bus .axi .master .write) d pfx = .ok [x])
    (hresp : d (fullName pfx "bresp") ≠ none) (cmd : Axi.Cmd) (bursts : List Nat) (bs : List BBeat) (hn : bs.length = bursts.length) (w : Wires)
    (hid : ∀ b ∈ bs, Unsigned (d (fullName pfx "bid")) b.id) (huser : ∀ b ∈ bs, Unsigned (d (fullName pfx "buser")) b.user) :
    ∃ got r, arriveAll (arriveB d pfx w) bs = .ok got ∧ x.writeResp cmd bursts got = .ok r ∧ (r.resp = .okay ↔ ∀ b ∈ bs, b.resp = .okay) := by
  obtain ⟨got, h1, h2⟩ := C142_write_partial h cmd bursts bs hn w hid huser
  refine ⟨got, _, h1, h2, ?_⟩
  simp only [reported, Option.isSome_iff_ne_none.2 hresp, if_true]
  rw [Axi.lastNonOkay_okay_iff]
  simp

/-! ## A failure that the result does not show -/

/-- The design `exDesign` without `a_bresp`, with `a_buser` of 8 bits instead. -/
def noResp : Design := fun n => if n = "a_bresp".toList then none else if n = "a_buser".toList then some 8 else exDesign n

/-- **C142 is false of the code**: a master and a slave can be connected to an interface without `bresp`, and then every write is reported as successful: here
both bursts failed, as one can see only from the user values that the slave sent along. -/
theorem C142_violated : ∃ x y, attach (.bus .axi .master .write) noResp (some "a".toList) = .ok [x] ∧
    attach (.bus .axi .slave .write) noResp (some "a".toList) = .ok [y] ∧
    ∃ got, arriveAll (arriveB noResp (some "a".toList) fun _ => 0) [⟨1, .slverr, 17⟩, ⟨1, .decerr, 99⟩] = .ok got ∧
      x.writeResp ⟨0, 2000, some 1, .incr, 2, {}⟩ [256, 244] got = .ok { address := 0, length := 2000, resp := .okay, user := some [17, 99] } := by
  have h1 : (attach (.bus .axi .master .write) noResp (some "a".toList)).map (fun ps => ps.map fun x => x.lanes) = .ok [4] := by decide +kernel
  have h2 : (attach (.bus .axi .slave .write) noResp (some "a".toList)).map (fun ps => ps.map fun x => x.lanes) = .ok [4] := by decide +kernel
  cases g1 : attach (.bus .axi .master .write) noResp (some "a".toList) with
  | error e => rw [g1] at h1; cases h1
  | ok ps =>
    cases g2 : attach (.bus .axi .slave .write) noResp (some "a".toList) with
    | error e => rw [g2] at h2; cases h2
    | ok qs =>
      obtain ⟨x, rfl, -⟩ := C139_write_config _ g1
      obtain ⟨y, rfl, -⟩ := C139_write_config _ g2
      refine ⟨x, y, rfl, rfl, ?_⟩
      have e1 : noResp (fullName (some "a".toList) "bid") = some 4 := by decide +kernel
      have e2 : noResp (fullName (some "a".toList) "buser") = some 8 := by decide +kernel
      have e3 : noResp (fullName (some "a".toList) "bresp") = none := by decide +kernel
      have key := C142_write_partial g1 ⟨0, 2000, some 1, .incr, 2, {}⟩ [256, 244] [⟨1, .slverr, 17⟩, ⟨1, .decerr, 99⟩] rfl (fun _ => 0)
        (by
          rw [e1]
          intro b hb k hk
          cases hk
          simp only [List.mem_cons, List.not_mem_nil, or_false] at hb
          rcases hb with rfl | rfl <;> decide)
        (by
          rw [e2]
          intro b hb k hk
          cases hk
          simp only [List.mem_cons, List.not_mem_nil, or_false] at hb
          rcases hb with rfl | rfl <;> decide)
      rw [e2, e3] at key
      exact key

-- With `bresp`, the same answers are reported as a failure, without user values (this design has no `buser`).
example : ∃ x got, attach (.bus .axi .master .write) exDesign (some "a".toList) = .ok [x] ∧
    arriveAll (arriveB exDesign (some "a".toList) fun _ => 0) [⟨1, .slverr, 17⟩, ⟨1, .decerr, 99⟩] = .ok got ∧
    x.writeResp ⟨0, 2000, some 1, .incr, 2, {}⟩ [256, 244] got = .ok { address := 0, length := 2000, resp := .decerr, user := none } := by
  have h1 : (attach (.bus .axi .master .write) exDesign (some "a".toList)).map (fun ps => ps.map fun x => x.lanes) = .ok [4] := by decide +kernel
  cases g1 : attach (.bus .axi .master .write) exDesign (some "a".toList) with
  | error e => rw [g1] at h1; cases h1
  | ok ps =>
    obtain ⟨x, rfl, -⟩ := C139_write_config _ g1
    have e1 : exDesign (fullName (some "a".toList) "bid") = some 4 := by decide +kernel
    have e2 : exDesign (fullName (some "a".toList) "buser") = none := by decide +kernel
    have e3 : exDesign (fullName (some "a".toList) "bresp") = some 2 := by decide +kernel
    have key := C142_write_partial g1 ⟨0, 2000, some 1, .incr, 2, {}⟩ [256, 244] [⟨1, .slverr, 17⟩, ⟨1, .decerr, 99⟩] rfl (fun _ => 0)
      (by
        rw [e1]
        intro b hb k hk
        cases hk
        simp only [List.mem_cons, List.not_mem_nil, or_false] at hb
        rcases hb with rfl | rfl <;> decide)
      (by rw [e2]; intro b hb k hk; cases hk)
    rw [e2, e3] at key
    obtain ⟨got, h1, h2⟩ := key
    exact ⟨x, got, rfl, h1, h2⟩

-- Reads over the same design: the data arrives, the response is reported, and there are no user values.
example : ∃ x got, attach (.bus .axi .master .read) exDesign (some "a".toList) = .ok [x] ∧
    arriveAll (arriveR exDesign (some "a".toList) fun _ => 0) [⟨3, 0x44332211, .okay, false, 0⟩, ⟨3, 0x88776655, .slverr, true, 5⟩] = .ok got ∧
    x.readResp 256 ⟨2, 5, some 3, .incr, 2, {}⟩ [2] got = .ok { address := 2, data := [0x33, 0x44, 0x55, 0x66, 0x77], resp := .slverr, user := none } := by
  have h1 : (attach (.bus .axi .master .read) exDesign (some "a".toList)).map (fun ps => ps.map fun x => x.lanes) = .ok [4] := by decide +kernel
  cases g1 : attach (.bus .axi .master .read) exDesign (some "a".toList) with
  | error e => rw [g1] at h1; cases h1
  | ok ps =>
    obtain ⟨x, rfl, -⟩ := C139_read_config _ g1
    rw [g1] at h1
    simp only [Except.map, List.map_cons, List.map_nil, Except.ok.injEq, List.cons.injEq, and_true] at h1
    have e1 : exDesign (fullName (some "a".toList) "rid") = some 4 := by decide +kernel
    have e2 : exDesign (fullName (some "a".toList) "ruser") = none := by decide +kernel
    have e3 : exDesign (fullName (some "a".toList) "rresp") = some 2 := by decide +kernel
    have e4 : exDesign (fullName (some "a".toList) "rdata") = some 32 := by decide +kernel
    have key := C142_read_partial g1 256 ⟨2, 5, some 3, .incr, 2, {}⟩ [2] [⟨3, 0x44332211, .okay, false, 0⟩, ⟨3, 0x88776655, .slverr, true, 5⟩] (fun _ => 0)
      (by
        rw [e1]
        intro b hb k hk
        cases hk
        simp only [List.mem_cons, List.not_mem_nil, or_false] at hb
        rcases hb with rfl | rfl <;> decide)
      (by rw [e2]; intro b hb k hk; cases hk)
      (by
        rw [e4]
        intro b hb k hk
        cases hk
        simp only [List.mem_cons, List.not_mem_nil, or_false] at hb
        rcases hb with rfl | rfl <;> decide)
    rw [e2, e3] at key
    obtain ⟨got, h2, h3⟩ := key
    refine ⟨x, got, rfl, h2, h3.trans ?_⟩
    have : ∀ c : Axi.Cfg, c.lanes = 4 → Axi.readResult c ⟨2, 5, some 3, .incr, 2, {}⟩ [2]
        [⟨3, 0x44332211, .okay, false, 0⟩, ⟨3, 0x88776655, .slverr, true, 5⟩] = .ok ([0x33, 0x44, 0x55, 0x66, 0x77], .slverr, [0, 5], []) := by
      intro c hc
      unfold Axi.readResult
      rw [hc]
      simp only [Axi.readRespBursts, Axi.readRespBurst, hc]
      decide +kernel
    rw [this (x.readCfg 256) h1]
    rfl

end Verif.Wiring
