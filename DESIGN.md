# Formal model of cocotbext-axi: design

## 1. What is built

`/verif/lean` is a Lean 4 model of the Python code in `/repo/cocotbext/axi`, with machine-checked
proofs of the properties in `properties.jsonl`.

* `Verif/Py.lean`            – the Python semantics used (exceptions as values, floor division, slices, int<->bytes).
* `Verif/Model/*.lean`       – the model, function by function; every definition cites file and lines.
* `Verif/Spec/*.lean`        – small independent specifications (flat byte array, AXI address rules, ...).
* `Verif/Proof/*.lean`       – helper lemmas and invariants.
* `Verif/Props/*.lean`       – the property theorems only, each followed by an `example` showing that its hypotheses are met.

Conventions: an exception is a value of `PyErr`; where code has effects before raising, the model
returns the state together with the error. Addresses and lengths supplied by a user are `Int`, internal
values derived after range checks are `Nat`. Bytes are `UInt8`. Loops are structural or
well-founded recursions mirroring the Python loop variables. Coroutines are step functions over an
explicit program counter; a "schedule" is an arbitrary list of events, so theorems by induction on the
list cover every interleaving.

## 2. Trusted base

* Lean 4.33.0's kernel; the axioms used are at most `propext`, `Classical.choice`, `Quot.sound`
  (checked by `#print axioms`; see section 6).
* The faithfulness of the model to the Python text (comments cite the modelled lines), and the model of
  Python/cocotb themselves given in `Verif/Py.lean` and in the scheduler notes of each cycle model:
  `Queue` is an unbounded FIFO whose `put` does not suspend, `Event` is a level flag, signal reads at a
  clock edge see pre-edge values, signal writes appear after all coroutines of the edge have run.
  With several suspended callers (`Model/Readers.lean`) a `get` on an empty `Queue` joins a first-in first-out waiting list,
  a `put` wakes the first caller in it, and the woken caller goes on in a later turn, re-checking whether the queue is empty.
* Not modelled: simulator handles and signal widths/resolution (values are two-valued unless stated),
  logging, the simulator's search for signals, the bodies of third-party packages (cocotb, cocotb-bus), performance.

## 3. Plan per property

| id | modelled | proof |
|----|----------|-------|
| C01–C03 | `SparseMemory` as finite map block -> 4096-byte block; `read`/`write` loops, `__getitem__`, `__setitem__` | refinement to a flat `Nat -> UInt8`; history theorem by induction on operations |
| C04, C05 | `Memory` word helpers over a flat buffer; constructor's `len()` | round trip via base-256 digits; negation by witness for C05 |
| C06–C11 | `BuddyAllocator` free lists and allocation table | invariant: free ∪ live blocks tile the arena, buddies never both free |
| C12–C14 | `MemoryInterface`, `Window` chains | induction on nesting |
| C15–C19 | `AddressSpace` (`find_regions`, `read`, `write` loops), `Pool`, `WindowPool`, `read_byte` | invariant on registration; refinement of the split loops to per-byte routing; C17/C19 negations |
| C20–C24 | `AxiMaster` burst generation and reassembly, `AxiSlave` burst service, `AxiRam` | closed forms for loop state by induction on beats; end-to-end refinement to flat memory |
| C25, C26, C28 | slave strobe scan, read service, address stepping | run-coalescing lemma; closed forms |
| C27, C29, C30 | FIXED lanes, argument checks, response folding | direct; negation witnesses |
| C31–C34 | ID counter, `TagContextManager` with per-ID workers, in-flight count, reset flush | transition system; per-ID history invariant |
| C35 | APB/AXI-lite reset of the current command | transition systems; negation for APB |
| C36–C38 | AXI-lite master/slave | as for AXI, one beat per word; FIFO pairing invariant |
| C73, C74 | one word transfer at a slave on any target; buses without strobes | run lemma; closed forms |
| C75–C77 | `AxiLiteMaster` (both sides, their queues and workers) connected by FIFO channels to a slave on a shared target, any interleaving, resets | labelled-history invariant: the k-th served transfer is the k-th transfer of the issued operations; per-byte linearizability from it |
| C96 | order of the operations at the AXI-lite slave | the transfers not yet served are a suffix of those issued since the last reset; an operation that has left it never returns |
| C97 | the AXI-lite system under fair schedules | a measure that every effective step decreases; in a state in which nothing can move, counting responses leaves no operation unanswered |
| C89 | `AxiMaster` (both sides: queues, ID choice, bursts, per-ID workers) connected by FIFO channels to an `AxiSlave` on any target, any interleaving, resets | invariant that splits the bursts due into served, being served and to come; per-operation executions from the per-ID history invariant |
| C90, C91 | the same with a RAM | per-beat effect of C20–C24 at the instants of C89 |
| C92 | order of the operations at the slave | the bursts not yet served are a suffix of those due, in order of issue; an operation that has left it never returns |
| C93 | the connected system under fair schedules | a measure that every effective step decreases; in a state in which nothing can move, the invariant of C89 leaves no burst unanswered |
| C94 | the same system with a clock-level `StreamSource` and `StreamSink` on every channel, a shared clock, pauses and blocked senders | refinement: every event is one event of the FIFO system or none; C89–C92 follow for every clock-level history |
| C95 | the clock-level system under fair schedules | the view as a FIFO system stabilises (measure of C93); from then on each channel only acts by itself, the distance of the transactions from the queue of the sink never grows, and it does not stay the same: a transaction on the bus is taken at the second edge after the sink saw that it is not paused, a queued one is sent when the source runs and is not paused, a blocked `send()` resumes; then no master or slave coroutine is blocked, and C93 applies |
| C98 | the AXI-lite system with a clock-level `StreamSource` and `StreamSink` on every channel; AW and W transactions of a transfer on different channels | refinement: the transactions on the two channels (and the address the slave holds) are the halves of one list of transfers, except that the last address may be ahead; every event is one event of the FIFO system or none, so C75–C77 and C96 follow |
| C99 | the same under fair schedules | the FIFO view and the lead of the AW transactions stabilise (three times the measure of C97 plus the lead); then as C95; a response that has arrived is awaited because the master has sent more than it got |
| C100 | `set_pause_generator` / `_run_pause` coroutines added to an arbitrary clocked system; instances: source and sink, AXI, AXI-lite, APB, AXI stream | invariant: `pause` is the value for the number of edges so far, or one behind while the coroutine is due |
| C101 | the AXI and AXI-lite systems with generators at any of the ten ends, the APB, AXI stream and stream systems with generators at both sides | generators are projected away to a schedule with pauses; each channel is released infinitely often, so the argument of C95/C99/C121/C123/C124 applies |
| C102, C103 | the systems of C89 on any target that satisfies `Spec/Mapped.lean`; regions, windows and address spaces do | per beat: the slave's access succeeds iff all its bytes are mapped; each byte's instant is that of its beat; writes of one byte take effect in order |
| C104 | the same | word-aligned maps: from C102; otherwise a concrete history in which a stored value cannot be read back |
| C105–C107 | the same for AXI-lite (`Spec/LiteMapped.lean`) | as C102–C104, per transfer |
| C108 | the same at clock level | from C102, C103, C105, C106 by the refinements of C94 and C98 |
| C109, C110 | APB on targets with an address map (`Spec/ApbMapped.lean`) | the serial execution of C40 on such a target |
| C111, C112, C113 | `read_words`, `write_words` of interfaces and of the bus masters (`Model/Words.lean`) | packing and unpacking are inverse; then C102, C105, C109 and their RAM versions |
| C114 | the clock-level systems, under schedules that are fair to one side only | the proofs of C95 and C99 per side: a measure of one side that nothing on the other side touches; whether a piece of a coroutine does anything does not depend on the contents of the target |
| C115, C116 | any number of ports of the three kinds on one target (`Model/MultiPort.lean`), the test bench accessing it too | each port by itself is a trace with interference: between its own steps the target may change in any way; the per-port theorems hold for such traces; then what each event does to a memory |
| C117 | `write` of every interface object for lists of integers (`Model/ByteWrite.lean`) | lists of bytes act like bytes in sparse memories, hence in regions, windows and spaces over them; negation for `mmap` |
| C118 | interface objects whose accesses have a beginning and an end, with anything happening in between (`Model/Timed.lean`): windows and address spaces over regions and over masters of the systems of C115 | induction over the segments of an access; a segment on a master is an operation of C116; its events are instants of the access |
| C119 | the transactions that `_process_write`/`_process_read` of the masters make of a call (`Model/Axi.lean`, `Model/WordBus.lean`), with the defaults of the optional arguments | closed form of the loops (C20, C36) |
| C120 | the APB master and slave with one event per turn of a coroutine, per return of the target and per signal update | refinement of the system with one event per edge (C39-C41): what is reachable with the slave's part of the edge done or not yet done |
| C121 | the same under fair schedules | edges occur again and again; from edge to edge the master's and the slave's program counters advance; induction on the transfers left of the operation, then on the operations |
| C122 | `idle()` of AXI stream sinks and monitors, with an arbitrary bus | invariants: the frame under construction is the unfinished packet; `active` while there is one; a monitor that sleeps or has seen an edge without transfer is exact |
| C123 | AXI stream source and sink under an infinite schedule with pauses, limits and blocked calls of `send` | invariants between the turns of the coroutines (`AxisStep`); if no beat were captured any more, the source would drive one, the sink would be ready at some edge, and the next turn would capture it (`goes_on`); then the source runs dry and sleeps (`drains`), so that blocked calls are woken and go on (`unblocked`) |
| C124 | a stream source and sink (stream.py) under an infinite schedule with pauses, limits and blocked calls of `send` | as C123, over the invariants of `StreamStep`: while something sent is not captured, another capture follows (`goes_on`); the source then runs dry (`drains`) and blocked calls go on (`unblocked`) |
| C125 | Model/StreamTap, AxisTap: source, sink and monitor on one bus, each coroutine its own event | invariant: captured lists plus what each still has to sample are equal; a sleeping monitor sees no transfer; projection onto source and sink |
| C126 | the pairs of Model/Stream and Model/Axis, any events | clock edges counted over arbitrary events; once ready is set it stays (at most two edges), then a potential (items out of the queue, plus one if the source is due) grows with every edge |
| C127 | Model/AxisTime: a layer over sinks and monitors with simulated time, and the times kept beside the frames | times of the captured beats, cut into packets as the frames are; order by an invariant over all histories |
| C128 | the same over sources, with a record of every beat put on the bus | every record is before its transfer, a frame is begun after the frame before was transferred; grouping by `tlast`; the records of a packet are the beats of one frame; false as stated |
| C129 | `create_pool` on the address space model; the pool's entry in the region list refers to the pool object (`setPool`) | success iff in range and free; single-region routing lemma applied to the space and then to the pool; induction over `alloc_region` calls |
| C130 | the constructor's arithmetic | by cases over which arguments are given; induction over the lanes for the beats |
| C131 | what is left in the list and dict the caller passed | exact condition for the dict; witness with two definitions |
| C132 | both ends with channels split into the sender's and the receiver's part | invariant: transfers sent = answered + on their way; refinement to the jointly reset system; completion by a measure that counts each half of a transfer in each place; three witnesses |
| C133 | the APB system with resets of one component | invariant of the joint system, relaxed: the slave may be idle or in reset while the master waits in an access; completion by a measure on the phases of both coroutines; two witnesses |
| C134 | an AXI stream source and sink with a common reset added to the events | invariant: the unfinished frame, the beats on the bus and those not driven are the beats of frames in flight; each reset drops these frames, at most one of which is not empty; delivery of all others by the liveness proof of C123, whose invariant holds after resets too |
| C135 | the same, with resets of one component | the same invariant and the same liveness proof under a condition on the time of such a reset; two witnesses |
| C136 | both ends with channels split into the sender's and the receiver's part | refinement to the jointly reset system, with a lemma that idle() or a reset of the master means rest; completion by the measure of C93 and the length of the channels; four witnesses |
| C137 | the connected pair of C43 with resets and clear() | after each event the histories are replaced by what survives, and the invariant of C43 and the delivery of C68 apply again; what each event discards is listed exactly |
| C138 | `Model/Wiring.lean`: `Bus` lookup, the ten channel types, the constructors of all components and the signals they ever write | against tables of the specifications' signals: what is driven is computed for an arbitrary design, `prefix_signal` splits uniquely at its last underscore, the tables are disjoint |
| C139 | the checks of the constructors in the same model | the accepted designs are characterised exactly; witnesses for the accepted but illegal ones |
| C140 | the clocked AXI-lite system with each channel's two ends reset separately | every channel half that is in reset is empty; a lone reset of an idle connection keeps the invariant of the jointly reset system, so it refines to the same FIFO system (C98); completion as C99, from any later state; three witnesses |
| C141 | the clocked AXI system with each channel's two ends reset separately | an idle master, or one in reset, means that every channel and the slave are empty (from the invariant of the FIFO system); so a lone reset refines to a common reset or to nothing in the FIFO system (C89-C92); completion as C95, from any later state; three witnesses |
| C142 | `Bus.drive`/`Bus.sample` on the signals a bus has, `StreamTransaction`'s defaults, the fields of results | induction over the handles of a bus (names are injective in the attribute); the response loops commute with blanking out the fields that are missing |
| C143 | index operations of regions and of `mmap` (CPython's adjustment of slice bounds and steps), iteration by `__getitem__` | positions of a slice characterised by divisibility between the clamped bounds, shown distinct and inside the buffer; step 1 reduces to `read`/`write` |
| C144 | lists and frames as objects in a store, in-place changes, what a source refers to | invariant: the lists of queued and current frames are out of the user's reach and pairwise separate; refinement to a source that holds values |
| C145 | suspended `recv()`/`read()` calls in the waiting list of cocotb's `Queue`, wake-ups, turns and cancellations | invariants: where each item went; a call waits unwoken only if there are no more items than woken calls; an AXI stream sink with suspended calls refines both that model and the sink of `Model/Axis.lean`, and so do generic sinks and monitors for those of `Model/Stream.lean`, and AXI stream monitors whose users call only `recv()` and `recv_nowait()` |
| C39–C41, C78 | `ApbMaster._run` + `ApbSlave._run` cycle-level composition | inductive invariant on the joint state, history variables; measure for progress |
| C42–C48 | `StreamSource`/`StreamSink`/`StreamMonitor` cycle-level with arbitrary coroutine order inside an edge | inductive invariants over arbitrary event lists |
| C66–C69 | the same stream model: blocked senders, progress, delivery, `wait()` | invariants; phase argument over clock cycles; negation for `wait()` after `clear()` |
| C49–C57, C79–C82 | `AxiStreamFrame`, `AxiStreamSource`, `AxiStreamSink`, `AxiStreamMonitor` | list lemmas; cycle-level invariants over arbitrary event lists; negations |
| C83, C86 | pausing, on both stream models | monotone quantity: transfers so far plus those the paused component can still take part in |
| C84, C85 | readiness and delivery for AXI streams | phase argument over clock cycles with a decreasing measure (beats and frames to go) |
| C58, C59 | `Reset`: constructor, `assert_reset`, edges of the reset signal | simulation of a two-flag specification over arbitrary histories; negation |
| C60 | `hexdump_line`, `hexdump_lines`, `hexdump_str` and the memories' `hexdump` methods | a reader of the dump recovers labels, bytes and text; negation for length 0 |
| C61, C87 | `define_stream`, `StreamTransaction`, signal checks of `StreamBase` | list lemmas; negation |
| C88 | `wait` of stream and AXI stream sinks and monitors | invariant: the event `wait` blocks on is set exactly while the queue is not empty |
| C70–C72 | the same transition system as C32–C34: `active_id` checks, progress | counter invariant; measure; negation for surplus responses |
| C62, C63 | `PeripheralRegion`, `AddressSpace.register_region` | negation witness; the part that holds |
| C64, C65 | `AxiSlave`/`AxiRam` under any legal traffic; the slave's assertions | as C23; direct |

Where a property is false of the code, the negation is proved with a concrete witness and the part
that does hold is a theorem with suffix `_partial` (section 5 records every disagreement).

## 4. How the AXI parts fit together

`Model/Axi.lean` models `AxiMasterWrite/Read` as functions from a request to the exact list of channel beats it
puts on AW/W (or AR) and from the list of response beats to the result; `AxiSlaveWrite/Read` as functions from
the beats to target accesses and response beats. These functions are the bodies of the coroutines with
the channel operations `send`/`recv` turned into list output/input; they say nothing about time. What
connects them in the real system is the channel (`stream.py`), which is a lossless FIFO: that is a separate
property (C43), proved about the clock-level model of `stream.py`.

`Model/AxiOps.lean` models the bookkeeping of concurrent operations (queues, IDs, workers, reset) without the content of the
beats. `Model/AxiSystem.lean` puts these together: masters with their bookkeeping send exactly the beats of `Model/Axi.lean`
into FIFO channels and the slaves serve them beat by beat on a shared target, every piece of a coroutine between two suspensions
being one event. C89 - C93 are about this system, for every history and schedule. Both ends of a channel see the same
reset. The slave and its target perform an access in one piece here; that a target may suspend is covered at clock level.

`Model/AxiClock.lean` is the same system with the channels of `Model/Stream.lean`: handshakes at the edges of one clock, limits of 2,
`pause` on both ends, `send()` blocking its coroutine. `C94_refines` shows that it refines `Model/AxiSystem.lean`, so that the FIFO
channels there are not an assumption. The write side and the read side are each reset as a whole: `assert_reset()` called on
a single component is not covered. The target may suspend for any time, before and after an access takes effect; the effect of the
accesses of one beat happens at one instant. Fairness, where it is assumed, includes that accesses of the target return.

`Model/LiteClock.lean` does the same for AXI-lite (`Model/LiteOps.lean`): `_process_write` calls `aw_channel.send` and
`w_channel.send` in turn, each of which may block; the slave holds an address until the data arrive; `_process_write_resp` only takes a
response from the channel when it awaits one, so that responses stay in the channel (and block the slave) while the master is behind.
Simplified: the command of a transfer is cleared when its last `send()` is called, not when it returns.

`Model/LiteSplit.lean` is the AXI-lite system with FIFO channels once more, for components that have different reset signals: every
channel is split into the part with the sender and the part with the receiver, AW and W are separate, and either component
can be reset alone (C132). Not modelled there: targets that suspend. `Model/ChanSplit.lean` and
`Model/LiteClockSplit.lean` are the same for the system with handshakes, pauses and occupancy limits of `Model/LiteClock.lean` (C140).
`Model/ApbSplit.lean` adds resets of one component to the clocked APB system (C133).

`Model/AxisSplit.lean` adds a common reset to a connected AXI stream source and sink (C134, C135). `_handle_reset` of the two components is called in the same time step, before any other event.

`Model/AxiSplit.lean` does for the AXI system with FIFO channels what `Model/LiteSplit.lean` does for AXI-lite (C136), with the same omissions, and
`Model/AxiClockSplit.lean` the same for the clocked system of `Model/AxiClock.lean` (C141). Simplified there: the flag that a coroutine has died is one for both ends, and a lone
reset does not clear it; it is never set in the histories C141 is about, nor in its witnesses.

Targets with an address map (`Spec/Mapped.lean`): an address leads to a place or to nothing, an access succeeds exactly if all its
addresses lead somewhere; a failing write may have stored some of its bytes. `Props/Mapped.lean` shows this of regions, windows and address
spaces, so C102 - C110 speak about masters and slaves connected to any of them. The cells of the space are the bytes of the memories behind it.

`Model/StreamTap.lean` and `Model/AxisTap.lean` put a monitor on the bus between a source and a sink (C125): the monitor is one more coroutine, resumed
in any order with the others, and woken by rising edges of the two handshake signals.

`Model/MultiPort.lean` composes any number of AXI, AXI-lite and APB ports (with FIFO channels, as in `Model/AxiSystem.lean`) and direct
accesses of the test bench on one target. All `Memory` objects made with one `mem` object have the same length and are modelled as one.

`Model/Timed.lean` describes windows and address spaces whose regions' accesses take time: a relation between the arguments of a call, the instants at
which it begins and ends, and its outcome (bytes, a response object, `None`, or an exception), built from the relations of the regions. Bus masters are
ports of a system of `Model/MultiPort.lean`, whose events are interleaved with everything else by a map from instants to numbers of its events.

`Model/ApbClock.lean` is APB with the coroutines run one by one. A reset does not happen between the turns of the two coroutines after the same edge.

`Model/PauseGen.lean` adds the coroutines of pause generators to any system with a clock, `Model/PauseGenBus.lean` puts them at the
sources and sinks of a channel, of AXI and of AXI-lite, `Model/PauseGenApb.lean` at an APB master and slave,
`Model/PauseGenAxis.lean` at an AXI stream source and sink. The values of a generator are booleans.

`Model/Transfer.lean` (C142): `cocotb_bus`'s `Bus.drive` and `Bus.sample` are modelled as loops over the handles of the bus, with cocotb's range check on assignment (signed or
unsigned); a signal holds the unsigned value last assigned. When signals are driven and sampled is in the stream models, which carry whole transactions (all signals present).

## 5. Disagreements between the documented/expected behaviour and the code

Each is proved as a theorem about the model with a concrete witness.

| property | what the code does | theorem |
|---|---|---|
| C05 | `Memory()` with the documented default size 2**64 raises `OverflowError` (`len()`) | `Memory.C05_violated` |
| C10, C18 | non-power-of-two allocators hand out blocks beyond `size`; `WindowPool.alloc_window` then raises with the block leaked, `Pool.alloc_region` maps beyond its end | `Buddy.C10_violated`, `Pool.C18_pool_violated`, `WindowPool.C18_windows_violated` |
| C19 | `MemoryInterface.read_byte` on interfaces that return plain bytes raises `AttributeError` | `C19_violated` |
| C27 | narrow or unaligned FIXED bursts strobe lanes outside the addressed container | `Axi.C27_violated` |
| C29 | ID `2**id_width` is accepted (`>` instead of `>=`) | `Axi.C29_violated` |
| C29, C89 | such an ID cannot be driven on the bus: the coroutine that sends the commands dies and nothing issued later completes | `AxiSys.C89_id_violated` |
| C30 | EXOKAY after SLVERR/DECERR hides the error | `Axi.C30_violated` |
| C45 | `clear()` on a full, sleeping sink does not wake it: `ready` stays low for ever | `Stream.C45_violated` |
| C69 | `clear()` sets `idle_event` while an item is still on the bus, so `wait()` returns early | `Stream.C69_wait_violated` |
| C33 | `init_write()`/`init_read()` count the operation only when the scheduler runs their wrapper: right after the call `idle()` is true and `wait()` returns | `AxiOps.C33_init_violated` |
| C35 | AXI-lite: if a slave answers a transfer it has not received yet, an operation completes while it is still being sent and a reset then overwrites its result with `None` (needs a faulty slave) | `LiteOps.C35_lite_early_violated` |
| C35 | APB: a completed command stays in `current_command` (apb.py 457 clears an attribute that nothing reads), so the next reset sets its event again with `None`; the caller sees it if the reset handler runs before the caller resumes | `Apb.C35_apb_violated` |
| C33, C34 | APB: a command that `_run` has taken from the queue (apb.py 341) is in neither the queue nor `current_command` until the next clock edge: a reset in between drops it, `idle()` becomes true and the caller waits for ever | `Apb.C34_apb_violated` |
| C71 | a surplus response that arrives before the worker consumed the last owed one is accepted and given to the next operation of that ID | `AxiOps.C71_surplus_violated` |
| C51 | `compact()` on a frame that was already compacted (e.g. one returned by `recv()`) raises `TypeError`: `len(None)` | `Axis.C51_compact_once` |
| C50 | `normalize()` raises `IndexError` for an empty sideband list and `TypeError` for an integer `tkeep` | `Axis.C50_raises` |
| C53 | an empty AXI stream frame is taken from the queue and dropped; its `tx_complete` never fires | `Axis.C53_empty_violated` |
| C55 | AXI stream `full()` compares with `>`: a limit of L frames admits L+1 (source and sink) | `Axis.C55_violated`, `Axis.C55_sink_violated` |
| C79 | `tx_complete` fires when the last beat is driven, not when it is accepted; with `tready` low the frame is reported complete without ever being transferred | `Axis.C79_violated` |
| C82, C84 | `clear()` on AXI stream components: as C69 and C45 | `Axis.C82_violated`, `Axis.C84_violated` |
| C59 | only edges of the reset signal are looked at: a component made while reset is active runs until the signal has gone inactive and active again | `Reset.C59_violated` |
| C60 | `hexdump(..., length=0)` (0 is falsy) dumps everything to the end; so does `Memory.hexdump(address, 0)` | `Hexdump.C60_violated`, `Hexdump.C60_memory_violated` |
| C61 | a valid/ready signal that is named but not listed is added to the required signals letter by letter (`signals += name`), so the component cannot be attached | `DefineStream.C61_violated` |
| C104, C107, C110 | AXI, AXI-lite and APB slaves read entire bus words: if a region (say of 6 bytes on a 4-byte bus) ends inside a word, data that was written there with OKAY is read as SLVERR and zeros | `AxiSys.C104_violated`, `LiteOps.C107_violated`, `Apb.C110_violated` |
| C109 | without `pslverr`, failing APB accesses are reported as OKAY | `Apb.C109_without_pslverr` |
| C113 | `read_words`, `write_words` and the like on a bus master drop the response: failing accesses look successful | `Apb.C113_violated` |
| C117 | `write_byte` passes a list; on `MemoryRegion` with an `mmap` (the default, also of `Pool.alloc_region`) and on `Memory` with an `mmap` it always raises `TypeError` | `AddressSpace.C117_violated`, `Memory.C117_memory_violated` |
| C118 | `AddressSpace.write` and `Window.write` drop what the `write` of a bus master returns: writes flushed by a reset (`None`) and error responses look like success | `C118_write_lost_violation`, `C118_error_swallowed_violation` |
| C122 | a sink that is paused or full when it takes the last beat of a frame goes to sleep; `idle()` stays false until it is woken, although nothing is being received | `Axis.C122_sink_violated` |
| C128 | `sim_time_start`/`sim_time_end` of a sent frame are when it is taken from the queue and when its last beat is put on the bus, not the first and last transfer cycle that the README promises | `Axis.C128_violated` |
| C130 | a `byte_size` that does not divide the width of `tdata` is silently replaced by another one if the lanes it gives divide the width (20 bits, `byte_size=8`: two lanes of 10 bits) | `Axis.C130_violated` |
| C131 | `define_stream` adds entries to the caller's `signal_widths` dict and extends the caller's `signals` list | `DefineStream.C131_violated` |
| C132 | a reset of the master alone leaves transactions at the slave (and vice versa), which are paired with those of later operations: data goes to the address of a flushed write, a read gets the data of a flushed read, all with OKAY | `LiteOps.C132_violated` |
| C133 | APB: after a reset of the master alone during an access, the slave's late `pready` completes the next transfer, which is never performed (OKAY is reported); after a reset of the slave alone, an access that it has performed already is performed again | `Apb.C133_violated` |
| C135 | AXI stream: after a reset of the source alone in the middle of a frame, the sink joins the beats it has with the next frame; after a reset of the sink alone, it makes a frame of the remaining beats | `Axis.C135_violated_source`, `Axis.C135_violated_sink` |
| C136 | as C132, for AXI: a later write is reported complete with OKAY while its data is at the address of the flushed one, a later read returns the data of the flushed one, or the `wlast` assertion of the slave fails and it stops working (IDs do not help: a reset also restarts the IDs) | `AxiSys.C136_violated` |
| C140 | as C132, cycle by cycle | `LiteOps.C140_violated` |
| C141 | as C136, cycle by cycle | `AxiSys.C141_violated` |
| C142 | without `bresp`/`rresp` (optional signals), a failed operation is reported as OKAY | `Wiring.C142_violated` |
| C143 | a negative index into a sparse memory (or a region over one) raises `ValueError`; iterating over one always ends with `ValueError`, as the end is not signalled by `IndexError` | `RegionIndex.C143_negative_violated`, `RegionIndex.C143_iterate_violated` |
| C144 | frames constructed from sideband lists keep the lists themselves, so that `compact()` of one changes another and the caller's lists; `send` of a generic stream queues the object, not a copy | `Alias.C144_shared_violated`, `Alias.C144_stream_violated` |
| C145 | two `read(count)` calls wait: a frame wakes one of them, and the other stays suspended although bytes are left over; a later `recv()` can overtake a woken one, any number of times | `Readers.C145_read_violated`, `Readers.C145_order_violated` |
| C139 | an AXI interface of 24 data bits is accepted by `AxiMaster` and `AxiSlave`, although every default write on it fails an assertion of the slave; an APB interface whose `prdata` has another width than `pwdata` is accepted | `Wiring.C139_violated`, `Wiring.C139_violated_apb` |
| C62 | plain (non-async) peripherals are called twice per access | `C62_violated` |
| C63 | a region may extend past the end of its address space | `AddressSpace.C63_violated` |

## 6. Axioms

`scripts/axioms.sh` prints the axioms of every theorem named in `MANIFEST.json`; all are within
`propext`, `Classical.choice`, `Quot.sound`. No `sorry`, no `native_decide`, no `bv_decide`, no own axioms.
