{"id": "C01", "title": "SparseMemory behaves as one flat zero-initialised byte array", "statement": "For any history of write() and clear() calls on a SparseMemory, read(a, n) of an in-range window returns, for each byte, the value most recently written to that address since the last clear(), or 0 if there is none; in particular a write changes exactly the bytes it covers, across any number of 4096-byte block boundaries.", "quantifier": "all memory sizes, all operation histories, all addresses, lengths and data", "why_tests_cant": "The input/history space is unbounded; a test samples a few points of it.", "anchors": ["cocotbext/axi/sparse_memory.py:SparseMemory.read", "cocotbext/axi/sparse_memory.py:SparseMemory.write", "cocotbext/axi/sparse_memory.py:SparseMemory.clear"]}
{"id": "C02", "title": "SparseMemory rejects out-of-range operations and they have no effect", "statement": "read(a,n) and write(a,d) raise ValueError exactly when a<0, a>=size, (n<0), or a+n>size (this includes a zero-length access at a==size), and a rejected write leaves every later read unchanged.", "quantifier": "all sizes, all integer addresses and lengths (negative included), all states", "why_tests_cant": "The input/history space is unbounded; a test samples a few points of it.", "anchors": ["cocotbext/axi/sparse_memory.py:SparseMemory.read", "cocotbext/axi/sparse_memory.py:SparseMemory.write"]}
{"id": "C03", "title": "SparseMemory indexing and slicing follow Python sequence semantics on the flat array", "statement": "mem[i], mem[i]=v, mem[i:j] and mem[i:j]=v on a SparseMemory agree with the flat byte array of C01 under Python's slice-clamping rules (negative and omitted bounds included); wrong-size slice assignment and any step other than 1 are rejected without effect.", "quantifier": "all sizes, all (possibly negative or missing) slice bounds, all values, all states", "why_tests_cant": "The input/history space is unbounded; a test samples a few points of it.", "anchors": ["cocotbext/axi/sparse_memory.py:SparseMemory.__getitem__", "cocotbext/axi/sparse_memory.py:SparseMemory.__setitem__"]}
{"id": "C04", "title": "Word accesses round-trip and are byte-order exact", "statement": "Memory.write_words(a, ws_list, byteorder, ws) followed by read_words(a, n, byteorder, ws) returns the same words, for little and big endian and every word size; the byte stored at a+k*ws+i is digit i (or ws-1-i) base 256 of word k; a word that does not fit raises OverflowError and the memory is unchanged.", "quantifier": "all word lists, word sizes, byte orders, addresses in range, memory states", "why_tests_cant": "The input/history space is unbounded; a test samples a few points of it.", "anchors": ["cocotbext/axi/memory.py:Memory.write_words", "cocotbext/axi/memory.py:Memory.read_words"]}
{"id": "C05", "title": "A RAM of any advertised size can be constructed", "statement": "Memory(size) (and hence AxiRam/AxiLiteRam/ApbRam) succeeds for every documented size, including the default 2**64. (False of the code: len() of a size >= 2**63 raises OverflowError.)", "quantifier": "all sizes", "why_tests_cant": "Tests only construct small memories", "anchors": ["cocotbext/axi/memory.py:Memory.__init__", "cocotbext/axi/sparse_memory.py:SparseMemory.__len__", "cocotbext/axi/axi_ram.py:AxiRam.__init__"]}
{"id": "C06", "title": "Allocated blocks are naturally aligned, large enough and disjoint from every live block", "statement": "After any history of alloc/free calls, a successful alloc(n) returns an address aligned to the block size 2**ceil(log2(max(n,min_alloc))) and that block is disjoint from every other live block.", "quantifier": "all allocator sizes, min_alloc values, operation histories and request sizes", "why_tests_cant": "The input/history space is unbounded; a test samples a few points of it.", "anchors": ["cocotbext/axi/buddy_allocator.py:BuddyAllocator.alloc"]}
{"id": "C07", "title": "Free space and live blocks always partition the arena", "statement": "After any history, every address of [0, 2**k) (k = bit length of size-1) is in exactly one free block or live allocation; nothing is leaked or duplicated.", "quantifier": "all histories of alloc/free, failed calls included", "why_tests_cant": "The input/history space is unbounded; a test samples a few points of it.", "anchors": ["cocotbext/axi/buddy_allocator.py:BuddyAllocator.alloc", "cocotbext/axi/buddy_allocator.py:BuddyAllocator.free"]}
{"id": "C08", "title": "Freeing everything restores the fresh allocator, in any order", "statement": "Whenever all live blocks have been freed - in whatever order, after whatever history - the allocator is back to its initial state (one maximal free block, all else empty), so fragmentation never persists.", "quantifier": "all histories that end with no live allocation", "why_tests_cant": "The input/history space is unbounded; a test samples a few points of it.", "anchors": ["cocotbext/axi/buddy_allocator.py:BuddyAllocator.free"]}
{"id": "C09", "title": "alloc fails only when no suitable aligned free space exists", "statement": "alloc(n) with n in range raises 'out of memory' if and only if there is no aligned address range of the rounded size inside the arena that is disjoint from every live block.", "quantifier": "all reachable allocator states and request sizes", "why_tests_cant": "The input/history space is unbounded; a test samples a few points of it.", "anchors": ["cocotbext/axi/buddy_allocator.py:BuddyAllocator.alloc"]}
{"id": "C10", "title": "Allocations stay inside the managed size", "statement": "For an allocator of size S, every block handed out lies in [0,S). (True when S is a power of two; false of the code otherwise.)", "quantifier": "all sizes and histories", "why_tests_cant": "Tests use a power-of-two size", "anchors": ["cocotbext/axi/buddy_allocator.py:BuddyAllocator.__init__", "cocotbext/axi/buddy_allocator.py:BuddyAllocator.alloc"]}
{"id": "C11", "title": "Invalid frees are rejected without effect and valid frees never fail", "statement": "free(addr) raises ValueError and changes nothing exactly when addr is not the address of a live allocation (double free included); freeing a live block never raises and removes exactly that block.", "quantifier": "all reachable states and all addresses", "why_tests_cant": "The input/history space is unbounded; a test samples a few points of it.", "anchors": ["cocotbext/axi/buddy_allocator.py:BuddyAllocator.free"]}
{"id": "C12", "title": "Bounds checking admits exactly the in-range accesses", "statement": "MemoryInterface.read/write/create_window/create_window_pool accept (address, length) iff 0<=address<size, length>=0 and address+length<=size; otherwise ValueError is raised and the backing store is not accessed.", "quantifier": "all integer addresses and lengths, all interface sizes", "why_tests_cant": "The input/history space is unbounded; a test samples a few points of it.", "anchors": ["cocotbext/axi/address_space.py:MemoryInterface.check_range", "cocotbext/axi/address_space.py:MemoryInterface.read", "cocotbext/axi/address_space.py:MemoryInterface.write"]}
{"id": "C13", "title": "A window is a confined, translated view of its parent", "statement": "Through any chain of nested windows, read/write at a is the same operation at a + (sum of offsets) on the root, and no access through a window can touch a root byte outside the window's range.", "quantifier": "all nesting depths, offsets, sizes, addresses, data", "why_tests_cant": "The input/history space is unbounded; a test samples a few points of it.", "anchors": ["cocotbext/axi/address_space.py:Window._read", "cocotbext/axi/address_space.py:Window._write", "cocotbext/axi/address_space.py:MemoryInterface.create_window"]}
{"id": "C14", "title": "Absolute addresses compose", "statement": "For any chain of windows, get_absolute_address(a) equals the root's absolute address of the translated address (or None when the root has no base), and is rejected exactly when a is out of the window.", "quantifier": "all nesting depths, offsets and addresses", "why_tests_cant": "The input/history space is unbounded; a test samples a few points of it.", "anchors": ["cocotbext/axi/address_space.py:MemoryInterface.get_absolute_address", "cocotbext/axi/address_space.py:MemoryInterface.create_window"]}
{"id": "C15", "title": "Regions registered with an AddressSpace never overlap", "statement": "After any history of register_region calls (failed ones included) no two registered regions of nonzero size share an address, and a registration is rejected (ValueError, nothing changed) iff the requested range overlaps an existing region, its base is outside the space or its size is negative.", "quantifier": "all registration histories", "why_tests_cant": "The input/history space is unbounded; a test samples a few points of it.", "anchors": ["cocotbext/axi/address_space.py:AddressSpace.register_region", "cocotbext/axi/address_space.py:AddressSpace.find_regions"]}
{"id": "C16", "title": "AddressSpace routes every byte to the one region that owns it", "statement": "A successful AddressSpace read of [a,a+n) returns, byte for byte, what the owning regions hold at the translated addresses (offset/None rules), and a successful write updates exactly those bytes, for accesses spanning any number of adjacent regions, registered in any order.", "quantifier": "all region maps, registration orders, addresses, lengths, data", "why_tests_cant": "The input/history space is unbounded; a test samples a few points of it.", "anchors": ["cocotbext/axi/address_space.py:AddressSpace.read", "cocotbext/axi/address_space.py:AddressSpace.write", "cocotbext/axi/address_space.py:AddressSpace.find_regions"]}
{"id": "C17", "title": "Accesses touching unmapped addresses are rejected; the effect of a rejected write is an exact prefix", "statement": "An AddressSpace access succeeds iff every byte of [a,a+n) is mapped (and accepted by its region); if it hits a hole it raises, and a rejected write has modified exactly the bytes before the hole (it is not atomic).", "quantifier": "all region maps and accesses", "why_tests_cant": "The input/history space is unbounded; a test samples a few points of it.", "anchors": ["cocotbext/axi/address_space.py:AddressSpace.read", "cocotbext/axi/address_space.py:AddressSpace.write"]}
{"id": "C18", "title": "Pool and WindowPool allocations never collide", "statement": "Regions obtained from Pool.alloc_region (windows from WindowPool.alloc_window) occupy pairwise disjoint naturally aligned ranges, and alloc_region on a pool used only through alloc_region never fails with 'overlaps existing region'.", "quantifier": "all allocation histories", "why_tests_cant": "The input/history space is unbounded; a test samples a few points of it.", "anchors": ["cocotbext/axi/address_space.py:Pool.alloc_region", "cocotbext/axi/address_space.py:WindowPool.alloc_window"]}
{"id": "C19", "title": "read_byte returns the byte on every MemoryInterface", "statement": "MemoryInterface.read_byte(a) returns the same byte as read(a,1). (Holds for interfaces whose read() returns a response tuple; false of the code for those returning bytes - MemoryRegion, SparseMemoryRegion, Window over them, AddressSpace - where it raises AttributeError.)", "quantifier": "all interfaces and addresses", "why_tests_cant": "Only the master classes' read_byte is tested", "anchors": ["cocotbext/axi/address_space.py:MemoryInterface.read_byte"]}
{"id": "C20", "title": "Every burst issued by AxiMaster is legal", "statement": "For every INCR read or write request, each issued burst has 1 <= beats <= min(max_burst_len,256), does not cross a 4 KiB boundary, and the bursts tile the request's beats in order without gap or overlap.", "quantifier": "all addresses, lengths, burst sizes, bus widths, max_burst_len", "why_tests_cant": "The input/history space is unbounded; a test samples a few points of it.", "anchors": ["cocotbext/axi/axi_master.py:AxiMasterWrite._process_write", "cocotbext/axi/axi_master.py:AxiMasterRead._process_read"]}
{"id": "C21", "title": "INCR write data reaches exactly the right byte lanes", "statement": "Over the whole request, the strobed (address,byte) pairs presented on AW/W, decoded by the AXI address rules, are exactly (address+i, data[i]) for i<len(data), each once, in order; every unstrobed lane carries no data.", "quantifier": "all addresses, data, burst sizes, bus widths, max_burst_len", "why_tests_cant": "The input/history space is unbounded; a test samples a few points of it.", "anchors": ["cocotbext/axi/axi_master.py:AxiMasterWrite._process_write"]}
{"id": "C22", "title": "WLAST framing matches AWLEN", "statement": "The W beats of a request split into groups of awlen+1 in burst order and wlast is set exactly on the last beat of each group; the number of B responses awaited equals the number of AW bursts issued.", "quantifier": "all write requests", "why_tests_cant": "The input/history space is unbounded; a test samples a few points of it.", "anchors": ["cocotbext/axi/axi_master.py:AxiMasterWrite._process_write"]}
{"id": "C23", "title": "AxiMaster.write to an AxiRam stores exactly the data", "statement": "Executing the generated bursts on AxiRam(size) (address range within the RAM) leaves memory equal to the old memory with data at [address,address+len) and nothing else changed, with every response OKAY.", "quantifier": "all addresses, data, narrow sizes, bus widths, max_burst_len, RAM contents", "why_tests_cant": "The input/history space is unbounded; a test samples a few points of it.", "anchors": ["cocotbext/axi/axi_master.py:AxiMasterWrite", "cocotbext/axi/axi_slave.py:AxiSlaveWrite._process_write", "cocotbext/axi/axi_ram.py:AxiRamWrite"]}
{"id": "C24", "title": "AxiMaster.read from an AxiRam returns exactly the memory bytes", "statement": "The response data of a read request served by AxiRam is exactly the bytes [address,address+length), and the response is OKAY; so a read after a write returns the written data.", "quantifier": "all addresses, lengths, narrow sizes, bus widths, max_burst_len, RAM contents", "why_tests_cant": "The input/history space is unbounded; a test samples a few points of it.", "anchors": ["cocotbext/axi/axi_master.py:AxiMasterRead", "cocotbext/axi/axi_slave.py:AxiSlaveRead._process_read", "cocotbext/axi/axi_ram.py:AxiRamRead"]}
{"id": "C25", "title": "Slave write: strobes select exactly the bytes written", "statement": "For each W beat the slave's target writes have the net effect: byte i of the addressed word is replaced by byte i of wdata iff wstrb bit i is set; runs of set strobes become single writes, ascending, non-overlapping; if a target write raises, the burst's response is SLVERR, otherwise OKAY.", "quantifier": "all word widths, strobes, data, target behaviours", "why_tests_cant": "The input/history space is unbounded; a test samples a few points of it.", "anchors": ["cocotbext/axi/axi_slave.py:AxiSlaveWrite._process_write", "cocotbext/axi/axil_slave.py:AxiLiteSlaveWrite._process_write", "cocotbext/axi/apb.py:ApbSlave._run"]}
{"id": "C26", "title": "Slave read bursts are well formed", "statement": "For every AR accepted, AxiSlaveRead sends exactly arlen+1 beats, all with rid=arid, rlast exactly on the last, each carrying the target's word at the beat address, with SLVERR and zero data exactly on the beats whose target read raised.", "quantifier": "all AR beats (FIXED/INCR/WRAP), all targets", "why_tests_cant": "The input/history space is unbounded; a test samples a few points of it.", "anchors": ["cocotbext/axi/axi_slave.py:AxiSlaveRead._process_read"]}
{"id": "C27", "title": "FIXED bursts access only the addressed location", "statement": "A FIXED-type write only ever strobes lanes belonging to the addressed container of 2**size bytes. (Holds when 2**size is the full bus width; false of the code for narrow FIXED bursts, whose lanes advance.)", "quantifier": "all FIXED requests", "why_tests_cant": "FIXED bursts are not exercised by the test-suite", "anchors": ["cocotbext/axi/axi_master.py:AxiMasterWrite._process_write"]}
{"id": "C28", "title": "The slave's WRAP and INCR address sequences follow the AXI specification", "statement": "Beat n of an accepted burst is served at the address given by the AXI formulae: INCR aligned+n*nb; FIXED constant; WRAP lower+((aligned-lower)+n*nb mod total).", "quantifier": "all addresses, burst lengths, sizes and beat numbers", "why_tests_cant": "The input/history space is unbounded; a test samples a few points of it.", "anchors": ["cocotbext/axi/axi_slave.py:AxiSlaveWrite._process_write", "cocotbext/axi/axi_slave.py:AxiSlaveRead._process_read"]}
{"id": "C29", "title": "Accepted requests are representable on the bus", "statement": "A read/write request accepted by AxiMaster has an in-range address span, burst size not above the bus width and an ID below 2**id_width; all others raise ValueError and issue nothing. (ID part false of the code: id == 2**id_width is accepted.)", "quantifier": "all argument values", "why_tests_cant": "The input/history space is unbounded; a test samples a few points of it.", "anchors": ["cocotbext/axi/axi_master.py:AxiMasterWrite.write", "cocotbext/axi/axi_master.py:AxiMasterRead.read"]}
{"id": "C30", "title": "Response aggregation reports errors", "statement": "The resp of a completed AxiMaster/AxiLiteMaster operation is OKAY iff every burst/beat responded OKAY, and otherwise is the last non-OKAY response; a SLVERR/DECERR is never hidden. (Last part false of the code when an EXOKAY follows an error.)", "quantifier": "all response sequences", "why_tests_cant": "The input/history space is unbounded; a test samples a few points of it.", "anchors": ["cocotbext/axi/axi_master.py:AxiMasterWrite._process_write_resp_id", "cocotbext/axi/axi_master.py:AxiMasterRead._process_read_resp_id", "cocotbext/axi/axil_master.py:AxiLiteMasterWrite._process_write_resp"]}
{"id": "C31", "title": "Auto-assigned IDs are round-robin and uniform within an operation", "statement": "Every burst of one operation carries the same ID; the j-th auto-ID operation after reset gets ID j mod 2**id_width irrespective of interleaved explicit-ID operations.", "quantifier": "all operation sequences and ID widths", "why_tests_cant": "The input/history space is unbounded; a test samples a few points of it.", "anchors": ["cocotbext/axi/axi_master.py:AxiMasterWrite._process_write", "cocotbext/axi/axi_master.py:AxiMasterRead._process_read"]}
{"id": "C32", "title": "Responses are matched to operations for every reordering across IDs", "statement": "For any interleaving of command issue, response arrival and scheduling of the per-ID workers, each operation completes with exactly its own responses: for every ID, the i-th command of that ID gets the i-th block of that ID's response stream, regardless of traffic on other IDs and of context reuse.", "quantifier": "all histories of start/response/worker-scheduling events over any number of IDs", "why_tests_cant": "The interleavings are unbounded; tests see the one order the simulator produces", "anchors": ["cocotbext/axi/axi_master.py:TagContextManager", "cocotbext/axi/axi_master.py:TagContext"]}
{"id": "C33", "title": "idle()/wait() reflect outstanding operations", "statement": "idle() is true iff every operation issued through write()/read() has completed or been flushed. (For init_write/init_read it is false of the code: idle() is still true, and wait() returns at once, until the scheduler runs the wrapper.)", "quantifier": "all histories of issue/complete/reset", "why_tests_cant": "The input/history space is unbounded; a test samples a few points of it.", "anchors": ["cocotbext/axi/axi_master.py:AxiMasterWrite.idle", "cocotbext/axi/axi_master.py:AxiMasterWrite.init_write", "cocotbext/axi/axi_master.py:AxiMasterWrite.wait"]}
{"id": "C34", "title": "Reset completes every outstanding operation", "statement": "When reset is asserted at any point, every issued and not yet completed operation's waiter is released (with None), none is left hanging, and afterwards the master is idle with its ID state as new.", "quantifier": "all crash points: any point in any history of issue/process/response events", "why_tests_cant": "The reset can strike between any two scheduler steps", "anchors": ["cocotbext/axi/axi_master.py:AxiMasterWrite._handle_reset", "cocotbext/axi/axi_master.py:TagContextManager.flush", "cocotbext/axi/axil_master.py:AxiLiteMasterWrite._handle_reset"]}
{"id": "C35", "title": "Reset never alters the result of a completed operation", "statement": "An operation whose result has been delivered keeps that result across a later reset. (True of AXI and AXI-lite masters; false of ApbMaster, which leaves the completed command as current and re-signals it with None.)", "quantifier": "all histories with reset at any point", "why_tests_cant": "Requires reset exactly after a completion", "anchors": ["cocotbext/axi/apb.py:ApbMaster._run", "cocotbext/axi/apb.py:ApbMaster._handle_reset", "cocotbext/axi/axil_master.py:AxiLiteMasterWrite._handle_reset"]}
{"id": "C36", "title": "AxiLiteMaster.write to an AxiLiteRam stores exactly the data", "statement": "Serving the beats of a write on AxiLiteRam leaves memory equal to the old memory with data at [address,address+len) and nothing else changed, response OKAY; one response is awaited per beat.", "quantifier": "all addresses, data, bus widths, RAM contents", "why_tests_cant": "The input/history space is unbounded; a test samples a few points of it.", "anchors": ["cocotbext/axi/axil_master.py:AxiLiteMasterWrite._process_write", "cocotbext/axi/axil_slave.py:AxiLiteSlaveWrite._process_write"]}
{"id": "C37", "title": "AxiLiteMaster.read from an AxiLiteRam returns exactly the memory bytes", "statement": "The data returned by read(address,length) served by AxiLiteRam is exactly the bytes [address,address+length).", "quantifier": "all addresses, lengths, bus widths, RAM contents", "why_tests_cant": "The input/history space is unbounded; a test samples a few points of it.", "anchors": ["cocotbext/axi/axil_master.py:AxiLiteMasterRead._process_read", "cocotbext/axi/axil_master.py:AxiLiteMasterRead._process_read_resp", "cocotbext/axi/axil_slave.py:AxiLiteSlaveRead._process_read"]}
{"id": "C38", "title": "AXI-lite operations complete in issue order with their own responses", "statement": "For any schedule of issuing, sending and responding, operation i of an AxiLiteMaster completes with exactly its own block of the response stream and completions occur in issue order.", "quantifier": "all schedules", "why_tests_cant": "The input/history space is unbounded; a test samples a few points of it.", "anchors": ["cocotbext/axi/axil_master.py:AxiLiteMasterWrite._process_write", "cocotbext/axi/axil_master.py:AxiLiteMasterWrite._process_write_resp"]}
{"id": "C39", "title": "ApbMaster obeys the APB protocol", "statement": "In every clock-level execution penable is asserted only after psel has been asserted for a cycle, is deasserted after each completed access, and address/control/write data are stable from setup until pready.", "quantifier": "all command sequences, pause schedules and slave ready behaviours", "why_tests_cant": "The input/history space is unbounded; a test samples a few points of it.", "anchors": ["cocotbext/axi/apb.py:ApbMaster._run"]}
{"id": "C40", "title": "ApbMaster and ApbSlave perform every transfer exactly once", "statement": "With ApbMaster connected to ApbSlave/ApbRam under any pause schedules of both, the slave performs exactly one target access per master transfer, in order, and the master gets that access's data and error.", "quantifier": "all command sequences and pause schedules", "why_tests_cant": "The input/history space is unbounded; a test samples a few points of it.", "anchors": ["cocotbext/axi/apb.py:ApbMaster._run", "cocotbext/axi/apb.py:ApbSlave._run"]}
{"id": "C41", "title": "APB write and read are exact on an ApbRam", "statement": "An ApbMaster write on ApbRam stores exactly the data and nothing else; a read returns exactly the memory bytes.", "quantifier": "all addresses, data, lengths, widths, RAM contents", "why_tests_cant": "The input/history space is unbounded; a test samples a few points of it.", "anchors": ["cocotbext/axi/apb.py:ApbMaster._run", "cocotbext/axi/apb.py:ApbRam"]}
{"id": "C42", "title": "A stream source holds VALID and payload until the handshake", "statement": "Once a StreamSource (AW/W/B/AR/R channel) presents a valid item it keeps valid asserted and the payload unchanged on every cycle until ready is sampled, whatever send/pause/clear calls happen meanwhile (only reset may withdraw it).", "quantifier": "all schedules of sends, pauses, clears and ready behaviour", "why_tests_cant": "The input/history space is unbounded; a test samples a few points of it.", "anchors": ["cocotbext/axi/stream.py:StreamSource._run"]}
{"id": "C43", "title": "Channel transfer is exactly-once and in order", "statement": "For a StreamSource connected to a StreamSink, at any time the items sent are: those received, then at most one on the bus, then those queued - no loss, duplication or reordering - under every pause/backpressure/consumer schedule and every ordering of the coroutines within a clock edge.", "quantifier": "all schedules", "why_tests_cant": "The input/history space is unbounded; a test samples a few points of it.", "anchors": ["cocotbext/axi/stream.py:StreamSource._run", "cocotbext/axi/stream.py:StreamSink._run"]}
{"id": "C44", "title": "A sink never sleeps through a transfer and never overruns its queue limit", "statement": "Whatever drives valid, a StreamSink captures every cycle in which valid and ready are both high, and with queue_occupancy_limit L>0 its queue never holds more than L items.", "quantifier": "all drivers and schedules", "why_tests_cant": "The input/history space is unbounded; a test samples a few points of it.", "anchors": ["cocotbext/axi/stream.py:StreamSink._run", "cocotbext/axi/stream.py:StreamSink.full"]}
{"id": "C45", "title": "A sink becomes ready again whenever it is neither paused nor full", "statement": "A StreamSink that is neither paused nor full asserts ready within two clock edges. (Holds for recv/pause histories; false of the code after clear() on a full sink, which is never woken.)", "quantifier": "all schedules", "why_tests_cant": "The input/history space is unbounded; a test samples a few points of it.", "anchors": ["cocotbext/axi/stream.py:StreamSink._run", "cocotbext/axi/stream.py:StreamBase.clear"]}
{"id": "C46", "title": "Source queue limit and send_nowait", "statement": "With queue_occupancy_limit L>0 a StreamSource queue never exceeds L, whatever number of concurrent senders; send_nowait raises QueueFull iff count()>=L and then changes nothing.", "quantifier": "all histories and numbers of senders", "why_tests_cant": "The input/history space is unbounded; a test samples a few points of it.", "anchors": ["cocotbext/axi/stream.py:StreamSource.send", "cocotbext/axi/stream.py:StreamSource.send_nowait", "cocotbext/axi/stream.py:StreamSource.full"]}
{"id": "C47", "title": "idle() of a source means everything sent has been transferred", "statement": "When StreamSource.idle() is true (and no reset/clear intervened), every item sent has completed its handshake on the bus.", "quantifier": "all schedules", "why_tests_cant": "The input/history space is unbounded; a test samples a few points of it.", "anchors": ["cocotbext/axi/stream.py:StreamSource.idle"]}
{"id": "C48", "title": "A monitor records exactly the bus transfers", "statement": "A StreamMonitor's received items are exactly the payloads of the cycles where valid and ready were both high, in order, for arbitrary drivers, without disturbing the bus.", "quantifier": "all bus waveforms", "why_tests_cant": "The input/history space is unbounded; a test samples a few points of it.", "anchors": ["cocotbext/axi/stream.py:StreamMonitor._run"]}
{"id": "C49", "title": "AXI stream frames survive source-to-sink transfer", "statement": "A non-empty frame sent by AxiStreamSource and received by AxiStreamSink over a bus with tkeep and tlast yields, after compaction, exactly the kept bytes in order with scalar tid/tdest/tuser preserved; without tkeep the frame is zero-padded to a whole number of beats.", "quantifier": "all frames, widths, byte sizes", "why_tests_cant": "The input/history space is unbounded; a test samples a few points of it.", "anchors": ["cocotbext/axi/axis.py:AxiStreamSource._run", "cocotbext/axi/axis.py:AxiStreamSink._run", "cocotbext/axi/axis.py:AxiStreamFrame.compact"]}
{"id": "C50", "title": "normalize() gives every sideband the length of tdata", "statement": "After AxiStreamFrame.normalize() tkeep, tid, tdest, tuser all have len(tdata) entries, with list prefixes kept and the last element (or the scalar, or the default) replicated; it is idempotent on non-empty frames; it raises exactly when a sideband is given as an empty list (or tkeep as an int).", "quantifier": "all frames", "why_tests_cant": "The input/history space is unbounded; a test samples a few points of it.", "anchors": ["cocotbext/axi/axis.py:AxiStreamFrame.normalize"]}
{"id": "C51", "title": "compact() keeps exactly the tkeep-enabled bytes", "statement": "AxiStreamFrame.compact() on a received frame retains exactly the bytes (and their sideband entries) with tkeep set, in order, and collapses constant sidebands to a scalar and empty ones to None.", "quantifier": "all frames", "why_tests_cant": "The input/history space is unbounded; a test samples a few points of it.", "anchors": ["cocotbext/axi/axis.py:AxiStreamFrame.compact"]}
{"id": "C52", "title": "Frame equality is reflexive and symmetric", "statement": "AxiStreamFrame.__eq__ is reflexive and symmetric (it is not transitive, because None and scalar sidebands act as wildcards).", "quantifier": "all frames", "why_tests_cant": "The input/history space is unbounded; a test samples a few points of it.", "anchors": ["cocotbext/axi/axis.py:AxiStreamFrame.__eq__"]}
{"id": "C53", "title": "tx_complete is signalled exactly once per frame", "statement": "Every non-empty frame accepted by AxiStreamSource is at any time either queued, in transmission, or has had tx_complete signalled exactly once - through normal transmission, clear() and reset. (False of the code for empty frames: never signalled.)", "quantifier": "all histories of send/clock/pause/clear/reset", "why_tests_cant": "The input/history space is unbounded; a test samples a few points of it.", "anchors": ["cocotbext/axi/axis.py:AxiStreamSource._run", "cocotbext/axi/axis.py:AxiStreamSource._handle_reset", "cocotbext/axi/axis.py:AxiStreamBase.clear"]}
{"id": "C54", "title": "Queue occupancy counters are exact", "statement": "queue_occupancy_frames and queue_occupancy_bytes always equal the number of queued frames and the sum of their lengths, for source, sink and monitor.", "quantifier": "all histories of send/clock/recv/clear/reset", "why_tests_cant": "The input/history space is unbounded; a test samples a few points of it.", "anchors": ["cocotbext/axi/axis.py:AxiStreamSource.send", "cocotbext/axi/axis.py:AxiStreamMonitor._recv", "cocotbext/axi/axis.py:AxiStreamBase.clear"]}
{"id": "C55", "title": "AXI stream queue limits bound the queue", "statement": "With queue_occupancy_limit_frames = L>0 the queue never holds more than L frames. (False of the code, which compares with '>': the bound that holds, and is attained, is L+1.)", "quantifier": "all histories", "why_tests_cant": "The input/history space is unbounded; a test samples a few points of it.", "anchors": ["cocotbext/axi/axis.py:AxiStreamSource.full", "cocotbext/axi/axis.py:AxiStreamSink.full"]}
{"id": "C56", "title": "read()/read_nowait() deliver the byte stream without loss", "statement": "The concatenation of the results of any sequence of read_nowait(count) calls is a prefix of the concatenated compacted tdata of the received frames, and together with the remaining buffer equals it.", "quantifier": "all frame sequences and read counts, interleaved arbitrarily", "why_tests_cant": "The input/history space is unbounded; a test samples a few points of it.", "anchors": ["cocotbext/axi/axis.py:AxiStreamMonitor.read_nowait"]}
{"id": "C57", "title": "AXI stream source holds TVALID and payload, and transmits every frame's beats in order", "statement": "AxiStreamSource keeps a presented beat stable until tready is sampled; the sequence of beats transferred is exactly the beats of the accepted frames in order, under any pause and backpressure schedule.", "quantifier": "all schedules", "why_tests_cant": "The input/history space is unbounded; a test samples a few points of it.", "anchors": ["cocotbext/axi/axis.py:AxiStreamSource._run"]}
{"id": "C58", "title": "Component reset state is the OR of local and external reset", "statement": "After any history of assert_reset calls and reset-signal edges, the component is in reset iff the local flag is set or the signal's last resolvable value is at the active level, and the reset handler has been invoked exactly once per change, alternating.", "quantifier": "all histories of assert_reset and signal edges (unresolvable values included)", "why_tests_cant": "The input/history space is unbounded; a test samples a few points of it.", "anchors": ["cocotbext/axi/reset.py:Reset"]}
{"id": "C59", "title": "A component constructed while its reset signal is active starts in reset", "statement": "(False of the code: only edges are observed, so it starts running until the first edge; stated and refuted.)", "quantifier": "all initial signal levels", "why_tests_cant": "Tests start with an undriven reset", "anchors": ["cocotbext/axi/reset.py:Reset._init_reset", "cocotbext/axi/reset.py:Reset._run_reset"]}
{"id": "C60", "title": "Hex dumps show every byte exactly once at the right offset", "statement": "hexdump_lines(data,start,length,row_size) has one line per row; row i is labelled with its offset and contains exactly the bytes of that row; decoding the hex columns of all lines gives back exactly the requested slice.", "quantifier": "all data, starts, lengths, row sizes", "why_tests_cant": "The input/history space is unbounded; a test samples a few points of it.", "anchors": ["cocotbext/axi/utils.py:hexdump_line", "cocotbext/axi/utils.py:hexdump_lines"]}
{"id": "C61", "title": "define_stream partitions signals", "statement": "The transaction fields of a stream type are exactly the given signals and optional signals minus the valid and ready signals, and the detected valid/ready signal is the last whose name ends in 'valid'/'ready'; an explicitly named valid signal that is not listed should be added to the bus. (Last part false: its characters are added one by one.)", "quantifier": "all signal lists", "why_tests_cant": "The input/history space is unbounded; a test samples a few points of it.", "anchors": ["cocotbext/axi/stream.py:define_stream"]}
{"id": "C62", "title": "A PeripheralRegion access runs the peripheral's method exactly once", "statement": "Each accepted read/write through a PeripheralRegion executes the wrapped object's read/write exactly once and reports its outcome. (True for coroutine methods; false of the code for plain methods, which are run twice, because the await of the first call's result raises TypeError and the call is repeated.)", "quantifier": "all peripherals, addresses, data and states", "why_tests_cant": "Tests use idempotent targets, on which a duplicated access is invisible", "anchors": ["cocotbext/axi/address_space.py:PeripheralRegion._read", "cocotbext/axi/address_space.py:PeripheralRegion._write"]}
{"id": "C63", "title": "An AddressSpace only maps addresses inside itself", "statement": "Every registered region lies inside [0,size) of its address space. (False of the code: only the base is checked, so a region may extend past the end and be accessed there.)", "quantifier": "all registration histories", "why_tests_cant": "The input/history space is unbounded; a test samples a few points of it.", "anchors": ["cocotbext/axi/address_space.py:AddressSpace.register_region", "cocotbext/axi/address_space.py:AddressSpace.find_regions"]}
{"id": "C64", "title": "AxiRam executes any legal write traffic exactly", "statement": "Whatever master drives it, an AxiRam given AW/W traffic that is legal AXI (bursts of any type, size, alignment and length, arbitrary strobes, wlast on each burst's last beat) performs exactly the byte assignments that traffic stands for under the AXI address and lane rules, in order, and answers each burst with one OKAY response carrying its ID.", "quantifier": "all legal sequences of bursts of any type, all strobes and data, all RAM contents", "why_tests_cant": "The input/history space is unbounded; a test samples a few points of it.", "anchors": ["cocotbext/axi/axi_slave.py:AxiSlaveWrite._process_write", "cocotbext/axi/axi_ram.py:AxiRamWrite._write"]}
{"id": "C65", "title": "AxiSlave refuses illegal bursts", "statement": "A burst wider than the bus or an INCR burst crossing a 4 KiB boundary is refused (assertion) before any access to the target; a write burst whose wlast is on the wrong beat is refused at that beat, and no response is sent.", "quantifier": "all bursts, all targets, all W streams", "why_tests_cant": "The input/history space is unbounded; a test samples a few points of it.", "anchors": ["cocotbext/axi/axi_slave.py:AxiSlaveWrite._process_write", "cocotbext/axi/axi_slave.py:AxiSlaveRead._process_read"]}
{"id": "C66", "title": "A blocked send() never misses free space", "statement": "As long as a StreamSource.send() call is blocked and has not been signalled, the queue is full: no wake-up is lost, whatever number of senders compete and in whatever order they resume.", "quantifier": "all histories, any number of concurrent senders", "why_tests_cant": "The input/history space is unbounded; a test samples a few points of it.", "anchors": ["cocotbext/axi/stream.py:StreamSource.send", "cocotbext/axi/stream.py:StreamSource._run", "cocotbext/axi/stream.py:StreamBase.clear"]}
{"id": "C67", "title": "A source never stalls by itself", "statement": "A running, unpaused StreamSource with a queued item presents that item at the next clock edge unless the previous item is still waiting for ready.", "quantifier": "all histories", "why_tests_cant": "The input/history space is unbounded; a test samples a few points of it.", "anchors": ["cocotbext/axi/stream.py:StreamSource._run", "cocotbext/axi/stream.py:StreamSource.send"]}
{"id": "C68", "title": "A source connected to a sink delivers everything in bounded time", "statement": "With a StreamSource connected to a StreamSink, neither paused and the sink with room, an outstanding item reaches the sink within three clock cycles; with an unlimited sink, n outstanding items all arrive within 3n cycles (no deadlock, no lost wake-up).", "quantifier": "all clear-free histories, all coroutine orders", "why_tests_cant": "The input/history space is unbounded; a test samples a few points of it.", "anchors": ["cocotbext/axi/stream.py:StreamSource._run", "cocotbext/axi/stream.py:StreamSink._run"]}
{"id": "C69", "title": "wait() of a source returns exactly when it is idle", "statement": "StreamSource.wait() does not return while idle() is false. (True without clear(); false of the code after clear() with an item on the bus.)", "quantifier": "all histories", "why_tests_cant": "The input/history space is unbounded; a test samples a few points of it.", "anchors": ["cocotbext/axi/stream.py:StreamSource.wait", "cocotbext/axi/stream.py:StreamBase.clear"]}
{"id": "C70", "title": "The masters' response checks never accuse a correct slave", "statement": "In every history the internal burst-ID check of a response worker never fails; the check on arrival fails only if the slave has already sent every response it owes for that ID; a response that arrives while nothing is outstanding is rejected.", "quantifier": "all histories: all calls, response arrivals, resets and coroutine schedules", "why_tests_cant": "The input/history space is unbounded; a test samples a few points of it.", "anchors": ["cocotbext/axi/axi_master.py:AxiMasterWrite._process_write_resp", "cocotbext/axi/axi_master.py:AxiMasterWrite._process_write_resp_id", "cocotbext/axi/axi_master.py:AxiMasterRead._process_read_resp_id"]}
{"id": "C71", "title": "A response beyond those owed is detected", "statement": "(False of the code; refuted.) A response that the slave does not owe is rejected. In the code it is accepted if it arrives before the worker has consumed the last owed one, and becomes the response of the next operation with that ID.", "quantifier": "all histories", "why_tests_cant": "The input/history space is unbounded; a test samples a few points of it.", "anchors": ["cocotbext/axi/axi_master.py:AxiMasterWrite._process_write_resp", "cocotbext/axi/axi_master.py:TagContextManager.put_resp"]}
{"id": "C72", "title": "No AXI operation hangs while its responses arrive", "statement": "The master's own steps terminate, and when a running master has nothing left to do and the slave has sent every response it owes, every issued operation has completed (no deadlock, no operation lost between queue, issue and the per-ID workers).", "quantifier": "all histories", "why_tests_cant": "The input/history space is unbounded; a test samples a few points of it.", "anchors": ["cocotbext/axi/axi_master.py:AxiMasterWrite._process_write", "cocotbext/axi/axi_master.py:TagContext", "cocotbext/axi/axi_master.py:TagContextManager"]}
{"id": "C73", "title": "AXI-lite and APB slaves perform exactly the strobed bytes of each transfer", "statement": "A slave serving a write transfer on any target performs target writes that stand for exactly the strobed bytes of the addressed word (all bytes without a strobe signal), as separate runs in ascending order, stopping at the first exception, and answers OKAY or SLVERR accordingly; a read transfer reads the aligned word once and answers its bytes, or zero and SLVERR. An operation reports SLVERR iff one of its transfers failed.", "quantifier": "all transfers, bus widths, strobes, targets (including raising ones) and target states", "why_tests_cant": "The input/history space is unbounded; a test samples a few points of it.", "anchors": ["cocotbext/axi/axil_slave.py:AxiLiteSlaveWrite._process_write", "cocotbext/axi/axil_slave.py:AxiLiteSlaveRead._process_read", "cocotbext/axi/apb.py:ApbSlave._run"]}
{"id": "C74", "title": "Without a strobe signal a partial-word write pads with zeros", "statement": "On a bus without wstrb/pstrb, write(address,data) leaves data at the requested addresses and zero in all other bytes of the touched words, and changes nothing else (partial words are clobbered, not preserved).", "quantifier": "all addresses, data, bus widths, RAM contents", "why_tests_cant": "The input/history space is unbounded; a test samples a few points of it.", "anchors": ["cocotbext/axi/axil_master.py:AxiLiteMasterWrite._process_write", "cocotbext/axi/axil_slave.py:AxiLiteSlaveWrite._process_write"]}
{"id": "C75", "title": "Concurrent AXI-lite operations are executed exactly once, while outstanding", "statement": "With an AxiLiteMaster connected to an AXI-lite slave on any target, under every interleaving of calls, coroutine steps, channel deliveries and resets: each completed operation's transfers were served one by one, in order, each at an instant at which the operation was outstanding, and its responses are those the slave gave at these instants; and the target changes only when a transfer of an outstanding operation is served. Results are never changed later.", "quantifier": "all histories of the connected system, all slaves and targets", "why_tests_cant": "Unbounded interleavings of two concurrent pipelines with resets at any point", "anchors": ["cocotbext/axi/axil_master.py:AxiLiteMaster", "cocotbext/axi/axil_slave.py:AxiLiteSlave", "cocotbext/axi/axil_master.py:AxiLiteMasterWrite._process_write_resp"]}
{"id": "C76", "title": "AXI-lite accesses to a RAM are linearizable byte by byte", "statement": "In every history of an AxiLiteMaster connected to an AxiLiteRam: each byte a completed read returns is what the RAM held at some instant during the read (bytes of one word at the same instant, words in order); each byte of a completed write was stored at some instant during the write; and a RAM byte changes only while a write covering it is outstanding, to that write's byte.", "quantifier": "all histories of concurrent reads and writes of any size and alignment", "why_tests_cant": "Unbounded interleavings", "anchors": ["cocotbext/axi/axil_master.py:AxiLiteMaster", "cocotbext/axi/axil_slave.py:AxiLiteSlave", "cocotbext/axi/axil_ram.py"]}
{"id": "C77", "title": "A read issued after a write completed returns the written data", "statement": "If a write has completed and a read covering byte b is issued afterwards, and every other write covering b was issued before that write (whether completed or not, aborted by a reset or not), the read returns the written byte - whatever other traffic there is.", "quantifier": "all histories of concurrent reads and writes", "why_tests_cant": "Unbounded interleavings", "anchors": ["cocotbext/axi/axil_master.py:AxiLiteMaster", "cocotbext/axi/axil_slave.py:AxiLiteSlave"]}
{"id": "C78", "title": "APB operations complete within a bounded number of unpaused clock cycles", "statement": "With ApbMaster connected to ApbSlave out of reset, in any reachable state, let N be the number of transfers of the operations called since the last reset. After any sequence of clock cycles of which at least 2N+1 are without a pause of either side (and without delay of the target), every operation has completed and idle() is true - wherever the paused cycles fall.", "quantifier": "all reachable states, all pause schedules", "why_tests_cant": "Unbounded schedules; deadlock freedom", "anchors": ["cocotbext/axi/apb.py:ApbMaster._run", "cocotbext/axi/apb.py:ApbSlave._run"]}
{"id": "C79", "title": "tx_complete of a frame fires only after the frame was transferred", "statement": "When a frame's tx_complete fires (without clear() or reset), every beat of it and of all frames sent before has been transferred. (False of the code: it fires when the last beat is put on the bus, before tready is seen; everything but that one beat has been transferred.)", "quantifier": "all histories", "why_tests_cant": "The input/history space is unbounded; a test samples a few points of it.", "anchors": ["cocotbext/axi/axis.py:AxiStreamSource._run", "cocotbext/axi/axis.py:AxiStreamFrame.handle_tx_complete"]}
{"id": "C80", "title": "AXI stream sinks and monitors record exactly the packets transferred", "statement": "Whatever drives the bus, the frames received from an AxiStreamSink or AxiStreamMonitor so far, followed by its queue, are exactly the packets (cut at tlast) made of the beats of the cycles in which tvalid and tready were high, in order; with resets what is recorded is a subsequence.", "quantifier": "all bus waveforms, all histories", "why_tests_cant": "The input/history space is unbounded; a test samples a few points of it.", "anchors": ["cocotbext/axi/axis.py:AxiStreamSink._run", "cocotbext/axi/axis.py:AxiStreamMonitor._run"]}
{"id": "C81", "title": "A blocked AXI stream send() never misses free space", "statement": "As long as an AxiStreamSource.send() call is blocked and has not been signalled, the queue is over a limit: no wake-up is lost.", "quantifier": "all histories, any number of concurrent senders", "why_tests_cant": "The input/history space is unbounded; a test samples a few points of it.", "anchors": ["cocotbext/axi/axis.py:AxiStreamSource.send", "cocotbext/axi/axis.py:AxiStreamBase.clear"]}
{"id": "C82", "title": "wait() of an AXI stream source returns exactly when it is idle", "statement": "AxiStreamSource.wait() does not return while idle() is false, and does when it is true. (True without clear(); false of the code after clear() with a frame on the bus.)", "quantifier": "all histories", "why_tests_cant": "The input/history space is unbounded; a test samples a few points of it.", "anchors": ["cocotbext/axi/axis.py:AxiStreamSource.wait", "cocotbext/axi/axis.py:AxiStreamBase.clear"]}
{"id": "C83", "title": "A paused source starts no transfer", "statement": "From the moment pause is set on a StreamSource or AxiStreamSource until it is cleared, at most one more item (beat) is transferred: the one already presented, if any.", "quantifier": "all histories before and after", "why_tests_cant": "The input/history space is unbounded; a test samples a few points of it.", "anchors": ["cocotbext/axi/stream.py:StreamPause", "cocotbext/axi/stream.py:StreamSource._run", "cocotbext/axi/axis.py:AxiStreamPause", "cocotbext/axi/axis.py:AxiStreamSource._run"]}
{"id": "C84", "title": "An unpaused AXI stream sink with room becomes ready", "statement": "Two clock cycles after any state in which it is running and unpaused, an AxiStreamSink has tready high if and only if its queue is not over a limit. (True without clear(); false of the code after clear() of a full sleeping sink, whose tready stays low for ever.)", "quantifier": "all histories, all drivers", "why_tests_cant": "The input/history space is unbounded; a test samples a few points of it.", "anchors": ["cocotbext/axi/axis.py:AxiStreamSink._run", "cocotbext/axi/axis.py:AxiStreamBase.clear"]}
{"id": "C85", "title": "An AXI stream source connected to a sink delivers everything in bounded time", "statement": "With an AxiStreamSource connected to an AxiStreamSink, neither paused, and valid frames: while the sink has room some outstanding beat arrives within q+4 cycles (q queued frames); with an unlimited sink all n outstanding beats arrive within n+q+3 cycles and the sink has received exactly the non-empty frames sent (no deadlock, no lost wake-up).", "quantifier": "all clear- and reset-free histories, all coroutine orders", "why_tests_cant": "The input/history space is unbounded; a test samples a few points of it.", "anchors": ["cocotbext/axi/axis.py:AxiStreamSource._run", "cocotbext/axi/axis.py:AxiStreamSink._run"]}
{"id": "C86", "title": "A paused sink stops accepting", "statement": "From the moment pause is set on a StreamSink or AxiStreamSink until it is cleared, at most two more items (beats) are transferred, whatever the driver does.", "quantifier": "all histories before and after, all drivers", "why_tests_cant": "The input/history space is unbounded; a test samples a few points of it.", "anchors": ["cocotbext/axi/stream.py:StreamSink._run", "cocotbext/axi/stream.py:StreamPause", "cocotbext/axi/axis.py:AxiStreamSink._run", "cocotbext/axi/axis.py:AxiStreamPause"]}
{"id": "C87", "title": "A stream component attaches to a design exactly when the design's signals fit", "statement": "A bus and component made from a define_stream type can be constructed exactly when the design has every required signal and every signal of the type that the design has, required or optional, has the width fixed for it (1 for valid and ready unless given); the component then handshakes with exactly those of valid and ready that exist.", "quantifier": "all stream types, all sets of design signals with their widths", "why_tests_cant": "The input/history space is unbounded; a test samples a few points of it.", "anchors": ["cocotbext/axi/stream.py:StreamBase.__init__", "cocotbext/axi/stream.py:StreamBus", "cocotbext/axi/stream.py:define_stream"]}
{"id": "C88", "title": "wait() of a sink or monitor blocks exactly while nothing has been received", "statement": "After any history of clock edges, captures, receives, reads, clears, pauses and resets, wait() on a stream or AXI stream sink or monitor returns without blocking exactly if recv_nowait() would find an item, so it neither returns early nor blocks although there is something to receive.", "quantifier": "all configurations with a valid signal (AXI stream: all configurations), all schedules of events", "why_tests_cant": "The input/history space is unbounded; a test samples a few points of it.", "anchors": ["cocotbext/axi/stream.py:StreamMonitor.wait", "cocotbext/axi/stream.py:StreamMonitor._recv", "cocotbext/axi/stream.py:StreamBase.clear", "cocotbext/axi/axis.py:AxiStreamMonitor.wait", "cocotbext/axi/axis.py:AxiStreamMonitor._recv", "cocotbext/axi/axis.py:AxiStreamBase.clear"]}
{"id": "C89", "title": "AXI operations complete with exactly what the slave did", "statement": "With an AxiMaster connected to an AxiSlave on any target, in every history of concurrent reads and writes (any IDs, burst types, sizes, any interleaving of the two masters, the five channels and the slave, resets): a completed operation had each beat of each burst of its call executed on the target exactly once, in order, while it was outstanding; each response tells whether its beats succeeded and the caller is given the result computed from these responses; the target changes in no other way; no assertion fails and no coroutine dies. (Requested IDs below the number of IDs; the ID equal to that number is accepted and kills the sender.)", "quantifier": "all targets, all histories of concurrent operations, all arguments", "why_tests_cant": "Unbounded interleavings of concurrent operations", "anchors": ["cocotbext/axi/axi_master.py:AxiMasterWrite", "cocotbext/axi/axi_master.py:AxiMasterRead", "cocotbext/axi/axi_slave.py:AxiSlaveWrite._process_write", "cocotbext/axi/axi_slave.py:AxiSlaveRead._process_read"]}
{"id": "C90", "title": "AXI reads and writes of a RAM are linearizable byte by byte", "statement": "In every history of an AxiMaster connected to an AxiRam with incrementing bursts: completed operations return OKAY; each byte a completed read returns is what the RAM held at some instant during the read (bytes of one beat at the same instant, beats in order); each byte of a completed write was stored at some instant during the write; and a RAM byte changes only while a write covering it is outstanding, to that write's byte.", "quantifier": "all histories of concurrent reads and writes of any size, alignment, beat size and ID", "why_tests_cant": "Unbounded interleavings", "anchors": ["cocotbext/axi/axi_master.py:AxiMaster", "cocotbext/axi/axi_slave.py:AxiSlave", "cocotbext/axi/axi_ram.py:AxiRam"]}
{"id": "C91", "title": "An AXI read issued after a write completed returns the written data", "statement": "If a write has completed and a read covering byte b is issued afterwards, and every other write covering b was issued before that write (whether completed or not, aborted by a reset or not), the read returns the written byte - whatever other traffic there is.", "quantifier": "all histories of concurrent reads and writes", "why_tests_cant": "Unbounded interleavings", "anchors": ["cocotbext/axi/axi_master.py:AxiMaster", "cocotbext/axi/axi_slave.py:AxiSlave", "cocotbext/axi/axi_ram.py:AxiRam"]}
{"id": "C92", "title": "AXI operations take effect in the order in which they were issued", "statement": "With an AxiMaster connected to an AxiSlave, all beats of a write are executed before any beat of a write issued later, whatever the IDs, and the same for reads. On a RAM, a byte whose writes have all completed holds what performing all writes one after the other in the order of the calls leaves there.", "quantifier": "all histories of concurrent operations, all IDs", "why_tests_cant": "Unbounded interleavings", "anchors": ["cocotbext/axi/axi_master.py:AxiMasterWrite._process_write", "cocotbext/axi/axi_master.py:AxiMasterRead._process_read", "cocotbext/axi/axi_slave.py:AxiSlaveWrite._process_write", "cocotbext/axi/axi_slave.py:AxiSlaveRead._process_read"]}
{"id": "C93", "title": "AXI operations complete", "statement": "With an AxiMaster connected to an AxiSlave, after any history of calls, resets and interleavings that leaves the reset deasserted: if no further calls are made, then under every fair schedule every write or read that was called (also by init_write/init_read) and has no result yet completes with its responses, and both sides become and stay idle. Nothing hangs and nothing runs for ever.", "quantifier": "all histories, all fair schedules of the coroutines, all IDs and burst lengths", "why_tests_cant": "Liveness under every schedule: absence of deadlock and livelock cannot be observed in finitely many runs", "anchors": ["cocotbext/axi/axi_master.py:AxiMasterWrite", "cocotbext/axi/axi_master.py:AxiMasterRead", "cocotbext/axi/axi_slave.py:AxiSlaveWrite._process_write", "cocotbext/axi/axi_slave.py:AxiSlaveRead._process_read"]}
{"id": "C94", "title": "Clock-level handshakes, backpressure and pauses do not change what AXI operations do", "statement": "With an AxiMaster connected to an AxiSlave over the five channels, driven by clock edges: whatever the two ends of each channel do (either end paused and resumed at any time, sinks full, senders blocked on full queues, coroutines running in any order after an edge, resets), every completed write and read returns the responses and data of its own bursts performed on the target at instants between its call and its completion; nothing else touches the target; no coroutine fails; and on a RAM reads and writes are linearizable byte by byte, a read issued after a write completed returns its data, and writes take effect in the order of the calls.", "quantifier": "all histories of calls, clock edges, pauses, resets and interleavings of the coroutines of all channels", "why_tests_cant": "Unbounded interleavings of ten channel coroutines with those of the master and the slave, with backpressure", "anchors": ["cocotbext/axi/axi_master.py:AxiMaster", "cocotbext/axi/axi_slave.py:AxiSlave", "cocotbext/axi/stream.py:StreamSource", "cocotbext/axi/stream.py:StreamSink", "cocotbext/axi/stream.py:StreamBase"]}
{"id": "C95", "title": "AXI operations complete at clock level: no deadlock between channels, queues and sleeping coroutines", "statement": "With an AxiMaster connected to an AxiSlave over the five channels, driven by clock edges: once reset is de-asserted and no further calls are made, and as long as no source or sink is paused for ever (pauses may be set and released at any instants, for ever), every operation that was called and has not completed (including init_ calls) completes with responses, and both masters become idle. This holds from every reachable state, also when senders are blocked on full queues, sinks are full and coroutines are asleep, for every order in which the coroutines are resumed, as long as none that can run is ignored forever.", "quantifier": "all histories before, and all fair schedules of coroutines, clock edges, signal updates and pauses after", "why_tests_cant": "Liveness over infinite executions; a test that hangs shows one schedule, and one that passes shows none of the others", "anchors": ["cocotbext/axi/axi_master.py:AxiMaster", "cocotbext/axi/axi_slave.py:AxiSlave", "cocotbext/axi/stream.py:StreamSource", "cocotbext/axi/stream.py:StreamSink", "cocotbext/axi/stream.py:StreamBase"]}
{"id": "C96", "title": "AXI-lite operations take effect in the order in which they were issued", "statement": "With an AxiLiteMaster connected to an AXI-lite slave on any target, under every interleaving and with resets at any time: all transfers of a write are executed before any transfer of a write issued later, and the same for reads. On a RAM, a byte whose writes have all completed holds what performing all writes one after the other in the order of the calls leaves there.", "quantifier": "all histories of calls, coroutine steps, deliveries and resets", "why_tests_cant": "Order must hold for every interleaving and every number of operations", "anchors": ["cocotbext/axi/axil_master.py:AxiLiteMasterWrite", "cocotbext/axi/axil_master.py:AxiLiteMasterRead", "cocotbext/axi/axil_slave.py:AxiLiteSlaveWrite._process_write", "cocotbext/axi/axil_slave.py:AxiLiteSlaveRead._process_read"]}
{"id": "C97", "title": "AXI-lite operations complete", "statement": "With an AxiLiteMaster connected to an AXI-lite slave, after any history of calls, resets and interleavings that leaves the reset deasserted: if no further calls are made, then under every fair schedule every write or read that was called (also by init_write/init_read) and has no result yet completes with its responses, and both sides become and stay idle. Nothing hangs and nothing runs for ever, and no transfer of an accepted write makes the slave's coroutine fail.", "quantifier": "all histories, all fair schedules of the coroutines", "why_tests_cant": "Liveness under every schedule: absence of deadlock and livelock cannot be observed in finitely many runs", "anchors": ["cocotbext/axi/axil_master.py:AxiLiteMasterWrite", "cocotbext/axi/axil_master.py:AxiLiteMasterRead", "cocotbext/axi/axil_slave.py:AxiLiteSlaveWrite._process_write", "cocotbext/axi/axil_slave.py:AxiLiteSlaveRead._process_read"]}
{"id": "C98", "title": "Clock-level handshakes, backpressure and pauses do not change what AXI-lite operations do", "statement": "With an AxiLiteMaster connected to an AXI-lite slave over the five channels, driven by clock edges: whatever the two ends of each channel do (either end paused and resumed at any time, sinks full, senders blocked on full queues, coroutines running in any order after an edge, resets), the slave pairs every address transaction with the data transaction of the same transfer although they travel on different channels; every completed write and read returns the responses and data of its own transfers, each performed once on the target while the operation was outstanding, operations one after the other in the order of the calls; nothing else touches the target; and on a RAM a read issued after a write completed returns its data and the final contents are those of performing the writes in the order of the calls.", "quantifier": "all histories of calls, clock edges, pauses, resets and interleavings of the coroutines of all channels", "why_tests_cant": "Unbounded interleavings of ten channel coroutines with those of the master and the slave, with backpressure", "anchors": ["cocotbext/axi/axil_master.py:AxiLiteMaster", "cocotbext/axi/axil_slave.py:AxiLiteSlave", "cocotbext/axi/stream.py:StreamSource", "cocotbext/axi/stream.py:StreamSink", "cocotbext/axi/stream.py:StreamBase"]}
{"id": "C99", "title": "AXI-lite operations complete at clock level: no deadlock between channels, queues and sleeping coroutines", "statement": "With an AxiLiteMaster connected to an AXI-lite slave over the five channels, driven by clock edges: once reset is de-asserted and no further calls are made, and as long as no source or sink is paused for ever (pauses may be set and released at any instants, for ever), every operation that was called and has not completed (including init_ calls) completes with responses, and both masters become idle. This holds from every reachable state, also when senders are blocked on full queues, sinks are full and coroutines are asleep, for every order in which the coroutines are resumed, as long as none that can run is ignored forever.", "quantifier": "all histories before, and all fair schedules of coroutines, clock edges, signal updates and pauses after", "why_tests_cant": "Liveness over infinite executions; a test that hangs shows one schedule, and one that passes shows none of the others", "anchors": ["cocotbext/axi/axil_master.py:AxiLiteMaster", "cocotbext/axi/axil_slave.py:AxiLiteSlave", "cocotbext/axi/stream.py:StreamSource", "cocotbext/axi/stream.py:StreamSink", "cocotbext/axi/stream.py:StreamBase"]}
{"id": "C100", "title": "Pause generators: pause takes one value of the generator per clock cycle", "statement": "After set_pause_generator(generator) on a source or sink of a stream, AXI, AXI-lite or AXI stream component or on an APB master or slave, in any state, pause has at the first clock edge the first value of the generator, at the second edge the second one and so on, whatever the coroutine order within a cycle, traffic and resets do; when the generator has ended, its last value remains; clear_pause_generator() (or None) leaves pause as it is and nothing changes it until it is assigned again; a second set_pause_generator replaces the first.", "quantifier": "all histories before the call, all later histories in which pause and the generator of that end are not set again, and all generators, finite or not", "why_tests_cant": "Each test uses one generator and one schedule; the alignment of values to clock edges must hold in every coroutine order and across resets", "anchors": ["cocotbext/axi/stream.py:StreamPause", "cocotbext/axi/stream.py:StreamPause.set_pause_generator", "cocotbext/axi/stream.py:StreamPause._run_pause", "cocotbext/axi/apb.py:ApbPause", "cocotbext/axi/axis.py:AxiStreamPause"]}
{"id": "C101", "title": "AXI, AXI-lite and APB operations complete, and stream items and AXI stream frames arrive, under pause generators", "statement": "With pause generators on any of the sources and sinks of an AXI or AXI-lite master and slave: if every generator keeps releasing its end (a sink in one clock cycle again and again; a source in two consecutive cycles again and again, or in one cycle when source and generator keep their order within the cycle), then from every reachable state with reset de-asserted every outstanding operation completes with its responses. The same holds for an APB master and slave, each released in two consecutive cycles again and again, or in one when it and its generator keep their order; there also operations called later complete. And for an AXI stream source and sink, released in the same way, as long as clock edges keep coming and the sink's queue is not over its limit for ever: every frame sent, at whatever instant, arrives complete and in order, blocked send calls return, and in the end the source is idle. The same holds for the items of a stream source and sink as made by define_stream; a reader that calls recv() again and again receives every item sent, whatever the limits.", "quantifier": "all histories before, all generators that release their ends again and again, and all fair schedules after", "why_tests_cant": "Liveness over infinite executions with infinite generators", "anchors": ["cocotbext/axi/stream.py:StreamPause._run_pause", "cocotbext/axi/stream.py:StreamSource", "cocotbext/axi/stream.py:StreamSink", "cocotbext/axi/axi_master.py:AxiMaster", "cocotbext/axi/address_space.py:AxiSlave", "cocotbext/axi/axil_master.py:AxiLiteMaster", "cocotbext/axi/axil_slave.py:AxiLiteSlave", "cocotbext/axi/apb.py:ApbMaster", "cocotbext/axi/apb.py:ApbSlave", "cocotbext/axi/apb.py:ApbPause", "cocotbext/axi/axis.py:AxiStreamPause", "cocotbext/axi/axis.py:AxiStreamSource", "cocotbext/axi/axis.py:AxiStreamSink"]}
{"id": "C102", "title": "AXI operations on a target with an address map: responses, effects and data", "statement": "With an AxiMaster connected to an AxiSlave on an address space, a window or a region, in every history of concurrent operations with incrementing bursts, which may also touch addresses where nothing is mapped: a completed write returns OKAY exactly if every address it writes is mapped, and SLVERR otherwise; each byte of a beat whose written addresses are all mapped was stored at the mapped place at some instant during the write; a completed read returns OKAY exactly if all bus words it touches are entirely mapped, and SLVERR otherwise; each byte in such a word is what the mapped place held at some instant during the read, every other byte is 0; the mapped places change only by outstanding writes, to their bytes.", "quantifier": "all registries of regions (built by register_region in any order), all histories of concurrent reads and writes of any size, alignment, beat size and ID", "why_tests_cant": "Unbounded interleavings, unbounded maps", "anchors": ["cocotbext/axi/axi_master.py:AxiMaster", "cocotbext/axi/axi_slave.py:AxiSlave", "cocotbext/axi/address_space.py:AddressSpace.read", "cocotbext/axi/address_space.py:AddressSpace.write", "cocotbext/axi/address_space.py:MemoryRegion", "cocotbext/axi/address_space.py:Window"]}
{"id": "C103", "title": "AXI: read-your-writes and last-write-wins on mapped targets, whatever fails elsewhere", "statement": "On a target with an address map: a read issued after a write completed returns the written byte of every address in a fully mapped beat and bus word unless a write issued after that one covers it; a byte holds the data of the last write issued that covers it, once this has completed; a byte that no write covers keeps its value. Failing operations (SLVERR) and failing parts of the same operation do not disturb this.", "quantifier": "all address maps, all histories", "why_tests_cant": "Unbounded interleavings, unbounded maps", "anchors": ["cocotbext/axi/axi_master.py:AxiMaster", "cocotbext/axi/axi_slave.py:AxiSlave", "cocotbext/axi/address_space.py:AddressSpace"]}
{"id": "C104", "title": "AXI: a read of mapped addresses succeeds", "statement": "With an AxiMaster connected to an AxiSlave on a target with an address map, a completed read of which every address is mapped returns OKAY and the contents. (False of the code if a mapping ends inside a bus word: the slave reads entire bus words, so data that can be written cannot be read back. True for maps made of entire bus words.)", "quantifier": "all address maps, all histories", "why_tests_cant": "Unbounded interleavings, unbounded maps", "anchors": ["cocotbext/axi/axi_slave.py:AxiSlaveRead._process_read", "cocotbext/axi/address_space.py:AddressSpace.read", "cocotbext/axi/address_space.py:MemoryRegion"]}
{"id": "C105", "title": "AXI-lite operations on a target with an address map: responses, effects and data", "statement": "The same as C102 for an AxiLiteMaster connected to an AxiLiteSlave: OKAY exactly if everything written is mapped (for reads: the bus words touched), otherwise SLVERR; bytes of fully mapped transfers are stored and read at instants during the operation; unmapped words read as 0; nothing else changes.", "quantifier": "all address maps, all histories of concurrent reads and writes", "why_tests_cant": "Unbounded interleavings, unbounded maps", "anchors": ["cocotbext/axi/axil_master.py:AxiLiteMaster", "cocotbext/axi/axil_slave.py:AxiLiteSlave", "cocotbext/axi/address_space.py:AddressSpace", "cocotbext/axi/address_space.py:MemoryRegion", "cocotbext/axi/address_space.py:Window"]}
{"id": "C106", "title": "AXI-lite: read-your-writes and last-write-wins on mapped targets, whatever fails elsewhere", "statement": "The same as C103 for AXI-lite.", "quantifier": "all address maps, all histories", "why_tests_cant": "Unbounded interleavings, unbounded maps", "anchors": ["cocotbext/axi/axil_master.py:AxiLiteMaster", "cocotbext/axi/axil_slave.py:AxiLiteSlave", "cocotbext/axi/address_space.py:AddressSpace"]}
{"id": "C107", "title": "AXI-lite: a read of mapped addresses succeeds", "statement": "The same as C104 for AXI-lite. (False of the code if a mapping ends inside a bus word.)", "quantifier": "all address maps, all histories", "why_tests_cant": "Unbounded interleavings, unbounded maps", "anchors": ["cocotbext/axi/axil_slave.py:AxiLiteSlaveRead._process_read", "cocotbext/axi/address_space.py:AddressSpace.read", "cocotbext/axi/address_space.py:MemoryRegion"]}
{"id": "C108", "title": "AXI and AXI-lite on mapped targets at clock level", "statement": "C102, C103, C105 and C106 hold for the systems with clock-level channels: whatever backpressure, pauses, full queues, blocked senders and resets there are, and whatever the coroutine order is.", "quantifier": "all address maps, all histories of calls, clock edges, pauses, resets and interleavings of the coroutines of all channels", "why_tests_cant": "Unbounded interleavings of the channel coroutines with those of master and slave, unbounded maps", "anchors": ["cocotbext/axi/axi_master.py:AxiMaster", "cocotbext/axi/axi_slave.py:AxiSlave", "cocotbext/axi/axil_master.py:AxiLiteMaster", "cocotbext/axi/axil_slave.py:AxiLiteSlave", "cocotbext/axi/stream.py:StreamSource", "cocotbext/axi/stream.py:StreamSink", "cocotbext/axi/address_space.py:AddressSpace"]}
{"id": "C109", "title": "APB operations on a target with an address map", "statement": "With an ApbMaster connected to an ApbSlave on an address space, a window or a region, under every schedule of calls, pauses, slow accesses and resets: the operations completed since the last reset returned what the calls executed one after the other should return - a write OKAY exactly if every address it writes is mapped, a read OKAY exactly if its bus words are mapped, else SLVERR (always OKAY if pslverr is not connected); bytes of fully mapped words are stored and read back, other words read as 0. A read returns the last write to the byte before it; at rest a byte holds the last write; a byte that no call writes keeps its value across resets. Failing accesses do not disturb this.", "quantifier": "all address maps without aliasing, all schedules, pslverr connected or not", "why_tests_cant": "Unbounded schedules, unbounded maps", "anchors": ["cocotbext/axi/apb.py:ApbMaster", "cocotbext/axi/apb.py:ApbSlave", "cocotbext/axi/address_space.py:AddressSpace", "cocotbext/axi/address_space.py:MemoryRegion", "cocotbext/axi/address_space.py:Window"]}
{"id": "C110", "title": "APB: a read of mapped addresses succeeds", "statement": "With an ApbMaster connected to an ApbSlave on a target with an address map, a completed read of which every address is mapped returns OKAY and the contents. (False of the code if a mapping ends inside a bus word; true for maps made of entire bus words.)", "quantifier": "all address maps, all schedules", "why_tests_cant": "Unbounded schedules, unbounded maps", "anchors": ["cocotbext/axi/apb.py:ApbSlave", "cocotbext/axi/address_space.py:AddressSpace.read", "cocotbext/axi/address_space.py:MemoryRegion"]}
{"id": "C111", "title": "Word accessors of memory interfaces: what write_words stores, read_words returns", "statement": "On an address space, a window or a region: if write_words(address, words, byteorder, ws) with words that fit in ws bytes covers mapped addresses only, it succeeds, and a later read_words of any part of these words (count words from the j-th one) with the same byte order returns exactly these words, as long as nothing else was written; other places keep their contents. If a word does not fit or is negative, it raises OverflowError without any effect; if an address is not mapped, write_words and read_words raise. The dword, qword, word and single accessors are the special cases.", "quantifier": "all address maps, addresses, lists of words, byte orders and word sizes, all parts read back", "why_tests_cant": "Unbounded values, word sizes, list lengths and maps; tests use a few words in one byte order", "anchors": ["cocotbext/axi/address_space.py:MemoryInterface.read_words", "cocotbext/axi/address_space.py:MemoryInterface.write_words", "cocotbext/axi/address_space.py:AddressSpace", "cocotbext/axi/address_space.py:MemoryRegion", "cocotbext/axi/address_space.py:Window"]}
{"id": "C112", "title": "Word accessors of the bus masters: read_words returns the words written", "statement": "With an AxiMaster, AxiLiteMaster or ApbMaster on a RAM or on a target with an address map, among any concurrent operations: read_words of part of the words of an earlier completed write_words, in the same byte order, returns these words, unless a later write covers them (on mapped targets: if the beats and bus words concerned are mapped).", "quantifier": "all histories of concurrent operations, alignments, word sizes, byte orders and lists of words", "why_tests_cant": "Unbounded interleavings; the words are split into beats and strobes at arbitrary alignment", "anchors": ["cocotbext/axi/address_space.py:MemoryInterface.read_words", "cocotbext/axi/address_space.py:MemoryInterface.write_words", "cocotbext/axi/axi_master.py:AxiMaster.read", "cocotbext/axi/axi_master.py:AxiMaster.write", "cocotbext/axi/axil_master.py:AxiLiteMaster.read", "cocotbext/axi/axil_master.py:AxiLiteMaster.write", "cocotbext/axi/apb.py:ApbMaster.read", "cocotbext/axi/apb.py:ApbMaster.write"]}
{"id": "C113", "title": "A failing word access is reported to the caller", "statement": "If an access by read_words, write_words or one of their special cases fails, the caller learns it. (True of address spaces, windows and regions, which raise. False of the bus masters: the response code is dropped, so a failing write_dword returns None and a failing read_dword returns a value.)", "quantifier": "all accesses that fail", "why_tests_cant": "A test of the accessors on a RAM never sees a failing access", "anchors": ["cocotbext/axi/address_space.py:MemoryInterface.read_words", "cocotbext/axi/address_space.py:MemoryInterface.write_words", "cocotbext/axi/axi_master.py:AxiMaster", "cocotbext/axi/axil_master.py:AxiLiteMaster", "cocotbext/axi/apb.py:ApbMaster"]}
{"id": "C114", "title": "Reads and writes do not wait for one another", "statement": "With an AxiMaster on an AxiSlave or an AxiLiteMaster on an AxiLiteSlave: the reads that have been called complete although the write side makes no progress at all - an access of the target for a write never returns, the channels of writes are paused for ever, writes are called without end, the write side is reset again and again - and vice versa.", "quantifier": "all histories, all schedules that are fair to the one side, whatever happens on the other side", "why_tests_cant": "A claim about infinite schedules in which part of the system is stuck; a test can only show that a read ends while a few particular writes are stalled", "anchors": ["cocotbext/axi/axi_master.py:AxiMasterWrite", "cocotbext/axi/axi_master.py:AxiMasterRead", "cocotbext/axi/axi_slave.py:AxiSlaveWrite._process_write", "cocotbext/axi/axi_slave.py:AxiSlaveRead._process_read", "cocotbext/axi/axil_master.py:AxiLiteMaster", "cocotbext/axi/axil_slave.py:AxiLiteSlave", "cocotbext/axi/stream.py:StreamSource", "cocotbext/axi/stream.py:StreamSink"]}
{"id": "C115", "title": "Several interfaces on one target: every operation is executed exactly, whatever the other ports do", "statement": "Any number of AXI, AXI-lite and APB masters connected to slaves on the same target (several RAMs made with one mem object, several slaves with one target), with the test bench accessing the target directly, run concurrently: on every port each completed operation was executed exactly - its beats one after the other in order, each at one instant between its issue and its end, on the target as everyone had left it at that instant, and its caller was given the responses of these executions; operations of one side of a port are executed in the order of issue; the target changes in no other way; and no assertion fails and no coroutine dies because of the other ports.", "quantifier": "all targets, all numbers and parameters of ports, all interleavings of their events, direct accesses and resets of single ports", "why_tests_cant": "Unbounded interleavings of unboundedly many ports", "anchors": ["cocotbext/axi/axi_ram.py:AxiRam", "cocotbext/axi/axi_master.py:AxiMaster", "cocotbext/axi/axi_slave.py:AxiSlave", "cocotbext/axi/axil_master.py:AxiLiteMaster", "cocotbext/axi/axil_slave.py:AxiLiteSlave", "cocotbext/axi/apb.py:ApbMaster", "cocotbext/axi/apb.py:ApbSlave", "cocotbext/axi/apb.py:ApbRam", "cocotbext/axi/memory.py:Memory.__init__"]}
{"id": "C116", "title": "Multi-port memories: operations, read-your-writes and last-write-wins across ports", "statement": "Several AxiRam, AxiLiteRam and ApbRam objects made with the same mem object act as ports of one memory: a completed write of any port gives OKAY and stores each byte of its data at an instant between issue and completion; a completed read of any port gives OKAY and bytes that the memory held at instants between issue and completion; no byte changes except by an outstanding write covering it or a direct access. A byte written by a completed write stays, and is what reads issued later on any port give, unless the byte is covered by a write that is neither earlier on the same port nor ended before this one was issued, or is written directly.", "quantifier": "all numbers of ports of the three kinds, widths, histories of concurrent calls with incrementing bursts inside the memory, interleavings, direct writes, resets of single ports", "why_tests_cant": "Unbounded interleavings of unboundedly many ports; tests use one port at a time", "anchors": ["cocotbext/axi/axi_ram.py:AxiRam", "cocotbext/axi/axil_ram.py:AxiLiteRam", "cocotbext/axi/apb.py:ApbRam", "cocotbext/axi/memory.py:Memory.__init__", "README.md"]}
{"id": "C117", "title": "write_byte stores the byte on every interface", "statement": "write_byte(a, v) on a Memory, a memory region, a window, an address space or a bus master, with a mapped and 0 <= v < 256, succeeds, stores v at a and changes nothing else, and reading a returns v; for other v or an address that is not mapped it raises without effect. More generally, writing a list of integers of range(256) is the same as writing these bytes. (False of the code for regions and memories over an mmap object, which is the default of MemoryRegion: write_byte passes a list, and assigning a list to a slice of an mmap raises TypeError.)", "quantifier": "all interface objects built of regions, windows and address spaces, all states, addresses and values", "why_tests_cant": "Only the bus masters' write_byte is tested, with a few values", "anchors": ["cocotbext/axi/address_space.py:MemoryInterface.write_byte", "cocotbext/axi/address_space.py:MemoryRegion._write", "cocotbext/axi/address_space.py:SparseMemoryRegion._write", "cocotbext/axi/address_space.py:AddressSpace.write", "cocotbext/axi/memory.py:Memory.write_byte", "cocotbext/axi/sparse_memory.py:SparseMemory.write", "cocotbext/axi/sparse_memory.py:SparseMemory.__setitem__"]}
{"id": "C118", "title": "Windows and address spaces over bus masters and memories: accesses that take time", "statement": "Through any nesting of windows and address spaces over bus masters (AXI, AXI-lite, APB, connected to RAMs that others may use too) and memory regions: a read that returns gives exactly the requested number of bytes, each of which was at its translated address, in the region that owns it, at some instant between the beginning and the end of the read, in ascending order; a write that returns has stored every byte of its data there in the meantime; a read begun after the write gives the bytes written unless something else changes them; every access, however it ends, touches only the addresses of the regions that stand for the requested ones; and it returns if the accesses of the regions do, without an exception if all the addresses are in registered regions whose accesses raise none. (False of the code for writes: what a master's write returns is dropped, so a write that a reset has flushed, or that was answered by an error, looks successful.)", "quantifier": "all registration histories, offsets and nestings, all interleavings of accesses with all other activity, resets of the masters at any time", "why_tests_cant": "Accesses overlap with unboundedly many other events; tests of address spaces use memories only, whose accesses take no time", "anchors": ["cocotbext/axi/address_space.py:Window", "cocotbext/axi/address_space.py:AddressSpace.read", "cocotbext/axi/address_space.py:AddressSpace.write", "cocotbext/axi/address_space.py:MemoryRegion", "cocotbext/axi/address_space.py:SparseMemoryRegion", "cocotbext/axi/axi_master.py:AxiMaster", "cocotbext/axi/axil_master.py:AxiLiteMaster", "cocotbext/axi/apb.py:ApbMaster", "README.md"]}
{"id": "C119", "title": "Optional arguments: sideband values reach every burst and beat, and the documented defaults", "statement": "All bursts of an AXI operation carry the burst type, transfer size, lock, cache, prot, qos, region and user values that the call asked for; beat k of a write carries wuser (if it is a number) or its element k (zero after the end of the list). All transfers of an AXI-lite or APB operation carry its prot value. Calls with the optional arguments left out are accepted whatever optional signals the bus has, and use INCR bursts of the width of the bus, NORMAL, 0b0011, NONSECURE and zeros. find_regions(address) gives exactly the regions that address is in; hexdump_lines(data) and hexdump_str(data) show all the data in rows of 16.", "quantifier": "all buses (widths, optional signals), addresses, data and argument values", "why_tests_cant": "The number of bursts and beats is unbounded and depends on alignment, 4 KiB boundaries and burst limits", "anchors": ["cocotbext/axi/axi_master.py:AxiMasterWrite.write", "cocotbext/axi/axi_master.py:AxiMasterWrite._process_write", "cocotbext/axi/axi_master.py:AxiMasterRead._process_read", "cocotbext/axi/axil_master.py:AxiLiteMasterWrite.write", "cocotbext/axi/apb.py:ApbMaster.write", "cocotbext/axi/address_space.py:AddressSpace.find_regions", "cocotbext/axi/utils.py:hexdump_str"]}
{"id": "C120", "title": "APB: the order of the coroutines within a clock cycle does not matter", "statement": "With an ApbMaster and an ApbSlave or ApbRam whose coroutines run one after the other in any order after a clock edge, pause changed at any time (also between the two), accesses of the target that take any number of clock cycles and signal writes that take effect later: at every moment the accesses performed on the target since the last reset are the transfers of the operations called since then, in order, each once; the operations completed so far have the results of executing the operations one after the other; when the master is idle all have completed; and whenever no coroutine is about to run, the state is one that could be reached with both coroutines acting at once.", "quantifier": "all targets, histories of calls, coroutine orders, pauses, durations of accesses and resets between edges", "why_tests_cant": "The order in which the simulator resumes coroutines is not under the control of a test", "anchors": ["cocotbext/axi/apb.py:ApbMaster._run", "cocotbext/axi/apb.py:ApbSlave._run", "cocotbext/axi/apb.py:ApbPause", "cocotbext/axi/apb.py:ApbRam"]}
{"id": "C121", "title": "APB operations complete", "statement": "After any history at whose end reset is deasserted: if the clock keeps running, accesses of the target return, no coroutine is ignored for ever and neither side is held up by pause for ever, then every operation called - earlier or later, also with init_read()/init_write() - completes with one result per transfer; if there are no further calls, the master is idle from some instant on, and the target is in the state that the operations, executed one after the other, lead to.", "quantifier": "all targets, all histories before, all infinite fair schedules after, with any pauses and further calls in them", "why_tests_cant": "Liveness over infinite executions", "anchors": ["cocotbext/axi/apb.py:ApbMaster._run", "cocotbext/axi/apb.py:ApbMaster.wait", "cocotbext/axi/apb.py:ApbMaster.idle", "cocotbext/axi/apb.py:ApbSlave._run", "cocotbext/axi/apb.py:ApbPause"]}
{"id": "C122", "title": "idle() of AXI stream sinks and monitors tells whether a frame is being received", "statement": "idle() of a sink or monitor is false while a frame has begun and not ended; if no beat was transferred at the last clock edge it is true exactly when no frame has begun and not ended; after an assertion of reset it is true until the next beat is captured. (False of the code for sinks: a sink that is paused or full by the time it takes the last beat goes to sleep, and idle() stays false however many clock cycles pass, until it is woken.)", "quantifier": "all bus traffic, schedules, calls and resets", "why_tests_cant": "Depends on coincidences of pause, full queues and packet ends with the coroutine's sleep", "anchors": ["cocotbext/axi/axis.py:AxiStreamMonitor.idle", "cocotbext/axi/axis.py:AxiStreamMonitor._run", "cocotbext/axi/axis.py:AxiStreamSink._run"]}
{"id": "C123", "title": "Everything sent over AXI stream arrives, whatever the pauses", "statement": "An AxiStreamSource connected to an AxiStreamSink with queue limits on either side, after any history without clear() and reset at whose end both run, and from then on any schedule of the coroutines, any calls and any changes of both pause attributes: if the clock keeps running, the source is not paused for ever when it runs, and (with tready) the sink is not paused for ever and its queue is not over a limit for ever, then every beat of every frame sent is captured, in order, and every non-empty frame sent becomes available at the sink, in order. If send() and send_nowait() are not called any more and blocked calls of send() get their turn, then no call stays blocked, the source becomes idle and stays so, its wait() returns, tx_complete is signalled for every non-empty frame, and the sink has captured exactly the beats of all frames.", "quantifier": "all configurations with tvalid, frames, histories, infinite schedules, pauses and calls", "why_tests_cant": "Liveness over infinite executions with arbitrary pauses, blocked senders and coroutine orders", "anchors": ["cocotbext/axi/axis.py:AxiStreamSource._run", "cocotbext/axi/axis.py:AxiStreamSource.send", "cocotbext/axi/axis.py:AxiStreamSource.wait", "cocotbext/axi/axis.py:AxiStreamSink._run", "cocotbext/axi/axis.py:AxiStreamPause"]}
{"id": "C124", "title": "Everything sent over a stream arrives, whatever the pauses", "statement": "Let a stream source (as made by define_stream) be connected to a stream sink, after any history of calls, resets being released and pauses at whose end both sides run, and let things go on for ever without reset and clear(). If clock edges keep coming, the source is not paused for ever when it runs, and on a bus with ready the sink is not paused for ever at the clock edges and its queue is not for ever at its limit, then every item sent at whatever instant arrives: from some instant on it is among the items received or waiting in the sink, in order. A reader that calls recv() again and again receives every item sent. If nothing more is sent and blocked calls of send() get their turn once they are woken, every blocked call returns, and from some instant on the source is idle, its wait() returns, and the items received and those waiting are exactly the items sent.", "quantifier": "all histories, all infinite schedules of clock edges, coroutine steps, calls and pause changes, with any queue limits and a bus with or without ready", "why_tests_cant": "A lost wakeup or a handshake that stops only shows under a particular interleaving of pauses, limits and calls, and that it never stops is a statement about infinite runs.", "anchors": ["cocotbext/axi/stream.py:StreamSource.send", "cocotbext/axi/stream.py:StreamSource._run", "cocotbext/axi/stream.py:StreamSink._run", "cocotbext/axi/stream.py:StreamSink._recv", "cocotbext/axi/stream.py:StreamMonitor.recv", "cocotbext/axi/stream.py:StreamPause.pause"]}
{"id": "C125", "title": "A monitor on a stream records exactly what the sink receives, and disturbs nothing", "statement": "Put a stream monitor (stream.py) or an AXI stream monitor (axis.py) on the bus between a source and a sink. Whatever is called on the three, however the sink and the source pause, and in whatever order the simulator resumes the coroutines after a clock edge: monitor and sink record the same items (beats, frames with their sidebands) in the same order; at no moment do they differ by more than the item of the current clock cycle; and the source and the sink behave as they would without the monitor.", "quantifier": "every sequence of calls, pauses and coroutine schedules of source, sink and monitor without an assertion of reset at sink or monitor (for the queues: without clear() there); every bus configuration (with or without tready, tvalid)", "why_tests_cant": "The monitor sleeps between transfers and is woken by rising edges of two signals, the sink by one and by its own calls; whether both wake in time for every transfer depends on the interleaving of pauses, edges and calls.", "anchors": ["cocotbext/axi/stream.py:StreamMonitor._run", "cocotbext/axi/stream.py:StreamSink._run", "cocotbext/axi/axis.py:AxiStreamMonitor._run", "cocotbext/axi/axis.py:AxiStreamSink._run"]}
{"id": "C126", "title": "Streams run at full rate", "statement": "When neither side of a stream is paused and the sink has no queue limit, the bus carries one item (AXI stream: one beat of non-empty frames) at every clock edge: after an initial delay of at most three edges since the last pause, every edge transfers the next item until everything sent is transferred, with no gap between items, beats or frames.", "quantifier": "every clean history before, every order of the coroutines, wake-ups and calls within the clock cycles, every number of clock edges and of items or frames; every bus with or without ready", "why_tests_cant": "A gap would need a particular order of wake-up, sampling and sleeping of the two coroutines; tests measure the order one scheduler happens to choose and short transfers.", "anchors": ["cocotbext/axi/stream.py:StreamSource._run", "cocotbext/axi/stream.py:StreamSink._run", "cocotbext/axi/axis.py:AxiStreamSource._run", "cocotbext/axi/axis.py:AxiStreamSink._run"]}
{"id": "C127", "title": "Received AXI stream frames carry the times of their transfers", "statement": "sim_time_start and sim_time_end of every frame received by a sink or monitor are the simulation times of the clock edges at which the first and the last beat of its packet were transferred (tvalid and tready both high). In every history, with reset and clear(), a frame does not end before it starts, and starts after the end of every frame received before it.", "quantifier": "all bus activity, clock periods, pauses, interleavings of recv/read/clear/reset", "why_tests_cant": "Needs every schedule of beats, stalls and clock periods", "anchors": ["cocotbext/axi/axis.py:AxiStreamSink._run", "cocotbext/axi/axis.py:AxiStreamMonitor._run", "cocotbext/axi/axis.py:AxiStreamFrame"]}
{"id": "C128", "title": "Sent AXI stream frames carry the times of their transfers", "statement": "sim_time_start and sim_time_end of every frame passed to tx_complete of a source are the simulation times of the first and the last transfer cycle of the frame. (Not so: they are the times at which the frame is taken from the queue and at which its last beat is put on the bus.)", "quantifier": "all frames, receivers, clock periods, pauses", "why_tests_cant": "Needs every schedule of stalls and clock periods", "anchors": ["cocotbext/axi/axis.py:AxiStreamSource._run", "cocotbext/axi/axis.py:AxiStreamSource._handle_reset", "cocotbext/axi/axis.py:AxiStreamFrame"]}
{"id": "C129", "title": "Pools created in an address space", "statement": "AddressSpace.create_pool(base, size) - base defaulting to 0, size to the rest of the space - raises ValueError and changes nothing exactly when the range is not inside the space or overlaps a registered region. Otherwise it returns an empty pool of that size; whatever is registered in the space later and whatever is allocated from the pool, an access to the space inside the pool's range acts on the pool at the address less its base, an access that does not touch the range does not depend on the pool, and every region allocated from the pool is reached through the space at pool base plus offset, which is also what its absolute address says.", "quantifier": "every history of register_region calls before and after, every base and size, every history of alloc_region calls on the pool with any region types, every read or write", "why_tests_cant": "Depends on the whole history of registrations and allocations: tests allocate a few regions.", "anchors": ["cocotbext/axi/address_space.py:AddressSpace.create_pool", "cocotbext/axi/address_space.py:Pool.alloc_region", "cocotbext/axi/address_space.py:AddressSpace.register_region", "cocotbext/axi/address_space.py:AddressSpace.read"]}
{"id": "C130", "title": "AXI stream byte lanes make up tdata exactly", "statement": "The constructor of an AXI stream source, sink or monitor takes the number of byte lanes from tkeep, else from byte_lanes, else from byte_size (default 8). It raises ValueError exactly if byte_size or byte_lanes is given on a bus with tkeep, if both are given, or if the lanes do not divide tdata evenly. Otherwise lanes times byte size is the width of tdata, every beat of every frame fits into tdata and tkeep, and a byte_size that was asked for is the one used.", "quantifier": "every width of tdata and tkeep, every combination of arguments, every frame", "why_tests_cant": "All widths and arguments: tests use a few widths, all multiples of eight.", "anchors": ["cocotbext/axi/axis.py:AxiStreamBase.__init__", "cocotbext/axi/axis.py:AxiStreamSource._run"]}
{"id": "C131", "title": "define_stream leaves the caller's arguments alone", "statement": "define_stream() does not change the lists and dicts it is given, so that a list of signals or a dict of widths can be shared by several definitions.", "quantifier": "every list of signals and optional signals, every choice of valid and ready signals, every dict of widths", "why_tests_cant": "Tests define each stream once, with literals.", "anchors": ["cocotbext/axi/stream.py:define_stream"]}
{"id": "C132", "title": "Resetting one end of an AXI-lite connection", "statement": "When an AXI-lite master and the slave it is connected to have different resets, and one of them is reset without the other, every operation that completes afterwards was executed by its own transfers (own address with own data) and got the responses to its own transfers, operations flushed by the reset have no effect afterwards, and operations issued afterwards complete when both ends are out of reset.", "quantifier": "every sequence of operations, every schedule of master, slave and channels, and every time at which either end (or both) is reset", "why_tests_cant": "A test resets one end at a few moments; a stale transaction left at the other end only shows when a later operation is paired with it.", "anchors": ["cocotbext/axi/axil_master.py:AxiLiteMasterWrite._handle_reset", "cocotbext/axi/axil_master.py:AxiLiteMasterRead._handle_reset", "cocotbext/axi/axil_slave.py:AxiLiteSlaveWrite._handle_reset", "cocotbext/axi/axil_slave.py:AxiLiteSlaveWrite._process_write", "cocotbext/axi/axil_slave.py:AxiLiteSlaveRead._handle_reset"]}
{"id": "C133", "title": "Resetting one end of an APB connection", "statement": "An APB master and an APB slave may have different reset signals. If one of them is reset alone while no access is in progress (penable low), later operations are not affected: the accesses that the slave performs are the transfers of the operations called since the last reset of the master, in order, each exactly once; a transfer that finds the slave in reset waits and is performed once when the slave is out of reset; each operation gets the result of executing these operations one after the other, and completes when both ends are out of reset.", "quantifier": "all operations, pauses, targets (however long they take), and all histories of calls, edges, joint resets and resets of one end", "why_tests_cant": "the outcome depends on the phase in which the transfer is when one end is reset; tests reset both ends together, at a few points", "anchors": ["cocotbext/axi/apb.py:ApbMaster._handle_reset", "cocotbext/axi/apb.py:ApbMaster._run", "cocotbext/axi/apb.py:ApbSlave._handle_reset", "cocotbext/axi/apb.py:ApbSlave._run"]}
{"id": "C134", "title": "AXI stream frames across a common reset", "statement": "A source and a sink connected by an AXI stream with tvalid and tlast have the same reset. However often and whenever the reset is asserted and released, and whenever clear() is called, every frame received is one of the non-empty frames sent, whole (never a piece of one, or pieces of two), in the order sent and at most once. Frames queued in the source or in the sink survive a reset: without clear(), each assertion (between clock edges) loses at most one frame, the one in transmission. After the last reset everything queued or sent later arrives, under every schedule that does not withhold clock edges, turns or room for ever, and the source becomes idle.", "quantifier": "all bus configurations with tvalid and tlast, with or without tready, queue limits, frames, pauses, and all histories of calls, coroutine orders, clock edges and resets", "why_tests_cant": "a reset can hit any beat of any frame, with any contents of the queues; tests reset at a few points", "anchors": ["cocotbext/axi/axis.py:AxiStreamBase._handle_reset", "cocotbext/axi/axis.py:AxiStreamSource._handle_reset", "cocotbext/axi/axis.py:AxiStreamSink._handle_reset", "cocotbext/axi/axis.py:AxiStreamSource._run", "cocotbext/axi/axis.py:AxiStreamSink._run", "cocotbext/axi/axis.py:AxiStreamBase.clear"]}
{"id": "C135", "title": "Resetting one end of an AXI stream", "statement": "A source and a sink connected by an AXI stream may have different resets. When only one of them is reset, every frame received afterwards is still one of the frames sent, whole, in order and at most once; a reset of the sink loses at most the frame being received, one of the source at most the frame being transmitted.", "quantifier": "all bus configurations with tvalid and tlast, frames, queues, and all histories with resets of either component or of both", "why_tests_cant": "the outcome depends on the beat at which one component is reset", "anchors": ["cocotbext/axi/axis.py:AxiStreamSource._handle_reset", "cocotbext/axi/axis.py:AxiStreamSink._handle_reset", "cocotbext/axi/axis.py:AxiStreamSource._run", "cocotbext/axi/axis.py:AxiStreamSink._run"]}
{"id": "C136", "title": "Resetting one end of an AXI connection", "statement": "An AXI master and an AXI slave may have different resets. When only one of them is reset, operations issued afterwards are still executed exactly: every completed write wrote its own data at its own address, every completed read returns what was read at its own address, in the order issued; operations flushed by the reset have no effect afterwards, no assertion fails, idle() means that neither end holds anything of an operation, and operations issued afterwards complete when both ends are out of reset.", "quantifier": "all configurations, requests with any IDs and bursts, targets, schedules of both ends, and all histories with resets of either component or of both", "why_tests_cant": "the outcome depends on which transactions are at which end when one component is reset", "anchors": ["cocotbext/axi/axi_master.py:AxiMasterWrite._handle_reset", "cocotbext/axi/axi_master.py:AxiMasterRead._handle_reset", "cocotbext/axi/axi_slave.py:AxiSlaveWrite._handle_reset", "cocotbext/axi/axi_slave.py:AxiSlaveRead._handle_reset", "cocotbext/axi/axi_slave.py:AxiSlaveWrite._process_write", "cocotbext/axi/axi_slave.py:AxiSlaveRead._process_read"]}
{"id": "C137", "title": "Stream items across resets", "statement": "For a stream source connected to a sink with a ready signal, resets of either side, at any moments and in any order, cost at most one item each: a reset of the source discards only the item that it presents, a reset of the sink only an item that it sees transferred at that very moment; clear() discards only the queue. A source reset while valid is low and a sink reset between clock edges discard nothing. Everything else is received exactly once and in order, and arrives in bounded time once both sides are out of reset.", "quantifier": "all bus configurations with ready, queue limits, pauses, schedules of the coroutines, and all histories with resets and clear() on either side", "why_tests_cant": "what a reset discards depends on where each item is at that moment, and losses add up over histories of any length", "anchors": ["cocotbext/axi/stream.py:StreamBase._handle_reset", "cocotbext/axi/stream.py:StreamSource._handle_reset", "cocotbext/axi/stream.py:StreamSink._handle_reset", "cocotbext/axi/stream.py:StreamBase.clear", "cocotbext/axi/stream.py:StreamSource._run", "cocotbext/axi/stream.py:StreamSink._run"]}
{"id": "C138", "title": "Connecting a design: who drives what", "statement": "A component connected to a design through from_prefix or from_entity drives exactly the signals of its role (a master its addresses, data, controls and valid/ready, a slave its responses and valid/ready, a source everything but ready, a sink only ready, a monitor nothing) that exist in the design, under the prefix it was given. When both ends of an interface are connected to the same signals, each signal that either uses has exactly one driver. Components with different prefixes, or with roles that may share one, never drive the same signal.", "quantifier": "all designs (any set of signals of any widths), all prefixes, all pairs of components (AXI and AXI-lite masters and slaves, whole or by half, APB masters and slaves, AXI stream sources, sinks and monitors)", "why_tests_cant": "the optional signals, the prefixes and the combinations of components are the user's; a test connects a few of them", "anchors": ["cocotbext/axi/axi_channels.py:AxiWriteBus.from_prefix", "cocotbext/axi/axi_channels.py:AxiReadBus.from_prefix", "cocotbext/axi/axi_channels.py:AxiBus.from_prefix", "cocotbext/axi/axil_channels.py:AxiLiteBus.from_prefix", "cocotbext/axi/stream.py:StreamBus", "cocotbext/axi/stream.py:StreamBase.__init__", "cocotbext/axi/stream.py:define_stream", "cocotbext/axi/axis.py:AxiStreamBus", "cocotbext/axi/axis.py:AxiStreamBase.__init__", "cocotbext/axi/apb.py:ApbBus", "cocotbext/axi/apb.py:ApbMaster.__init__", "cocotbext/axi/apb.py:ApbSlave.__init__", "cocotbext/axi/axi_master.py:AxiMasterWrite.__init__", "cocotbext/axi/axi_slave.py:AxiSlaveWrite.__init__", "cocotbext/axi/axil_master.py:AxiLiteMasterWrite.__init__", "cocotbext/axi/axil_slave.py:AxiLiteSlaveWrite.__init__"]}
{"id": "C139", "title": "A component attaches exactly to the legal interfaces", "statement": "A component can be connected to a design exactly when the design's signals form a legal interface: the required signals exist, those of fixed width have it, the data signals have a power of two of bytes, strobes a bit per byte, identifiers of requests and responses the same width, and the data signals of both directions of APB the same width. A missing signal is reported as AttributeError. (False of the code: data widths such as 24 bits, and any width of prdata, are accepted.)", "quantifier": "all designs, prefixes and components", "why_tests_cant": "the set of designs is infinite, and each check guards one combination of signals and widths", "anchors": ["cocotbext/axi/stream.py:StreamBase.__init__", "cocotbext/axi/axi_master.py:AxiMasterWrite.__init__", "cocotbext/axi/axi_master.py:AxiMasterRead.__init__", "cocotbext/axi/axi_slave.py:AxiSlaveWrite.__init__", "cocotbext/axi/axi_slave.py:AxiSlaveRead.__init__", "cocotbext/axi/axil_master.py:AxiLiteMasterWrite.__init__", "cocotbext/axi/axil_slave.py:AxiLiteSlaveRead.__init__", "cocotbext/axi/apb.py:ApbMaster.__init__", "cocotbext/axi/apb.py:ApbSlave.__init__", "cocotbext/axi/axis.py:AxiStreamBase.__init__"]}
{"id": "C140", "title": "Resetting one end of an AXI-lite connection, cycle by cycle", "statement": "An AXI-lite master and the slave (or RAM) it is connected to have different resets, their channels have handshakes, pauses and bounded queues, and either end is reset without the other at any point between or within clock edges. Every operation that completes was executed by its own transfers (own address with own data, each exactly once, at the positions of one common order) and got the responses to its own transfers, operations flushed by the reset have no effect afterwards, idle() is true exactly when nothing is outstanding, and operations issued afterwards complete when both ends are out of reset and no channel is paused for ever. (False of the code when an operation is outstanding at the reset of one end.)", "quantifier": "every sequence of operations, pauses, wake-ups and clock edges, every order of the components, and every time at which either end (or both) is reset", "why_tests_cant": "a reset can hit any of ten channel ends in any state of their queues and handshakes; a test resets at a few moments", "anchors": ["cocotbext/axi/axil_master.py:AxiLiteMasterWrite._handle_reset", "cocotbext/axi/axil_master.py:AxiLiteMasterRead._handle_reset", "cocotbext/axi/axil_slave.py:AxiLiteSlaveWrite._handle_reset", "cocotbext/axi/axil_slave.py:AxiLiteSlaveRead._handle_reset", "cocotbext/axi/stream.py:StreamSource._handle_reset", "cocotbext/axi/stream.py:StreamSink._handle_reset", "cocotbext/axi/stream.py:StreamBase._handle_reset", "cocotbext/axi/reset.py:Reset"]}
{"id": "C141", "title": "Resetting one end of an AXI connection, cycle by cycle", "statement": "An AXI master and the slave (or RAM) it is connected to have different resets, their channels have handshakes, pauses and bounded queues, and either end is reset without the other at any point between or within clock edges, also while a target is suspended. Every operation that completes was executed by its own bursts (own addresses with own data, each beat exactly once, in the order in which operations were issued) and got the responses to its own bursts, operations flushed by the reset have no effect afterwards, no assertion fails, nothing is on its way when idle() is true, and operations issued afterwards complete when both ends are out of reset and no channel is paused for ever. (False of the code when an operation is outstanding at the reset of one end.)", "quantifier": "every sequence of operations, pauses, wake-ups and clock edges, every order of the components, every target (also one that fails or suspends), and every time at which either end (or both) is reset", "why_tests_cant": "a reset can hit any of ten channel ends in any state of their queues and handshakes, in the middle of any burst; a test resets at a few moments", "anchors": ["cocotbext/axi/axi_master.py:AxiMasterWrite._handle_reset", "cocotbext/axi/axi_master.py:AxiMasterRead._handle_reset", "cocotbext/axi/axi_slave.py:AxiSlaveWrite._handle_reset", "cocotbext/axi/axi_slave.py:AxiSlaveRead._handle_reset", "cocotbext/axi/stream.py:StreamSource._handle_reset", "cocotbext/axi/stream.py:StreamSink._handle_reset", "cocotbext/axi/stream.py:StreamBase._handle_reset", "cocotbext/axi/reset.py:Reset"]}
{"id": "C142", "title": "What crosses a connection, and what results report of it", "statement": "A transaction sent on a stream arrives with the value that was sent in every field that has a signal, and zero in the others; a value that its signal cannot carry is an error of the sender. The result of an operation has the address and length (or data) of the operation, shows a failure exactly when the target's responses do, and has the user values of all its responses in order, or None if that signal is not connected. (False of the code where bresp or rresp, which are optional, is not connected: the result is then always OKAY.)", "quantifier": "every design that the components accept, every set of optional signals, every stream that define_stream makes, every transaction, every sequence of responses", "why_tests_cant": "the optional signals alone give many kinds of connection, and fields that are missing must be tried in each, with every combination of responses", "anchors": ["cocotbext/axi/stream.py:StreamTransaction.__init__", "cocotbext/axi/stream.py:StreamSource._run", "cocotbext/axi/stream.py:StreamSink._run", "cocotbext/axi/axi_master.py:AxiMasterWrite._process_write_resp_id", "cocotbext/axi/axi_master.py:AxiMasterRead._process_read_resp_id", "cocotbext/axi/axil_master.py:AxiLiteMasterWrite._process_write_resp", "cocotbext/axi/axil_master.py:AxiLiteMasterRead._process_read_resp"]}
{"id": "C143", "title": "Indexing a memory region", "statement": "region[a], region[i:j] and their assignments are accesses to the same bytes as region.read and region.write: an index or slice gives what a read of these addresses returns, and an assignment has the outcome and the effect of the write. Over a buffer every slice, with any step, gives the bytes at the positions that Python defines, and assigning bytes of the right number changes exactly these; a refused assignment changes nothing. Iterating gives all bytes. (False of sparse memories, and of regions over them: a negative index raises ValueError, and iterating always ends with ValueError.)", "quantifier": "every region and memory object, every contents, every index, slice and step, every value", "why_tests_cant": "slices have three signed arguments, each possibly missing, and clamping makes their cases interact", "anchors": ["cocotbext/axi/address_space.py:MemoryRegion.__getitem__", "cocotbext/axi/address_space.py:MemoryRegion.__setitem__", "cocotbext/axi/address_space.py:MemoryRegion.__bytes__", "cocotbext/axi/address_space.py:SparseMemoryRegion.__getitem__", "cocotbext/axi/address_space.py:SparseMemoryRegion.__setitem__", "cocotbext/axi/sparse_memory.py:SparseMemory.__getitem__", "cocotbext/axi/sparse_memory.py:SparseMemory.__setitem__"]}
{"id": "C144", "title": "What was sent does not change any more", "statement": "The frames that an AXI stream source transmits have the values they had when send accepted them, whatever the user does later to the frame objects or to any list they have; and neither send, nor clear, nor the source itself changes an object of the user. A frame made from another one shares no list with it. (False of frames made from sideband lists, which keep the lists themselves, so that compact() of one changes others; and false of generic streams, whose send queues the object itself.)", "quantifier": "every history of creating, changing, copying, normalizing, compacting and sending frames and lists, interleaved in any way with the source taking, completing and dropping frames", "why_tests_cant": "sharing shows only when a particular object is changed at a particular moment between send and transmission", "anchors": ["cocotbext/axi/axis.py:AxiStreamFrame.__init__", "cocotbext/axi/axis.py:AxiStreamFrame.normalize", "cocotbext/axi/axis.py:AxiStreamFrame.compact", "cocotbext/axi/axis.py:AxiStreamSource.send", "cocotbext/axi/axis.py:AxiStreamSource.send_nowait", "cocotbext/axi/axis.py:AxiStreamSource._run", "cocotbext/axi/stream.py:StreamSource.send", "cocotbext/axi/stream.py:StreamSource._run"]}
{"id": "C145", "title": "Several readers of one sink", "statement": "However calls of recv(), read(), their nowait forms and clear() overlap: every item received goes to exactly one call, in the order of arrival; no byte is lost, repeated or reordered by read(); and no call stays suspended while an item is in the queue. (False of read(count): a second reader stays suspended while bytes left over by the first can be read. And blocked calls are not always served in the order in which they were made: later calls may overtake the first one without limit.)", "quantifier": "every number of readers, every interleaving of arrivals, calls, suspended calls getting their turns, cancellations and clear(), all items and counts", "why_tests_cant": "a lost wake-up needs a particular order of arrivals, calls and turns among several tasks", "anchors": ["cocotbext/axi/stream.py:StreamMonitor.recv", "cocotbext/axi/stream.py:StreamMonitor.recv_nowait", "cocotbext/axi/axis.py:AxiStreamMonitor.recv", "cocotbext/axi/axis.py:AxiStreamMonitor.recv_nowait", "cocotbext/axi/axis.py:AxiStreamMonitor.read", "cocotbext/axi/axis.py:AxiStreamMonitor.read_nowait", "cocotbext/axi/axis.py:AxiStreamBase.clear"]}
