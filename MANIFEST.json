{
 "claims": [
  {
   "property": "C01",
   "status": "proved",
   "theorems": [
    "Verif.SparseMemory.C01_read_latest",
    "Verif.SparseMemory.C01_write_exact"
   ],
   "note": "flat zero-initialised array, all histories"
  },
  {
   "property": "C02",
   "status": "proved",
   "theorems": [
    "Verif.SparseMemory.C02_read_error_iff",
    "Verif.SparseMemory.C02_read_error_kind",
    "Verif.SparseMemory.C02_write_error_iff"
   ],
   "note": ""
  },
  {
   "property": "C03",
   "status": "proved",
   "theorems": [
    "Verif.SparseMemory.C03_getItem",
    "Verif.SparseMemory.C03_getSlice",
    "Verif.SparseMemory.C03_setItem",
    "Verif.SparseMemory.C03_setSlice",
    "Verif.SparseMemory.sliceBound_spec"
   ],
   "note": ""
  },
  {
   "property": "C04",
   "status": "proved",
   "theorems": [
    "Verif.Memory.C04_words_round_trip",
    "Verif.Memory.C04_overflow",
    "Verif.Memory.C04_bytes_round_trip",
    "Verif.Memory.C04_word_round_trip"
   ],
   "note": ""
  },
  {
   "property": "C05",
   "status": "partial",
   "theorems": [
    "Verif.Memory.C05_init_iff",
    "Verif.Memory.C05_violated",
    "Verif.Memory.C05_construct_partial"
   ],
   "note": "False of the code for sizes >= 2**63 (C05_violated); holds exactly below (C05_init_iff)."
  },
  {
   "property": "C06",
   "status": "proved",
   "theorems": [
    "Verif.Buddy.C06_alloc_aligned_disjoint",
    "Verif.Buddy.C06_live_pairwise_disjoint",
    "Verif.Buddy.ceilPow2_spec"
   ],
   "note": ""
  },
  {
   "property": "C07",
   "status": "proved",
   "theorems": [
    "Verif.Buddy.C07_partition"
   ],
   "note": ""
  },
  {
   "property": "C08",
   "status": "proved",
   "theorems": [
    "Verif.Buddy.C08_free_all_restores"
   ],
   "note": ""
  },
  {
   "property": "C09",
   "status": "proved",
   "theorems": [
    "Verif.Buddy.C09_oom_iff",
    "Verif.Buddy.C09_alloc_errors"
   ],
   "note": ""
  },
  {
   "property": "C10",
   "status": "partial",
   "theorems": [
    "Verif.Buddy.C10_in_arena",
    "Verif.Buddy.C10_in_size_partial",
    "Verif.Buddy.C10_violated"
   ],
   "note": "True for power-of-two sizes; false of the code otherwise (C10_violated)."
  },
  {
   "property": "C11",
   "status": "proved",
   "theorems": [
    "Verif.Buddy.C11_free"
   ],
   "note": ""
  },
  {
   "property": "C12",
   "status": "proved",
   "theorems": [
    "Verif.C12_read",
    "Verif.C12_write",
    "Verif.C12_create_window",
    "Verif.C12_create_window_pool"
   ],
   "note": ""
  },
  {
   "property": "C13",
   "status": "proved",
   "theorems": [
    "Verif.C13_window_is_view",
    "Verif.C13_confined"
   ],
   "note": ""
  },
  {
   "property": "C14",
   "status": "proved",
   "theorems": [
    "Verif.C14_absolute_address",
    "Verif.C14_parent_address"
   ],
   "note": ""
  },
  {
   "property": "C15",
   "status": "proved",
   "theorems": [
    "Verif.AddressSpace.C15_regions_disjoint",
    "Verif.AddressSpace.C15_rejected_iff"
   ],
   "note": "The acceptance theorem assumes registered regions of nonzero size."
  },
  {
   "property": "C16",
   "status": "proved",
   "theorems": [
    "Verif.AddressSpace.C16_C17_space_routes",
    "Verif.AddressSpace.C16_lawful",
    "Verif.AddressSpace.C16_spaceMap_spec"
   ],
   "note": "Entries of nonzero size that fit their region; memories, sparse memories, windows and nested spaces are instances."
  },
  {
   "property": "C17",
   "status": "proved",
   "theorems": [
    "Verif.AddressSpace.C16_C17_space_routes",
    "Verif.AddressSpace.C17_out_of_space",
    "Verif.AddressSpace.C17_zero_length_read"
   ],
   "note": "Same hypotheses as C16."
  },
  {
   "property": "C18",
   "status": "partial",
   "theorems": [
    "Verif.Pool.C18_pool_disjoint_aligned",
    "Verif.Pool.C18_pool_never_overlaps_partial",
    "Verif.Pool.C18_pool_violated",
    "Verif.WindowPool.C18_windows_disjoint_aligned",
    "Verif.WindowPool.C18_windows_never_fail_partial",
    "Verif.WindowPool.C18_windows_violated"
   ],
   "note": "Disjointness and alignment hold always; 'never fails after the allocator succeeded' holds for power-of-two sizes and is false of the code otherwise."
  },
  {
   "property": "C19",
   "status": "partial",
   "theorems": [
    "Verif.C19_read_byte_partial",
    "Verif.C19_violated",
    "Verif.C19_violated_everywhere"
   ],
   "note": "False of the code for interfaces returning plain bytes."
  },
  {
   "property": "C62",
   "status": "partial",
   "theorems": [
    "Verif.C62_async_once_partial",
    "Verif.C62_violated"
   ],
   "note": "False of the code for plain (non-async) peripherals."
  },
  {
   "property": "C63",
   "status": "partial",
   "theorems": [
    "Verif.AddressSpace.C63_base_in_range_partial",
    "Verif.AddressSpace.C63_violated"
   ],
   "note": "False of the code: only the base is checked."
  },
  {
   "property": "C20",
   "status": "proved",
   "theorems": [
    "Verif.Axi.C20_write",
    "Verif.Axi.C20_read",
    "Verif.Axi.effMaxLen_spec"
   ],
   "note": ""
  },
  {
   "property": "C21",
   "status": "proved",
   "theorems": [
    "Verif.Axi.C21_lanes"
   ],
   "note": ""
  },
  {
   "property": "C22",
   "status": "proved",
   "theorems": [
    "Verif.Axi.C22_wlast"
   ],
   "note": ""
  },
  {
   "property": "C23",
   "status": "proved",
   "theorems": [
    "Verif.Axi.C23_write_stores",
    "Verif.Axi.C23_write_aliased"
   ],
   "note": "Request to memory, through AW/W traffic and B responses; the channels are lossless FIFOs here (C43 is about the channels)."
  },
  {
   "property": "C24",
   "status": "proved",
   "theorems": [
    "Verif.Axi.C24_read_exact",
    "Verif.Axi.C24_read_aliased",
    "Verif.Axi.C24_read_after_write"
   ],
   "note": ""
  },
  {
   "property": "C25",
   "status": "proved",
   "theorems": [
    "Verif.Axi.C25_write_burst"
   ],
   "note": ""
  },
  {
   "property": "C26",
   "status": "proved",
   "theorems": [
    "Verif.Axi.C26_read_burst"
   ],
   "note": ""
  },
  {
   "property": "C27",
   "status": "partial",
   "theorems": [
    "Verif.Axi.C27_fixed_partial",
    "Verif.Axi.C27_violated"
   ],
   "note": "False of the code for narrow or unaligned FIXED bursts."
  },
  {
   "property": "C28",
   "status": "proved",
   "theorems": [
    "Verif.Axi.C28_addresses"
   ],
   "note": ""
  },
  {
   "property": "C29",
   "status": "partial",
   "theorems": [
    "Verif.Axi.C29_accept_iff",
    "Verif.Axi.C29_reject",
    "Verif.Axi.C29_write_iff",
    "Verif.Axi.C29_representable_partial",
    "Verif.Axi.C29_violated"
   ],
   "note": "Acceptance is characterised exactly; id = 2**id_width is wrongly accepted."
  },
  {
   "property": "C30",
   "status": "partial",
   "theorems": [
    "Verif.Axi.C30_write",
    "Verif.Axi.C30_read",
    "Verif.Axi.lastNonOkay_okay_iff",
    "Verif.Axi.C30_error_reported_partial",
    "Verif.Axi.C30_violated"
   ],
   "note": "Aggregation is exactly 'last non-OKAY'; an error can be hidden by a later EXOKAY."
  },
  {
   "property": "C31",
   "status": "proved",
   "theorems": [
    "Verif.Axi.C31_read_ids",
    "Verif.Axi.C31_write_ids",
    "Verif.AxiOps.C31_ids",
    "Verif.AxiOps.C31_bursts",
    "Verif.AxiOps.C31_order"
   ],
   "note": ""
  },
  {
   "property": "C64",
   "status": "proved",
   "theorems": [
    "Verif.Axi.C64_ram_executes_traffic"
   ],
   "note": ""
  },
  {
   "property": "C65",
   "status": "proved",
   "theorems": [
    "Verif.Axi.C65_read_illegal",
    "Verif.Axi.C65_write_illegal",
    "Verif.Axi.C65_write_bad_last"
   ],
   "note": ""
  },
  {
   "property": "C42",
   "status": "proved",
   "theorems": [
    "Verif.Stream.C42_hold",
    "Verif.Stream.C42_hold_until"
   ],
   "note": ""
  },
  {
   "property": "C43",
   "status": "proved",
   "theorems": [
    "Verif.Stream.C43_exactly_once",
    "Verif.Stream.C43_exactly_once_always",
    "Verif.Stream.C43_no_dup"
   ],
   "note": "Exact accounting without clear()/reset; subsequence with them."
  },
  {
   "property": "C44",
   "status": "proved",
   "theorems": [
    "Verif.Stream.C44_captures",
    "Verif.Stream.C44_received",
    "Verif.Stream.C44_bound",
    "Verif.Stream.C44_no_dup"
   ],
   "note": ""
  },
  {
   "property": "C45",
   "status": "partial",
   "theorems": [
    "Verif.Stream.C45_ready_partial",
    "Verif.Stream.C45_violated"
   ],
   "note": "Holds without clear(); false of the code after clear() of a full sink."
  },
  {
   "property": "C46",
   "status": "proved",
   "theorems": [
    "Verif.Stream.C46_bound",
    "Verif.Stream.C46_send_nowait"
   ],
   "note": ""
  },
  {
   "property": "C47",
   "status": "proved",
   "theorems": [
    "Verif.Stream.C47_idle",
    "Verif.Stream.C47_accounting",
    "Verif.Stream.C47_no_dup"
   ],
   "note": ""
  },
  {
   "property": "C48",
   "status": "proved",
   "theorems": [
    "Verif.Stream.C48_monitor",
    "Verif.Stream.C48_received",
    "Verif.Stream.C48_no_dup"
   ],
   "note": ""
  },
  {
   "property": "C66",
   "status": "proved",
   "theorems": [
    "Verif.Stream.C66_no_lost_wakeup"
   ],
   "note": ""
  },
  {
   "property": "C67",
   "status": "proved",
   "theorems": [
    "Verif.Stream.C67_source_progress"
   ],
   "note": ""
  },
  {
   "property": "C68",
   "status": "proved",
   "theorems": [
    "Verif.Stream.C68_progress",
    "Verif.Stream.C68_delivery"
   ],
   "note": ""
  },
  {
   "property": "C69",
   "status": "partial",
   "theorems": [
    "Verif.Stream.C69_wait_partial",
    "Verif.Stream.C69_wait_violated"
   ],
   "note": "Holds without clear(); false of the code with clear() while an item is on the bus."
  },
  {
   "property": "C32",
   "status": "proved",
   "theorems": [
    "Verif.AxiOps.C32_matching",
    "Verif.AxiOps.C32_complete",
    "Verif.AxiOps.C32_results"
   ],
   "note": ""
  },
  {
   "property": "C33",
   "status": "partial",
   "theorems": [
    "Verif.AxiOps.C33_idle",
    "Verif.AxiOps.C33_count",
    "Verif.AxiOps.C33_init_violated",
    "Verif.LiteOps.C33_lite_idle",
    "Verif.LiteOps.C33_lite_init_violated",
    "Verif.Apb.C33_apb_partial"
   ],
   "note": "Proved for write()/read() of the AXI and AXI-lite masters, for APB as long as no reset lost a command (C34_apb_violated); the init_write/init_read gap is proved as a violation."
  },
  {
   "property": "C34",
   "status": "partial",
   "theorems": [
    "Verif.AxiOps.C34_reset",
    "Verif.LiteOps.C34_lite_reset",
    "Verif.Apb.C34_apb_partial",
    "Verif.Apb.C34_apb_violated"
   ],
   "note": "Proved for the AXI and AXI-lite masters. False of ApbMaster: a command between get() and the next clock edge is dropped by a reset and its caller hangs (C34_apb_violated); everything else holds (C34_apb_partial)."
  },
  {
   "property": "C70",
   "status": "proved",
   "theorems": [
    "Verif.AxiOps.C70_worker_check",
    "Verif.AxiOps.C70_arrival_check",
    "Verif.AxiOps.C70_rejects"
   ],
   "note": ""
  },
  {
   "property": "C71",
   "status": "partial",
   "theorems": [
    "Verif.AxiOps.C71_surplus_violated",
    "Verif.AxiOps.C70_rejects"
   ],
   "note": "False of the code; only the idle case holds."
  },
  {
   "property": "C72",
   "status": "proved",
   "theorems": [
    "Verif.AxiOps.C72_terminates",
    "Verif.AxiOps.C72_no_deadlock",
    "Verif.LiteOps.C72_lite_terminates",
    "Verif.LiteOps.C72_lite_no_deadlock"
   ],
   "note": ""
  },
  {
   "property": "C35",
   "status": "partial",
   "theorems": [
    "Verif.AxiOps.C35_final",
    "Verif.AxiOps.C35_once",
    "Verif.LiteOps.C35_lite_final",
    "Verif.LiteOps.C35_system_final",
    "Verif.LiteOps.C35_lite_early_violated",
    "Verif.Apb.C35_apb_partial",
    "Verif.Apb.C35_apb_violated"
   ],
   "note": "Proved for the AXI and AXI-lite masters (AXI-lite: if the slave never answers a transfer it has not received, which holds for the connected system). False of ApbMaster: current_command is never cleared (typo), so a reset signals the last completed command again with None (C35_apb_violated); no other result is changed (C35_apb_partial)."
  },
  {
   "property": "C36",
   "status": "proved",
   "theorems": [
    "Verif.Word.C36_accept_iff",
    "Verif.Word.C36_reject",
    "Verif.Word.C36_transfers",
    "Verif.Word.C36_write_aliased",
    "Verif.Word.C36_write_stores"
   ],
   "note": ""
  },
  {
   "property": "C37",
   "status": "proved",
   "theorems": [
    "Verif.Word.C37_accept_iff",
    "Verif.Word.C37_reject",
    "Verif.Word.C37_transfers",
    "Verif.Word.C37_read_aliased",
    "Verif.Word.C37_read_exact",
    "Verif.Word.C37_read_after_write"
   ],
   "note": ""
  },
  {
   "property": "C38",
   "status": "proved",
   "theorems": [
    "Verif.LiteOps.C38_matching",
    "Verif.LiteOps.C38_in_order",
    "Verif.LiteOps.C38_complete",
    "Verif.LiteOps.C38_traffic",
    "Verif.LiteOps.C38_results"
   ],
   "note": ""
  },
  {
   "property": "C73",
   "status": "proved",
   "theorems": [
    "Verif.Word.C73_write",
    "Verif.Word.C73_read",
    "Verif.Word.C73_response"
   ],
   "note": ""
  },
  {
   "property": "C74",
   "status": "proved",
   "theorems": [
    "Verif.Word.C74_zero_padded"
   ],
   "note": ""
  },
  {
   "property": "C75",
   "status": "proved",
   "theorems": [
    "Verif.LiteOps.C75_writes",
    "Verif.LiteOps.C75_reads",
    "Verif.LiteOps.C75_nothing_else",
    "Verif.LiteOps.C35_system_final"
   ],
   "note": "Channels are FIFOs here (C43), and master and slave are reset together."
  },
  {
   "property": "C76",
   "status": "proved",
   "theorems": [
    "Verif.LiteOps.C76_write",
    "Verif.LiteOps.C76_read",
    "Verif.LiteOps.C76_changes"
   ],
   "note": ""
  },
  {
   "property": "C77",
   "status": "proved",
   "theorems": [
    "Verif.LiteOps.C77_read_your_writes"
   ],
   "note": ""
  },
  {
   "property": "C39",
   "status": "proved",
   "theorems": [
    "Verif.Apb.C39_protocol",
    "Verif.Apb.C39_reset",
    "Verif.Apb.C39_transfers"
   ],
   "note": ""
  },
  {
   "property": "C40",
   "status": "proved",
   "theorems": [
    "Verif.Apb.C40_exactly_once",
    "Verif.Apb.C40_answers",
    "Verif.Apb.C40_idle",
    "Verif.Apb.C40_results"
   ],
   "note": ""
  },
  {
   "property": "C41",
   "status": "proved",
   "theorems": [
    "Verif.Apb.C41_one",
    "Verif.Apb.C41_results",
    "Verif.Apb.C41_memory",
    "Verif.Apb.C41_torn"
   ],
   "note": ""
  },
  {
   "property": "C78",
   "status": "proved",
   "theorems": [
    "Verif.Apb.C78_progress",
    "Verif.Apb.C78_complete"
   ],
   "note": ""
  },
  {
   "property": "C49",
   "status": "proved",
   "theorems": [
    "Verif.Axis.C49_transfer",
    "Verif.Axis.C49_all",
    "Verif.Axis.C49_recv_with_keep",
    "Verif.Axis.C49_recv_without_keep",
    "Verif.Axis.C49_with_keep",
    "Verif.Axis.C49_without_keep",
    "Verif.Axis.C49_bytes"
   ],
   "note": "Sidebands given per byte are received as those of the last byte in the beat."
  },
  {
   "property": "C50",
   "status": "proved",
   "theorems": [
    "Verif.Axis.C50_normalize",
    "Verif.Axis.C50_value_list",
    "Verif.Axis.C50_raises",
    "Verif.Axis.C50_idempotent"
   ],
   "note": ""
  },
  {
   "property": "C51",
   "status": "proved",
   "theorems": [
    "Verif.Axis.C51_compact",
    "Verif.Axis.C51_compact_no_keep",
    "Verif.Axis.C51_collapse",
    "Verif.Axis.C51_compact_once",
    "Verif.Axis.C51_compact_errors"
   ],
   "note": ""
  },
  {
   "property": "C52",
   "status": "proved",
   "theorems": [
    "Verif.Axis.C52_refl",
    "Verif.Axis.C52_symm",
    "Verif.Axis.C52_exact",
    "Verif.Axis.C52_not_transitive"
   ],
   "note": ""
  },
  {
   "property": "C53",
   "status": "partial",
   "theorems": [
    "Verif.Axis.C53_once",
    "Verif.Axis.C53_at_most_once",
    "Verif.Axis.C53_idle",
    "Verif.Axis.C53_empty_violated"
   ],
   "note": "Proved for non-empty frames; false of the code for empty frames (never signalled)."
  },
  {
   "property": "C54",
   "status": "proved",
   "theorems": [
    "Verif.Axis.C54_source",
    "Verif.Axis.C54_sink",
    "Verif.Axis.C54_monitor"
   ],
   "note": ""
  },
  {
   "property": "C55",
   "status": "partial",
   "theorems": [
    "Verif.Axis.C55_source_partial",
    "Verif.Axis.C55_sink_partial",
    "Verif.Axis.C55_violated",
    "Verif.Axis.C55_sink_violated",
    "Verif.Axis.C55_send_nowait"
   ],
   "note": "False of the code as stated; the bound L+1 is proved."
  },
  {
   "property": "C56",
   "status": "proved",
   "theorems": [
    "Verif.Axis.C56_bytes",
    "Verif.Axis.C56_bytes_monitor",
    "Verif.Axis.C56_read_nowait",
    "Verif.Axis.C56_stream"
   ],
   "note": ""
  },
  {
   "property": "C57",
   "status": "proved",
   "theorems": [
    "Verif.Axis.C57_hold",
    "Verif.Axis.C57_in_order",
    "Verif.Axis.C57_idle",
    "Verif.Axis.C57_no_dup"
   ],
   "note": ""
  },
  {
   "property": "C79",
   "status": "partial",
   "theorems": [
    "Verif.Axis.C79_partial",
    "Verif.Axis.C79_violated"
   ],
   "note": "False of the code for the last beat."
  },
  {
   "property": "C80",
   "status": "proved",
   "theorems": [
    "Verif.Axis.C80_sink_beats",
    "Verif.Axis.C80_sink",
    "Verif.Axis.C80_sink_no_dup",
    "Verif.Axis.C80_monitor_beats",
    "Verif.Axis.C80_monitor",
    "Verif.Axis.C80_monitor_no_dup"
   ],
   "note": ""
  },
  {
   "property": "C81",
   "status": "proved",
   "theorems": [
    "Verif.Axis.C81_no_lost_wakeup"
   ],
   "note": ""
  },
  {
   "property": "C82",
   "status": "partial",
   "theorems": [
    "Verif.Axis.C82_partial",
    "Verif.Axis.C82_violated"
   ],
   "note": "Holds without clear(); false of the code with clear() while a frame is on the bus."
  },
  {
   "property": "C83",
   "status": "proved",
   "theorems": [
    "Verif.Stream.C83_source",
    "Verif.Axis.C83_axis_source"
   ],
   "note": ""
  },
  {
   "property": "C84",
   "status": "partial",
   "theorems": [
    "Verif.Axis.C84_ready_partial",
    "Verif.Axis.C84_unlimited_partial",
    "Verif.Axis.C84_violated"
   ],
   "note": "Holds without clear(); false of the code after clear() of a full sink."
  },
  {
   "property": "C85",
   "status": "proved",
   "theorems": [
    "Verif.Axis.C85_progress",
    "Verif.Axis.C85_delivered"
   ],
   "note": ""
  },
  {
   "property": "C86",
   "status": "proved",
   "theorems": [
    "Verif.Stream.C86_sink",
    "Verif.Axis.C86_axis_sink"
   ],
   "note": ""
  },
  {
   "property": "C58",
   "status": "proved",
   "theorems": [
    "Verif.Reset.C58_state",
    "Verif.Reset.C58_calls",
    "Verif.Reset.C58_alternate"
   ],
   "note": "The signal is not active at construction and does not change before the component's coroutine starts; C58_alternate and C59_partial need no such assumption."
  },
  {
   "property": "C59",
   "status": "partial",
   "theorems": [
    "Verif.Reset.C59_partial",
    "Verif.Reset.C59_violated"
   ],
   "note": "False of the code as stated."
  },
  {
   "property": "C60",
   "status": "partial",
   "theorems": [
    "Verif.Hexdump.C60_lines",
    "Verif.Hexdump.C60_row_zero",
    "Verif.Hexdump.C60_str",
    "Verif.Hexdump.C60_sparse",
    "Verif.Hexdump.C60_region",
    "Verif.Hexdump.C60_memory",
    "Verif.Hexdump.C60_violated",
    "Verif.Hexdump.C60_memory_violated"
   ],
   "note": "Holds for all lengths but 0; false of the code for length 0."
  },
  {
   "property": "C61",
   "status": "partial",
   "theorems": [
    "Verif.DefineStream.C61_error_iff",
    "Verif.DefineStream.C61_fields",
    "Verif.DefineStream.C61_handshake",
    "Verif.DefineStream.C61_signals_partial",
    "Verif.DefineStream.C61_widths",
    "Verif.DefineStream.C61_transaction",
    "Verif.DefineStream.C61_violated"
   ],
   "note": "False of the code for a named valid or ready signal that is not listed."
  },
  {
   "property": "C87",
   "status": "proved",
   "theorems": [
    "Verif.DefineStream.C87_attach",
    "Verif.DefineStream.C87_bound"
   ],
   "note": ""
  },
  {
   "property": "C88",
   "status": "proved",
   "theorems": [
    "Verif.Stream.C88_sink",
    "Verif.Stream.C88_monitor",
    "Verif.Axis.C88_axis_sink",
    "Verif.Axis.C88_axis_monitor"
   ],
   "note": "Stream types without a valid signal are not covered: there the model does not represent a payload that has never been driven."
  },
  {
   "property": "C89",
   "status": "proved",
   "theorems": [
    "Verif.AxiSys.C89_calls",
    "Verif.AxiSys.C89_writes",
    "Verif.AxiSys.C89_reads",
    "Verif.AxiSys.C89_nothing_else",
    "Verif.AxiSys.C89_no_failure",
    "Verif.AxiSys.C89_id_violated"
   ],
   "note": "As stated for requested IDs that fit the ID signals; C89_id_violated: what happens for a requested ID equal to the number of IDs."
  },
  {
   "property": "C90",
   "status": "proved",
   "theorems": [
    "Verif.AxiSys.C90_write",
    "Verif.AxiSys.C90_read",
    "Verif.AxiSys.C90_changes"
   ],
   "note": ""
  },
  {
   "property": "C91",
   "status": "proved",
   "theorems": [
    "Verif.AxiSys.C91_read_your_writes"
   ],
   "note": ""
  },
  {
   "property": "C92",
   "status": "proved",
   "theorems": [
    "Verif.AxiSys.C92_write_order",
    "Verif.AxiSys.C92_read_order",
    "Verif.AxiSys.C92_sequential"
   ],
   "note": ""
  },
  {
   "property": "C93",
   "status": "proved",
   "theorems": [
    "Verif.AxiSys.C93_completes",
    "Verif.AxiSys.C93_no_deadlock",
    "Verif.AxiSys.C93_terminates"
   ],
   "note": ""
  },
  {
   "property": "C94",
   "status": "proved",
   "theorems": [
    "Verif.AxiSys.C94_refines",
    "Verif.AxiSys.C94_writes",
    "Verif.AxiSys.C94_reads",
    "Verif.AxiSys.C94_nothing_else",
    "Verif.AxiSys.C94_no_failure",
    "Verif.AxiSys.C94_ram_write",
    "Verif.AxiSys.C94_ram_read",
    "Verif.AxiSys.C94_read_your_writes",
    "Verif.AxiSys.C94_sequential"
   ],
   "note": "For requested IDs that fit the ID signals, as C89. The write side and the read side are each reset as a whole. Accesses of the target may take any number of clock cycles."
  },
  {
   "property": "C95",
   "status": "proved",
   "theorems": [
    "Verif.AxiSys.C95_completes_with_pauses",
    "Verif.AxiSys.C95_completes_cycles",
    "Verif.AxiSys.C95_completes",
    "Verif.AxiSys.edges"
   ],
   "note": "Weak fairness for every coroutine (so every access of the target returns), the clock and signal updates; croundRobin_fair shows that such schedules exist. Pauses: Open says that neither end is paused for ever when it looks; Cycles is the stronger, simpler condition that again and again there is a whole clock cycle without pause; exPauses is a schedule that pauses a sink in infinitely many clock cycles."
  },
  {
   "property": "C96",
   "status": "proved",
   "theorems": [
    "Verif.LiteOps.C96_write_order",
    "Verif.LiteOps.C96_read_order",
    "Verif.LiteOps.C96_sequential"
   ],
   "note": ""
  },
  {
   "property": "C97",
   "status": "proved",
   "theorems": [
    "Verif.LiteOps.C97_completes",
    "Verif.LiteOps.C97_no_deadlock",
    "Verif.LiteOps.C97_terminates",
    "Verif.LiteOps.C97_slave_survives"
   ],
   "note": ""
  },
  {
   "property": "C98",
   "status": "proved",
   "theorems": [
    "Verif.LiteOps.C98_refines",
    "Verif.LiteOps.C98_writes",
    "Verif.LiteOps.C98_reads",
    "Verif.LiteOps.C98_nothing_else",
    "Verif.LiteOps.C98_ram_write",
    "Verif.LiteOps.C98_ram_read",
    "Verif.LiteOps.C98_read_your_writes",
    "Verif.LiteOps.C98_sequential"
   ],
   "note": "The write side and the read side are each reset as a whole. Accesses of the target may take any number of clock cycles."
  },
  {
   "property": "C99",
   "status": "proved",
   "theorems": [
    "Verif.LiteOps.C99_completes_with_pauses",
    "Verif.LiteOps.C99_completes_cycles",
    "Verif.LiteOps.C99_completes",
    "Verif.LiteOps.clkEdges"
   ],
   "note": "Weak fairness for every coroutine (so every access of the target returns), the clock and signal updates; clkRobin_fair shows that such schedules exist. Pauses as in C95; exPauses is a schedule that pauses a sink in infinitely many clock cycles."
  },
  {
   "property": "C100",
   "status": "proved",
   "theorems": [
    "Verif.PauseGen.C100_stream",
    "Verif.PauseGen.C100_stream_cleared",
    "Verif.PauseGen.C100_axi",
    "Verif.PauseGen.C100_axi_cleared",
    "Verif.PauseGen.C100_lite",
    "Verif.PauseGen.C100_lite_cleared",
    "Verif.PauseGen.C100_apb",
    "Verif.PauseGen.C100_apb_cleared",
    "Verif.PauseGen.C100_axis",
    "Verif.PauseGen.C100_axis_cleared",
    "Verif.PauseGen.level_endless",
    "Verif.PauseGen.level_list",
    "Verif.PauseGen.C100_paused_at_end"
   ],
   "note": "level_endless and level_list say what the specification level means for endless and finite generators."
  },
  {
   "property": "C101",
   "status": "proved",
   "theorems": [
    "Verif.PauseGen.C101_axi_completes",
    "Verif.PauseGen.C101_lite_completes",
    "Verif.PauseGen.C101_apb_completes",
    "Verif.PauseGen.C101_apb_idle",
    "Verif.PauseGen.C101_axis_captured",
    "Verif.PauseGen.C101_axis_delivered",
    "Verif.PauseGen.C101_axis_idle",
    "Verif.PauseGen.C101_stream_delivered",
    "Verif.PauseGen.C101_stream_received",
    "Verif.PauseGen.C101_stream_idle"
   ],
   "note": "A source (on APB: the master and the slave) needs two consecutive cycles without pause unless it and its generator keep their order within a cycle (cocotb resumes in the order of waiting); schedules contain no wake-up of a sink without a reason."
  },
  {
   "property": "C102",
   "status": "proved",
   "theorems": [
    "Verif.AddressSpace.C102_region",
    "Verif.AddressSpace.C102_window",
    "Verif.AddressSpace.C102_space",
    "Verif.AddressSpace.C102_alias",
    "Verif.AxiSys.C102_write",
    "Verif.AxiSys.C102_read",
    "Verif.AxiSys.C102_changes"
   ],
   "note": "C102_region, C102_window and C102_space: these targets are Mapped (a target with an address map). The map must not lead to one place by two addresses; C102_alias shows why. The response of a read is characterised for a positive length."
  },
  {
   "property": "C103",
   "status": "proved",
   "theorems": [
    "Verif.AxiSys.C103_read_your_writes",
    "Verif.AxiSys.C103_last_write",
    "Verif.AxiSys.C103_untouched"
   ],
   "note": "Maps without aliasing, as in C102."
  },
  {
   "property": "C104",
   "status": "partial",
   "theorems": [
    "Verif.AxiSys.C104_mapped_read_partial",
    "Verif.AxiSys.C104_violated"
   ],
   "note": "False of the code as stated; holds if the map consists of entire bus words."
  },
  {
   "property": "C105",
   "status": "proved",
   "theorems": [
    "Verif.LiteOps.C105_write",
    "Verif.LiteOps.C105_read",
    "Verif.LiteOps.C105_changes"
   ],
   "note": "As C102."
  },
  {
   "property": "C106",
   "status": "proved",
   "theorems": [
    "Verif.LiteOps.C106_read_your_writes",
    "Verif.LiteOps.C106_last_write",
    "Verif.LiteOps.C106_untouched"
   ],
   "note": "As C103."
  },
  {
   "property": "C107",
   "status": "partial",
   "theorems": [
    "Verif.LiteOps.C107_mapped_read_partial",
    "Verif.LiteOps.C107_violated"
   ],
   "note": "False of the code as stated; holds if the map consists of entire bus words."
  },
  {
   "property": "C108",
   "status": "proved",
   "theorems": [
    "Verif.AxiSys.C108_write",
    "Verif.AxiSys.C108_read",
    "Verif.AxiSys.C108_changes",
    "Verif.AxiSys.C108_read_your_writes",
    "Verif.AxiSys.C108_last_write",
    "Verif.LiteOps.C108_write",
    "Verif.LiteOps.C108_read",
    "Verif.LiteOps.C108_changes",
    "Verif.LiteOps.C108_read_your_writes",
    "Verif.LiteOps.C108_last_write"
   ],
   "note": "As C102, C103, C105, C106."
  },
  {
   "property": "C109",
   "status": "proved",
   "theorems": [
    "Verif.Apb.C109_results",
    "Verif.Apb.C109_rest",
    "Verif.Apb.C109_read_your_writes",
    "Verif.Apb.C109_last_write",
    "Verif.Apb.C109_untouched",
    "Verif.Apb.C109_without_pslverr"
   ],
   "note": "Maps without aliasing, as in C102. C109_without_pslverr: failing accesses that return OKAY if pslverr is not connected."
  },
  {
   "property": "C110",
   "status": "partial",
   "theorems": [
    "Verif.Apb.C110_mapped_read_partial",
    "Verif.Apb.C110_violated"
   ],
   "note": "False of the code as stated; holds if the map consists of entire bus words."
  },
  {
   "property": "C111",
   "status": "proved",
   "theorems": [
    "Verif.C111_round_trip",
    "Verif.C111_errors"
   ],
   "note": "Maps without aliasing, as in C102."
  },
  {
   "property": "C112",
   "status": "proved",
   "theorems": [
    "Verif.AxiSys.C112_ram",
    "Verif.AxiSys.C112_mapped",
    "Verif.LiteOps.C112_ram",
    "Verif.LiteOps.C112_mapped",
    "Verif.Apb.C112_ram",
    "Verif.Apb.C112_mapped"
   ],
   "note": "Incrementing bursts; maps without aliasing, as in C102."
  },
  {
   "property": "C113",
   "status": "partial",
   "theorems": [
    "Verif.C113_interfaces_partial",
    "Verif.Apb.C113_violated"
   ],
   "note": "False of the bus masters; holds for memory interfaces. The witness is an APB history; the accessors are the same code for AXI and AXI-lite."
  },
  {
   "property": "C114",
   "status": "proved",
   "theorems": [
    "Verif.AxiSys.C114_reads_complete",
    "Verif.AxiSys.C114_writes_complete",
    "Verif.AxiSys.C114_reads_complete_cycles",
    "Verif.AxiSys.C114_writes_complete_cycles",
    "Verif.LiteOps.C114_reads_complete",
    "Verif.LiteOps.C114_writes_complete",
    "Verif.LiteOps.C114_reads_complete_cycles",
    "Verif.LiteOps.C114_writes_complete_cycles"
   ],
   "note": "Fairness (CFairOn, ClkFairOn) for the events of one side and the clock only. The examples have an access of the target that never returns on the other side."
  },
  {
   "property": "C115",
   "status": "proved",
   "theorems": [
    "Verif.Multi.C115_axi_writes",
    "Verif.Multi.C115_axi_reads",
    "Verif.Multi.C115_lite_writes",
    "Verif.Multi.C115_lite_reads",
    "Verif.Multi.C115_apb",
    "Verif.Multi.C115_nothing_else",
    "Verif.Multi.C115_no_failure"
   ],
   "note": "Operations identified by object: no operation is issued twice on an AXI-lite or APB port."
  },
  {
   "property": "C116",
   "status": "proved",
   "theorems": [
    "Verif.Multi.C116_changes",
    "Verif.Multi.C116_write",
    "Verif.Multi.C116_read",
    "Verif.Multi.C116_stays",
    "Verif.Multi.C116_read_your_writes"
   ],
   "note": "Incrementing bursts with spans inside the memory."
  },
  {
   "property": "C117",
   "status": "partial",
   "theorems": [
    "Verif.AddressSpace.C117_write_byte_partial",
    "Verif.AddressSpace.C117_region_partial",
    "Verif.AddressSpace.C117_window_partial",
    "Verif.AddressSpace.C117_space_partial",
    "Verif.AddressSpace.C117_violated",
    "Verif.C117_masters",
    "Verif.Memory.C117_memory_partial",
    "Verif.Memory.C117_memory_rejects",
    "Verif.Memory.C117_memory_violated"
   ],
   "note": "False of the code for mmap objects (the default of MemoryRegion and Pool.alloc_region); holds for sparse memories, and for windows, address spaces and bus masters on top of what accepts lists."
  },
  {
   "property": "C118",
   "status": "partial",
   "theorems": [
    "Verif.C118_window_read",
    "Verif.C118_window_write",
    "Verif.C118_window_confined",
    "Verif.C118_window_exact",
    "Verif.C118_space_read",
    "Verif.C118_space_write",
    "Verif.C118_space_confined",
    "Verif.C118_space_returns",
    "Verif.C118_space_succeeds",
    "Verif.C118_memory_region",
    "Verif.C118_sparse_region",
    "Verif.C118_master_read",
    "Verif.C118_master_write",
    "Verif.C118_master_write_partial",
    "Verif.C118_read_back",
    "Verif.C118_write_lost_violation",
    "Verif.C118_error_swallowed_violation"
   ],
   "note": "Reads hold in full; writes hold if no write of the master is dropped by a reset (false of the code otherwise). Memories behind the masters as in C116."
  },
  {
   "property": "C119",
   "status": "proved",
   "theorems": [
    "Verif.AxiSys.C119_axi_write",
    "Verif.AxiSys.C119_axi_read",
    "Verif.AxiSys.C119_axi_defaults",
    "Verif.Word.C119_prot",
    "Verif.AddressSpace.C119_find_regions",
    "Verif.Hexdump.C119_hexdump"
   ],
   "note": "Sideband values are those handed to the channels; whether a value fits its signal is not part of the claim (cf. C29)."
  },
  {
   "property": "C120",
   "status": "proved",
   "theorems": [
    "Verif.Apb.C120_refines",
    "Verif.Apb.C120_exactly_once",
    "Verif.Apb.C120_answers",
    "Verif.Apb.C120_idle",
    "Verif.Apb.C120_ram"
   ],
   "note": "A reset does not happen between the turns of the two coroutines after the same edge."
  },
  {
   "property": "C121",
   "status": "proved",
   "theorems": [
    "Verif.Apb.C121_completes",
    "Verif.Apb.C121_each",
    "Verif.Apb.C121_idle"
   ],
   "note": "Weak fairness (CFair); Unheld: again and again a side does not wait because of pause, or finds it released at its turn. exRun_fair and exRun_unheld show that such runs exist."
  },
  {
   "property": "C122",
   "status": "partial",
   "theorems": [
    "Verif.Axis.C122_sink_busy",
    "Verif.Axis.C122_monitor_busy",
    "Verif.Axis.C122_monitor_exact",
    "Verif.Axis.C122_sink_exact_partial",
    "Verif.Axis.C122_sink_reset",
    "Verif.Axis.C122_monitor_reset",
    "Verif.Axis.C122_sink_violated"
   ],
   "note": "False of the code for paused or full sinks; holds for monitors, and for sinks whenever they look at the bus."
  },
  {
   "property": "C123",
   "status": "proved",
   "theorems": [
    "Verif.Axis.C123_captured",
    "Verif.Axis.C123_delivered",
    "Verif.Axis.C123_idle"
   ],
   "note": "NetFlows states what the schedule must not withhold for ever; exFlow_flows shows that such runs exist, with limits on both sides, pauses and blocked calls."
  },
  {
   "property": "C124",
   "status": "proved",
   "theorems": [
    "Verif.Stream.C124_delivered",
    "Verif.Stream.C124_idle",
    "Verif.Stream.C124_received"
   ],
   "note": "NetFlows states what the schedule must not withhold for ever; exFlow_flows shows that such runs exist. C124_received has no hypothesis on the sink's queue: a reader that goes on makes room."
  },
  {
   "property": "C125",
   "status": "proved",
   "theorems": [
    "Verif.Stream.C125_captured",
    "Verif.Stream.C125_lag",
    "Verif.Stream.C125_received",
    "Verif.Stream.C125_passive",
    "Verif.Axis.C125_axis_captured",
    "Verif.Axis.C125_axis_lag",
    "Verif.Axis.C125_axis_frames",
    "Verif.Axis.C125_axis_passive"
   ],
   "note": "Source, sink and monitor on one bus, any events in any order. After every clock edge the three coroutines run in any order."
  },
  {
   "property": "C126",
   "status": "proved",
   "theorems": [
    "Verif.Stream.C126_rate",
    "Verif.Stream.C126_no_gaps",
    "Verif.Axis.C126_axis_rate",
    "Verif.Axis.C126_axis_no_gaps"
   ],
   "note": "Sinks without limit; AXI stream frames non-empty (an empty frame costs a clock cycle, shown beside the theorems)."
  },
  {
   "property": "C127",
   "status": "proved",
   "theorems": [
    "Verif.Axis.C127_sink",
    "Verif.Axis.C127_monitor",
    "Verif.Axis.C127_sink_order",
    "Verif.Axis.C127_monitor_order"
   ],
   "note": "a layer with simulated time over the stream model"
  },
  {
   "property": "C128",
   "status": "partial",
   "theorems": [
    "Verif.Axis.C128_source_partial",
    "Verif.Axis.C128_signalled",
    "Verif.Axis.C128_cut",
    "Verif.Axis.C128_violated"
   ],
   "note": "false of the code (README: first and last transfer cycle): proved is that packet k belongs to the frame signalled as the k-th, that sim_time_start lies between the last transfer of the packet before and the first transfer, and that sim_time_end is always before the last transfer; with witness"
  },
  {
   "property": "C129",
   "status": "proved",
   "theorems": [
    "Verif.AddressSpace.C129_create_iff",
    "Verif.AddressSpace.C129_reach",
    "Verif.AddressSpace.C129_regions"
   ],
   "note": "Regions that stick out of the pool (C18) are covered as far as the pool reaches."
  },
  {
   "property": "C130",
   "status": "partial",
   "theorems": [
    "Verif.Axis.C130_accepts",
    "Verif.Axis.C130_fits",
    "Verif.Axis.C130_byte_size_partial",
    "Verif.Axis.C130_violated"
   ],
   "note": "False of the code for a byte_size that does not divide the width: 20 bits with byte_size=8 become two lanes of 10 bits, without an error. A byte_size that divides the width is used."
  },
  {
   "property": "C131",
   "status": "partial",
   "theorems": [
    "Verif.DefineStream.C131_arguments_partial",
    "Verif.DefineStream.C131_violated"
   ],
   "note": "False of the code: the dict of widths gets an entry for the valid and the ready signal (None if there is none) unless it has one, and the list of signals is extended if a named valid or ready signal is not in it. Witness: two definitions that share a dict, the second of which fails to attach because of the first."
  },
  {
   "property": "C132",
   "status": "partial",
   "theorems": [
    "Verif.LiteOps.C132_writes_partial",
    "Verif.LiteOps.C132_reads_partial",
    "Verif.LiteOps.C132_nothing_else_partial",
    "Verif.LiteOps.C132_idle_partial",
    "Verif.LiteOps.C132_completes_partial",
    "Verif.LiteOps.C132_violated"
   ],
   "note": "proved for all histories in which one end is reset alone only while idle() of the master is true (both ends together at any time); false otherwise: the other end keeps its transactions and pairs them with those of later operations"
  },
  {
   "property": "C133",
   "status": "partial",
   "theorems": [
    "Verif.Apb.C133_exactly_once_partial",
    "Verif.Apb.C133_answers_partial",
    "Verif.Apb.C133_idle_partial",
    "Verif.Apb.C133_completes_partial",
    "Verif.Apb.C133_violated"
   ],
   "note": "proved for all histories in which one end is reset alone only while penable is low or the slave is in reset (both ends together at any time); false otherwise: after a reset of the master alone during an access, the slave's late pready completes a later transfer that is never performed; after a reset of the slave alone during an access it has performed, the access is performed again"
  },
  {
   "property": "C134",
   "status": "proved",
   "theorems": [
    "Verif.Axis.C134_no_corruption",
    "Verif.Axis.C134_recv",
    "Verif.Axis.C134_loss",
    "Verif.Axis.C134_delivery",
    "Verif.Axis.C134_idle"
   ],
   "note": "the bound of one frame per reset is for resets asserted between clock edges; between the edge and the sink's reaction to it a reset can lose two (example in Props/AxisSplit.lean)"
  },
  {
   "property": "C135",
   "status": "partial",
   "theorems": [
    "Verif.Axis.C135_no_corruption_partial",
    "Verif.Axis.C135_loss_partial",
    "Verif.Axis.C135_delivery_partial",
    "Verif.Axis.C135_idle_partial",
    "Verif.Axis.C135_violated_source",
    "Verif.Axis.C135_violated_sink"
   ],
   "note": "proved for all histories in which one component is reset alone only while the sink has no unfinished frame (on a bus without tready, the sink also only while the source is in reset); both together at any time. False otherwise: after a reset of the source in the middle of a frame its first beats and the next frame are received as one frame; after a reset of the sink the rest of the frame is received as a frame"
  },
  {
   "property": "C136",
   "status": "partial",
   "theorems": [
    "Verif.AxiSys.C136_writes_partial",
    "Verif.AxiSys.C136_reads_partial",
    "Verif.AxiSys.C136_nothing_else_partial",
    "Verif.AxiSys.C136_no_failure_partial",
    "Verif.AxiSys.C136_idle_partial",
    "Verif.AxiSys.C136_completes_partial",
    "Verif.AxiSys.C136_violated"
   ],
   "note": "proved for all histories in which one end is reset alone only while idle() of the master is true or the master is in reset already (both ends together at any time); false otherwise: the other end keeps its transactions and pairs them with those of later operations, or an assertion in the slave fails"
  },
  {
   "property": "C137",
   "status": "proved",
   "theorems": [
    "Verif.Stream.C137_accounting",
    "Verif.Stream.C137_one_per_reset",
    "Verif.Stream.C137_quiet_resets",
    "Verif.Stream.C137_delivery",
    "Verif.Stream.C137_no_ready"
   ],
   "note": "without a ready signal the sink must not be reset (nothing holds the source then): C137_no_ready shows a loss of two items by one reset; delivery is for an unlimited sink queue and histories without clear() (clear() of a sink can leave it asleep, see C45)"
  },
  {
   "property": "C138",
   "status": "proved",
   "theorems": [
    "Verif.Wiring.C138_drives",
    "Verif.Wiring.C138_one_driver",
    "Verif.Wiring.C138_no_contention",
    "Verif.Wiring.C138_monitor",
    "Verif.Wiring.C138_stream"
   ],
   "note": "names of signals are compared as they are (cocotb_bus ignores the case of required ones)"
  },
  {
   "property": "C139",
   "status": "partial",
   "theorems": [
    "Verif.Wiring.C139_accepts_partial",
    "Verif.Wiring.C139_legal",
    "Verif.Wiring.C139_missing",
    "Verif.Wiring.C139_write_config",
    "Verif.Wiring.C139_read_config",
    "Verif.Wiring.C139_write_present",
    "Verif.Wiring.C139_read_present",
    "Verif.Wiring.C139_std",
    "Verif.Wiring.C139_both",
    "Verif.Wiring.C139_lite_write_config",
    "Verif.Wiring.C139_lite_read_config",
    "Verif.Wiring.C139_lite_std",
    "Verif.Wiring.C139_apb_config",
    "Verif.Wiring.C139_apb_std",
    "Verif.Wiring.C139_violated",
    "Verif.Wiring.C139_violated_apb"
   ],
   "note": "exactly what is accepted is proved, and that every legal interface is; the code also accepts data widths that are not a power of two of bytes (AXI operations on them fail: C139_violated) and APB interfaces with prdata of another width"
  },
  {
   "property": "C140",
   "status": "partial",
   "theorems": [
    "Verif.LiteOps.C140_writes_partial",
    "Verif.LiteOps.C140_reads_partial",
    "Verif.LiteOps.C140_nothing_else_partial",
    "Verif.LiteOps.C140_idle_partial",
    "Verif.LiteOps.C140_completes_with_pauses_partial",
    "Verif.LiteOps.C140_completes_partial",
    "Verif.LiteOps.C140_read_your_writes_partial",
    "Verif.LiteOps.C140_sequential_partial",
    "Verif.LiteOps.C140_violated"
   ],
   "note": "proved for all histories in which one end is reset alone only while idle() of the master is true or the master is in reset (both ends together at any time); false otherwise: the other end keeps its transactions and pairs them with those of later operations"
  },
  {
   "property": "C141",
   "status": "partial",
   "theorems": [
    "Verif.AxiSys.C141_writes_partial",
    "Verif.AxiSys.C141_reads_partial",
    "Verif.AxiSys.C141_nothing_else_partial",
    "Verif.AxiSys.C141_no_failure_partial",
    "Verif.AxiSys.C141_idle_partial",
    "Verif.AxiSys.C141_completes_with_pauses_partial",
    "Verif.AxiSys.C141_completes_partial",
    "Verif.AxiSys.C141_read_your_writes_partial",
    "Verif.AxiSys.C141_sequential_partial",
    "Verif.AxiSys.C141_violated"
   ],
   "note": "proved for all histories in which one end is reset alone only while idle() of the master is true or the master is in reset (both ends together at any time); false otherwise: the other end keeps its transactions and pairs them with those of later operations"
  },
  {
   "property": "C142",
   "status": "partial",
   "theorems": [
    "Verif.Wiring.C142_transfer",
    "Verif.Wiring.C142_write_partial",
    "Verif.Wiring.C142_read_partial",
    "Verif.Wiring.C142_lite_write_partial",
    "Verif.Wiring.C142_lite_read_partial",
    "Verif.Wiring.C142_detected_partial",
    "Verif.Wiring.C142_violated"
   ],
   "note": "proved in full but for failures where the response signal is not connected, which are reported as OKAY"
  },
  {
   "property": "C143",
   "status": "partial",
   "theorems": [
    "Verif.RegionIndex.C143_index_is_read",
    "Verif.RegionIndex.C143_slice_is_read",
    "Verif.RegionIndex.C143_index_is_write",
    "Verif.RegionIndex.C143_slice_is_write",
    "Verif.RegionIndex.C143_stepped",
    "Verif.RegionIndex.C143_refused",
    "Verif.RegionIndex.C143_negative_partial",
    "Verif.RegionIndex.C143_negative_violated",
    "Verif.RegionIndex.C143_iterate_partial",
    "Verif.RegionIndex.C143_iterate_violated"
   ],
   "note": "proved in full for buffers; over sparse memories negative indices and iteration raise ValueError, and so do slices with another step (C03)"
  },
  {
   "property": "C144",
   "status": "partial",
   "theorems": [
    "Verif.Alias.C144_snapshot",
    "Verif.Alias.C144_untouched",
    "Verif.Alias.C144_copy",
    "Verif.Alias.C144_copy_separate",
    "Verif.Alias.C144_compact",
    "Verif.Alias.C144_shared_violated",
    "Verif.Alias.C144_stream_partial",
    "Verif.Alias.C144_stream_violated"
   ],
   "note": "proved in full for AXI stream sources; frames constructed from sideband lists share them, and generic streams queue the object itself: a later change is transmitted"
  },
  {
   "property": "C145",
   "status": "partial",
   "theorems": [
    "Verif.Readers.C145_once",
    "Verif.Readers.C145_bytes",
    "Verif.Readers.C145_no_lost_wakeup",
    "Verif.Readers.C145_read_returns",
    "Verif.Readers.C145_read_resumes",
    "Verif.Readers.C145_read_partial",
    "Verif.Readers.C145_read_violated",
    "Verif.Readers.C145_order_partial",
    "Verif.Readers.C145_order_violated",
    "Verif.AxisReaders.C145_axis_sink",
    "Verif.AxisReaders.C145_axis_readers",
    "Verif.AxisReaders.C145_axis_served",
    "Verif.AxisReaders.C145_axis_delivered",
    "Verif.StreamReaders.C145_stream_sink",
    "Verif.StreamReaders.C145_stream_monitor",
    "Verif.StreamReaders.C145_stream_sink_readers",
    "Verif.StreamReaders.C145_stream_monitor_readers",
    "Verif.StreamReaders.C145_stream_sink_delivered",
    "Verif.StreamReaders.C145_stream_monitor_delivered",
    "Verif.AxisMonReaders.C145_axis_monitor_partial",
    "Verif.AxisMonReaders.C145_axis_monitor_readers_partial",
    "Verif.AxisMonReaders.C145_axis_monitor_delivered_partial"
   ],
   "note": "exactly-once delivery and wake-ups of recv() are proved in full; read(count) of several readers can stay suspended although bytes can be read, and the order of service holds only if no call is made between a wake-up and the turn of the woken call; for AXI stream monitors the suspended calls are recv() only"
  }
 ]
}