{
 "claims": [
  {
   "property": "C01",
   "status": "proved",
   "theorems": [
    "Spead2.C01_immediate_roundtrip",
    "Spead2.C01_address_roundtrip",
    "Spead2.C01_decode_encode",
    "Spead2.C01_injective"
   ],
   "note": ""
  },
  {
   "property": "C02",
   "status": "proved",
   "theorems": [
    "Spead2.C02_flavour_valid"
   ],
   "note": ""
  },
  {
   "property": "C03",
   "status": "proved",
   "theorems": [
    "Spead2.C03_decode_safe"
   ],
   "note": ""
  },
  {
   "property": "C04",
   "status": "proved",
   "theorems": [
    "Spead2.C04_accept_iff",
    "Spead2.C04_reject_iff"
   ],
   "note": ""
  },
  {
   "property": "C05",
   "status": "proved",
   "theorems": [
    "Spead2.C05_stable",
    "Spead2.C05_zero_means_more",
    "Spead2.C05_agrees",
    "Spead2.C05_disagrees_on_repeated_item"
   ],
   "note": "C05_disagrees_on_repeated_item shows the single-item hypothesis is needed."
  },
  {
   "property": "C06",
   "status": "proved",
   "theorems": [
    "Spead2.C06_terminates_within_limit",
    "Spead2.C06_asserts_hold"
   ],
   "note": ""
  },
  {
   "property": "C07",
   "status": "proved",
   "theorems": [
    "Spead2.C07_tiling"
   ],
   "note": ""
  },
  {
   "property": "C08",
   "status": "proved",
   "theorems": [
    "Spead2.C08_pointers",
    "Spead2.C08_pointer_of_item"
   ],
   "note": ""
  },
  {
   "property": "C09",
   "status": "partial",
   "theorems": [
    "Spead2.C09_payload_partial",
    "Spead2.C09_actual_payload",
    "Spead2.C09_violated",
    "Spead2.C08_pointer_of_item"
   ],
   "note": "The code violates the property for padded heaps whose real payload length is not a multiple of 8 (C09_violated); proved in all other cases, and the actual behaviour in the violating case is characterised by C09_actual_payload."
  },
  {
   "property": "C10",
   "status": "partial",
   "theorems": [
    "Spead2.C10_end_to_end_partial",
    "Spead2.C10_violated"
   ],
   "note": "Proved for heaps whose payload is sent faithfully, for every arrival order when no zero-length item travels in the payload, and otherwise when pointers are repeated or packets first arrive in order. The code violates the full statement (zero-length items with reordered packets; padding bug of C09)."
  },
  {
   "property": "C100",
   "status": "partial",
   "theorems": [
    "Spead2.Alloc.C100_fits",
    "Spead2.Alloc.C100_fails",
    "Spead2.Alloc.C100_preferred",
    "Spead2.Alloc.C100_live",
    "Spead2.Alloc.C100_frees",
    "Spead2.Alloc.C100_refs",
    "Spead2.Alloc.C100_owner",
    "Spead2.Alloc.C100_partial",
    "Spead2.Alloc.C100_ordinary",
    "Spead2.Alloc.C100_leak",
    "Spead2.Alloc.C100_streams",
    "Spead2.Alloc.C100_default",
    "Spead2.Alloc.C100_violated",
    "Spead2.Alloc.C100_prefault",
    "Spead2.Alloc.C100_prefault_missed"
   ],
   "note": "Room, failure, preference, lifetime and exact calls of free are proved for all histories. Giving everything back is proved except for mappings with huge pages whose size in ordinary pages is not a multiple of theirs: munmap refuses their length and the result is not looked at, so they stay for ever (C100_violated, C100_streams)."
  },
  {
   "property": "C101",
   "status": "partial",
   "theorems": [
    "Spead2.ThreadPool.C101_threads",
    "Spead2.ThreadPool.C101_refused",
    "Spead2.ThreadPool.C101_order",
    "Spead2.ThreadPool.C101_once",
    "Spead2.ThreadPool.C101_parallel",
    "Spead2.ThreadPool.C101_quiet",
    "Spead2.ThreadPool.C101_after",
    "Spead2.ThreadPool.C101_stop_returns",
    "Spead2.ThreadPool.C101_stuck",
    "Spead2.ThreadPool.C101_partial",
    "Spead2.ThreadPool.C101_hangs",
    "Spead2.ThreadPool.C101_violated",
    "Spead2.ThreadPool.C101_affinity",
    "Spead2.ThreadPool.C101_bound"
   ],
   "note": "All parts are proved for all schedules except that the constructor returns or throws: if a thread cannot be made after another one was, the destructor of the first future waits for a thread that is never told to stop (C101_hangs, C101_violated)."
  },
  {
   "property": "C102",
   "status": "partial",
   "theorems": [
    "Spead2.PyBench.C102_own",
    "Spead2.PyBench.C102_turns",
    "Spead2.PyBench.C102_ready",
    "Spead2.PyBench.C102_count",
    "Spead2.PyBench.C102_final",
    "Spead2.PyBench.C102_isolated",
    "Spead2.PyBench.C102_waits",
    "Spead2.PyBench.C102_partial",
    "Spead2.PyBench.C102_freed",
    "Spead2.PyBench.C102_violated",
    "Spead2.PyBench.C102_blocked",
    "Spead2.PyBench.C102_dies",
    "Spead2.PyBench.C102_lives"
   ],
   "note": "Replies, counts and isolation are proved for all histories. That endpoints are free again is proved for histories without exceptions, and fails with them (C102_violated, C102_blocked). A client can end the agent (C102_dies), in one way only (C102_lives)."
  },
  {
   "property": "C103",
   "status": "partial",
   "theorems": [
    "Spead2.Loader.C103_call",
    "Spead2.Loader.C103_partial",
    "Spead2.Loader.C103_single",
    "Spead2.Loader.C103_same",
    "Spead2.Loader.C103_once",
    "Spead2.Loader.C103_opened",
    "Spead2.Loader.C103_query",
    "Spead2.Loader.C103_query_wrong",
    "Spead2.Loader.C103_returns",
    "Spead2.Loader.C103_violated",
    "Spead2.Loader.C103_race",
    "Spead2.Loader.C103_falsy",
    "Spead2.Loader.C103_register",
    "Spead2.Loader.C103_register_runs"
   ],
   "note": "False in full (C103_violated): has_... answers yes if the library is absent or lacks a required function (C103_query_wrong); a call that starts while another thread loads a library that lacks a function can enter the library after it was closed (C103_race). C103_call: expected for every schedule if the library works or is absent; C103_partial: for every library if no call starts during the loading."
  },
  {
   "property": "C104",
   "status": "partial",
   "theorems": [
    "Spead2.Cmdline.C104_partial",
    "Spead2.Cmdline.C104_file",
    "Spead2.Cmdline.C104_never",
    "Spead2.Cmdline.C104_large",
    "Spead2.Cmdline.C104_violated",
    "Spead2.Cmdline.C104_underscore",
    "Spead2.Cmdline.C104_dest",
    "Spead2.Cmdline.C104_recv_notify",
    "Spead2.Cmdline.C104_send_notify",
    "Spead2.Cmdline.C104_each",
    "Spead2.Cmdline.C104_added",
    "Spead2.Cmdline.C104_readers",
    "Spead2.Cmdline.C104_v6",
    "Spead2.Cmdline.C104_options",
    "Spead2.Cmdline.C104_refused",
    "Spead2.Cmdline.C104_ranges",
    "Spead2.Cmdline.C104_cores"
   ],
   "note": "False in full (C104_violated): texts that Python's int accepts and boost::lexical_cast<uint16_t> does not, such as 100000 or 1_0, are files to the C++ tools and ports or errors to the Python tools (C104_large, C104_underscore); a destination with an empty host is refused by one only (C104_dest); an address to bind is ignored for IPv6 by one only (C104_v6). Agreement is proved for all decimal ports (C104_partial) and all names with a character that is in no number (C104_file); white space and digits are those of ASCII."
  },
  {
   "property": "C105",
   "status": "partial",
   "theorems": [
    "Spead2.Socket.C105_refused",
    "Spead2.Socket.C105_starts",
    "Spead2.Socket.C105_added",
    "Spead2.Socket.C105_gets",
    "Spead2.Socket.C105_only",
    "Spead2.Socket.C105_one",
    "Spead2.Socket.C105_share",
    "Spead2.Socket.C105_busy",
    "Spead2.Socket.C105_partial",
    "Spead2.Socket.C105_violated",
    "Spead2.Socket.C105_both",
    "Spead2.Socket.C105_send",
    "Spead2.Socket.C105_send_empty",
    "Spead2.Socket.C105_warn",
    "Spead2.Socket.C105_buffer",
    "Spead2.Socket.C105_buffer_wraps",
    "Spead2.Socket.C105_groups"
   ],
   "note": "Violated for groups on one interface (C105_violated, C105_both): IP_MULTICAST_ALL is left at its default, so two readers of the same group and port, each on its own interface, both get the datagrams of both networks. C105_partial: it holds while no other socket of the host has joined the group elsewhere. Two of the four constructors of senders accept an empty list of endpoints (C105_send_empty), and buffer sizes of 4 GiB and more wrap (C105_buffer_wraps)."
  },
  {
   "property": "C106",
   "status": "partial",
   "theorems": [
    "Spead2.RecvTool.C106_streams",
    "Spead2.RecvTool.C106_total",
    "Spead2.RecvTool.C106_ends",
    "Spead2.RecvTool.C106_partial",
    "Spead2.RecvTool.C106_violated",
    "Spead2.RecvTool.C106_ring",
    "Spead2.RecvTool.C106_serial",
    "Spead2.RecvTool.C106_threads",
    "Spead2.RecvTool.C106_py",
    "Spead2.RecvTool.C106_descriptors_partial",
    "Spead2.RecvTool.C106_descriptors_violated",
    "Spead2.RecvTool.C106_bad"
   ],
   "note": "Violated: with --ring, spead2_recv never calls verify_heap, so --verify --ring succeeds whatever arrives (C106_violated, C106_ring); C106_partial proves it without --ring. With several streams and threads the manipulators of std::cout are shared, and heap numbers can appear in hexadecimal (C106_threads). In recv_asyncio.py a bad descriptor makes --descriptors skip the update of the item group, so that later items are lost that are shown without it (C106_descriptors_violated, C106_descriptors_partial)."
  },
  {
   "property": "C107",
   "status": "partial",
   "theorems": [
    "Spead2.ToolSocket.C107_partial",
    "Spead2.ToolSocket.C107_unicast",
    "Spead2.ToolSocket.C107_groups6",
    "Spead2.ToolSocket.C107_ttl",
    "Spead2.ToolSocket.C107_violated",
    "Spead2.ToolSocket.C107_bind6",
    "Spead2.ToolSocket.C107_order",
    "Spead2.ToolSocket.C107_readers",
    "Spead2.ToolSocket.C107_hears"
   ],
   "note": "Violated: a TTL for an address that is not a group is ignored by spead2_send and refused by the Python tool (C107_violated, C107_ttl); an interface for groups of IPv6 is ignored by one only (C107_bind6), also by readers (C107_readers); with groups among other endpoints spead2_send depends on the order (C107_order). Agreement is proved for all groups of IPv4 (C107_partial), for other addresses without TTL (C107_unicast) and for groups of IPv6 without interface (C107_groups6). UDP without ibverbs only."
  },
  {
   "property": "C108",
   "status": "partial",
   "theorems": [
    "Spead2.PyPlace.C108_partial",
    "Spead2.PyPlace.C108_violated",
    "Spead2.PyPlace.C108_accepts",
    "Spead2.PyPlace.C108_set",
    "Spead2.PyPlace.C108_keeps",
    "Spead2.PyPlace.C108_freed",
    "Spead2.PyPlace.C108_record",
    "Spead2.PyPlace.C108_disjoint",
    "Spead2.PyPlace.C108_extend"
   ],
   "note": "Violated: pybind11's cast to a tuple also takes lists and other iterables, of which only the container is kept; if the program then changes the list, the stream calls a function whose capsule has been destroyed (C108_violated). C108_partial proves it for tuples, including scipy.LowLevelCallable. The conversion by pybind11 and the destruction of unreferenced objects by CPython are assumptions of the model; pybind11 is not in /repo."
  },
  {
   "property": "C109",
   "status": "partial",
   "theorems": [
    "Spead2.TcpConn.C109_one",
    "Spead2.TcpConn.C109_gets",
    "Spead2.TcpConn.C109_eof",
    "Spead2.TcpConn.C109_partial",
    "Spead2.TcpConn.C109_violated",
    "Spead2.TcpConn.C109_lost",
    "Spead2.TcpConn.C109_stuck",
    "Spead2.TcpConn.C109_stop",
    "Spead2.TcpConn.C109_accepts",
    "Spead2.TcpConn.C109_closed",
    "Spead2.TcpConn.C109_safe"
   ],
   "note": "Violated: when the connection is lost otherwise than by end-of-file (reset, timeout), or the accept fails, the reader logs a warning and does nothing more, but the stream is not stopped, and the listening socket is closed; so consumers wait until the program stops the stream (C109_violated, C109_lost, C109_stuck). C109_partial proves that the stream has ended for histories without these. One reader per stream."
  },
  {
   "property": "C11",
   "status": "proved",
   "theorems": [
    "Spead2.C11_decoded_packets_valid",
    "Spead2.C11_no_overrun",
    "Spead2.C11_buffer_size",
    "Spead2.C12_bytes_written_once",
    "Spead2.C17_items",
    "Spead2.C11_incomplete_items"
   ],
   "note": "C12_bytes_written_once covers preservation of received bytes; C17_items that items stay inside the received payload."
  },
  {
   "property": "C110",
   "status": "partial",
   "theorems": [
    "Spead2.NetRaw.C110_runs",
    "Spead2.NetRaw.C110_partial",
    "Spead2.NetRaw.C110_installed",
    "Spead2.NetRaw.C110_refused",
    "Spead2.NetRaw.C110_nothing_else",
    "Spead2.NetRaw.C110_children",
    "Spead2.NetRaw.C110_ambient",
    "Spead2.NetRaw.C110_own",
    "Spead2.NetRaw.C110_violated"
   ],
   "note": "Violated: the manual says any command will have the capability and all its children too, but the kernel clears ambient capabilities when a set-uid, set-gid or setcap program is executed; such a command is run without CAP_NET_RAW and without a message (C110_violated, C110_own). C110_partial, C110_installed and C110_children prove it for ordinary programs. Users other than root; the kernel's rules are modelled from capabilities(7), which is not in /repo."
  },
  {
   "property": "C111",
   "status": "partial",
   "theorems": [
    "Spead2.StatsObj.C111_partial",
    "Spead2.StatsObj.C111_violated",
    "Spead2.StatsObj.C111_swap",
    "Spead2.StatsObj.C111_alias"
   ],
   "note": "Violated: the move constructor leaves a null config pointer, which operator= follows; since there is no move assignment, std::swap of two stream_stats is always undefined behaviour (C111_violated, C111_swap), and the reference members of a moved-from object refer to the values of the new one (C111_alias). C111_partial proves the property for all programs that only destroy moved-from objects, which includes all Python programs."
  },
  {
   "property": "C112",
   "status": "proved",
   "theorems": [
    "Spead2.GroupSeq.C112_index",
    "Spead2.GroupSeq.C112_slice",
    "Spead2.GroupSeq.C112_unique",
    "Spead2.GroupSeq.C112_iter"
   ],
   "note": "Groups of fewer than 2^63 streams on 64-bit platforms. CPython's slice computation is part of the model, from its source, which is not in /repo. count, index, in and reversed are those of collections.abc and use only len and the index."
  },
  {
   "property": "C113",
   "status": "partial",
   "theorems": [
    "Spead2.DataClass.C113_values",
    "Spead2.DataClass.C113_unique",
    "Spead2.DataClass.C113_raises",
    "Spead2.DataClass.C113_order",
    "Spead2.DataClass.C113_assign",
    "Spead2.DataClass.C113_partial",
    "Spead2.DataClass.C113_lost",
    "Spead2.DataClass.C113_violated",
    "Spead2.DataClass.C113_group",
    "Spead2.DataClass.C113_group_refuses"
   ],
   "note": "Values, order and exceptions are proved for all classes and keywords. Violated: the wrapper made by pybind11::cast of a new pointer does not own it, so a constructor that raises leaves the object it had made in memory for ever (C113_violated, C113_lost). Setters are taken to change their own property only and getters not to raise; the ownership rules are pybind11's, which is not in /repo."
  },
  {
   "property": "C114",
   "status": "partial",
   "theorems": [
    "Spead2.LogFn.C114_partial",
    "Spead2.LogFn.C114_restore",
    "Spead2.LogFn.C114_race",
    "Spead2.LogFn.C114_race_set",
    "Spead2.LogFn.C114_race_both",
    "Spead2.LogFn.C114_violated"
   ],
   "note": "Proved for programs that replace the log function only while nothing is logged. Missing because the statement is false there: the static std::function has no lock, so replacing it while a thread logs, or from within the log function, is a data race or destroys a function that runs (C114_violated, C114_race, C114_race_set). Formatting by boost::format is not modelled."
  },
  {
   "property": "C12",
   "status": "proved",
   "theorems": [
    "Spead2.C12_bytes_written_once",
    "Spead2.C12_overlap_rejected",
    "Spead2.C12_duplicate_rejected"
   ],
   "note": ""
  },
  {
   "property": "C13",
   "status": "proved",
   "theorems": [
    "Spead2.C13_contiguous_iff",
    "Spead2.C13_complete_iff",
    "Spead2.C13_order_independent"
   ],
   "note": ""
  },
  {
   "property": "C14",
   "status": "proved",
   "theorems": [
    "Spead2.C14_ranges"
   ],
   "note": ""
  },
  {
   "property": "C15",
   "status": "proved",
   "theorems": [
    "Spead2.C15_prefix",
    "Spead2.C15_next_accepted"
   ],
   "note": ""
  },
  {
   "property": "C16",
   "status": "proved",
   "theorems": [
    "Spead2.C16_pointers"
   ],
   "note": ""
  },
  {
   "property": "C17",
   "status": "proved",
   "theorems": [
    "Spead2.C17_items"
   ],
   "note": ""
  },
  {
   "property": "C18",
   "status": "partial",
   "theorems": [
    "Spead2.C18_roundtrip_partial",
    "Spead2.C18_roundtrip_wide",
    "Spead2.C18_rejected",
    "Spead2.C18_safe",
    "Spead2.C18_violated",
    "Spead2.C18_garbled"
   ],
   "note": "Proved for every descriptor whose values fit, every flavour width and every bug-compatibility mask, when the id is below 2^heap_address_bits (automatic for widths of 32 bits or more). The full statement is false: ids in [2^heap_address_bits, 2^(63-heap_address_bits)) are accepted by the sender but garbled."
  },
  {
   "property": "C19",
   "status": "proved",
   "theorems": [
    "Spead2.C19_bounded"
   ],
   "note": "In every reachable state, also in the middle of a batch."
  },
  {
   "property": "C20",
   "status": "proved",
   "theorems": [
    "Spead2.C20_exactly_once",
    "Spead2.stream_refines"
   ],
   "note": "Serial numbers of the heaps handed over, dropped (the complete heap that ends the stream, at most one) and live are exactly 0..created-1; accepted packets are conserved, and no heap holds a packet more often than it was presented. heap_ready is assumed to return."
  },
  {
   "property": "C21",
   "status": "proved",
   "theorems": [
    "Spead2.C21_lookup_exact",
    "Spead2.C21_bucket_in_range"
   ],
   "note": "Multiplicative hashing and 64-bit shift as in the code. A packet that carries a whole heap is not looked up by the code, so it is excluded from the lookup claim."
  },
  {
   "property": "C22",
   "status": "proved",
   "theorems": [
    "Spead2.C22_oldest_first",
    "Spead2.C22_substreams_independent",
    "Spead2.C22_window"
   ],
   "note": ""
  },
  {
   "property": "C23",
   "status": "proved",
   "theorems": [
    "Spead2.C23_statistics"
   ],
   "note": "Counters do not wrap at 2^64 in the model. worker_blocked and custom statistics are not modelled here."
  },
  {
   "property": "C24",
   "status": "proved",
   "theorems": [
    "Spead2.C24_stop_flushes",
    "Spead2.C24_stop_is_final",
    "Spead2.C24_signal_stops",
    "Spead2.C24_stop_item"
   ],
   "note": ""
  },
  {
   "property": "C25",
   "status": "proved",
   "theorems": [
    "Spead2.C25_add",
    "Spead2.C25_commutative",
    "Spead2.C25_associative",
    "Spead2.C25_identity",
    "Spead2.C25_total",
    "Spead2.C25_order",
    "Spead2.C25_assign",
    "Spead2.C25_config",
    "Spead2.C25_lookup",
    "Spead2.C25_batches"
   ],
   "note": "Values are 64-bit and wrap. C25_batches: custom statistics merged at the end of each batch."
  },
  {
   "property": "C26",
   "status": "proved",
   "theorems": [
    "Spead2.C26_unique_split",
    "Spead2.C26_mem_to_stream"
   ],
   "note": "On a stream in any reachable state."
  },
  {
   "property": "C27",
   "status": "proved",
   "theorems": [
    "Spead2.C27_segmentation",
    "Spead2.C27_independent"
   ],
   "note": "Every maximum packet size, stream history, byte stream and cutting into reads, with or without end-of-file. Concerns the bytes actually received: for max_size < 16384 a reader can stop receiving (C28_violated)."
  },
  {
   "property": "C28",
   "status": "partial",
   "theorems": [
    "Spead2.C28_safe",
    "Spead2.C28_progress_partial",
    "Spead2.C28_progress_large",
    "Spead2.C28_violated",
    "Spead2.C28_stuck_forever"
   ],
   "note": "Buffer safety holds for every maximum packet size. Progress holds for max_size >= 16384; for smaller sizes the code can wait for zero bytes forever (C28_violated, C28_stuck_forever), and C28_progress_partial says exactly when."
  },
  {
   "property": "C29",
   "status": "proved",
   "theorems": [
    "Spead2.C29_total",
    "Spead2.C29_order",
    "Spead2.C29_window",
    "Spead2.C29_head",
    "Spead2.C29_monotone",
    "Spead2.C29_get",
    "Spead2.C29_every"
   ],
   "note": "All sequences of get_chunk, flush_until and flush_all on a window of any size, for any choice of which chunks the user supplies."
  },
  {
   "property": "C30",
   "status": "proved",
   "theorems": [
    "Spead2.C30_total",
    "Spead2.C30_no_late_write",
    "Spead2.C30_chunks",
    "Spead2.C30_copy",
    "Spead2.C30_heap_ready",
    "Spead2.C30_allocate",
    "Spead2.C30_present_complete"
   ],
   "note": "All sequences of the callbacks that a stream makes into the chunk layer. The user's place callback is modelled by its outputs; the user's packet memcpy is the default one."
  },
  {
   "property": "C31",
   "status": "proved",
   "theorems": [
    "Spead2.C31_total",
    "Spead2.C31_reject",
    "Spead2.C31_head",
    "Spead2.C31_order",
    "Spead2.C31_all_past",
    "Spead2.C31_no_late_write",
    "Spead2.C31_shared",
    "Spead2.C31_all_stopped",
    "Spead2.C31_stop"
   ],
   "note": "For every interleaving of the members' transitions. A transition is one critical section of the group mutex with the private steps of the same thread around it. The members' unsynchronised stores of chunk_id/stream_id in a chunk already in the group window are not modelled (see DESIGN.md)."
  },
  {
   "property": "C32",
   "status": "proved",
   "theorems": [
    "Spead2.C32_furthest",
    "Spead2.C32_pending",
    "Spead2.C32_no_deadlock",
    "Spead2.C32_progress",
    "Spead2.C32_notified"
   ],
   "note": "C32_progress: in lossy mode, under every fair schedule without new packets, every member leaves get_chunk. Thread scheduling and condition variables are modelled by the transition system; each member is assumed to have its own thread."
  },
  {
   "property": "C33",
   "status": "proved",
   "theorems": [
    "Spead2.C33_fifo",
    "Spead2.C33_calls"
   ],
   "note": "Every interleaving of the atomic actions of any number of threads (semaphore operations and critical sections). try_pop may report empty spuriously although an item is present (example in Props/Ring.lean); exceptions from item constructors are not modelled."
  },
  {
   "property": "C34",
   "status": "proved",
   "theorems": [
    "Spead2.C34_defined",
    "Spead2.C34_total",
    "Spead2.C34_capacity",
    "Spead2.C34_size",
    "Spead2.C34_destroy"
   ],
   "note": "C34_defined needs remove_producer to be called no more often than producers were registered; otherwise the assertion in remove_producer fails in the code."
  },
  {
   "property": "C35",
   "status": "proved",
   "theorems": [
    "Spead2.C35_closed",
    "Spead2.C35_stopped",
    "Spead2.C35_empty",
    "Spead2.C35_remove_closes",
    "Spead2.C35_last_producer",
    "Spead2.C35_no_lost_wakeup",
    "Spead2.C35_progress"
   ],
   "note": "C35_progress: under every schedule that keeps running all threads, finitely many actions later every call has returned, except pushes waiting on a full and pops waiting on an empty buffer that has not been closed."
  },
  {
   "property": "C36",
   "status": "proved",
   "theorems": [
    "Spead2.C36_total",
    "Spead2.C36_fifo",
    "Spead2.C36_calls",
    "Spead2.C36_closed",
    "Spead2.C36_stopped",
    "Spead2.C36_empty",
    "Spead2.C36_progress"
   ],
   "note": "Every interleaving of the critical sections and semaphore operations of any number of threads."
  },
  {
   "property": "C37",
   "status": "proved",
   "theorems": [
    "Spead2.C37_size",
    "Spead2.C37_proper",
    "Spead2.C37_exclusive",
    "Spead2.C37_users",
    "Spead2.C37_bounded",
    "Spead2.C37_reuses",
    "Spead2.C37_refill_posted",
    "Spead2.C37_refill_ends",
    "Spead2.C37_no_leak"
   ],
   "note": "Any interleaving of allocate, release, refill and destruction. The refill bound is per buffer missing or taken; exceptions from the base allocator are not modelled."
  },
  {
   "property": "C38",
   "status": "proved",
   "theorems": [
    "Spead2.C38_safe",
    "Spead2.C38_bounded",
    "Spead2.C38_admission",
    "Spead2.C38_sequence"
   ],
   "note": "Histories without a group that is rejected after a heap of it was placed: the code breaks on those (C41). Indices do not wrap in the model."
  },
  {
   "property": "C39",
   "status": "proved",
   "theorems": [
    "Spead2.C39_handlers",
    "Spead2.C39_answers",
    "Spead2.C39_once",
    "Spead2.C39_rejected",
    "Spead2.C39_idle",
    "Spead2.C39_progress"
   ],
   "note": "Same histories as C38. That slots are free when a handler runs is in C38_admission, whose bound counts only groups whose handler has not been called. Transports handle packets in order in the model."
  },
  {
   "property": "C40",
   "status": "proved",
   "theorems": [
    "Spead2.C40_order"
   ],
   "note": "Same histories as C38."
  },
  {
   "property": "C41",
   "status": "partial",
   "theorems": [
    "Spead2.C41_violated",
    "Spead2.C41_race",
    "Spead2.C41_partial",
    "Spead2.C41_single_partial",
    "Spead2.C41_throw_partial"
   ],
   "note": "False of the code: the unwinder destroys the entries of a rejected group twice, the second time without the mutex. Proved when groups are rejected before any heap is placed (in particular groups of one heap), and for calls that throw."
  },
  {
   "property": "C42",
   "status": "proved",
   "theorems": [
    "Spead2.C42_average",
    "Spead2.C42_average_bytes",
    "Spead2.C42_peak",
    "Spead2.C42_peak_bytes",
    "Spead2.C42_justified",
    "Spead2.C42_monotone",
    "Spead2.C42_resume",
    "Spead2.C42_hardware"
   ],
   "note": "Doubles are exact rationals in the model: rounding is not modelled. The clock does not go back and the timer does not fire early."
  },
  {
   "property": "C43",
   "status": "proved",
   "theorems": [
    "Spead2.C43_safe",
    "Spead2.C43_ethernet",
    "Spead2.C43_sll",
    "Spead2.C43_otherwise"
   ],
   "note": "Every access is checked against the exact size of the frame; the result is characterised by an independent grammar of frames (IsUdpFrame), in both directions."
  },
  {
   "property": "C44",
   "status": "proved",
   "theorems": [
    "Spead2.C44_checksum"
   ],
   "note": "For headers of at least the minimum length that fit in memory; update_checksum reads past the packet otherwise (no caller in the library does that)."
  },
  {
   "property": "C45",
   "status": "proved",
   "theorems": [
    "Spead2.C45_send",
    "Spead2.C45_recv"
   ],
   "note": "Sending: sendmmsg version, kernel cuts messages at the configured segment size. Receiving: any coalescing of the same datagrams has the same effect on the stream."
  },
  {
   "property": "C46",
   "status": "proved",
   "theorems": [
    "Spead2.C46_safe",
    "Spead2.C46_account",
    "Spead2.C46_groups",
    "Spead2.C46_items",
    "Spead2.C46_progress"
   ],
   "note": "sendmmsg version with segmentation offload. The kernel may answer anything; it reports errors only when nothing was sent (as sendmmsg does) and can always turn segmentation off. Error codes of setsockopt other than ENOPROTOOPT are one code."
  },
  {
   "property": "C47",
   "status": "proved",
   "theorems": [
    "Spead2.C47_x86",
    "Spead2.C47_sve"
   ],
   "note": "All four vector versions, for every size, alignment, vector length of SVE and memory contents, including buffers where rounding the destination up wraps around. Also no access outside the buffers, aligned non-temporal stores, and a fence at the end on x86. The choice of implementation at load time and the intrinsics themselves are outside the model."
  },
  {
   "property": "C48",
   "status": "proved",
   "theorems": [
    "Spead2.C48_total",
    "Spead2.C48_stream",
    "Spead2.C48_order",
    "Spead2.C48_all",
    "Spead2.C48_consumers",
    "Spead2.C48_end",
    "Spead2.C48_progress"
   ],
   "note": "Any number of threads and any interleaving. std::call_once in stop is modelled by the stream being stopped already; logging and exceptions other than those of the ring buffer are left out. Packets must be valid (what the decoder produces)."
  },
  {
   "property": "C49",
   "status": "partial",
   "theorems": [
    "Spead2.C49_ctrl_partial",
    "Spead2.C49_violated"
   ],
   "note": "The code violates the property for stream control items longer than 8 bytes (C49_violated)."
  },
  {
   "property": "C50",
   "status": "proved",
   "theorems": [
    "Spead2.C50_safe",
    "Spead2.C50_roundtrip"
   ],
   "note": "Identifiers below 2^heap_address_bits in the round trip (see C18 for larger ones)."
  },
  {
   "property": "C51",
   "status": "proved",
   "theorems": [
    "Spead2.C51_flush",
    "Spead2.C51_once",
    "Spead2.C39_idle",
    "Spead2.C39_progress"
   ],
   "note": "Same histories as C38. flush may return before the handler of the last group is called."
  },
  {
   "property": "C52",
   "status": "proved",
   "theorems": [
    "Spead2.C52_udp",
    "Spead2.C52_run",
    "Spead2.C52_spec_total"
   ],
   "note": "recvmmsg version with and without GRO. Errors of recvmmsg give no messages."
  },
  {
   "property": "C53",
   "status": "proved",
   "theorems": [
    "Spead2.C53_pcap",
    "Spead2.C53_handler",
    "Spead2.C53_spec_total"
   ],
   "note": "libpcap gives the records in order; the BPF filter is not modelled."
  },
  {
   "property": "C54",
   "status": "proved",
   "theorems": [
    "Spead2.C54_ibv",
    "Spead2.C54_mprq",
    "Spead2.C54_slots"
   ],
   "note": "The hardware is modelled as the lists of completions that polls return; for the multi-packet queue only the stream effect is claimed."
  },
  {
   "property": "C55",
   "status": "proved",
   "theorems": [
    "Spead2.C55_traffic",
    "Spead2.C55_complete_once",
    "Spead2.C55_stopped",
    "Spead2.C55_end_to_end"
   ],
   "note": "Overlap is stated on the sequence of packets alone. The heaps that arrive in out-of-order mode must avoid the defect of C10, and those sent the defect of C09. Heaps with a stop item are excluded (C15 covers them). The bound on overlap is sharp (example)."
  },
  {
   "property": "C56",
   "status": "proved",
   "theorems": [
    "Spead2.C56_memory",
    "Spead2.C56_after_stop",
    "Spead2.C56_once",
    "Spead2.C56_network_stop",
    "Spead2.C56_no_deadlock"
   ],
   "note": "Transition system with any number of threads: emplace_reader, start, flush, is_lossy, get_stats, stop, the destructor, handlers and posted functions, with queue_mutex, reader_mutex, call_once, the pointer back to the stream and the references to the shared state. heap_ready and the readers are assumed to return."
  },
  {
   "property": "C57",
   "status": "partial",
   "theorems": [
    "Spead2.C57_start_partial",
    "Spead2.C57_violated"
   ],
   "note": "Proved for streams without explicit start. Violated with explicit start: start() after stop() starts readers that were stopped (witness late_start)."
  },
  {
   "property": "C58",
   "status": "proved",
   "theorems": [
    "Spead2.C58_atomic",
    "Spead2.C58_conservation",
    "Spead2.C58_progress"
   ],
   "note": "Any number of threads; semaphore_spin under the hypothesis that its 32-bit value does not wrap."
  },
  {
   "property": "C59",
   "status": "partial",
   "theorems": [
    "Spead2.C59_result_partial",
    "Spead2.C59_spin_get_partial",
    "Spead2.C59_spin_try_partial",
    "Spead2.C59_violated"
   ],
   "note": "Proved for the POSIX, pipe and eventfd semaphores. Violated by semaphore_spin::try_get, which fails under contention although the value was never zero."
  },
  {
   "property": "C60",
   "status": "proved",
   "theorems": [
    "Spead2.C60_start",
    "Spead2.C60_frame",
    "Spead2.C60_accepted",
    "Spead2.C60_zero_copy"
   ],
   "note": "For maximum packet sizes up to 65507. Keys of memory regions are distinct; pointers do not wrap around."
  },
  {
   "property": "C61",
   "status": "partial",
   "theorems": [
    "Spead2.C61_safe_partial",
    "Spead2.C61_wire_partial",
    "Spead2.C61_reports_partial",
    "Spead2.C61_violated"
   ],
   "note": "Proved for every interleaving as long as the card reports no failure. Violated when a work request fails: unsignaled requests then have completions with a stale wr_id, so that slots are released and heaps reported that were reported before."
  },
  {
   "property": "C62",
   "status": "partial",
   "theorems": [
    "Spead2.C62_partial",
    "Spead2.C62_violated"
   ],
   "note": "Proved without a completion channel, and with one if the card also notifies of completions that precede the request. Violated for a card that does only what is documented: wait_for_space requests the notification after the last poll. The theorem gives a way to complete from every state; that it is taken needs fairness."
  },
  {
   "property": "C63",
   "status": "proved",
   "theorems": [
    "Spead2.C63_notified",
    "Spead2.C63_order",
    "Spead2.C63_slots",
    "Spead2.C63_progress"
   ],
   "note": "Slots for the plain receive queue only; memory of the multi-packet receive queue is not modelled here. Progress: a way to the next packet exists from every state."
  },
  {
   "property": "C64",
   "status": "proved",
   "theorems": [
    "Spead2.C64_safe",
    "Spead2.C64_queue",
    "Spead2.C64_datagrams",
    "Spead2.C64_bytes",
    "Spead2.C64_prefix",
    "Spead2.C64_idle",
    "Spead2.C64_all",
    "Spead2.C64_progress"
   ],
   "note": "wakeup of tcp_writer, streambuf_writer, inproc_writer and udp_writer (without sendmmsg) as programs over the queue of C38-C40, with callers interleaved. Histories in which a call fails after it has put a heap in the queue are excluded (CleanRejects), see C41. Progress counts steps in which get_packet does not say SLEEP; the rate limiter is C42."
  },
  {
   "property": "C65",
   "status": "proved",
   "theorems": [
    "Spead2.C65_end_to_end"
   ],
   "note": "Composition of C06, C09/C10, C38-C40, C64, C27 and C55. Heaps within the limits of C09 and C10 (Faithful); nothing fails; histories in which a call fails after it has put a heap in the queue are excluded (CleanRejects, see C41). Reads that are larger than the space the reader offers do not occur (the run is defined, C28)."
  },
  {
   "property": "C66",
   "status": "proved",
   "theorems": [
    "Spead2.C66_end_to_end",
    "Spead2.C66_wakeup",
    "Spead2.C66_reader",
    "Spead2.C66_reader_unique"
   ],
   "note": "As C65, with one in-process queue for each substream. Histories in which a call fails after it has put a heap in the queue are excluded (CleanRejects, see C41). Errors of the event loop re-arm the wait, as in the code. That a readable descriptor leads to a wake-up is Asio's."
  },
  {
   "property": "C67",
   "status": "proved",
   "theorems": [
    "Spead2.C67_stream",
    "Spead2.C67_no_phantom",
    "Spead2.C67_udp",
    "Spead2.C67_sent",
    "Spead2.C67_sent_mmsg"
   ],
   "note": "Heaps within the limits of C09 (Sent.Ok); equality of items for heaps without the defect of C10 (Sent.Robust). C67_sent: writers of datagrams of C64, C67_sent_mmsg: the writer of C68; histories in which a call fails after it has put a heap in the queue are excluded (CleanRejects, see C41). A heap can be handed over twice if its packets arrive twice; that is what the code does."
  },
  {
   "property": "C68",
   "status": "proved",
   "theorems": [
    "Spead2.C68_safe",
    "Spead2.C68_queue",
    "Spead2.C68_datagrams",
    "Spead2.C68_prefix",
    "Spead2.C68_idle",
    "Spead2.C68_all",
    "Spead2.C68_from",
    "Spead2.C68_progress"
   ],
   "note": "The sendmmsg writer of C43 on the queue of C38. Packets of a heap are assumed not to be empty (proved of the packet generator, packetEnv_mvalid). Histories in which a call fails after it has put a heap in the queue are excluded (CleanRejects, see C41). The kernel reports no more messages than it was given (UdpW.answer)."
  },
  {
   "property": "C69",
   "status": "proved",
   "theorems": [
    "Spead2.C69_end_to_end",
    "Spead2.C69_end_to_end_mmsg"
   ],
   "note": "As C65, over UDP: datagrams of a substream arrive in order (InOrder). Histories in which a call fails after it has put a heap in the queue are excluded (CleanRejects, see C41)."
  },
  {
   "property": "C70",
   "status": "proved",
   "theorems": [
    "Spead2.C70_total",
    "Spead2.C70_heaps",
    "Spead2.C70_calls",
    "Spead2.C70_chunks",
    "Spead2.C70_write",
    "Spead2.C70_flag",
    "Spead2.C70_packet_flag",
    "Spead2.C70_contents",
    "Spead2.C70_packet_contents",
    "Spead2.C70_no_silent_loss",
    "Spead2.C70_every_flag"
   ],
   "note": "The stream of C14-C20 on the chunk layer of C29-C30, one stream (no group). The place callback is modelled by its answers; the user's packet memcpy is the default one. C70_no_silent_loss: for flags per heap and a user that supplies every chunk."
  },
  {
   "property": "C71",
   "status": "proved",
   "theorems": [
    "Spead2.C71_total",
    "Spead2.C71_conserved",
    "Spead2.C71_stream",
    "Spead2.C71_granted",
    "Spead2.C71_order",
    "Spead2.C71_contents",
    "Spead2.C71_untouched",
    "Spead2.C71_end",
    "Spead2.C71_ended",
    "Spead2.C71_wait",
    "Spead2.C71_stop",
    "Spead2.C71_sizing",
    "Spead2.C71_feed",
    "Spead2.C71_received",
    "Spead2.C71_packet_received"
   ],
   "note": "The rings are atomic bounded queues (see C33-C35 for the ringbuffer itself). The user's own ready callback, which must leave the chunk where it is, and the extra array are not modelled."
  },
  {
   "property": "C72",
   "status": "partial",
   "theorems": [
    "Spead2.C72_roundtrip_partial",
    "Spead2.C72_encoding",
    "Spead2.C72_immediate",
    "Spead2.C72_rejects_partial",
    "Spead2.C72_reads",
    "Spead2.C72_short",
    "Spead2.C72_violated",
    "Spead2.C72_padding",
    "Spead2.C72_empty",
    "Spead2.C72_empty_rows",
    "Spead2.C72_nul",
    "Spead2.C72_nul_field",
    "Spead2.C72_negative",
    "Spead2.C72_overflow"
   ],
   "note": "The full claim is false (C72_violated, with a theorem for each kind of value that is lost: padding read as extra elements, empty numpy arrays, empty rows, NUL characters, negative or too large small scalars). Proved for every other value. A float is its bit pattern; numpy's conversion of the user's object to an array is taken as done."
  },
  {
   "property": "C73",
   "status": "partial",
   "theorems": [
    "Spead2.C73_total",
    "Spead2.C73_consistent",
    "Spead2.C73_add",
    "Spead2.C73_autoid",
    "Spead2.C73_version_partial",
    "Spead2.C73_history_partial",
    "Spead2.C73_single",
    "Spead2.C73_hidden",
    "Spead2.C73_violated",
    "Spead2.C73_returned"
   ],
   "note": "Everything is proved except that versions show every change: that is false (C73_violated) for a heap whose descriptors first take a name away and then bring it back under another id, and proved for every other call (C73_version_partial), in particular for every heap with at most one descriptor (C73_single)."
  },
  {
   "property": "C74",
   "status": "partial",
   "theorems": [
    "Spead2.C74_sync_partial",
    "Spead2.C74_fixed",
    "Spead2.C74_all",
    "Spead2.C74_delta",
    "Spead2.C74_frequency",
    "Spead2.C74_comeback",
    "Spead2.C74_never",
    "Spead2.C74_all_violated",
    "Spead2.C74_none_violated",
    "Spead2.C74_violated"
   ],
   "note": "The full claim is false (C74_violated): if an id leaves the sender's group and is used again for an item with the same version, and its descriptor is sent because of the frequency or of descriptors='all', the new value is never sent. Proved when no id comes back (in particular, C74_fixed, when each name always has the same id), and when all heaps have stale descriptors and there is no frequency. Heaps are taken to arrive as sent (C09, C52, C55, C69) and values as encoded (C72)."
  },
  {
   "property": "C75",
   "status": "partial",
   "theorems": [
    "Spead2.Aio.C75_total",
    "Spead2.Aio.C75_get",
    "Spead2.Aio.C75_put",
    "Spead2.Aio.C75_returns",
    "Spead2.Aio.C75_wake",
    "Spead2.Aio.C75_wake_put",
    "Spead2.Aio.C75_stop",
    "Spead2.Aio.C75_stop_once",
    "Spead2.Aio.C75_stopped",
    "Spead2.Aio.C75_cancel_partial",
    "Spead2.Aio.C75_lossless_partial",
    "Spead2.Aio.C75_violated",
    "Spead2.Aio.C75_violated_direct",
    "Spead2.Aio.C75_violated_put"
   ],
   "note": "Order, uniqueness, wake-ups and Stopped are proved for every history. The claim that a cancelled call has taken nothing is false of the code (C75_violated, C75_violated_direct, C75_violated_put): a task cancelled after its heap was taken for it but before it runs again loses the heap. Proved for calls cancelled while they wait."
  },
  {
   "property": "C76",
   "status": "partial",
   "theorems": [
    "Spead2.AioSend.C76_once",
    "Spead2.AioSend.C76_wake",
    "Spead2.AioSend.C76_delivers",
    "Spead2.AioSend.C76_future",
    "Spead2.AioSend.C76_order",
    "Spead2.AioSend.C76_watch",
    "Spead2.AioSend.C76_alive",
    "Spead2.AioSend.C76_flush_partial",
    "Spead2.AioSend.C76_flush_violated"
   ],
   "note": "All but the last part is proved for every history. async_flush returns early if the future of the last accepted send was cancelled (C76_flush_violated); proved when it was not (C76_flush_partial)."
  },
  {
   "property": "C77",
   "status": "partial",
   "theorems": [
    "Spead2.Dump.C77_contents",
    "Spead2.Dump.C77_not_silent",
    "Spead2.Dump.C77_buffers",
    "Spead2.Dump.C77_sizes",
    "Spead2.Dump.C77_ends_partial",
    "Spead2.Dump.C77_abort",
    "Spead2.Dump.C77_ends_violated"
   ],
   "note": "Contents, no silent failure and conservation of buffers are proved for all schedules. That mcdump ends is proved for fair schedules in which no write fails, and is false if one fails: the main thread can wait for a free buffer for ever, and if it does not, the destructor calls close again and the process is aborted."
  },
  {
   "property": "C78",
   "status": "partial",
   "theorems": [
    "Spead2.Cap.C78_file_partial",
    "Spead2.Cap.C78_prefix",
    "Spead2.Cap.C78_taken",
    "Spead2.Cap.C78_count",
    "Spead2.Cap.C78_exclusive",
    "Spead2.Cap.C78_inside",
    "Spead2.Cap.C78_interrupt",
    "Spead2.Cap.C78_enough",
    "Spead2.Cap.C78_violated"
   ],
   "note": "With MPRQ all histories; without MPRQ all histories without receive errors (no frame longer than snaplen). Missing for a full proof: without MPRQ the statement is false after a receive error (C78_violated: chunk_done puts a chunk that is not full back without clearing it, and its packets are written a second time)."
  },
  {
   "property": "C79",
   "status": "partial",
   "theorems": [
    "Spead2.PyLog.C79_order",
    "Spead2.PyLog.C79_all",
    "Spead2.PyLog.C79_drop",
    "Spead2.PyLog.C79_end",
    "Spead2.PyLog.C79_gil",
    "Spead2.PyLog.C79_told",
    "Spead2.PyLog.C79_reported_partial",
    "Spead2.PyLog.C79_violated",
    "Spead2.PyLog.C79_stop_silent",
    "Spead2.PyLog.C79_after"
   ],
   "note": "Order, levels, no silent disappearance other than drops on a full queue, end and bounded work are proved for all histories. Missing: that every loss is reported is false: the flag can be set after the logging thread has looked at it and gone to sleep (C79_violated), and it is ignored when the logger is stopped (C79_stop_silent); C79_reported_partial says when the report does come."
  },
  {
   "property": "C80",
   "status": "partial",
   "theorems": [
    "Spead2.Sizes.C80_plain_partial",
    "Spead2.Sizes.C80_mprq_partial",
    "Spead2.Sizes.C80_slots",
    "Spead2.Sizes.C80_posted",
    "Spead2.Sizes.C80_zero",
    "Spead2.Sizes.C80_violated",
    "Spead2.Sizes.C80_mprq_violated",
    "Spead2.Sizes.C80_pipeline_partial",
    "Spead2.Sizes.C80_pipeline_mprq"
   ],
   "note": "Everything but the device limits is proved for all options. Missing because the code does not do it: without MPRQ the limit of memory regions is calculated and then not used (C80_violated); with MPRQ the number of completions is not limited (C80_mprq_violated). C80_pipeline_partial composes C77, C78 and C80 and leaves out, like C78, receive errors without MPRQ; C80_pipeline_mprq has no such restriction."
  },
  {
   "property": "C81",
   "status": "proved",
   "theorems": [
    "Spead2.PlaceCb.C81_place",
    "Spead2.PlaceCb.C81_missing",
    "Spead2.PlaceCb.C81_packet_items",
    "Spead2.PlaceCb.C81_repeat",
    "Spead2.PlaceCb.C81_once",
    "Spead2.PlaceCb.C81_layout"
   ],
   "note": "chunk_stream_state::allocate up to the call of the place callback, composed with the decoder (C04) and the packet generator (C07, C08)."
  },
  {
   "property": "C82",
   "status": "proved",
   "theorems": [
    "Spead2.ChunkNet.C82_place",
    "Spead2.ChunkNet.C82_total",
    "Spead2.ChunkNet.C82_flag",
    "Spead2.ChunkNet.C82_packet_flag",
    "Spead2.ChunkNet.C82_delivered",
    "Spead2.ChunkNet.C82_consumer"
   ],
   "note": "Composition of C09 (sender), C81 (place data), C55, C70 and C71. The place callback is a function of the requested items. C70 gained C70_every_flag: without counted losses every complete heap has its flag."
  },
  {
   "property": "C83",
   "status": "proved",
   "theorems": [
    "Spead2.Cfg.C83_value",
    "Spead2.Cfg.C83_valid",
    "Spead2.Cfg.C83_rejected",
    "Spead2.Cfg.C83_index",
    "Spead2.Cfg.C83_stream",
    "Spead2.Cfg.C83_chunk",
    "Spead2.Cfg.C83_send",
    "Spead2.Cfg.C83_send_exact",
    "Spead2.Cfg.C83_others",
    "Spead2.Cfg.C83_others_exact"
   ],
   "note": "Refinement: programs on configurations that share vectors of statistics see what they would see if every object had its own settings and statistics. doubles are NaN, an infinity or a rational number."
  },
  {
   "property": "C84",
   "status": "partial",
   "theorems": [
    "Spead2.Build.C84_partial",
    "Spead2.Build.C84_ends",
    "Spead2.Build.C84_overrun",
    "Spead2.Build.C84_exact",
    "Spead2.Build.C84_violated",
    "Spead2.Build.C84_undefined"
   ],
   "note": "Proved for all configurations with max_heaps * substreams < 2^64. Missing because the statement is false there: the product is calculated modulo 2^64 and not checked (C84_violated, C84_undefined); C84_overrun and C84_exact show that every such stream that can be made at all puts some heap outside its storage."
  },
  {
   "property": "C85",
   "status": "partial",
   "theorems": [
    "Spead2.Mprq.C85_partial",
    "Spead2.Mprq.C85_all",
    "Spead2.Mprq.C85_progress",
    "Spead2.Mprq.C85_sizes",
    "Spead2.Mprq.C85_violated"
   ],
   "note": "Proved for all histories in which the handler posts no entry again before start has posted all of them. Missing because the statement is false there: start enqueues the handler before it posts the entries and holds no lock that the handler needs, so that the handler can post an entry again in between; the order of entries is then wrong and the handler reads frames from the wrong place (C85_violated)."
  },
  {
   "property": "C86",
   "status": "proved",
   "theorems": [
    "Spead2.Flow.C86_exact",
    "Spead2.Flow.C86_sublist",
    "Spead2.Flow.C86_exists",
    "Spead2.Flow.C86_groups",
    "Spead2.Flow.C86_sender",
    "Spead2.Flow.C86_end_to_end",
    "Spead2.Flow.C86_end_to_end_mprq"
   ],
   "note": "What a flow rule takes (ibv_create_flow of the card) is trusted, and that frames of a group reach the card that has joined it."
  },
  {
   "property": "C87",
   "status": "partial",
   "theorems": [
    "Spead2.Slots.C87_partial",
    "Spead2.Slots.C87_queue",
    "Spead2.Slots.C87_all",
    "Spead2.Slots.C87_progress",
    "Spead2.Slots.C87_sizes",
    "Spead2.Slots.C87_end_to_end",
    "Spead2.Slots.C87_violated",
    "Spead2.Slots.C87_deaf"
   ],
   "note": "Proved for all maximum sizes below 2^32 - 42. Missing because the statement is false there: max_size + 42 is calculated in 64 bits and then stored in 32 (a maximum size of 2^64 - 42 is a division by zero, C87_violated; with 2^32 - 42 the reader is made and receives nothing, C87_deaf)."
  },
  {
   "property": "C88",
   "status": "partial",
   "theorems": [
    "Spead2.SendTool.C88_safe",
    "Spead2.SendTool.C88_result",
    "Spead2.SendTool.C88_partial",
    "Spead2.SendTool.C88_live",
    "Spead2.SendTool.C88_bounded",
    "Spead2.SendTool.C88_layout",
    "Spead2.SendTool.C88_violated",
    "Spead2.SendTool.C88_few",
    "Spead2.SendTool.C88_flavour",
    "Spead2.SendTool.C88_zero"
   ],
   "note": "Order, memory, results and termination are proved for all options; what the destinations get for at least as many heaps as destinations and the default flavour. Missing because the statement is false there: with fewer heaps than destinations too many heaps are sent and some destinations get no end of stream (C88_few); the flavour of all heaps but the last is the default whatever was asked for (C88_flavour). With --max-heaps 0 or --items 0 the behaviour is undefined (C88_zero)."
  },
  {
   "property": "C89",
   "status": "partial",
   "theorems": [
    "Spead2.PyDescr.C89_constructor",
    "Spead2.PyDescr.C89_partial",
    "Spead2.PyDescr.C89_sender",
    "Spead2.PyDescr.C89_header",
    "Spead2.PyDescr.C89_receiver",
    "Spead2.PyDescr.C89_relay",
    "Spead2.PyDescr.C89_extends",
    "Spead2.PyDescr.C89_negative_refused",
    "Spead2.PyDescr.C89_negative_variable",
    "Spead2.PyDescr.C89_violated",
    "Spead2.PyDescr.C89_padding",
    "Spead2.PyDescr.C89_clash",
    "Spead2.PyDescr.C89_subarray"
   ],
   "note": "Round trip Descriptor -> to_raw -> packet -> receiver -> from_raw for every flavour, composed with C18. Fails for what the constructor accepts but the code does not carry: negative sizes (received as variable, or refused), padded numpy types (np.dtype instead of descr_to_dtype: extra fields, or an exception when a name clashes), subarray types (raw bytes). C89_extends shows that padded types keep size and fields. numpy and repr/literal_eval are modelled as documented."
  },
  {
   "property": "C90",
   "status": "partial",
   "theorems": [
    "Spead2.VerifyTool.C90_discard",
    "Spead2.VerifyTool.C90_exact",
    "Spead2.VerifyTool.C90_reports",
    "Spead2.VerifyTool.C90_sender",
    "Spead2.VerifyTool.C90_partial",
    "Spead2.VerifyTool.C90_small",
    "Spead2.VerifyTool.C90_two",
    "Spead2.VerifyTool.C90_tiny",
    "Spead2.VerifyTool.C90_violated"
   ],
   "note": "Proved for items of at least two numbers, except the first heaps of destinations other than the first; these and smaller items are rejected by the code although nothing is wrong (C90_violated, C90_two, C90_small, C90_tiny). Heap cnts and positions below 2^40 and 2^64."
  },
  {
   "property": "C91",
   "status": "partial",
   "theorems": [
    "Spead2.PyWire.C91_partial",
    "Spead2.PyWire.C91_heap",
    "Spead2.PyWire.C91_late",
    "Spead2.PyWire.C91_network",
    "Spead2.PyWire.C91_stream",
    "Spead2.PyWire.C91_violated"
   ],
   "note": "Composition of C72, C74, C89, C50 and C10. Missing because the statement is false there (C91_violated): an empty value of variable size has no bytes, the receiver skips such items, and its group keeps the previous value. Also excluded: what C72, C74 and C89 show to be lost (irregular values, ids that move between names with forced descriptors, types that do not survive). Simplification: a call that raises ends the run."
  },
  {
   "property": "C92",
   "status": "partial",
   "theorems": [
    "Spead2.PySend.C92_partial",
    "Spead2.PySend.C92_result",
    "Spead2.PySend.C92_once",
    "Spead2.PySend.C92_state",
    "Spead2.PySend.C92_arguments",
    "Spead2.PySend.C92_uninterrupted",
    "Spead2.PySend.C92_progress",
    "Spead2.PySend.C92_signal",
    "Spead2.PySend.C92_violated"
   ],
   "note": "Results, progress, and the lifetime of the state that a call shares with its callback are proved for all interleavings. Missing because the statement is false there (C92_violated): after an interrupted call (KeyboardInterrupt) nothing refers to the heap but the program; if it drops the heap while the stream still has to send it, the stream reads freed memory. C92_partial: safe if the program keeps the heap; C92_uninterrupted: safe if no signal handler raises."
  },
  {
   "property": "C93",
   "status": "partial",
   "theorems": [
    "Spead2.PyExit.C93_order",
    "Spead2.PyExit.C93_stoppers",
    "Spead2.PyExit.C93_after",
    "Spead2.PyExit.C93_bounded",
    "Spead2.PyExit.C93_partial",
    "Spead2.PyExit.C93_exact",
    "Spead2.PyExit.C93_awake",
    "Spead2.PyExit.C93_stuck",
    "Spead2.PyExit.C93_sleeps",
    "Spead2.PyExit.C93_violated"
   ],
   "note": "Order and progress of the stoppers are proved for all histories, and the rest of the exit for programs whose send streams are idle (C93_exact: exactly those). Missing because the statement is false there (C93_violated): send streams are not registered, so their pool is stopped under them; if a stream's writer still has a timer set (C93_sleeps: it does after a rate-limited burst, even when everything was sent and reported) or heaps queued, its destructor waits for ever."
  },
  {
   "property": "C94",
   "status": "proved",
   "theorems": [
    "Spead2.Bench.C94_window",
    "Spead2.Bench.C94_full",
    "Spead2.Bench.C94_result",
    "Spead2.Bench.C94_error",
    "Spead2.Bench.C94_stop",
    "Spead2.Bench.C94_progress"
   ],
   "note": "The stream below is represented by the order in which it reports heaps (C39) and by the space of its queue."
  },
  {
   "property": "C95",
   "status": "partial",
   "theorems": [
    "Spead2.Bench.C95_partial",
    "Spead2.Bench.C95_ends",
    "Spead2.Bench.C95_result",
    "Spead2.Bench.C95_best",
    "Spead2.Bench.C95_rates",
    "Spead2.Bench.C95_size",
    "Spead2.Bench.C95_passes",
    "Spead2.Bench.C95_mean",
    "Spead2.Bench.C95_violated"
   ],
   "note": "The full statement is false of the code: if no measurement is ever good, low stays 0 and the loop condition stays true (C95_violated). Proved: everything else, and that the search ends once one measurement is good or if some positive rate is sustainable. Rates are rational numbers instead of double."
  },
  {
   "property": "C96",
   "status": "partial",
   "theorems": [
    "Spead2.Bench.C96_partial",
    "Spead2.Bench.C96_answers",
    "Spead2.Bench.C96_exact",
    "Spead2.Bench.C96_lost",
    "Spead2.Bench.C96_bad",
    "Spead2.Bench.C96_violated"
   ],
   "note": "The full statement is false of the code: a master that goes away during a measurement, or sends a bad configuration, ends the agent (C96_lost, C96_bad, C96_violated). Proved: masters that stop what they start are served, the answers alternate, and exactly which masters leave the agent alive."
  },
  {
   "property": "C97",
   "status": "partial",
   "theorems": [
    "Spead2.PyChunk.C97_exclusive",
    "Spead2.PyChunk.C97_partial",
    "Spead2.PyChunk.C97_known",
    "Spead2.PyChunk.C97_put",
    "Spead2.PyChunk.C97_error",
    "Spead2.PyChunk.C97_interrupt",
    "Spead2.PyChunk.C97_get",
    "Spead2.PyChunk.C97_set",
    "Spead2.PyChunk.C97_memory",
    "Spead2.PyChunk.C97_wait",
    "Spead2.PyChunk.C97_free",
    "Spead2.PyChunk.C97_lost",
    "Spead2.PyChunk.C97_violated"
   ],
   "note": "The full statement is false of the code: add_free_chunk with a free ring that is stopped reports success and leaves the chunk without its buffers (C97_lost, C97_violated). Proved for programs that do not do this, do not assign to a chunk while it is under way and do not stop the data ring of a stream themselves; that buffers are in one place only is proved for all programs."
  },
  {
   "property": "C98",
   "status": "partial",
   "theorems": [
    "Spead2.PyConnect.C98_result",
    "Spead2.PyConnect.C98_safe",
    "Spead2.PyConnect.C98_bounded",
    "Spead2.PyConnect.C98_exact",
    "Spead2.PyConnect.C98_sync",
    "Spead2.PyConnect.C98_partial",
    "Spead2.PyConnect.C98_doomed",
    "Spead2.PyConnect.C98_told",
    "Spead2.PyConnect.C98_violated",
    "Spead2.PyConnect.C98_failed"
   ],
   "note": "The full statement is false of the code: the asyncio variant deadlocks if it is cancelled before the attempt has ended, because the stream is destroyed with the GIL and waits for a handler that needs the GIL (C98_doomed, C98_violated). Proved: the outcome, safety, the synchronous variant, and exactly which states are dead."
  },
  {
   "property": "C99",
   "status": "partial",
   "theorems": [
    "Spead2.PyTool.C99_heaps",
    "Spead2.PyTool.C99_window",
    "Spead2.PyTool.C99_ends",
    "Spead2.PyTool.C99_accounts",
    "Spead2.PyTool.C99_progress",
    "Spead2.PyTool.C99_bounded",
    "Spead2.PyTool.C99_first",
    "Spead2.PyTool.C99_partial",
    "Spead2.PyTool.C99_starved",
    "Spead2.PyTool.C99_violated"
   ],
   "note": "Everything is proved for all configurations and schedules but the repetition of descriptors, which is false of the code: the generator counts heaps of all destinations together, so that with a frequency that is a multiple of the number of destinations only the last destination ever gets descriptors again (C99_starved, C99_violated). C99_partial proves it for frequencies without a common divisor with the number of destinations. The queue and futures of the stream are those of C38, C39 and C76, simplified."
  }
 ]
}