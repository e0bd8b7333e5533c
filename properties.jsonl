{"id": "C01", "title": "Item pointers survive encode/decode", "statement": "For every legal flavour, an immediate item pointer built for item id I and value V decodes to immediate, id I, value V; an addressed pointer built for id I and offset A decodes to non-immediate, id I, address A. Two different (mode, id, value) triples never share a wire value.", "quantifier": "all heap-address widths 8..56, all ids and values that fit the field widths", "why_tests_cant": "2^64 pointer values times seven widths; a mask off by one bit only breaks a thin slice of them", "anchors": ["include/spead2/send_utils.h:pointer_encoder", "include/spead2/recv_utils.h:pointer_decoder"]}
{"id": "C02", "title": "Flavour validation is exact", "statement": "A flavour can be constructed exactly when the version is 4, item pointers are 64 bits, and the heap address width is a positive multiple of 8 below 64; otherwise invalid_argument is thrown.", "quantifier": "all integer argument tuples", "why_tests_cant": "infinite argument domain", "anchors": ["src/common_flavour.cpp:flavour::flavour"]}
{"id": "C03", "title": "Packet decoding never reads or points outside the datagram", "statement": "Whatever bytes arrive, decoding a datagram only reads bytes inside it; when it accepts, the item pointer table and the payload it reports lie inside the datagram and the reported size is at most the datagram length.", "quantifier": "all byte strings of any length", "why_tests_cant": "attacker controlled input; fuzzing samples a vanishing part of it", "anchors": ["src/recv_packet.cpp:decode_packet", "src/recv_packet.cpp:get_packet_size", "src/recv_packet.cpp:decode_header"]}
{"id": "C04", "title": "A datagram is accepted exactly when it is a well-formed SPEAD packet", "statement": "decode_packet accepts a byte string iff it starts with the SPEAD-64-x magic, has positive whole-byte id/address widths totalling 8 bytes, has its whole item table, has immediate heap cnt, payload offset and payload length, has the announced payload, and does not run past an announced heap length; and the fields it reports are the values of those items.", "quantifier": "all byte strings", "why_tests_cant": "both directions range over all byte strings", "anchors": ["src/recv_packet.cpp:decode_packet"]}
{"id": "C05", "title": "Packet size prediction on a byte stream is stable and agrees with decoding", "statement": "Once get_packet_size has given a verdict (a size, or invalid) on a prefix of a byte stream, more bytes never change the verdict; and if a packet carries a single payload-length item, a prediction n and at least n bytes available, then decoding those n bytes either consumes exactly n bytes or rejects.", "quantifier": "all byte strings and all extensions of them", "why_tests_cant": "needs every split point of every stream", "anchors": ["src/recv_packet.cpp:get_packet_size", "src/recv_tcp.cpp:tcp_reader::parse_packet_size"]}
{"id": "C06", "title": "Packetising a heap terminates within the packet size limit", "statement": "For every heap and every max packet size, constructing the packet generator either throws (exactly when the size is too small to hold a header, one item pointer and 8 bytes, or when repeat-pointers is requested and the pointers do not fit in a packet) or yields a finite sequence of packets, each non-empty in payload and no longer than the max packet size.", "quantifier": "all heaps (any items, sizes, repeat flag) and all max packet sizes", "why_tests_cant": "unbounded numbers of items and packets", "anchors": ["src/send_packet.cpp:packet_generator::packet_generator", "src/send_packet.cpp:packet_generator::next_packet", "src/send_packet.cpp:packet_generator::has_next_packet"]}
{"id": "C07", "title": "Packets of a heap tile its payload and agree on its identity", "statement": "The payload offsets and lengths announced by the packets of one heap cover [0, heap length) in order with no gap or overlap, all packets announce the same heap cnt and heap length, and each announced payload length equals the number of payload bytes really following the item table.", "quantifier": "all heaps and max packet sizes", "why_tests_cant": "unbounded", "anchors": ["src/send_packet.cpp:packet_generator::next_packet"]}
{"id": "C08", "title": "Every item pointer is transmitted exactly once, or in every packet when repeating", "statement": "Without repeat-pointers, concatenating the item pointers of all packets gives one pointer per item in heap order (plus at most one trailing padding pointer); with repeat-pointers every packet carries the complete list.", "quantifier": "all heaps and max packet sizes", "why_tests_cant": "unbounded item counts; boundary effects at multiples of the per packet limit", "anchors": ["src/send_packet.cpp:packet_generator::next_packet"]}
{"id": "C09", "title": "The transmitted payload is the concatenation of the items' bytes", "statement": "Concatenating the payloads of all packets of a heap gives the bytes of the addressed items in order, followed only by padding; and every addressed item pointer's address is the offset of that item's bytes.", "quantifier": "all heaps and max packet sizes", "why_tests_cant": "unbounded; interaction of padding with item boundaries", "anchors": ["src/send_packet.cpp:packet_generator::next_packet", "src/send_packet.cpp:packet_generator::use_immediate_pointer"]}
{"id": "C10", "title": "A heap survives the wire for any packet order and duplication", "statement": "If every packet of a sent heap is fed to the receiver at least once, in any order and with any duplication, the heap becomes complete and its payload equals what was sent, and its items (ids, values and bytes) are those of the sent heap.", "quantifier": "all heaps, flavours and packet sizes; all sequences containing every packet", "why_tests_cant": "factorially many arrival orders times all heaps", "anchors": ["src/send_packet.cpp", "src/recv_packet.cpp", "src/recv_live_heap.cpp", "src/recv_heap.cpp"]}
{"id": "C11", "title": "Heap assembly never writes outside its buffer", "statement": "For any sequence of decoded packets offered to a live heap, every payload copy lands inside the currently allocated payload buffer, previously received bytes are preserved when the buffer is enlarged, and an item of a frozen heap never extends beyond the received payload.", "quantifier": "all packet sequences, in both ordering modes", "why_tests_cant": "attacker controlled sequences", "anchors": ["src/recv_live_heap.cpp:live_heap::add_packet", "src/recv_live_heap.cpp:live_heap::payload_reserve", "src/recv_heap.cpp:heap_base::load"]}
{"id": "C12", "title": "Received payload bytes are written once", "statement": "After any packet sequence, each received payload byte equals the byte of the one accepted packet covering that position; a packet overlapping received data is rejected and changes nothing; resending an accepted non-empty packet is rejected and changes nothing.", "quantifier": "all packet sequences", "why_tests_cant": "histories are unbounded", "anchors": ["src/recv_live_heap.cpp:live_heap::add_packet", "src/recv_live_heap.cpp:live_heap::add_payload_range"]}
{"id": "C13", "title": "A heap is complete exactly when all of it has arrived", "statement": "is_contiguous holds exactly when the accepted packets cover every byte up to the largest offset mentioned by any packet or item pointer, and is_complete additionally requires this to equal the announced heap length; neither depends on arrival order.", "quantifier": "all packet sequences", "why_tests_cant": "unbounded histories", "anchors": ["src/recv_live_heap.cpp:live_heap::is_complete", "src/recv_live_heap.cpp:live_heap::is_contiguous"]}
{"id": "C14", "title": "Incomplete heaps report exactly the received ranges", "statement": "The payload ranges of an incomplete heap are sorted, disjoint and non-touching, contain exactly the bytes received, and their lengths add up to the received length.", "quantifier": "all packet sequences, both ordering modes", "why_tests_cant": "unbounded histories; interval merging corner cases", "anchors": ["src/recv_live_heap.cpp:live_heap::add_payload_range", "src/recv_heap.cpp:incomplete_heap::get_payload_ranges"]}
{"id": "C15", "title": "In-order mode accepts only a growing prefix", "statement": "With out-of-order support off, a heap's received data is always the prefix [0, received length): packets that do not extend it are rejected without effect.", "quantifier": "all packet sequences", "why_tests_cant": "unbounded histories", "anchors": ["src/recv_live_heap.cpp:live_heap::add_packet", "include/spead2/recv_stream.h:stream_config::set_allow_out_of_order"]}
{"id": "C16", "title": "Item pointers are deduplicated without loss", "statement": "The set of item pointers stored in a heap equals the set of relevant pointers seen in accepted packets, each stored once, in order of first arrival, independently of how many there are.", "quantifier": "all packet sequences, any number of pointers", "why_tests_cant": "switch of representation at 8 pointers, unbounded counts", "anchors": ["src/recv_live_heap.cpp:live_heap::add_pointers"]}
{"id": "C17", "title": "Frozen items partition the payload", "statement": "Freezing a contiguous heap yields items whose byte ranges lie in the payload, are disjoint and non-empty, start at the announced addresses and each extend to the next announced address or the payload end; immediates carry the pointer's value.", "quantifier": "all contiguous live heaps", "why_tests_cant": "sorting and adjacency for any number of pointers", "anchors": ["src/recv_heap.cpp:heap_base::load"]}
{"id": "C18", "title": "Descriptors survive encoding and decoding", "statement": "A descriptor whose numbers fit the flavour's field widths is recovered by the receiver, up to the documented normalisation, for every bug-compat setting applied consistently on both sides.", "quantifier": "all descriptors (any name, shape, format), all flavours", "why_tests_cant": "unbounded strings, shapes and formats", "anchors": ["src/send_heap.cpp:encode_descriptor", "src/recv_heap.cpp:heap::to_descriptor"]}
{"id": "C19", "title": "The receiver's working set is bounded", "statement": "A receive stream never keeps more than max_heaps partial heaps per substream, whatever is received.", "quantifier": "all packet histories and configurations", "why_tests_cant": "unbounded histories", "anchors": ["src/recv_stream.cpp:stream_base::add_packet", "include/spead2/recv_stream.h:stream_config::set_max_heaps"]}
{"id": "C20", "title": "Every heap is handed over exactly once", "statement": "Each heap the stream starts assembling is passed to heap_ready exactly once (on completion, eviction, flush or stop), or is still being assembled, or was a completed stream-stop heap; never twice, never lost.", "quantifier": "all packet histories, flushes and stops", "why_tests_cant": "unbounded histories", "anchors": ["src/recv_stream.cpp:stream_base::add_packet", "src/recv_stream.cpp:stream_base::flush_unlocked"]}
{"id": "C21", "title": "Heap lookup by cnt is exact", "statement": "The bucketed lookup finds a live heap with a packet's heap cnt exactly when one is live, and the bucket index is always in range.", "quantifier": "all packet histories, cnts and table sizes", "why_tests_cant": "pointer surgery over unbounded histories", "anchors": ["src/recv_stream.cpp:stream_base::add_packet", "src/recv_stream.cpp:stream_base::unlink_entry", "src/recv_stream.cpp:compute_bucket_shift", "src/recv_stream.cpp:stream_base::get_bucket"]}
{"id": "C22", "title": "Eviction is oldest first and confined to a substream", "statement": "When a heap must be evicted it is the oldest live heap of the same substream, and traffic for one substream never evicts, completes or alters heaps of another.", "quantifier": "all packet histories", "why_tests_cant": "unbounded histories", "anchors": ["src/recv_stream.cpp:stream_base::add_packet", "src/recv_stream.cpp:stream_base::get_substream"]}
{"id": "C23", "title": "Receive statistics add up", "statement": "heaps equals the number of heaps handed over, incomplete heaps (evicted plus flushed) equals those handed over without being complete, packets equals the number of packets presented before the stream stopped, and max_batch is the largest batch; for any batching of the packets.", "quantifier": "all batched histories", "why_tests_cant": "unbounded histories", "anchors": ["src/recv_stream.cpp:stream_base::add_packet_state::~add_packet_state", "src/recv_stream.cpp:stream_base::flush_unlocked"]}
{"id": "C24", "title": "Stop is final and flushes", "statement": "When a stream stops, every partial heap is handed over once, in increasing age order per substream, and afterwards no packet, flush or stop hands over anything.", "quantifier": "all histories", "why_tests_cant": "unbounded histories and every stop point", "anchors": ["src/recv_stream.cpp:stream_base::stop_received", "src/recv_stream.cpp:stream_base::stop_unlocked", "src/recv_stream.cpp:stream_base::flush_unlocked"]}
{"id": "C25", "title": "Statistics merging is algebraic", "statement": "Adding statistics objects is associative and commutative with respect to counters and maxima, and has the zero object as identity, so the order of merging batches does not matter.", "quantifier": "all statistics vectors", "why_tests_cant": "unbounded values and groupings", "anchors": ["src/recv_stream.cpp:stream_stat_config::combine", "src/recv_stream.cpp:stream_stats::operator+="]}
{"id": "C26", "title": "Parsing a memory buffer is exactly sequential decoding", "statement": "mem_to_stream splits a buffer into the unique sequence of valid packets it starts with, consumes them in order until the first invalid packet or the end or a stop, and returns a pointer to the first unconsumed byte.", "quantifier": "all byte strings", "why_tests_cant": "unbounded inputs", "anchors": ["src/recv_stream.cpp:mem_to_stream"]}
{"id": "C27", "title": "TCP reception does not depend on segmentation", "statement": "The packets delivered from a TCP connection depend only on the byte stream, not on how the network cuts it into reads.", "quantifier": "all byte streams and all ways to cut them", "why_tests_cant": "exponentially many segmentations", "anchors": ["src/recv_tcp.cpp:tcp_reader::process_buffer", "src/recv_tcp.cpp:tcp_reader::parse_packet_size", "src/recv_tcp.cpp:tcp_reader::skip_bytes"]}
{"id": "C28", "title": "The TCP reader stays in its buffer and makes progress", "statement": "Buffer head and tail never leave the buffer, the compaction copy never overlaps, and every read that is requested asks for at least one byte.", "quantifier": "all byte streams, segmentations and max packet sizes", "why_tests_cant": "attacker controlled unbounded input", "anchors": ["src/recv_tcp.cpp:tcp_reader::enqueue_receive", "src/recv_tcp.cpp:tcp_reader::process_buffer"]}
{"id": "C29", "title": "Chunks become ready once, in order, within the window", "statement": "A chunk window hands over chunks in strictly increasing chunk id, each at most once, keeps at most max_chunks ids open, never drops an allocated chunk without handing it over, and its head never moves backwards.", "quantifier": "all sequences of requested chunk ids", "why_tests_cant": "unbounded sequences of 64-bit ids and modular positions", "anchors": ["include/spead2/recv_chunk_stream.h:chunk_window::get_chunk", "include/spead2/recv_chunk_stream.h:chunk_window::flush_until"]}
{"id": "C30", "title": "No payload is written to a chunk after it is handed over", "statement": "A packet payload is only ever copied into a chunk that is still in the window and not yet handed over, at the offset recorded for its heap; packets of older heaps are dropped and counted.", "quantifier": "all packet and heap histories", "why_tests_cant": "use-after-hand-over depends on the whole history", "anchors": ["src/recv_chunk_stream.cpp:chunk_stream_state_base::packet_memcpy", "src/recv_chunk_stream.cpp:chunk_stream_state_base::do_heap_ready"]}
{"id": "C31", "title": "A chunk group hands over a chunk only when all members are past it", "statement": "The group's window head is the minimum of its members' heads, so a chunk is handed over only after no member can write to it; the hand-over order is increasing and each chunk is handed over once.", "quantifier": "all interleavings of the member streams", "why_tests_cant": "thread schedules", "anchors": ["src/recv_chunk_stream_group.cpp:chunk_stream_group::get_chunk", "src/recv_chunk_stream_group.cpp:chunk_stream_group::stream_head_updated"]}
{"id": "C32", "title": "A chunk group does not deadlock", "statement": "In lossy mode, whenever some member waits for room in the group window, either the flush requests that will make room are pending or a member that is behind can run; the member furthest behind never waits.", "quantifier": "all interleavings", "why_tests_cant": "thread schedules", "anchors": ["src/recv_chunk_stream_group.cpp:chunk_stream_group::get_chunk", "src/recv_chunk_stream_group.cpp:chunk_stream_group_member::async_flush_until"]}
{"id": "C33", "title": "Ring buffer is a linearisable FIFO", "statement": "For any number of producers and consumers and any schedule, the sequence of popped items is a prefix of the sequence of pushed items: nothing is lost, duplicated or reordered.", "quantifier": "all thread counts, capacities, programs and interleavings", "why_tests_cant": "schedules", "anchors": ["include/spead2/common_ringbuffer.h:ringbuffer_base::emplace_internal", "include/spead2/common_ringbuffer.h:ringbuffer_base::pop_internal", "include/spead2/common_ringbuffer.h:ringbuffer"]}
{"id": "C34", "title": "Ring buffer never overruns or underruns", "statement": "No schedule constructs an item in an occupied slot, reads an empty slot, or holds more than capacity items.", "quantifier": "all interleavings", "why_tests_cant": "schedules", "anchors": ["include/spead2/common_ringbuffer.h:ringbuffer"]}
{"id": "C35", "title": "Stopping a ring buffer drains and wakes everyone", "statement": "After stop, pushes fail, consumers receive exactly the items pushed before the stop and then the stopped error, and no thread waits forever.", "quantifier": "all interleavings, any number of stop calls and producers", "why_tests_cant": "schedules", "anchors": ["include/spead2/common_ringbuffer.h:ringbuffer::stop", "include/spead2/common_ringbuffer.h:ringbuffer_base::stop_internal", "include/spead2/common_ringbuffer.h:ringbuffer::remove_producer"]}
{"id": "C36", "title": "In-process packet queue is a lossless FIFO with orderly stop", "statement": "The unbounded queue behind in-process transport delivers every pushed packet once and in order under any schedule, and reports stopped only after it has been drained.", "quantifier": "all interleavings", "why_tests_cant": "schedules", "anchors": ["include/spead2/common_unbounded_queue.h:unbounded_queue"]}
{"id": "C37", "title": "Memory pool buffers are exclusive, large enough and bounded", "statement": "A buffer obtained from the pool is at least as large as requested and is never held by two users or by a user and the pool; the pool keeps at most max_free free buffers; a background refill ends.", "quantifier": "all sequences of allocations, frees and refill steps", "why_tests_cant": "unbounded histories", "anchors": ["src/common_memory_pool.cpp:memory_pool::allocate", "src/common_memory_pool.cpp:memory_pool::free_impl", "src/common_memory_pool.cpp:memory_pool::refill"]}
{"id": "C38", "title": "Send queue is bounded and group admission is all or nothing", "statement": "At most max_heaps heaps belong to accepted groups that the transport is not done with. A group of acceptable heaps that fits beside the heaps of groups whose handlers have not been called is accepted; a group is queued completely or not at all; an accepted heap gets its explicit cnt or the next value of the linear sequence (truncated to the address width); no queue entry is overwritten or used after it was destroyed.", "quantifier": "every history of calls by any threads, steps of the writer and of the io_context, in which no group is rejected after some of its heaps were placed in the queue (C41 is about those)", "why_tests_cant": "unbounded histories", "anchors": ["include/spead2/send_stream.h:stream::async_send_heaps_impl", "src/send_stream.cpp:compute_queue_mask"]}
{"id": "C39", "title": "Completion handlers run once, in order, after transmission", "statement": "The handler of each accepted group runs at most once, in the order of acceptance, after the transport is done with all packets of the group, with the bytes sent and an error exactly if a packet failed, and the queue slots of the group are free by then; the handler of a rejected group runs once with its error. When the writer waits for a wakeup all handlers have run, and from every state steps of the writer alone make them run.", "quantifier": "every history of calls by any threads, steps of the writer and of the io_context, in which no group is rejected after some of its heaps were placed in the queue (C41 is about those)", "why_tests_cant": "unbounded histories", "anchors": ["src/send_writer.cpp:writer::groups_completed", "src/send_writer.cpp:writer::get_packet"]}
{"id": "C40", "title": "Group packet order is serial or round robin", "statement": "The transport gets the packets of the accepted groups, group by group in the order of acceptance, and exactly the last packet of each group is marked so. In serial mode the packets of a group are those of its first heap, then its second, and so on; in round-robin mode the k-th packets of all heaps that have one precede all (k+1)-th packets, in heap order.", "quantifier": "every history of calls by any threads, steps of the writer and of the io_context, in which no group is rejected after some of its heaps were placed in the queue (C41 is about those); all group sizes and packet counts", "why_tests_cant": "unbounded groups", "anchors": ["src/send_writer.cpp:writer::get_packet"]}
{"id": "C41", "title": "Rejected groups leave no trace in the queue", "statement": "When a group is rejected, each queue entry constructed for it is destroyed exactly once and no entry belonging to another caller is touched.", "quantifier": "all call histories and interleavings of callers", "why_tests_cant": "object lifetimes under races", "anchors": ["include/spead2/send_stream.h:stream::async_send_heaps_impl", "src/send_stream.cpp:stream::unwinder::abort"]}
{"id": "C42", "title": "Software rate limiting bounds the send rate", "statement": "Since a sender was last woken from idle, the data given to the transport never exceeds what the configured rate allows for the elapsed time plus one tick and one burst; between any two packets it never exceeds what the burst rate (rate times burst_rate_ratio) allows plus one tick and two bursts. The sender sleeps only when one of these rates has been reached, until times that never go back, and goes on once the time has come; with hardware rate limiting it never sleeps.", "quantifier": "all packet sizes, rates per heap, idle periods, late timers and clock readings of a clock that does not go back, in exact arithmetic", "why_tests_cant": "unbounded timing histories", "anchors": ["src/send_writer.cpp:writer::update_send_times", "src/send_writer.cpp:writer::get_packet", "src/send_writer.cpp:precise_time::normalize"]}
{"id": "C43", "title": "Raw frame parsing is safe and exact", "statement": "Extracting the UDP payload from any captured ethernet or Linux SLL frame never touches bytes outside the frame, and yields exactly the payload delimited by the IP and UDP headers or an exception.", "quantifier": "all frames", "why_tests_cant": "attacker controlled input", "anchors": ["src/common_raw_packet.cpp:udp_from_ethernet", "src/common_raw_packet.cpp:udp_from_linux_sll", "src/common_raw_packet.cpp:ipv4_packet::payload_udp", "src/common_raw_packet.cpp:udp_packet::payload"]}
{"id": "C44", "title": "Generated IPv4 headers have a valid checksum", "statement": "After update_checksum, the one's-complement sum of the header is 0xffff, for any header length and contents, and only the checksum field changed.", "quantifier": "all headers", "why_tests_cant": "2^160 headers and up", "anchors": ["src/common_raw_packet.cpp:ipv4_packet::update_checksum"]}
{"id": "C45", "title": "Segmentation offload preserves datagrams", "statement": "Merging packets into one offloaded message and letting the kernel cut it at the segment size gives back exactly the original packets in order to their own destinations; the receive side split yields the original datagrams.", "quantifier": "all batches of packets", "why_tests_cant": "unbounded size mixes", "anchors": ["src/send_udp.cpp:udp_writer::prepare_msgvec", "src/recv_udp.cpp:udp_reader::packet_handler"]}
{"id": "C46", "title": "UDP batches account for every packet under partial sends and errors", "statement": "However the kernel splits a batch into partial sends, would-block and errors, every packet of the batch is accounted exactly once, in order, and a group is completed only after its last packet.", "quantifier": "all kernel response sequences", "why_tests_cant": "unbounded response sequences", "anchors": ["src/send_udp.cpp:udp_writer::send_packets"]}
{"id": "C47", "title": "Non-temporal memcpy is memcpy", "statement": "memcpy_nontemporal copies exactly n bytes from source to destination and touches nothing else, for every size and alignment.", "quantifier": "all sizes, alignments and contents", "why_tests_cant": "all residues of size and alignment", "anchors": ["src/common_memcpy_x86.h", "src/common_memcpy.cpp:memcpy_nontemporal_sve"]}
{"id": "C48", "title": "Ring stream delivers contiguous heaps in order", "statement": "With any number of readers, users and consumers: the heaps that enter the ring buffer are those handed over by the stream (only contiguous ones if so configured), in order and without gaps, all of them unless a user stops the stream; pop returns the contiguous ones in order and drops the others, pop_live returns all; a consumer is told of the end only when everything has been taken; and stop never deadlocks, also when a reader waits for space.", "quantifier": "all configurations, capacities, numbers of threads, calls and interleavings", "why_tests_cant": "unbounded histories and schedules", "anchors": ["include/spead2/recv_ring_stream.h:ring_stream::heap_ready", "include/spead2/recv_ring_stream.h:ring_stream::pop"]}
{"id": "C49", "title": "Asking a heap whether it starts or ends a stream is safe and exact", "statement": "For every heap the receiver can freeze, is_start_of_stream and is_end_of_stream are safe to call and return true exactly when the heap has a stream control item with that value.", "quantifier": "all packet sequences", "why_tests_cant": "attacker controlled item lengths", "anchors": ["src/recv_heap.cpp:heap_base::is_ctrl_item", "src/recv_heap.cpp:load_bytes_be"]}
{"id": "C50", "title": "Descriptors of a heap are extracted exactly", "statement": "For any received heap, get_descriptors terminates without undefined behaviour whatever bytes its descriptor items contain; and if the descriptor items are descriptors as the sender encodes them (values fitting their fields, identifiers below 2^heap_address_bits), it returns exactly those descriptors in order.", "quantifier": "all item lists, all descriptor bytes, all flavours and bug-compatibility masks", "why_tests_cant": "unbounded nesting of heap items, packets in items and bytes in packets", "anchors": ["src/recv_heap.cpp:heap::get_descriptors", "src/recv_heap.cpp:descriptor_stream::heap_ready", "src/recv_stream.cpp:mem_to_stream"]}
{"id": "C51", "title": "flush returns after everything queued before it was sent", "statement": "When a call of flush returns, the transport is done with all packets of all groups that were accepted before the call began; no call of flush returns twice, and all have returned when the writer waits for a wakeup.", "quantifier": "every history of calls by any threads, steps of the writer and of the io_context, in which no group is rejected after some of its heaps were placed in the queue (C41 is about those)", "why_tests_cant": "unbounded histories and interleavings", "anchors": ["src/send_stream.cpp:stream::flush", "src/send_writer.cpp:writer::groups_completed"]}
{"id": "C52", "title": "The UDP reader passes on exactly the well-formed datagrams", "statement": "Whatever datagrams arrive on a UDP reader, and however the kernel coalesces them (GRO) or cuts them to the receive buffer, each wakeup has the effect of one batch on the stream of the packets of those datagrams that are exactly one well-formed packet of at most max_size bytes, in order; everything else is ignored and nothing is undefined.", "quantifier": "all datagram contents and sizes, all ways to coalesce, all stream states", "why_tests_cant": "every datagram content and every grouping", "anchors": ["src/recv_udp_base.cpp:udp_reader_base::process_one_packet", "src/recv_udp.cpp:udp_reader::packet_handler"]}
{"id": "C53", "title": "Reading a capture file delivers its packets and then stops", "statement": "A pcap file reader delivers exactly the packets of complete records that hold an unfragmented IPv4 UDP datagram that is exactly one packet, in file order, whatever else the file contains, and stops the stream at the end of the file, in a bounded number of handlers.", "quantifier": "all capture files (ethernet and Linux SLL), all record contents", "why_tests_cant": "every file content", "anchors": ["src/recv_udp_pcap.cpp:udp_pcap_file_reader::run"]}
{"id": "C54", "title": "The ibverbs readers deliver frames in order and recycle buffers", "statement": "A wakeup of an ibverbs reader has the effect of one batch of the packets in the received ethernet frames, in order, and gives each receive buffer back exactly once, after its frame was processed, in bounded batches, unless the stream stops.", "quantifier": "all frame contents, all completion sequences, all stream states", "why_tests_cant": "every frame content and completion grouping", "anchors": ["src/recv_udp_ibv.cpp:udp_ibv_reader::poll_once", "src/recv_udp_ibv_mprq.cpp:udp_ibv_mprq_reader::poll_once", "include/spead2/recv_udp_ibv.h:udp_ibv_reader_base::packet_handler"]}
{"id": "C55", "title": "Interleaved heaps are all delivered while few enough overlap", "statement": "If heaps with distinct heap cnts are sent and their datagrams reach a receive stream in any interleaving and order, with losses and duplicates, then as long as between any two packets of a heap fewer than max_heaps other heaps of its substream begin (and nothing arrives for a heap that is already complete), every heap whose packets all arrive is handed over exactly once, complete, with exactly the items that were sent; a heap with a missing packet is never handed over as complete; when the stream is stopped every heap of which any packet arrived has been handed over exactly once with all its packets. This holds with and without out-of-order mode (there: packets of each heap in order) and for every way of splitting the packets into batches.", "quantifier": "all configurations, all sets of sent heaps, all interleavings, losses and duplicates of their packets within the overlap bound, all batchings", "why_tests_cant": "the number of interleavings of the packets of many heaps is unbounded; tests try a few arrival patterns", "anchors": ["src/recv_stream.cpp:stream_base::add_packet", "src/recv_live_heap.cpp:live_heap::add_packet", "src/send_packet.cpp:packet_generator", "include/spead2/recv_stream.h:stream_config::set_max_heaps", "src/recv_stream.cpp:stream_base::get_substream"]}
{"id": "C56", "title": "Taking a stream down is safe", "statement": "However calls on a receive stream (adding readers, starting, flushing, reading statistics, stopping, destroying) overlap with the completion handlers of its readers on any number of threads: no thread ever uses the stream or a reader after it has been freed, nor the shared state after the last reference to it is gone; the stream is stopped at most once, and each reader is told to stop at most once; once a call of stop() has returned, no thread runs code of a reader or hands over heaps, every reader that was added has been told to stop exactly once, and nothing changes that any more - handlers that run later do nothing and no reader can be added; if a packet or a reader stops the stream, the stream is stopped as soon as that handler is done; and no deadlock is possible: whatever is in progress can always be completed.", "quantifier": "every number of threads, every interleaving of user calls, handlers and posted functions, every number of readers and of outstanding handlers, stops by the user, by a packet or by a reader, destruction at any time when no call is in progress", "why_tests_cant": "use after free and deadlocks only show up in particular interleavings of the I/O threads with the thread that destroys the stream; tests run a handful of them, usually with one I/O thread", "anchors": ["include/spead2/recv_stream.h: stream_base::shared_state, stream_base::add_packet_state, reader::bound_handler, stream::emplace_reader", "src/recv_stream.cpp: add_packet_state::add_packet_state, add_packet_state::~add_packet_state, stream::start, stream::stop_received, stream::stop, stream::~stream"]}
{"id": "C57", "title": "Readers are started once, before they are stopped", "statement": "A reader that is added to a stream is started at most once and never after it has been told to stop.", "quantifier": "every interleaving of calls and handlers, with or without explicit start", "why_tests_cant": "depends on the order in which start, stop and emplace_reader happen in different threads", "anchors": ["include/spead2/recv_stream.h: class reader, stream::emplace_reader", "src/recv_stream.cpp: stream::start, stream::stop_received"]}
{"id": "C58", "title": "Semaphores neither lose nor invent tokens", "statement": "For each of the four semaphores and any threads calling put, get and try_get at the same time: the value is always the initial value plus the number of put calls that returned minus the number of get and try_get calls that returned 0, each call takes effect in one atomic action, calls that fail change nothing, and while the value is positive no caller of get is stuck.", "quantifier": "all kinds of semaphore, initial values, numbers of threads, interleavings, interrupted system calls and spurious wake-ups", "why_tests_cant": "a lost or duplicated token needs a particular interleaving of the atomic accesses or a signal at a particular moment", "anchors": ["src/common_semaphore.cpp: semaphore_spin, semaphore_posix, semaphore_pipe, semaphore_eventfd", "include/spead2/common_semaphore.h"]}
{"id": "C59", "title": "A semaphore fails only for a documented reason", "statement": "get returns -1 only if a system call was interrupted, and try_get returns -1 only if a system call was interrupted or the semaphore was zero at some time during the call.", "quantifier": "all kinds of semaphore, initial values, numbers of threads and interleavings", "why_tests_cant": "a spurious failure needs another thread between two atomic accesses", "anchors": ["src/common_semaphore.cpp: semaphore_spin::try_get, semaphore_posix::try_get, semaphore_pipe::try_get, semaphore_eventfd::try_get", "include/spead2/common_semaphore.h:58-72"]}
{"id": "C60", "title": "The ibverbs sender builds the right frames", "statement": "For any sequence of packets, with buffers anywhere in memory and any registered memory regions, each packet that is put in a slot of the internal buffer becomes one Ethernet/IPv4/UDP frame with exactly the bytes of the packet as payload, addressed to the endpoint of its substream, with a right IP checksum (unless the card computes it). Nothing outside the slot is written, the card is told to read only inside the regions named, at most four pieces are used, and a packet of at most four buffers has only those buffers copied that are not inside a registered region.", "quantifier": "all configurations, packets, buffer addresses, memory regions and earlier contents of the slots", "why_tests_cant": "the split into copied and registered pieces depends on addresses and on what earlier packets left in the slot", "anchors": ["src/send_udp_ibv.cpp: udp_ibv_writer::wakeup, udp_ibv_writer::udp_ibv_writer, memory_region", "src/common_raw_packet.cpp: multicast_mac, ipv4_packet::update_checksum", "include/spead2/common_raw_packet.h"]}
{"id": "C61", "title": "The ibverbs sender reuses memory only when it may", "statement": "Frames leave the card complete, unmixed and in the order of the packets, although the sender prepares packets while the card reads earlier ones from the same ring of slots; each packet is reported to its heap exactly once, in order, with its size and only after it was sent; memory outside the ring is not touched.", "quantifier": "all sequences of packets, all interleavings of sender and card, all results of polling the completion queue, with and without failures of the card", "why_tests_cant": "overwriting a slot too early needs an unlucky interleaving with the DMA of a card", "anchors": ["src/send_udp_ibv.cpp:udp_ibv_writer::wakeup", "src/send_udp_ibv.cpp:udp_ibv_writer::reap"]}
{"id": "C62", "title": "The ibverbs sender does not stall", "statement": "Every packet given to the card by the ibverbs sender is eventually reported to its heap without further calls by the user, whenever completions arrive relative to polls and requests for notification.", "quantifier": "all interleavings of sender and card, with and without a completion channel", "why_tests_cant": "a lost wake-up needs a completion in a window of a few instructions", "anchors": ["src/send_udp_ibv.cpp:udp_ibv_writer::wait_for_space", "src/send_udp_ibv.cpp:udp_ibv_writer::wakeup"]}
{"id": "C63", "title": "The ibverbs receiver does not miss packets", "statement": "A packet that arrives at any moment relative to polls and requests for notification is given to the stream without another packet having to arrive; packets are given in order, each once; no receive slot is lost or posted twice.", "quantifier": "all interleavings of reader and card, with and without a completion channel, all numbers of polls and slots, both kinds of receive queue", "why_tests_cant": "a missed notification needs a packet in a window of a few instructions and silence afterwards", "anchors": ["include/spead2/recv_udp_ibv.h:udp_ibv_reader_base::packet_handler", "src/recv_udp_ibv.cpp:udp_ibv_reader::poll_once", "src/recv_udp_ibv_mprq.cpp:udp_ibv_mprq_reader::poll_once"]}
{"id": "C64", "title": "The simple writers send exactly what was accepted and do not stall", "statement": "A stream with a TCP, stream-buffer, in-process or UDP (without sendmmsg) writer: whatever threads call async_send_heaps, flush and set_cnt_sequence while the writer runs, and however the transport treats the packets, no step is undefined; what leaves the writer is the packets of the accepted groups in order, each once and whole, on the substream of its heap (as one byte stream for TCP and stream buffers), except that a packet that fails leaves only the bytes before the failure (no bytes for a datagram); when the writer goes to sleep every accepted group has been sent and its handler called, every flush can return, and the byte counts given to handlers add up to the bytes that left; and once callers stop, the writer reaches that state within a bounded number of its own steps.", "quantifier": "for every history of calls and writer steps, every treatment of every packet (errors, partial writes, full socket buffers, rate-limiter sleeps), each of the four writers, and every stream configuration", "why_tests_cant": "the writers loop, batch completions, repost themselves and race with callers for the wakeup; a lost wakeup or a completion reported too early shows only in particular interleavings, of which there are unboundedly many", "anchors": ["src/send_tcp.cpp: tcp_writer::wakeup", "src/send_streambuf.cpp: streambuf_writer::wakeup", "src/send_inproc.cpp: inproc_writer::wakeup", "src/send_udp.cpp: udp_writer::wakeup", "src/send_writer.cpp: writer::get_packet, writer::request_wakeup, writer::groups_completed"]}
{"id": "C65", "title": "Heaps sent over TCP are the heaps received", "statement": "Send any groups of heaps through a TCP stream, from any threads, with automatic or explicit heap cnts, serially or round robin; the writer runs until it has nothing left and no packet fails. A receiver whose maximum packet size is at least that of the sender reads the bytes from the connection, cut into reads in any way, until the connection is possibly closed. Provided that the cnts are distinct, that round-robin groups are no larger than the number of heaps the receiver can assemble and that no stop item is sent to a receiver that obeys it, the receiver hands over exactly the heaps of the accepted groups: group after group, each heap once, complete, with the items that were given to async_send_heaps, heaps of a serial group in order; no heap is left half-assembled, and the stream has stopped exactly if the connection was closed.", "quantifier": "for every set of heaps that can be sent faithfully (C09, C10), every history of calls and writer steps, every stream configuration, every segmentation of the byte stream", "why_tests_cant": "the claim composes the heap encoder, the send queue, the writer, the framing of the byte stream and the assembly of heaps; tests cover a few segmentations and a few interleavings of a few heaps", "anchors": ["src/send_tcp.cpp: tcp_writer::wakeup", "src/recv_tcp.cpp: tcp_reader", "src/send_packet.cpp: packet_generator", "src/recv_stream.cpp: stream_base::add_packet", "src/recv_live_heap.cpp: live_heap::add_packet", "include/spead2/send_stream.h: async_send_heaps_impl"]}
{"id": "C66", "title": "Heaps sent over in-process queues are the heaps received, per substream", "statement": "Send any groups of heaps through an in-process stream with one queue for each substream. For each substream: what the writer puts in the queue of that substream is taken out by a receiver, in any interleaving of the threads that use the queue, with spurious wake-ups and errors of the event loop. Under the conditions of the TCP property, restricted to the heaps of that substream, once the queue is empty the receiver has handed over exactly the heaps of that substream: group after group, each once, complete, with the items that were given to async_send_heaps; no heap is left half-assembled, and the stream has stopped exactly if it saw the queue stopped. While no receiver is in the middle of a call, the semaphore whose file descriptor the event loop watches is readable exactly if there is a packet to take or the queue has been stopped.", "quantifier": "for every set of heaps that can be sent faithfully, every history of calls and writer steps, every number of substreams and each of them, every interleaving of the threads that use the queue, every stream configuration", "why_tests_cant": "composition of sender, queue and receiver under every schedule; tests run a few schedules of a few heaps, and a lost wake-up would show as a rare hang", "anchors": ["src/send_inproc.cpp: inproc_writer::wakeup", "src/recv_inproc.cpp: inproc_reader", "include/spead2/common_inproc.h: inproc_queue", "include/spead2/common_unbounded_queue.h: unbounded_queue", "src/recv_stream.cpp: stream_base::add_packet"]}
{"id": "C67", "title": "An unreliable network cannot corrupt, mix or invent heaps", "statement": "Datagrams may be lost, repeated, delayed, reordered, coalesced, cut and mixed with datagrams that are not packets and with packets of other heaps. As long as no packet of another origin carries the cnt of a heap, every byte the receiver reports as received for that cnt is the byte that was sent at that place; a heap handed over as complete has exactly the items that were sent (for heaps that do not have the ambiguous empty items described for C10); it is handed over complete at most as often as each of its packets arrived; and no heap is handed over of which no packet arrived. So, with a sender that sends heaps with distinct cnts, at any time and after any failures, everything the receiver hands over is of a heap that was given to async_send_heaps for that substream.", "quantifier": "for every heap that can be sent, every stream configuration, every history of datagrams and flushes and stops, every way the kernel coalesces and cuts datagrams, every history of the sender", "why_tests_cant": "loss, duplication and reordering patterns are unbounded and interleave with eviction; a corrupted heap would need one specific pattern", "anchors": ["src/recv_stream.cpp: stream_base::add_packet", "src/recv_live_heap.cpp: live_heap::add_packet, add_payload_range, is_complete", "src/recv_heap.cpp: heap::load", "src/recv_udp_base.cpp: udp_reader_base::process_one_packet", "src/recv_udp.cpp: udp_reader::packet_handler"]}
{"id": "C68", "title": "A UDP stream that batches packets sends every packet once and reports it once", "statement": "A stream whose UDP writer takes packets in batches, merges packets into larger messages for the kernel to cut, and hands several messages to the kernel at a time: whatever the kernel answers (fewer messages taken, no space, errors, refusal to merge), and whatever callers do in between, no step is undefined; what leaves are the packets of the accepted groups, in order, each as a datagram of its own, each once and for the substream of its heap, except for those that failed, of which nothing leaves; at most 64 packets are taken and not yet sent; when the writer waits for the next call every accepted group has been reported to its handler and the handlers were given the number of bytes that left; and the writer reaches that state if the kernel takes or refuses at least one packet whenever it is asked.", "quantifier": "for every history of calls of the stream interleaved with steps of the writer, every answer of the kernel, every rate-limit decision, every queue size", "why_tests_cant": "batch boundaries, partial sends, the fallback from merging to not merging and group ends interleave in unboundedly many ways; a packet lost or sent twice needs one of them", "anchors": ["src/send_udp.cpp: udp_writer::wakeup, udp_writer::send_packets", "src/send_writer.cpp: writer::get_packet, writer::groups_completed", "include/spead2/send_writer.h: writer"]}
{"id": "C69", "title": "Heaps sent over UDP are the heaps received if the network keeps the datagrams in order", "statement": "Send any groups of heaps through a UDP stream, with a writer that sends one datagram at a time or one that batches and merges packets. Under the conditions of the TCP property, restricted to the heaps of one substream: if nothing failed and the datagrams of that substream arrive in order, none lost, with any datagrams that are not packets in between and coalesced and cut by the kernel in any way, then a UDP receiver whose maximum size is at least the packet size of the sender hands over exactly the heaps of that substream: group after group, each once, complete, with the items that were given to async_send_heaps; no heap is left half-assembled and the stream has not stopped.", "quantifier": "for every set of heaps that can be sent faithfully, every history of calls, writer steps and answers of the kernel, every substream, every division of the datagrams into receive calls, every stream configuration", "why_tests_cant": "composition of packet generator, queue, batching writer, kernel offload on both sides and reassembly; tests cover a few heaps and one division of the datagrams", "anchors": ["src/send_udp.cpp: udp_writer::wakeup, udp_writer::send_packets", "src/recv_udp.cpp: udp_reader::packet_handler", "src/recv_udp_base.cpp: udp_reader_base::process_one_packet", "src/recv_stream.cpp: stream_base::add_packet", "src/send_packet.cpp: packet_generator::next_packet"]}
{"id": "C70", "title": "A flag in a chunk means that the heap's data is in the chunk", "statement": "A stream that receives into chunks, fed with any packets in any order: whatever is received, nothing undefined happens. Heaps are assembled and come to an end exactly as in a stream without chunks. Each heap is placed once, by the place callback's answer for its first packet; everything written to the payload of a chunk is the payload of a received packet, at the place of its heap plus the packet's offset in the heap, in a chunk that the user supplied and that was not yet handed over. A presence flag is set only at the index chosen for a complete heap, after all the heap's bytes have been written (or, with a flag per packet, at the packet's index, after the packet's bytes have been written). If the packets do not contradict each other, the chunk has the right contents throughout the flagged heap from then on, in particular when the user gets it. If the user supplies all chunks, every complete heap either has its flag set or is counted as too old or rejected.", "quantifier": "every history of batches of packets with valid lengths, flushes, chunk flushes and stops; every answer of a place callback that stays inside the chunk; every window size, number of heaps and of substreams, with and without out-of-order packets", "why_tests_cant": "whether a flag can be set while a byte is missing depends on the interleaving of packets of many heaps, on evictions, duplicates and the ageing of chunks; tests run a few patterns", "anchors": ["include/spead2/recv_chunk_stream.h:chunk_stream_state", "src/recv_chunk_stream.cpp", "src/recv_stream.cpp:stream_base::add_packet_state::add_packet", "src/recv_live_heap.cpp:live_heap::add_packet"]}
{"id": "C71", "title": "Chunk streams on ringbuffers: no chunk is lost, shared, reordered or handed over with stale contents", "statement": "Any number of chunk streams share a free ring and a data ring. Whatever the order of the streams' callbacks, the user's calls and stops: every chunk is in exactly one place (free ring, a stream's window, data ring, a graveyard, the user, freed); each stream behaves like a single chunk stream (C29, C30) whose requests for chunks get the answers it got, and until the free ring is stopped they are all granted; the consumer gets the chunks of each stream in the order in which it handed them over, without gaps (all of them unless the data ring was stopped from outside); a chunk the consumer gets has exactly the flags and bytes written for it, with no flags left from an earlier use, so (with C70) a flag means that the data of the heap is in the chunk's memory; streams do not touch chunks of the user; the consumer is told that the ring is stopped only after it has got every chunk of every stream; streams wait only for an empty free ring or a full data ring; with enough chunks they never wait for the free ring; after both rings are stopped every stream finishes.", "quantifier": "all numbers of streams, chunks and ring capacities, all configurations, all histories of the streams (including all histories of packets, C70), all interleavings of single callbacks with calls of add_free_chunk, pop, stop, and writes of the user to its own chunks", "why_tests_cant": "tests run one or two streams with a few chunks; use of a chunk by two owners, stale flags in a recycled chunk, or a lost chunk show up only for particular interleavings of streams, consumer and stop", "anchors": ["include/spead2/recv_chunk_stream.h: chunk_ring_pair::add_free_chunk", "include/spead2/recv_chunk_stream.h: chunk_ring_pair::make_allocate", "include/spead2/recv_chunk_stream.h: chunk_ring_pair::make_ready", "include/spead2/recv_chunk_stream.h: chunk_ring_stream::stop_received", "include/spead2/recv_chunk_stream.h: chunk_ring_stream::stop"]}
{"id": "C72", "title": "The value of an item is received as it was sent", "statement": "When a Python user sends an item, the item that the receiver gets from the same descriptor has the same value: the same shape and the same elements, for every descriptor (numpy dtype or SPEAD format with fields of any width), every shape (with or without a variable dimension), every value in range, and every width of immediates; strings come back as strings. A value out of range is refused, not sent as something else.", "quantifier": "every descriptor, every value that fits it, both outcomes of numpy's conversion of scalars, every width of immediates; for decoding, every sequence of bytes", "why_tests_cant": "There are unboundedly many formats, shapes and values, and three paths through each of the encoder and the decoder; the tests try a handful of formats on values that happen to avoid the cases where the code loses data.", "anchors": ["src/spead2/__init__.py: Descriptor.dynamic_shape, Descriptor.allow_immediate, Item.to_buffer, Item.set_from_raw, Item._write_bits, Item._read_bits, Item._store_recursive, Item._load_recursive, Item._transform_value"]}
{"id": "C73", "title": "An item group is one set of items under two keys, and versions show every change", "statement": "In a Python ItemGroup, after any calls of add_item, assignments to items and updates from received heaps: looking an item up by id and by name leads to the same items, and no call fails with a KeyError inside the group. add_item puts an item with the given descriptor and value under its id and name, replaces exactly the items it collides with, leaves all others alone, and keeps the item that was there (assigning the value) if the descriptor is the same; without an id it uses the lowest free one that is not reserved. A user who looks at the same id or name before and after any call sees either the same item unchanged or a greater version.", "quantifier": "every history of calls, with any ids, names, descriptors and values, and any heaps, including values that cannot be decoded", "why_tests_cant": "Collisions of ids and names across several calls, or several descriptors of one heap, can be combined without bound; the tests try a few collisions with one descriptor at a time.", "anchors": ["src/spead2/__init__.py: ItemGroup._add_item, ItemGroup._remove_item, ItemGroup.add_item, ItemGroup.update, Item.value, Item.version"]}
{"id": "C74", "title": "A receiver of delta heaps has what the sender has", "statement": "A Python sender changes its item group (new items, replaced items, new values, increased versions) and sends heaps from a HeapGenerator (or the send ItemGroup); the receiver updates its own group from each of them. After every heap with stale or all descriptors and values, the receiver has each item of the sender under the same id, with the same name, descriptor and value. A heap generated when nothing has changed is empty; with a descriptor frequency f, every f consecutive heaps repeat each descriptor; a heap with everything brings any late receiver up to date.", "quantifier": "every history of changes and heaps, every descriptor frequency, every choice of stale, all and none for descriptors and (together with descriptors) for values, any codec of values that decodes what it encodes; for late receivers, any earlier history of the receiver", "why_tests_cant": "The generator compares versions, counters and weak references that were recorded at different times, under ids that can be reused by other items; whether a change is missed depends on an unbounded history, and the tests replay a few short ones.", "anchors": ["src/spead2/send/__init__.py: HeapGenerator._descriptor_stale, HeapGenerator._get_info, HeapGenerator.add_to_heap, HeapGenerator.get_heap", "src/spead2/__init__.py: ItemGroup._add_item, ItemGroup.update"]}
{"id": "C75", "title": "Asynchronous gets and puts from Python neither reorder, duplicate, lose nor strand anything", "statement": "However calls of the coroutines get and put, arrivals, stops, cancellations and runs of the event loop are interleaved: heaps go to calls of get in the order of the calls, each heap to one call; chunks enter the ringbuffer in the order of the calls of put; a call never waits for something that is there (the event loop watches the descriptor while anybody waits, and its callback serves the call that has waited longest); when the ringbuffer is stopped everybody who waits is told, and nobody is told otherwise; and a call that is cancelled has taken nothing.", "quantifier": "all histories of calls, event loop runs, cancellations, resumed tasks and actions of other threads, of any length, for both ends of a ringbuffer", "why_tests_cant": "The damage needs a particular interleaving of a cancellation with an arrival and the turn of a task in the event loop; tests run a handful.", "anchors": ["src/spead2/recv/asyncio.py:_SemaphoreQueue", "src/spead2/recv/asyncio.py:Stream.get", "src/spead2/recv/asyncio.py:ChunkRingbuffer.put", "src/py_recv.cpp:get_nowait", "include/spead2/common_ringbuffer.h:try_pop"]}
{"id": "C76", "title": "Asynchronous sends from Python: every future is resolved once and in order, heaps stay alive, and flush waits", "statement": "However asynchronous sends, completions on the threads of the pool, runs of the event loop and cancelled futures are interleaved: the callback of each send is called at most once and, once the stream is done with the heap and the event loop runs, is called; no wake-up is lost and the event loop never blocks; a future that was not cancelled gets the outcome of its own send, in the order of the accepted sends; the event loop watches the descriptor exactly while a callback is outstanding; heap, callback and stream are kept alive exactly until then; and when async_flush returns, everything accepted before the call has been sent.", "quantifier": "all histories of sends (accepted or refused), completions in two steps by any number of threads, event loop runs and cancellations, of any length", "why_tests_cant": "Lost wake-ups need a particular interleaving of a push with a swap and a semaphore; the early return of flush needs a cancelled future.", "anchors": ["src/py_send.cpp:asyncio_stream_wrapper", "src/spead2/send/asyncio.py:_wrap_class", "src/spead2/send/asyncio.py:async_flush"]}
{"id": "C77", "title": "mcdump writes exactly what it was given, never fails silently and ends", "statement": "After mcdump's file writer has been closed, the file has exactly the bytes that were given to it, in order, whatever the number of buffers and writer threads, their scheduling, short writes and interrupted writes. A write that fails is never silent. No buffer is lost or used by two threads. If the threads go on running mcdump ends properly.", "quantifier": "every sequence of write calls, buffer size, depth, number of threads, initial memory contents, interleaving of main and writer threads, and answer of the kernel to each pwrite", "why_tests_cant": "Which thread writes which buffer when, and how much each pwrite writes, depend on the scheduler and the kernel; tests see one schedule, full writes and no disk error.", "anchors": ["src/mcdump.cpp: writer::write, writer::flush, writer::close, writer::writer_thread, capture_base::~capture_base"]}
{"id": "C78", "title": "mcdump's capture file has exactly the packets that were counted, in order, and no more than --count", "statement": "When mcdump finishes, its output is a nanosecond pcap file for Ethernet whose records are exactly the packets it counted, in the order in which they arrived, each with its arrival time, its length on the wire and its first snaplen bytes. No packet is missing between two that are there, none is there twice, and none is mixed with the data of another, although the chunks of memory are used again and again while a second thread writes. At most --count packets are captured, and exactly that many if there was no interrupt; the counters shown are the number and total length of the packets. After an interrupt or the last counted packet the capture ends.", "quantifier": "every number and size of chunks, every sequence of arriving frames, fillers and receive errors, every moment of an interrupt, and every interleaving of the network card, the network thread and the collecting thread", "why_tests_cant": "needs a network card with ibverbs, and whether a chunk is given back to the card too early or written twice depends on the interleaving of the two threads and the card", "anchors": ["src/mcdump.cpp: capture_base::add_to_free, capture_base::chunk_done, capture_base::collect_thread, capture_base::run, capture::network_thread, capture_mprq::network_thread, capture::post_chunk, capture_mprq::post_chunk"]}
{"id": "C79", "title": "Log messages reach Python's logging once, in order and with their level, and losses are reported", "statement": "Every message that the library logs is passed to Python's 'spead2' logger exactly once, in the order in which the messages were logged and with the method of its level, unless as many messages as the queue holds are waiting; then it is dropped. Logging never waits, and until the end of the process it never fails. When the logger is stopped, everything that was queued is passed on first. The thread that passes messages on gives other Python threads a chance after at most 1024 messages. If messages were dropped, Python's logger is told so.", "quantifier": "every size of the queue, every number of messages and threads, every interleaving of the calls (including between finding the queue full and setting the flag) with the logging thread, and every moment of the stop", "why_tests_cant": "losing a message, its place, or the report of a loss depends on how threads interleave within a few instructions", "anchors": ["src/py_common.cpp: log_function_python::run, log_function_python::log, log_function_python::operator(), log_function_python::stop", "include/spead2/py_common.h: log_function_python"]}
{"id": "C80", "title": "mcdump divides its network buffer into usable slots and asks the card for what it can do", "statement": "For every snap length of at least 1, every network buffer size and all device limits, mcdump sets up at least one chunk with at least one slot; the slots lie inside their chunk, do not overlap and have room for a packet of the snap length; all slots are given to the card; the memory used is at most the network buffer size or, if that is smaller, one chunk, and one more chunk would exceed the buffer or the card's limits; the completion queue, the receive queue and the memory regions that are asked for stay within the limits that the card reports. Together with C77 and C78: whatever these options are, the file is a pcap file with the counted packets.", "quantifier": "all snap lengths below 2^31, all buffer sizes, all device limits, with and without multi-packet receive queues", "why_tests_cant": "Tests have no InfiniBand card, and cannot try all combinations of options and limits", "anchors": ["src/mcdump.cpp: capture::sizes, capture_mprq::sizes, capture::capture, capture_mprq::capture_mprq, capture_base::make_chunk, capture::post_chunk"]}
{"id": "C81", "title": "The place callback of a chunk stream sees exactly what the packet says", "statement": "A stream that receives into chunks asks a callback in which chunk a heap goes. For every datagram that is accepted and every choice of items, and whatever the structure passed to the callback had in it before, the callback is given the exact size of the packet, cleared outputs, and for each requested item the last immediate value in the packet, or -1 if and only if the packet has no immediate item with that identifier; nothing outside the datagram is read. Requesting identifiers 1 to 4 gives the packet's heap cnt, heap length, payload offset and payload length. For a heap sent by this library with repeated item pointers, whichever packet comes first shows all the immediate items of the heap; without repetition, each immediate item is shown in exactly one of the packets. The structure, the item values and the extra bytes do not overlap in memory.", "quantifier": "every datagram, list of item identifiers and previous contents; every sent heap, packet size and packet of it; every number of items and of extra bytes up to 2^63", "why_tests_cant": "the values depend on every layout of the item table (duplicates, order, address widths) and on leftovers of any earlier call", "anchors": ["include/spead2/recv_chunk_stream.h: chunk_stream_state::allocate, chunk_place_data", "src/recv_chunk_stream.cpp: chunk_stream_state_base, round_up"]}
{"id": "C82", "title": "What arrives in a chunk is what was sent, end to end", "statement": "Heaps with different cnts and with their item pointers in every packet are sent to a chunk stream, whose place callback computes from the heap cnt, the heap length and immediate items in which chunk, at which offset and at which index a heap goes; the user makes sure that these places are inside the chunks and do not overlap. Then every packet of a heap, whichever comes first, leads to the same place. Whatever datagrams are lost, duplicated or reordered and however the stream is stopped, nothing undefined happens, and whenever a presence flag is set there is a heap (with flags per packet: a packet) that belongs at that index, and from then on the chunk has exactly the bytes that were sent there; a consumer that takes the chunk from the ring finds them in its memory. If no heap was counted as too old or rejected, the flag of every heap that arrived completely is set.", "quantifier": "all sets of heaps, place callbacks that arrange them without overlap, histories of arrivals with loss, duplication and reordering, batches, flushes and stops, chunk configurations, and (for the consumer) all schedules of the rings", "why_tests_cant": "Tests send a few heaps over a loopback; a packet order that leads the callback astray or a chunk with flags but wrong bytes occurs only for particular combinations of loss, reordering and window movement.", "anchors": ["include/spead2/recv_chunk_stream.h: chunk_stream_state::allocate", "src/recv_chunk_stream.cpp: packet_memcpy, do_heap_ready", "src/recv_udp_base.cpp: process_one_packet", "src/send_packet.cpp: packet_generator::next_packet", "src/recv_live_heap.cpp: live_heap::add_packet"]}
{"id": "C83", "title": "Configurations are valid values", "statement": "A configuration object accepts exactly the documented arguments (at least one heap, one substream, one chunk; known compatibility flags; a known memcpy; finite non-negative rates, finite ratios of at least 1; names of statistics that are not used yet), and a call that throws changes nothing. Configurations behave as independent values: adding a statistic to a configuration is never seen through its copies, through the streams that were made from it, or through statistics that were already asked for, although all of them share the list. The index that add_stat returns is the index of that name for good. A chunk stream adds its two statistics after those of the user, and is refused exactly if the user has already used one of the two names.", "quantifier": "all programs that make, copy, assign and change any number of configurations, make streams, count and ask for statistics, with any arguments; all histories of calls on sending, chunk, ring and group configurations, including NaN and infinities", "why_tests_cant": "the list of statistics is shared and copied on write, so that a mistake shows only for particular orders of copies, additions and streams; tests try each setter on a few values", "anchors": ["src/recv_stream.cpp: stream_config::set_max_heaps, stream_config::set_substreams, stream_config::set_bug_compat, stream_config::set_memcpy, stream_config::add_stat, stream_base::get_stats", "include/spead2/recv_chunk_stream.h: chunk_stream_state::adjust_config", "src/recv_chunk_stream.cpp: chunk_stream_config setters", "src/send_stream_config.cpp: stream_config setters", "src/recv_ring_stream.cpp: ring_stream_config setters", "src/recv_chunk_stream_group.cpp: chunk_stream_group_config setters"]}
{"id": "C84", "title": "A stream that was made has room for the heaps it was configured for", "statement": "Making a receive stream with any configuration that the setters accept ends, and either throws or gives a stream in which each substream has max_heaps entries of its own inside the storage, used in turn, and every heap cnt has a bucket. It throws exactly if a table does not fit into memory.", "quantifier": "all values of max_heaps and substreams that fit into 64 bits, all heap cnts, all sizes of an entry and all amounts of memory", "why_tests_cant": "tests use a few small values; the sizes of the tables are products and powers of two calculated with 64 bits, which can wrap", "anchors": ["src/recv_stream.cpp: stream_base::stream_base", "src/recv_stream.cpp: compute_bucket_count", "src/recv_stream.cpp: compute_bucket_shift", "src/recv_stream.cpp: stream_base::add_packet (use of substream::head)", "include/spead2/recv_stream.h: stream_base members"]}
{"id": "C85", "title": "The multi-packet receive queue hands over exactly the frames that the card accepted", "statement": "With ibverbs and multi-packet receive queues, whatever the order in which the card writes frames and gives up the rest of entries, the thread that starts the reader posts entries, and the handler reads completions and posts entries again: the handler gets exactly the frames that the card has accepted, in their order and unchanged; the frame it is working on is not overwritten; the card writes only into the buffer; neither the work queue nor the completion queue overflows; and as long as the handler keeps up, a frame that fits into an entry is not dropped. The sizes that the reader chooses make this possible for every card and buffer size.", "quantifier": "all numbers and sizes of strides and entries, all frames, all contents of the memory, all interleavings of the card, start and the handler (any length, so that all counters wrap)", "why_tests_cant": "needs the hardware; a wrong offset, a wrapped counter or an entry posted out of order shows only after the buffer has been used several times, or for particular interleavings", "anchors": ["src/common_ibv.cpp: ibv_wq_mprq_t::post_recv, ibv_wq_mprq_t::read_wc", "src/recv_udp_ibv_mprq.cpp: udp_ibv_mprq_reader::udp_ibv_mprq_reader, udp_ibv_mprq_reader::start, udp_ibv_mprq_reader::poll_once, udp_ibv_mprq_reader::post_wr", "include/spead2/recv_stream.h: stream::emplace_reader"]}
{"id": "C86", "title": "An ibverbs reader gets the datagrams for its endpoints, and only these, and heaps sent with ibverbs arrive", "statement": "With an ibverbs reader, of the UDP frames that reach the card exactly those arrive in the reader's queue whose destination port and address are those of one of its endpoints (an endpoint without address takes every address; a multicast endpoint needs the group's ethernet address, a unicast endpoint that of the interface with the address). Setting up fails exactly if a unicast endpoint is the address of no interface. The groups that are joined are the multicast endpoints. If an ibverbs sender has sent heaps to a multicast endpoint without errors, and a reader with plain receive requests or with a multi-packet receive queue has subscribed to that endpoint and to no other of the sender, then the reader hands over those heaps, group by group, each once, complete and with the items that were sent, whatever foreign frames arrive in between.", "quantifier": "all lists of endpoints, all lists of interfaces, all frames; all executions of sender and card without errors, all heaps that can be sent faithfully, all foreign frames in between, all portions in which completions are found", "why_tests_cant": "Tests of ibverbs need special hardware and use one or two endpoints; they cannot try all frames, endpoints, interleavings and foreign traffic.", "anchors": ["src/common_ibv.cpp: create_flow, create_flows", "src/common_raw_packet.cpp: multicast_mac, interface_mac", "src/recv_udp_ibv.cpp: udp_ibv_reader_core, validate_endpoint, poll_once", "src/recv_udp_ibv_mprq.cpp: poll_once", "src/send_udp_ibv.cpp: wakeup"]}
{"id": "C87", "title": "An ibverbs reader hands over every frame its card accepts, once and unchanged", "statement": "For every maximum packet size, buffer size and card, a udp_ibv_reader (without multi-packet receive queues) either refuses the card with the right error or prepares as many receive slots as fit into the buffer size and the card's limits, each large enough for the maximum packet size. From then on, whatever frames arrive and whatever requests fail, also while packets are being processed: the stream sees the frames that the card accepted in order, unchanged and without gaps; a packet is not overwritten while it is processed; the card's queues do not overflow; and whenever the reader has caught up, the card has room for as many frames as there are slots again.", "quantifier": "every card, buffer size and maximum size; every interleaving of arriving frames, failing requests, polling in any portions and processing, without bound; every point at which the stream stops", "why_tests_cant": "The slots are used again in batches, in an order that depends on the interleaving; a slot posted twice or too early shows only when the card happens to write to it during processing, and needs the hardware.", "anchors": ["src/recv_udp_ibv.cpp:compute_n_slots", "src/recv_udp_ibv.cpp:udp_ibv_reader::udp_ibv_reader", "src/recv_udp_ibv.cpp:udp_ibv_reader::poll_once", "include/spead2/recv_udp_ibv.h:udp_ibv_reader_base"]}
{"id": "C88", "title": "spead2_send sends what it was asked to send", "statement": "spead2_send --heaps N with D destinations and at most M heaps in flight gives the stream exactly N data heaps, numbered round robin over the destinations, the first for each destination with descriptors, followed by one end of stream for each destination, all in the flavour that was asked for, and in this order; the memory of a heap is not changed while the stream may read it; the stream never has more than M heaps and never refuses one; and run() returns, with the number of bytes, only after all callbacks, or throws the first error after the stream has given back every heap.", "quantifier": "every number of heaps (also endless), destinations, heaps in flight, items and sizes; every interleaving of transmission, callbacks with and without errors, and the main thread", "why_tests_cant": "M chains of callbacks interleave with transmission; that memory used again is not still being read depends on the interleaving, and the counts depend on relations between three options of which tests try few.", "anchors": ["src/spead2_send.cpp:sender", "src/spead2_send.cpp:sender::callback", "src/spead2_send.cpp:sender::get_heap", "src/spead2_cmdline.cpp:sender_options::make_flavour"]}
{"id": "C89", "title": "A Python descriptor is received as it was sent", "statement": "When a Python user sends an item's descriptor, a receiver with the same flavour gets an equal one: the same id, name, description, shape (with its variable dimension), numpy type (with its byte order, nested fields and subarrays) or SPEAD format, and storage order, for every flavour including the compatibility setting that swaps byte orders. The constructor accepts exactly what its documentation allows; the sender refuses only what cannot be written (strings that are not ASCII, numbers beyond 64 bits); whatever a receiver accepts, from any sender, is a valid descriptor, and can be passed on with any other flavour.", "quantifier": "every descriptor the constructor accepts, every flavour, every raw descriptor that arrives", "why_tests_cant": "Types nest without bound and the header is re-read by numpy under rules of its own; the tests send a few flat types.", "anchors": ["src/spead2/__init__.py: Descriptor.__init__, Descriptor._parse_format, Descriptor._make_numpy_header, Descriptor._parse_numpy_header, Descriptor.to_raw, Descriptor.from_raw", "src/py_common.cpp: RawDescriptor"]}
{"id": "C90", "title": "spead2_recv --verify accepts what spead2_send --verify sends, and nothing else", "statement": "With --verify, spead2_send fills the heaps it sends, one after the other, with the values of a fixed random sequence, and spead2_recv checks every complete heap against the part of the sequence that its heap cnt stands for. Every heap that was sent and whose packets all arrived (in any order, with any copies, and whatever other heaps were lost) is accepted. Conversely a heap is accepted only if all its data items hold exactly the values for its heap cnt, and a reported difference is a real one. Jumping to a position of the sequence has the same effect as taking the values one by one. (Two parts fail: items of fewer than 8 bytes travel as immediates and are always reported as inconsistent, and with several destinations the first heap of each other destination is reported as a mismatch, as its descriptors are counted.)", "quantifier": "all options of the sender, all histories of queueing and completion, all heaps, packet sizes, orders of arrival and losses; all contents of received heaps; all positions of 64 bits", "why_tests_cant": "Tests run the tools for a few sizes, one destination and a loopback network; whether verification raises false alarms or misses damage depends on sizes, numbers of items and destinations, losses and positions far into the sequence.", "anchors": ["src/spead2_recv.cpp: fast_discard, verify_heap", "src/spead2_send.cpp: sender::sender, sender::get_heap"]}
{"id": "C91", "title": "A Python receiver's item group becomes that of the Python sender", "statement": "A Python program adds items to an ItemGroup, changes their values and sends heaps made by a HeapGenerator; another one calls update of its own ItemGroup with the heaps it receives. However the values travel (immediates or payload, one packet or many, reordered or duplicated), after a heap with descriptors and values the receiver's group has every item of the sender's with the same id, name, shape, type and value, and no call has raised; a heap with all descriptors and values brings any receiver up to date, whatever it received before.", "quantifier": "all sequences of add_item (also replacing items), value assignments, version increments and get_heap calls, all shapes, types, formats and values, all flavours and packet sizes, all orders and duplications of packets", "why_tests_cant": "The composition crosses two processes, two languages and seven layers (item versions, descriptor encoding, value encoding, packetisation, reassembly, decoding, group update); tests try a few values with each layer, not all histories through all of them.", "anchors": ["src/spead2/__init__.py: ItemGroup.update, Item.to_buffer, Item.set_from_raw, Descriptor", "src/spead2/send/__init__.py: HeapGenerator.get_heap", "src/py_send.cpp: heap_wrapper::add_item, add_descriptor", "src/py_recv.cpp: heap_wrapper::get_items", "src/recv_heap.cpp: heap_base::load"]}
{"id": "C92", "title": "A synchronous send from Python returns the outcome of its own heaps, and stays memory safe when it is interrupted", "statement": "send_heap and send_heaps of the Python stream classes return the number of bytes, or raise the error, that the stream reported for exactly the heaps of this call, however many threads call them at once. They return as soon as the stream has reported (no wake-up is lost). A signal whose handler raises nothing does not disturb them; one whose handler raises ends the call, and then nothing that the stream still uses has been freed.", "quantifier": "all interleavings of any number of calls, the stream's reads and callbacks (statement by statement), signals and the references that the program makes and gives up", "why_tests_cant": "an interruption between two statements of the callback, or a heap freed at the moment when the stream reads it, cannot be placed by a test", "anchors": ["src/py_send.cpp: stream_wrapper::send_heap, send_heaps, callback_state", "include/spead2/py_common.h: semaphore_get"]}
{"id": "C93", "title": "A Python program that ends does end: everything is stopped in an order that cannot deadlock", "statement": "When the interpreter exits, every thread pool, receive stream and the logger that still exists is stopped exactly once, streams before the pool whose threads they use and the logger last; no stop blocks, whatever the threads are doing (for example waiting for space in a ring that nobody reads any more); afterwards no thread of the library runs, and all remaining objects can be destroyed.", "quantifier": "all histories of creating, stopping, destroying and using pools and streams, and all interleavings of the exit with what the pools' threads do", "why_tests_cant": "the exit may begin at any moment, and what it meets depends on what every thread is doing then", "anchors": ["src/py_common.cpp: exit_stopper, run_exit_stoppers, thread_pool_wrapper", "include/spead2/py_common.h: exit_stopper", "src/py_recv.cpp: ring_stream_wrapper, EXIT_STOPPER_WRAPPER", "src/send_stream.cpp: stream::~stream", "src/common_thread_pool.cpp: thread_pool::stop"]}
{"id": "C94", "title": "spead2_bench sends the heaps of a measurement once each, within the window", "statement": "A measurement of spead2_bench with n heaps and the option --max-heaps w passes the heaps to its stream in order and each at most once, never has more than w of them with the stream (so none is refused for lack of space), keeps the stream as full as w and the remaining heaps allow until an error, and passes no more after an error. It ends with a number of bytes only if all n heaps were sent without error, and the number is the sum of what was reported; otherwise it ends with the first error reported; in both cases the stream has no heap left, so the heaps can be freed. It never waits for a report that cannot come.", "quantifier": "all numbers of heaps, all positive values of --max-heaps, all sequences of reports (errors and byte counts) of the stream, all points in time", "why_tests_cant": "The number of heaps, the window and the place and number of errors are unbounded; a test runs with a few values and a network that does not fail.", "anchors": ["src/spead2_bench.cpp: sender::sender, sender::callback, sender::run", "include/spead2/send_stream.h: stream::async_send_heap"]}
{"id": "C95", "title": "The search of spead2_bench ends and finds the sustainable rate", "statement": "The search of spead2_bench for the highest sustainable rate always ends. After the first good measurement at most six more are made. If the network sustains exactly the rates up to T (below the rate of the first measurement), the search ends with a rate that is at most T and less than 2% below it; the rate printed is the one at which the heaps of the good measurement for that rate were sent. Each measurement requires more than 1 GB, and more than one second of data, to arrive, and is good only if all its passes are.", "quantifier": "all first rates, all sequences of answers of the measurements, all thresholds T, all heap sizes", "why_tests_cant": "The sequences of answers are unbounded, and that a search never ends cannot be observed.", "anchors": ["src/spead2_bench.cpp: main_master, measure_connection"]}
{"id": "C96", "title": "The agent of spead2_bench survives its masters", "statement": "The agent of spead2_bench answers each measurement with ready and then a number of heaps, in this order whatever a master sends, and after a master has closed the connection or sent exit, the agent can serve the next one.", "quantifier": "all sequences of lines from a master, all configurations, both kinds of receiver (ring buffer and callback)", "why_tests_cant": "The lines of a master and the point where its connection ends are arbitrary.", "anchors": ["src/spead2_bench.cpp: main_agent, recv_connection_ring, recv_connection_callback, recv_stream"]}
{"id": "C97", "title": "Python's chunks travel through ringbuffers with their buffers", "statement": "Each buffer that a Python program has assigned to a field of a Chunk is, at any time, in exactly one place: a field of a chunk, under way in a ringbuffer, a call of put or a stream, or released. A chunk that is in no ringbuffer, call or stream has the buffers that were last assigned to it, and one that is there is there once. get returns the chunk that was put first, as the same Python object with its contents; a put that raises an exception (no data, full, stopped, signal) leaves the chunk as it was.", "quantifier": "all programs with any number of chunks and ringbuffers, all interleavings with streams that take, fill and pass on chunks, all points at which a ringbuffer is stopped or a signal arrives", "why_tests_cant": "The histories of moves between Python objects and ringbuffers are unbounded, and a buffer that two places share shows only as corrupted data.", "anchors": ["src/py_recv.cpp: wrap_chunk, unwrap_chunk, push_chunk, Chunk, ChunkRingbuffer, ChunkRingPair.add_free_chunk", "include/spead2/recv_chunk_stream.h: chunk_ring_pair::add_free_chunk, make_allocate, make_ready"]}
{"id": "C98", "title": "Connecting a TCP stream from Python ends, with the outcome of the attempt", "statement": "spead2.send.TcpStream(...) and spead2.send.asyncio.TcpStream.connect(...) return a stream only if the connection was made, raise OSError with the error of the attempt if it was not, and otherwise end only because they were interrupted or cancelled; they always end once the attempt has ended; and nothing uses the stream after it was freed.", "quantifier": "all outcomes of the attempt, all points at which the call is cancelled or interrupted, all schedules of the thread that waits, the thread of the pool and the GIL", "why_tests_cant": "Cancellations and switches of the GIL can happen at any point, and a deadlock needs one particular order.", "anchors": ["src/py_send.cpp: tcp_stream_register_sync, tcp_stream_register_async", "src/spead2/send/asyncio.py: TcpStream.connect", "src/send_tcp.cpp: tcp_writer::start", "src/send_stream.cpp: stream::~stream"]}
{"id": "C99", "title": "send_asyncio.py sends what it was asked to send", "statement": "The Python tool spead2_send.py sends `--heaps` data heaps, number i to destination i modulo the number of destinations, each with all values; then exactly one end-of-stream heap to each destination, after everything else for it. The first heap for each destination has all descriptors, and with `--descriptors f` each destination gets them again within f of its heaps. It never has more than `--max-heaps` heaps under way and never runs into a full queue; it finishes if the stream does, and what it prints is the sum of the bytes of the heaps that were sent, and the number and the last of the errors.", "quantifier": "all item groups, numbers of heaps and destinations, windows and descriptor frequencies, and all interleavings of the program with completions and errors of the stream", "why_tests_cant": "The order of completions and errors is up to the network; which destination gets the repeated descriptors depends on number theory (the common divisors of frequency and number of destinations) and shows only after many heaps.", "anchors": ["src/spead2/tools/send_asyncio.py run async_main", "src/spead2/tools/cmdline.py SenderOptions.make_stream_config", "src/spead2/send/asyncio.py _async_send", "src/spead2/send/__init__.py HeapGenerator"]}
{"id": "C100", "title": "Memory allocators give enough memory, keep it while it is used, and give it back", "statement": "Memory that an allocator returns has room for the bytes that were asked for and stays until the pointer is released, whatever happens to other pointers. The allocation fails only if no bytes are asked for or there are not enough pages; with prefer_huge it uses huge pages when there are enough and falls back to ordinary ones otherwise. When a pointer is released its memory goes back to where it came from, once: an array is deleted, a mapping is unmapped, and free of a user's allocator is called with the same pointer and the user's own argument while that allocator is still alive. When everything was released everything was given back.", "quantifier": "all sequences of allocations of any kind and size, releases in any order and dropped references to allocators, on machines with any page sizes and numbers of pages", "why_tests_cant": "the outcome depends on sizes relative to page sizes and on how many huge pages the machine has; tests run on machines without huge pages and look at no kernel accounting", "anchors": ["include/spead2/common_memory_allocator.h: memory_allocator, mmap_allocator, legacy_deleter, deleter", "src/common_memory_allocator.cpp: memory_allocator::allocate, memory_allocator::free, prefault, mmap_allocator::allocate, legacy_deleter", "src/send_udp_ibv.cpp: udp_ibv_stream", "src/recv_udp_ibv.cpp: udp_ibv_reader"]}
{"id": "C101", "title": "Thread pools run every handler once, and making and stopping them ends", "statement": "A thread pool has the number of threads that was asked for, bound to the listed cores in turn; a pool without threads is refused. Handlers posted to it are started in order, each once, never more at a time than there are threads. From the call of stop on no handler is started; stop returns once the handlers that run have returned, and then all threads have ended. Handlers wait for ever only if as many handlers threw as there are threads. The constructor returns or throws.", "quantifier": "all numbers of threads and lists of cores, all interleavings of posts, handlers that return or throw, thread creation that fails, and calls of stop", "why_tests_cant": "depends on the schedule of the threads, on handlers that throw and on limits of the operating system on threads", "anchors": ["include/spead2/common_thread_pool.h: thread_pool", "src/common_thread_pool.cpp: thread_pool::thread_pool, thread_pool::stop, run_io_context, thread_pool::set_affinity"]}
{"id": "C102", "title": "The agent of the Python benchmark answers every client, counts its heaps and frees its endpoint", "statement": "A client of the agent of spead2_bench (Python) is told that the agent is ready when a stream receives at the endpoint it asked for, and when it asks to stop it is told the number of all heaps that this stream received; these replies come in turn. Clients do not disturb each other: a stream is stopped only by the client that started it, by the end of its connection, or by the end of the stream. When a connection has ended, however it ended, its endpoint is free again. No client can end the agent.", "quantifier": "all sequences and interleavings of clients, commands, heaps, ends of streams and connections, and exceptions", "why_tests_cant": "depends on how connections end, on what each side was compiled with and on the interleaving of several clients; the tool has no tests", "anchors": ["src/spead2/tools/bench_asyncio.py: AgentConnection.run_control, AgentConnection.run_stream, agent_connection, run_agent, measure_connection_once", "src/recv_udp.cpp: udp_reader"]}
{"id": "C103", "title": "Functions of libraries loaded at run time run or raise", "statement": "The functions of libibverbs, librdmacm and libmlx5 can be called by any number of threads whether or not the library is installed. The library is opened once. If it is installed with every function that is required, a call runs the function, or raises an error if the function is an optional one that is missing; otherwise every call raises the same error, which says what is missing. has_... tells whether an optional function can be called. Calls always return. Memory is registered with the flags that were asked for, except that optional flags are dropped if the function that understands them is missing.", "quantifier": "every number of functions, set of optional functions, installed library, number of threads and interleaving of their calls with the loading, and every set of access flags", "why_tests_cant": "tests run with one version of the libraries, or none, and cannot place a call of one thread between the steps of another thread that loads the library", "anchors": ["gen/template.cpp:init", "gen/template.cpp:reset_stubs", "gen/gen_loader.py:Library", "src/common_loader_utils.cpp:dl_handle", "src/common_ibv.cpp:ibv_mr_t"]}
{"id": "C104", "title": "Command lines mean the same to the C++ and the Python tools", "statement": "An endpoint host:port or port with a decimal port is that endpoint to every receiver, and anything else is the name of a capture file where files are allowed; every endpoint and file gets exactly one reader of the right kind with the sizes that were given or their defaults, and ibverbs endpoints share one reader. The C++ and the Python tools agree on all this. ibverbs is refused without an address to bind or together with TCP. Options can be renamed and hidden: each has the last value given under its flag, or its default. Lists of cores are those cores in order, and the main thread and the worker threads are bound to them in turn.", "quantifier": "every text, host, port, combination of options, list of endpoints, set of option names, list of arguments and list of ranges", "why_tests_cant": "there are infinitely many texts; tests run a few command lines with one of the families of tools and do not compare the two", "anchors": ["src/spead2_cmdline.cpp:parse_endpoints", "src/spead2_cmdline.cpp:receiver_options::add_readers", "src/spead2_cmdline.cpp:receiver_options::notify", "src/spead2/tools/cmdline.py:_Options", "src/spead2/tools/cmdline.py:ReceiverOptions", "src/spead2/__init__.py:parse_range_list"]}
{"id": "C105", "title": "A UDP reader hears exactly what is sent to where it listens, and a sender sends as it was asked to", "statement": "A UDP reader is refused for its arguments exactly when the documentation says so; otherwise it starts exactly if the interface of its group exists, its address is one of the host's, and nobody else is in the way. While it runs it gets every datagram sent to its address and port, and, if it listens to a group, those and only those that arrive on the interface it was given. Datagrams for one address go to one reader; readers of groups can share them. A sender is made exactly if its endpoints, time to live and interface are good, and it uses them. Buffer sizes that the system does not grant are reported.", "quantifier": "every host (interfaces, addresses and routes), every history of readers and foreign sockets, every datagram, every list of endpoints, and every size", "why_tests_cant": "what a socket gets depends on which other sockets exist on the host, in this program and others, and on interfaces that a test machine does not have", "anchors": ["src/recv_udp.cpp: make_socket, make_v4_socket, make_multicast_v6_socket, udp_reader::udp_reader, udp_reader::start", "src/send_udp.cpp: make_socket, get_protocol, make_multicast_socket, make_multicast_v4_socket, make_multicast_v6_socket, udp_writer::udp_writer", "src/common_socket.cpp: set_socket_buffer_size"]}
{"id": "C106", "title": "The receiving tools account for every heap, and verification means what it says", "statement": "spead2_recv ends once all its streams have stopped; the total it prints is the number of complete heaps they passed on, and it shows each once; with --verify it succeeds only if every complete heap has the right contents, and shows numbers as it should however many threads it has. recv_asyncio.py takes each heap once, up to --max-heaps, whatever is wrong with their contents, and then stops its stream; --descriptors only adds output.", "quantifier": "every combination of options, every number of sources, every interleaving of the streams' heaps and stops, every sequence of heaps with good and bad descriptors and items", "why_tests_cant": "the order in which streams deliver and stop, and the contents of heaps, are unbounded, and a test that verifies good data does not notice that nothing is verified", "anchors": ["src/spead2_recv.cpp: main, make_stream, callback_stream, show_heap, verify_heap", "src/spead2/tools/recv_asyncio.py: run_stream", "src/spead2/__init__.py: ItemGroup.update"]}
{"id": "C107", "title": "Options of the tools for networks mean the same in C++ and Python", "statement": "With the same endpoints, --bind and --ttl, spead2_send and spead2_send.py either both refuse to start or send every datagram with the same number of hops, through the same interface and from the same address; and spead2_recv and spead2_recv.py listen to the same addresses and groups on the same interfaces.", "quantifier": "all hosts with any interfaces, addresses and routes, all lists of endpoints of both families, groups or not, all TTLs and interface addresses; for reception every history of other programs' sockets", "why_tests_cant": "The two tools take different constructors for the same options, and the outcomes depend on the family and kind of every endpoint, on the addresses of the host and on other sockets; tests run single combinations on one host.", "anchors": ["src/spead2_cmdline.cpp: sender_options::make_stream, receiver_options::add_readers", "src/spead2/tools/cmdline.py: SenderOptions.make_stream, ReceiverOptions.add_readers", "src/py_send.cpp: udp_stream_wrapper, udp_stream_register"]}
{"id": "C108", "title": "A place callback set from Python is called as its signature says, for as long as its stream exists", "statement": "The place attribute of a ChunkStreamConfig takes None or a tuple that starts with a capsule whose name is one of the two documented signatures; anything else is refused without changing the config, and reading the attribute gives back what was set. Every stream calls the function its config had when the stream was made, with exactly the arguments of the signature, and the function and its user data exist until the stream is deleted, whatever the program releases or changes meanwhile; then they are released. A callback compiled with numba finds every field of the structure where C++ put it, on every platform and also when later versions add fields.", "quantifier": "all heaps of Python objects, all histories of creating, dropping and changing objects, setting and reading attributes, and making and deleting configs and streams; all word sizes and alignments, and all lists of further fields", "why_tests_cant": "Whether a function outlives its stream depends on the order in which a program drops references, and a wrong layout or lifetime shows only as rare memory corruption; tests run one order on one platform.", "anchors": ["include/spead2/py_common.h: callback_from_python, callback_to_python", "src/py_recv.cpp: ChunkStreamConfig.place", "src/recv_chunk_stream.cpp: chunk_stream_state_base::chunk_stream_state_base", "include/spead2/recv_chunk_stream.h: chunk_place_data, chunk_stream_state::allocate", "src/spead2/recv/numba.py: chunk_place_data"]}
{"id": "C109", "title": "A TCP reader serves one client and ends with it", "statement": "A TCP reader takes the first client that connects and no other: others are turned away and nothing they send has any effect. The heaps it passes on are those of the packets in what this client has sent, however it was split up. When the client has closed the connection and everything has been read, the stream ends; in general, once the reader can do nothing more, the stream has ended, so that no consumer waits for ever. Stopping the stream closes the sockets. No history leads to undefined behaviour.", "quantifier": "every history of clients that connect, send, close and lose their connections, of receives of every size, failures to accept and stops, in every order; all configs of streams and packet sizes", "why_tests_cant": "Which client is taken, how its data are split and when its connection breaks are decided by the network; tests use one well-behaved client.", "anchors": ["src/recv_tcp.cpp: tcp_reader::start, accept_handler, packet_handler, enqueue_receive, stop"]}
{"id": "C110", "title": "spead2_net_raw gives a program CAP_NET_RAW and nothing else", "statement": "After it has been given the capability as the manual says, spead2_net_raw run by any user runs the command it is given, with its arguments unchanged, and the command has the capability CAP_NET_RAW; so have its children. The command has no other capability that it would not have had anyway. If the capability cannot be given, or there is no such command, nothing is run, and the exit status says so.", "quantifier": "all capability sets of the user (bounding, inheritable, ambient, securebits, no_new_privs), all capabilities and set-id bits of the program and of its children, all command lines", "why_tests_cant": "The outcome depends on five sets of capabilities of the process and three of each file; tests cannot set these up without privileges, and a missing restriction is a security hole.", "anchors": ["src/spead2_net_raw.cpp: main", "doc/tools.rst: spead2_net_raw"]}
{"id": "C111", "title": "Statistics objects are independent tables of names and values", "statement": "A statistics object is a table: looking a statistic up by index, by name or through the attribute of a core statistic shows the same value, iteration shows each statistic once, in the order of the config and with its value, and unknown names and indices raise. Setting a value changes only that statistic of that object. Copies are independent of their originals; adding combines each statistic by its mode, and assigning or adding objects with different lists of statistics raises and changes nothing. In C++ objects can be moved, assigned to and swapped like other values.", "quantifier": "all programs that make, copy, move, assign, add, read, write, iterate and destroy statistics objects, any number of them with any custom statistics, in any order", "why_tests_cant": "The objects hold references into vectors that are copied and moved; whether a reference follows its object depends on the history of copies and moves, which is unbounded.", "anchors": ["include/spead2/recv_stream.h: stream_stats, stream_stat_indices, detail::stream_stats_iterator", "src/recv_stream.cpp: stream_stats, make_default_stats, get_stat_index_nothrow", "src/py_recv.cpp: StreamStats, STREAM_STATS_PROPERTY"]}
{"id": "C112", "title": "A chunk stream group is a Python sequence of its streams", "statement": "group[i] is the i'th stream, counted from the end if i is negative, and raises for every other integer; group[start:stop:step] is what Python gives for a list of the streams, for all integers and None, and raises if the step is 0; iterating gives all streams in order. No index or slice, however large or negative, makes the group use a stream that does not exist.", "quantifier": "groups of any size, all integers without bound as index, start, stop and step, and None", "why_tests_cant": "Indices are converted between signed and unsigned 64-bit integers and wrap around; the combinations of signs and magnitudes are unbounded, and a wrong one reads memory out of bounds.", "anchors": ["src/py_recv.cpp: ChunkStreamRingGroup __getitem__, __len__", "src/spead2/recv/__init__.py: ChunkStreamRingGroup"]}
{"id": "C113", "title": "Configuration objects made from keyword arguments", "statement": "A configuration object made in Python with keyword arguments has the value given for each attribute that is named and its default for each that is not, whatever the order of the keywords, just as if the attributes were assigned one after the other to an object made without arguments. The constructor raises exactly if some keyword names no attribute (TypeError), names one that cannot be set (AttributeError) or has a value the setter refuses (the setter's exception), and the first such keyword decides. A constructor that raises leaves nothing behind.", "quantifier": "all classes with settable and fixed attributes and setters that may refuse, all lists of keyword arguments with distinct names", "why_tests_cant": "Tests construct objects with a few keywords; the claim is for every combination, order and class, and what a failed constructor leaves in memory cannot be seen from Python.", "anchors": ["include/spead2/py_common.h: data_class_constructor", "src/py_recv.cpp: StreamConfig, RingStreamConfig, ChunkStreamConfig, Chunk, ChunkStreamGroupConfig, UdpIbvConfig", "src/py_send.cpp: StreamConfig, UdpIbvConfig", "src/recv_chunk_stream_group.cpp: chunk_stream_group_config::set_max_chunks"]}
{"id": "C114", "title": "The log function of a C++ program", "statement": "Each message that the library logs at a level that is compiled in goes exactly once, in order, with its level and text, to the log function that was installed last, or is reported to the caller by an exception if that is empty; messages at other levels have no effect. set_log_function returns the function that it replaces, so that putting it back restores logging. Functions may be installed at any time, also while streams run.", "quantifier": "all programs, any number of threads that log (also from within log functions), all sequences of installed functions, all compiled levels", "why_tests_cant": "Unit tests install one function before anything runs; which function gets a message, and whether replacing it is safe, depends on the interleaving of threads.", "anchors": ["src/common_logging.cpp: set_log_function, detail::log_msg_impl, log_function", "include/spead2/common_logging.h: log_msg, log_level"]}
