# Formal model of spead2 (C++ core) in Lean 4

Source: `/repo` (ska-sa/spead2, pinned commit), read as text. Model and proofs: `/verif/lean/Verif`.

## Layout

* `Verif/Model/*.lean` — the model: total, computable Lean functions, one per C++ function, each with a
  comment citing the file and lines it models and any simplification.
* `Verif/Lemmas/*.lean` — helper lemmas and invariants (not part of any claim).
* `Verif/Spec/*.lean` — small independent specifications used in theorem statements.
* `Verif/Props/*.lean` — the property theorems (named in `MANIFEST.json`) with, beside each, an `example`
  or a `_witness` theorem showing that a concrete non-trivial case meets the hypotheses.

## Modelling conventions

* Bytes are `UInt8`, byte sequences are `List UInt8`. Memory handed to a function is a list; a read or
  write outside it is a distinct outcome (`none`/`ub`), so memory safety is a statement about the outcome.
* `s_item_pointer_t`/`item_pointer_t`/`std::size_t` are `Nat` (or `Int` where `-1` is a sentinel) with an
  explicit `% 2^64` wherever the C++ operation can wrap; ranges come from the byte decoding.
* `assert` is modelled as a separate outcome/flag: where the code relies on an assertion, the theorem
  either proves that it holds or names it as a hypothesis.
* Exceptions are constructors of a result type.
* Concurrency: a transition system whose atomic steps are the lock-protected sections and the single
  semaphore operations of the code; any number of threads; theorems are about all reachable states.
* Object lifetime (placement new / destructor calls) is modelled by slot states where a property depends
  on it (ring buffer storage, send queue).

## Plan per property

| id | model | proof |
|----|-------|-------|
| C01 | `pointer_encoder`, `pointer_decoder` on Nat with u64 wrap | bit arithmetic, all widths |
| C02 | flavour constructor as decision function | case analysis |
| C03 | `decode_header`, `get_packet_size`, `decode_packet` over a byte buffer with checked reads | never `ub`; bounds on result |
| C04 | same, against an independent well-formedness predicate | iff by unfolding + induction over the item table |
| C05 | `get_packet_size`, prefix order on byte lists | monotonicity in the buffer |
| C06–C09 | `packet_generator` constructor/`next_packet` as a state machine, run to exhaustion | invariant by induction over packets |
| C10 | composition sender bytes → `decode_packet` → live heap → frozen heap | induction over arbitrary packet sequence |
| C11–C16 | `live_heap` (`add_packet`, `add_payload_range`, `add_pointers`, `payload_reserve`) | invariant by induction over packets |
| C17 | `heap_base::load` | sortedness of merge sort + induction |
| C18 | `encode_descriptor`, `to_descriptor` | round trip |
| C19–C24 | `stream_base` queue slots, buckets, `add_packet`, flush, stop, stats | invariant by induction over events |
| C25 | `stream_stats` operations | algebra |
| C26 | `mem_to_stream` | refinement to the sequential parse relation |
| C27–C28 | TCP reader buffer state machine | refinement to a pure stream parser; invariant; counterexample to progress |
| C29–C30 | `chunk_window`, chunk stream state | invariant by induction |
| C31–C32 | group with member streams as a transition system | invariant over all interleavings |
| C33–C35 | ring buffer transition system | invariant over all interleavings |
| C36 | unbounded queue transition system | invariant |
| C37 | memory pool with buffer identities | invariant |
| C38–C41, C51 | send queue, `async_send_heaps_impl`, unwinder, `flush`, `get_packet`, `groups_completed` | invariants, refinement to list-of-groups spec, counterexample for C41 |
| C42 | `precise_time`, `update_send_times`, `update_send_time_empty` and the sleeping part of `get_packet`, with exact rationals for doubles | invariants over all timings |
| C43–C44 | raw packet wrappers with checked reads; checksum loop with 32 bit sum and bounded carry folding | frames: if-chain over header fields, both directions of an independent grammar; checksum: arithmetic mod 65535 |
| C45–C46 | `prepare_msgvec`, `send_packets` with a nondeterministic kernel, GRO split | induction over the batch, invariant of the batch |
| C52–C54 | `process_one_packet`, the handlers of the UDP, pcap and ibverbs readers | each handler equals a `Stream.batch` of the accepted packets (induction over messages, records, completions) |
| C55 | composition of `Stream` with the packet generator, the decoder and the live heap (no new code) | a condition on the sequence of packets (`Orderly`) and an invariant over packets: serial number of a live heap = number of earlier heaps of its substream; then `Family` (C10) for the contents |
| C56, C57 | `stream`: `emplace_reader`, `start`, `stop`, destructor; `bound_handler`, `add_packet_state`, `post`; both mutexes, `call_once`, `shared_state::self` | transition system with any number of threads; invariants (mutual exclusion, who may use the stream, progress of `stop_received`); no deadlock by a decreasing measure |
| C58, C59 | the four semaphores, one transition per atomic access or system call, any number of threads | each step refines a counter; C59 fails for `semaphore_spin` |
| C60 | constructor and per-packet part of `udp_ibv_writer::wakeup`; internal buffer as bytes, memory of the user as a function, gathering by the card | normal form of a slot header, invariant of the loop over buffers; region lookup by order of a sorted set |
| C61, C62 | `wakeup`, `reap` and `wait_for_space` of the ibverbs sender with a card that runs concurrently: send queue, completion queue, notifications | invariant: the slots in flight are a window of the ring, split into completed, sent, posted and linked packets; C62 by a draining argument; both fail in general |
| C63 | the receive handler of the ibverbs readers with a concurrent card, one transition per poll, completion, request and post | invariant by cases over the transitions; progress by following the handler |
| C64 | `wakeup` of the TCP, stream-buffer, in-process and plain UDP writers as programs that use the queue of C38, one transition per queue operation, with callers in between | invariant relating the position in the program to the queue; each step is a step of the queue, so C38-C40 and C51 carry over; progress by a measure that every step of the writer lowers |
| C65 | the packet generator of C06 in the queue and writer of C64, the byte stream cut into reads in any way, the TCP reader of C27 and the stream of C14 | provenance of accepted groups by induction over the history; the packets of the generator are framed by the header they announce, so the reader recovers them one by one; the assembly of heaps by C55; batches of packets can be merged and split |
| C66 | the packet generator and the in-process writer of C64, the queue of C36, `inproc_reader` and the stream of C14 | the trace of the queue split into what each receiver call returned (invariant `QSeen`); heaps of one substream as a filter of the accepted groups; then as C65 |
| C67 | the stream of C14-C24, the packets of a sent heap (C06, C09), the UDP reader of C52 and the writers of C64; datagrams arrive lost, repeated, reordered and mixed | every packet of a heap was presented at least as often (accounting invariant of C20 with multiplicities); the packets of a heap determine its bytes by their offsets; a complete heap has all of them, so its items are those of C09/C10; in-order streams accept packets sorted by offset |
| C68 | `udp_writer::wakeup` and `send_packets` of C43 on the queue of C38, one transition per queue operation and per call of `sendmmsg`, with callers in between | invariant: packets in flight of C43 are the packets taken from the queue and not yet recorded; each step is a sequence of steps of the queue; progress by a measure |
| C69 | the packet generator in the writers of C64 and C68, the UDP reader of C52 and the stream of C14 | provenance of accepted groups; what leaves on a substream is the packets of its heaps (C64, C68); packets accepted by the reader are determined by the datagrams (C52), so C55 applies |
| C70 | the stream of C14 with the calls it makes to the chunk layer of C30 (allocate, copy, heap_ready, flush) | the calls for each heap follow a fixed pattern (invariant over histories of packets); they are a valid history of the chunk layer, so C29 and C30 apply; effects are traced back to the calls and the packets; counting of flags and losses |
| C71 | chunk streams (C30) as sequences of single callbacks, a free and a data ring, the user and the consumer; chunks are numbered and have flags and bytes | causality (what a chunk stream does before a request does not depend on the answer) lets each stream be run step by step; invariant over all interleavings: conservation of chunks, contents of each held or queued chunk, producers counted; order by a second invariant; combined with C70 for the contents |
| C72 | `to_buffer` and `set_from_raw` of the Python layer, with the generators `_write_bits` and `_read_bits`, the recursion over shapes, the numpy and immediate fast paths, and the choice of immediates | the writer's and the reader's state stand for a list of bits; writing appends the bits of a field, reading takes them off; a shape is an iteration. Violated in general: one witness per kind of value lost |
| C73 | item groups as two dictionaries of numbers of item objects, with `_add_item`, `add_item` and `update` | invariant (both dictionaries have no duplicate keys and lead to the same objects) by induction over calls; versions by a lemma for each step; a history that breaks the claim about versions |
| C74 | a sender's group, `HeapGenerator` and a receiver's group that is updated from each heap | invariant relating what the generator has recorded about each id to the item in the group and to what the receiver has; the generator's loop is reduced to one decision per item; counterexamples for ids that come back |
| C75 | `_SemaphoreQueue` with futures, tasks and `Task.cancel` of asyncio, over an abstract callback instantiated for both ends of a ringbuffer | invariant of the queue (sorted, those waiting are in it, nobody later has been served); each step serves at most the longest waiting; counterexamples with cancellations |
| C76 | `asyncio_stream_wrapper` and the class of `_wrap_class`: handlers in two steps on any threads, the event loop, futures; the stream below as a queue that completes in order (C39) | invariant: one token for a non-empty list of callbacks, sends are in exactly one place, accepted ones sorted; counterexample for `async_flush` |
| C77 | mcdump's `writer`: main thread, writer threads, kernel answers to `pwrite`, the file as bytes; the rings as queues | invariant: every position of the file is right or covered by a buffer that is not yet written, and buffers agree with the data given; ranking function that every effective step decreases, and an enabled actor in every state without a failed write; counterexamples for failed writes |
| C78 | Network card, network thread and collecting thread of mcdump as a transition system (`Model/DumpCapture`); chunks of slots that are posted, completed, recorded, written and posted again | Invariant over all interleavings: output plus what the threads still hold is the file header plus the records of the counted packets; outstanding slots are exactly those that the network thread expects, so nothing is overwritten; the file is read back with an independent pcap reader (`Spec/DumpCapture`); end by a lexicographic measure under fairness |
| C79 | Calls of the logger (two steps: try to queue, set the flag), the queue with its space semaphore, and the logging thread as a transition system (`Model/PyLog`) | Invariant: passed on ++ in hand ++ queued = accepted; counting of losses and reports; a measure bounds the steps until the thread looks at the flag, gives up the GIL, ends |
| C80 | `sizes` of both kinds of capture with the conversions to 32 and 64 bits, `make_chunk` and the chain of receives (`Model/DumpSizes`) | Arithmetic about the two divisions; positions of slots by induction over the loop; following the chain by induction; composition with C77 and C78; counterexamples for memory regions and completions |
| C81 | `allocate` of a chunk stream up to the place callback: fill, loop over the item table, outputs; layout of the storage | induction over the item table against `lastImm` (C04); sender side through C07 and C08 |
| C82 | Heaps of the packet generator (C09), the fields given to the place callback (C81) and the chunk stream (C70, C71) are composed: a datagram is decoded, the callback (a function of the requested items) answers, and the stream processes packet and answer | For each datagram of a heap the answer is the same (C81); so the places and the bytes of the heaps determine what each position of a chunk should have, which is the hypothesis of C70 and C71; delivery from C55 and from the fact that a heap without flag was counted as lost |
| C83 | All configuration classes: `recv::stream_config` with its statistics in shared vectors (addresses), copies, assignments, streams and `stream_stats`; the setters of the send, chunk, ring and group configurations | Refinement to objects that each own their settings and statistics, by induction over programs with the invariant that addresses are valid (vectors are never changed after they are made); validity and indices by induction on the abstract side |
| C84 | The constructor of `stream_base` with 64-bit arithmetic and memory that can run out; the use of the heads of substreams by `add_packet` | The loop of `compute_bucket_count` equals the unbounded one of Model/Stream.lean below 2^60 entries, which the first allocation guarantees; positions of heads by induction on the number of heaps modulo 2^64 |
| C85 | `ibv_wq_mprq_t` with counters of 32 bits and the doorbell of 16 bits, `udp_ibv_mprq_reader` (sizes, start, poll_once), the buffer as memory, and a card that takes entries from the ring in order, writes frames into strides and reports them | Strides are counted from the beginning of time; invariant: unread completions fill the strides from the reader's position to the card's, their frames are in memory, and posted entries reach at most one turn of the buffer ahead of the oldest stride in use; positions modulo the buffer are then apart |
| C86 | flow rules from endpoints, interface table, groups; what a rule takes is the card's documented behaviour | the masks and values are computed exactly, so a rule takes a frame iff the endpoint wants its destination; composition of C60/C61 (sender), C86 rules, C54/C85 (reader) and C55-style delivery |
| C87 | `compute_n_slots`, the constructor and `poll_once` of `udp_ibv_reader` with a card running at the same time; requests as a linked list through `wr.next` | invariant: the slots are always a permutation of 0..n-1 over (batch being collected, frame in work, completions found, completions, requests), with the data of each completion in its slot; composition with C86 |
| C88 | class `sender` of spead2_send on a stream that sends in order and calls back in order | invariant over all interleavings: heaps in flight are a window of consecutive numbers, so their memory is distinct; counting of chains of callbacks; arithmetic of round robin |
| C89 | The class `Descriptor`, with numpy's types and their descriptions, and the accessors of `RawDescriptor` | Round trip of types by mutual induction over nested fields; composed with C18 for the packet; the code violates the full property, so `C89_partial` has `Plain d` |
| C90 | `spead2_send --verify`: generator, filling, heaps; `spead2_recv --verify`: `fast_discard`, `verify_heap` | loop lemma for the binary power, induction over words and items, composed with C88 (what is queued) and C10 (what is received); witnesses for what fails |
| C91 | ItemGroup and HeapGenerator of the sender, packing of descriptors and values into C++ heaps, and ItemGroup.update of the receiver, on top of the models of C72-C74, C89, C50 and C10 | simulation: the real encoding is refined to an ideal one that carries descriptor and value, the order of items in a heap does not matter (permutation lemma), and C74 is applied to the ideal run |
| C92 | the synchronous calls of src/py_send.cpp: reference counts of heaps, the shared callback state and its owners, callback and wait statement by statement, signals | inductive invariant over events (owners, semaphore, references held by arguments), with the history of callbacks; counterexample for dropped heaps |
| C93 | the list of exit stoppers, `stop` and destructors of pools, receive streams, send streams and logger; what threads do to streams as single events | inductive invariant (list = active objects in descending order of creation; dependencies), measure for termination, exact condition for the rest of the exit; counterexample for rate-limited send streams |
| C94 | the sender of spead2_bench as a state machine with the stream's reports as events; a specification of the outcomes of a history | invariant: heaps k..m-1 are with the stream, m = min n (k + w) until an error |
| C95 | the bisection over rational numbers; measurements are answers from outside | the interval is halved each time, and is at most as long as low after a good measurement; C95_violated with measurements that are all bad |
| C96 | the loop of the agent over the lines of a master, with what happens to a receiver that was not stopped | induction over the lines; C96_violated with a master that goes away |
| C97 | Python chunks, wrappers in ringbuffers, calls that wait and streams as places; moves of buffers as in the code | every step is one of seven kinds of change to places; invariants over these by counting and permutations; C97_violated with add_free_chunk after stop |
| C98 | the waiting thread, the handler in the pool, the GIL and the spinning destructor as a transition system | invariant; a rank for progress; dead states characterised; C98_violated with a cancellation |
| C99 | The loop of `run` as a state machine with the stream's queue and the futures; the heap generator of C73/C74 | Invariant: tasks and queue are intervals of heap numbers; closed form of when descriptors are due; Chinese remainder theorem for their repetition; measure for the end |
| C100 | pointers by number with their deleters, a kernel with pages of two sizes, arrays, calls of `free` and reference counts; events allocate, release and drop in any order | invariant over all reachable states that says exactly which mappings, arrays, calls and references there are; the rest by counting pages |
| C101 | the owner's stage, the queue of the context, threads that are idle, busy or at their end, and futures; any interleaving | invariant over all reachable states; a measure that every step of `stop` and of the threads makes smaller; round robin by comparing entries |
| C102 | connections with the stage of `run_control`, the stream they have and the replies they got; streams with the heaps they pushed and the heaps that were counted; any interleaving | invariant over all reachable states, what each event can do to a stream, and a second induction over histories without exceptions |
| C103 | the pointers that gen/template.cpp generates, `init`, `dl_handle` and the threads that call, one read or write at a time; the registration of memory | invariant over events: what each pointer, and what each thread read, can be in each phase of the loading; a measure for termination |
| C104 | the texts of endpoints, of ports and of lists of cores, as lists of characters; the checks and defaults of the options; the loops that add readers; renamed options with argparse | round trips by induction over texts; the two families of tools are compared for all inputs |
| C105 | The constructors of UDP readers and senders as functions to sockets; Linux's rules for joining, binding and delivering as a small kernel over lists of sockets; histories of readers and of other programs' sockets | Decision logic for the constructors; invariants over histories (each reader's socket is bound where it was asked; two sockets in each other's way both share) for what is delivered |
| C106 | spead2_recv as a machine over heaps and stops of its streams; operations on `std::cout` with shared flags; `run_stream` of recv_asyncio.py as a function of what `stream.get()` gives | Invariants over event lists (heaps counted, shown and still to come); induction for the Python loop; counterexamples for `--verify --ring`, threads and `--descriptors` |
| C107 | Choice of the sender and reader constructors by the C++ and Python tools over the sockets of C105, with the effect of a socket on a datagram (hops, interface, source) | agreement by cases through `C105_send`; reception through `C105_gets` |
| C108 | Heap of Python objects, references of programs, configs and streams; conversion of callbacks; the layouts of C and of numba's `make_c_struct` | invariant over all histories (a callback's tuple and capsule do not change), reachability as an inductive predicate; layouts by induction over the fields for all platforms |
| C109 | Clients, the listening socket and its queue, and the reader of C27 on the connection that was taken | invariant over all histories: the reader's state is that of C27's run over what the first client sent; then C27_segmentation |
| C110 | `spead2_net_raw`'s main over the kernel's rules for capabilities in execve, capset and prctl | decision logic stated outright for all sets; children by induction over the chain of programs |
| C111 | Statistics objects with the buffers they own and the references they hold; the specification is a set of separate tables | refinement over all programs: each object owns its buffer, its references point into it and the table is what it holds |
| C112 | Index and slice access to a group with 64-bit conversions that wrap around, and CPython's computation of slices | arithmetic for all integers; the loop by induction over the number of elements |
| C113 | a class as a table of properties with setters that may refuse and of fixed attributes; the loop over the keywords; who owns the native object | induction over the keywords; uniqueness of the configured object gives independence of the order; the leak is shown on `ChunkStreamGroupConfig(max_chunks=0)` |
| C114 | the static log function, calls of it in progress, and replacements as steps of threads | induction over batches of messages with a count of the calls in progress, then over the phases of the program; the race is shown for every history |
| C47 | the x86 template (head, two unrolled loops, tail, fence) at the three vector sizes and the SVE version, over memory as a function from addresses to bytes with 64-bit wrap-around; faults and out-of-bounds accesses are `none` | invariant "the first k bytes are copied", loop induction |
| C48 | `ring_stream` with any number of readers, users and consumers: a transition is taking/releasing the mutex or one action of the concurrent ring buffer model | transition rules, one invariant relating stream, mutex owner, ring buffer and histories; lexicographic measure for progress under a fair schedule |
| C49 | `is_start_of_stream`/`is_end_of_stream` | decision logic; counterexample for narrow widths |
| C50 | `heap::get_descriptors` as a private stream over each descriptor item | totality; round trip with C18 |

## Trusted base

* Lean 4.33.0 kernel. Axioms: at most `propext`, `Classical.choice`, `Quot.sound` (see "Axioms" below). No `sorry`, no added axioms, no `native_decide`/`bv_decide`.
* The correspondence between the C++ text and the Lean definitions is by reading; each definition cites
  its lines.

* The statements in `Verif/Props` and the definitions in `Verif/Spec` and `Verif/Model` that they mention.
* Behaviour that the model takes as given: the C++ memory model for data protected by mutexes and semaphores (a critical
  section is atomic), the operating system calls and libraries in the list below, and user callbacks that keep their contracts.

### Axioms

`scripts/axioms.sh` prints the axioms of every theorem that `MANIFEST.json` names. Every one of them depends on a subset of
`propext`, `Classical.choice` and `Quot.sound`. (Most use all three, because `simp`, `omega` and `by_cases` do. Those that
follow by evaluation, such as `C41_violated` and `C49_violated`, use `propext` only.)

### What is modelled

| code | model | not modelled |
|------|-------|--------------|
| common_flavour, send_utils.h, recv_utils.h, recv_packet | Wire | logging |
| send_packet, send_heap.h | Send | identity of buffers (an item is its bytes); items must not change while they are sent |
| send_heap.cpp (descriptors), recv_heap.cpp `to_descriptor` | Descriptor | character encodings |
| recv_live_heap | LiveHeap | `memcpy` is a copy of bytes; custom memcpy functions must be copies |
| recv_heap (`load`, control items, `get_descriptors`) | Heap, Mem | logging |
| recv_stream `stream_base`, `mem_to_stream` | Stream, Mem | custom statistics are in Stats; `libdivide` is division |
| recv_stream statistics, `stream_config::add_stat` | Stats | iterators over names |
| send_udp_ibv (constructor: slots; `wakeup`: one packet), `multicast_mac` | SendIbv | the card reads what an entry says; creation of queues and registration of memory left out |
| send_udp_ibv (`wakeup`, `reap`, `wait_for_space`) and a model of the card | SendIbvRing | in-order card as described in the manual pages of ibverbs; exceptions of `post_send` and `req_notify`, 32-bit `int` counters and hardware rate limiting left out; memory of the user does not change while it is being sent |
| recv_udp_ibv (`packet_handler`, `enqueue_receive`, polling and posting in both `poll_once`) and a model of the card | RecvIbvWake | `poll` gives all completions there are; memory of the multi-packet receive queue left out |
| send_tcp, send_streambuf, send_inproc, send_udp (`wakeup` of the writers, `start`; send_udp without `sendmmsg`) | SendWriter | asio operations as completions with an error and a byte count; sockets and endpoints; the rate limiter (C42) |
| send_stream + send_packet (a stream that packs heaps into packets) | Transport | |
| recv_inproc.cpp 47-90 (process_one_packet, packet_handler) | RecvInproc | the queue itself is Queue; the wait on the file descriptor is an event `InWake`; the lifetime of the handler is in Lifecycle |
| send_udp (`udp_writer` with `sendmmsg` and segmentation offload, on the queue) | SendMmsg, SendUdp | the kernel as an answer to each `sendmmsg`; `async_wait` on the socket as a return to `send_packets`; the rate limiter as a choice (C42) |
| src/spead2/__init__.py (Item values: `to_buffer`, `set_from_raw`, `_write_bits`, `_read_bits`, `_store_recursive`, `_load_recursive`, `dynamic_shape`, `allow_immediate`, `_fastpath`) | PyItem | numpy's own conversions, other than shape inference on nested lists, S1 dropping NUL, and the conversion of a scalar to `>u8` |
| src/spead2/__init__.py (`ItemGroup`) | Model/PyGroup | descriptors are compared as a whole (id, name, rest); decoding is any partial function (the real one is C72); a user who changes `id` or `name` of an item in a group |
| src/spead2/send/__init__.py (`HeapGenerator`) | Model/PyGroup | invalid arguments; a weak reference is the number of its object, and numbers are not reused; heaps that are lost on the way |
| src/spead2/recv/asyncio.py | Model/PyAsync.lean | garbage collection (`self = None`), several event loops; of asyncio only futures, wake-ups and cancellation of tasks |
| py_send.cpp `asyncio_stream_wrapper`, src/spead2/send/asyncio.py | Model/PyAsyncSend.lean | callbacks that raise; `TcpStream.connect`; the synchronous `send_heap` |
| mcdump.cpp `writer` (constructor, write, flush, close, writer_thread), `~capture_base` | DumpWriter | O_DIRECT, affinity, failures of ftruncate and ::close; memory of buffers as byte lists; the ringbuffers as queues (C33-C35) |
| `capture_base`, `capture`, `capture_mprq` in src/mcdump.cpp | `Model/DumpCapture` | mode without a file, rate reports, flow steering, multicast, exceptions in the collecting thread (C77), numbers of bytes per chunk |
| `log_function_python` in src/py_common.cpp, include/spead2/py_common.h | `Model/PyLog` | the GIL itself, message formatting, exceptions of the Python methods (swallowed) |
| `capture::sizes`, `capture_mprq::sizes`, constructors, `make_chunk`, `post_chunk` in src/mcdump.cpp | `Model/DumpSizes` | tests for MPRQ support, creation of the queues themselves, timestamps |
| include/spead2/recv_chunk_stream.h:727-775, src/recv_chunk_stream.cpp:98-160 | Model/PlaceData | `batch_stats` and the contents of `extra`; placement new and launder; `max_heap_extra` of 2^63 or more (the sum then wraps) |
| include/spead2/recv_chunk_stream.h `allocate` with src/recv_udp_base.cpp `process_one_packet` | Model/ChunkNet | place callbacks that look at more than the requested items or keep state |
| recv::stream_config, add_stat, get_stats, adjust_config; setters of send::stream_config, chunk_stream_config, ring_stream_config, chunk_stream_group_config | Model/Config.lean | `shared_ptr` counts (C65), contents of callbacks; doubles are NaN, an infinity or a rational; the default ratio is 21/20 |
| stream_base constructor, compute_bucket_count, compute_bucket_shift (64-bit) | Model/StreamBuild.lean | which exception; memory is a limit for each block; sizes of `substream` (16) and pointers (8) are fixed |
| ibv_wq_mprq_t (post_recv, read_wc), udp_ibv_mprq_reader (constructor sizes, start, poll_once) | Model/Mprq.lean | completions with errors, lkey, creation of verbs objects; posting is atomic (the code does not lock) |
| `create_flow`, `create_flows`, `interface_mac`, `multicast_mac`, `validate_endpoint`, `groups` (common_ibv.cpp, common_raw_packet.cpp, recv_udp_ibv.cpp) | `Model/Flow.lean` | `getifaddrs` itself, `ibv_create_flow`, `join_group` (kernel); VLAN tags |
| src/recv_udp_ibv.cpp:126-277 (slots) | Model/IbvSlots.lean | lkey, waking of the handler (C63), what is done with a frame (C54) |
| src/spead2_send.cpp (`sender`), sender_options::make_flavour | Model/SendTool.lean | parsing of options, contents of descriptors; the stream is a queue with callbacks in order (C38-C40, C64); 64-bit wrap of heap numbers |
| src/spead2/__init__.py `Descriptor` (constructor, `to_raw`, `from_raw`, headers), src/py_common.cpp `RawDescriptor` | Model/PyDescr.lean | numpy (`dtype.descr`, `np.dtype`, `newbyteorder`) as documented, without titles and metadata; descriptions given as dictionaries; `repr`/`literal_eval` are parameters with `eval (repr v) = v` (a pair that has this is built in Lemmas/PyText.lean) |
| src/spead2_recv.cpp `fast_discard`, `verify_heap`; src/spead2_send.cpp descriptors and filling | Model/VerifyTool.lean | alignment of the words that are read, printing of heaps |
| src/py_send.cpp 63-77 (add_item, add_descriptor), src/py_recv.cpp 457-483 (get_items), src/spead2/send/__init__.py 99-151, src/spead2/__init__.py 776-814 as glue | Model/PyWire | what a call that raises leaves behind; numpy itself; reference counts |
| py_send.cpp (`stream_wrapper`), py_common.h (`semaphore_get`) | PySend | the GIL itself; the stream below (any that reports each call once, C39) |
| py_common.cpp/.h (`exit_stopper`, `run_exit_stoppers`, `thread_pool_wrapper`), py_recv.cpp (`stop` of the wrappers), `send::stream::~stream` | PyExit | threads of a pool one by one; groups of chunk streams as one stream; objects that the interpreter never destroys |
| src/spead2_bench.cpp: sender, main_master (search), measure_connection, main_agent | Model/Bench | the measurement itself (measure_connection_once), rounding of double, the option parser, memory transport (build_streambuf), printing |
| src/py_recv.cpp `wrap_chunk`, `unwrap_chunk`, `push_chunk`, `Chunk`, `ChunkRingbuffer`, `add_free_chunk` | Model/PyChunk | `present_size`, `stream_id`; reference counts of the Python objects; ringbuffers as queues (C33-C35) |
| src/py_send.cpp `tcp_stream_register_sync`, `tcp_stream_register_async`; asyncio `TcpStream.connect`; `tcp_writer::start`; `~stream` | Model/PyConnect | name resolution, socket options; heaps sent before the connection is made; the event loop as one thread |
| src/spead2/tools/send_asyncio.py `run` | Model/PyTool | times and rates, `KeyboardInterrupt`, the parsing of arguments |
| `memory_allocator`, `mmap_allocator`, `legacy_deleter` (common_memory_allocator.h, common_memory_allocator.cpp), buffers of ibverbs streams | `Model/Alloc.lean`; `mmap` and `munmap` as described in mmap(2), with lengths rounded up to ordinary pages first as Linux does | `new[]` that throws, other limits on mappings, allocators written by users other than their calls of `free` |
| `thread_pool` (common_thread_pool.h, common_thread_pool.cpp) | `Model/ThreadPool.lean`; `io_context` as a queue of handlers, futures of `std::async` as joins | exceptions other than `std::exception`, `stop` called by a handler or by two threads at a time, what `pthread_setaffinity_np` does |
| src/spead2/tools/bench_asyncio.py `AgentConnection`, `run_agent` | `Model/PyBench.lean`; endpoints are numbers, an exception is one event | the client's measurements and search (those of the C++ tool are in `Model/Bench*.lean`), multicast endpoints shared by several streams, what happens to a connection that is not closed |
| gen/template.cpp, gen/gen_loader.py, src/common_loader_utils.cpp 74-113, src/common_ibv.cpp 376-402 | Model/Loader.lean | the C parser and the text that is generated; what the functions of the libraries do; data races on the pointers as such (each read sees some earlier write); the wrappers in the global namespace |
| src/spead2_cmdline.cpp 45-83, 109-142, 159-250, 295-317; src/spead2/tools/cmdline.py; send_asyncio.py 38-46; `parse_range_list` | Model/Cmdline.lean | boost::program_options; prefixes of option names and types of values in argparse; Unicode digits and spaces; what the resolver makes of hosts and of services; `make_stream` of senders |
| Sockets of UDP readers and senders: src/recv_udp.cpp 90-199, src/send_udp.cpp 382-525, src/common_socket.cpp 32-56 | `Model/Socket.lean` | The kernel itself is modelled after Linux (`IP_MULTICAST_ALL` and `IPV6_V6ONLY` at their defaults); port 0, broadcasts, reverse-path filters; `udp_reader` on an existing socket |
| The receiving tools: src/spead2_recv.cpp 122-175 and 254-391, src/spead2/tools/recv_asyncio.py 60-98 | `Model/RecvTool.lean` | times, values and statistics in the output; signals (a stop like any other); `verify_heap` itself is in VerifyTool |
| src/spead2_cmdline.cpp `sender_options::make_stream`, `add_readers` (UDP); cmdline.py `make_stream`, `add_readers`; py_send.cpp overloads of `UdpStream` | `Model/ToolSocket.lean` | ibverbs, TCP; name resolution; that Linux sends multicasts through the interface of the bound address is an assumption of `effect` |
| py_common.h `callback_from_python`, `callback_to_python`; py_recv.cpp `ChunkStreamConfig.place`; recv/numba.py; `chunk_place_data` | `Model/PyPlace.lean` | the GIL; cycles of references; pybind11's conversion to tuples and numba's `make_c_struct` are modelled from their documentation, not from /repo |
| recv_tcp.cpp `start`, `accept_handler`, `packet_handler`, `stop` | `Model/TcpConn.lean` | the kernel's accept and its handler are one event; several readers; half-open connections |
| spead2_net_raw.cpp `main` | `Model/NetRaw.lean` | root and set-uid-root programs; failures of libcap; the kernel's rules are from capabilities(7), not from /repo |
| recv_stream.h/.cpp `stream_stats` with reference members, copies, moves and iterators; py_recv.cpp `StreamStats` | `Model/StatsObj.lean` | reverse iterators; iterators that are kept while the object changes; pybind11 |
| py_recv.cpp `ChunkStreamRingGroup.__getitem__`, `__len__`; recv/__init__.py `__iter__` | `Model/GroupSeq.lean` | `count`, `index`, `__contains__` and `__reversed__` of collections.abc; references that keep the group alive; groups that grow while they are iterated |
| py_common.h `data_class_constructor`; py_recv.cpp `ChunkStreamGroupConfig` with its setters | `Model/DataClass.lean` | getters that raise; setters that change other properties (there are none); the ownership rules of pybind11 are from its documentation, not from /repo; other classes only as instances of the generic table |
| common_logging.cpp `set_log_function`, `log_msg_impl`; common_logging.h `log_msg`, `log_level` | `Model/LogFn.lean` | formatting with boost::format; the default function's output; `throw_errno` |
| common_semaphore (put, get, try_get of all four kinds) | Semaphore | kernel counters, sequentially consistent memory; failures of system calls other than interruption and overflow left out |
| recv_stream `stream`, `reader`, `bound_handler` (starting, stopping, destruction) | Lifecycle | `heap_ready` and readers return; asio runs each handler at most once and does not touch buffers after a socket is closed |
| recv_ring_stream | RingStream | logging of dropped heaps |
| common_ringbuffer, common_semaphore as counters | Ring | exceptions in constructors of items |
| common_unbounded_queue, common_inproc | Queue | allocation failure |
| recv_tcp | Tcp | the socket gives any prefix of what is to come; connection set-up |
| recv_udp, recv_udp_base, recv_udp_pcap, recv_udp_ibv, recv_udp_ibv_mprq (handlers) | RecvUdp | socket options, multicast, queue pair set-up, flow rules |
| recv_chunk_stream.h/.cpp | ChunkWindow, ChunkStream, ChunkRecv (with the stream), ChunkRings (`chunk_ring_pair`, `chunk_ring_stream`) | the user's own `ready` callback on top of a ring |
| recv_chunk_stream_group | ChunkGroup | data races on `chunk_id`/`stream_id` (see below) |
| common_memory_pool | MemPool | exceptions of the base allocator |
| send_stream, send_writer | SendQueue, Rate | rounding of `double`; wrap-around of 64-bit indices |
| send_udp (sendmmsg and GSO) | SendUdp | the variant without sendmmsg |
| common_raw_packet | RawPacket | `interface_mac` |
| common_memcpy, common_memcpy_x86.h | Memcpy | the choice of implementation, the intrinsics themselves |

Not modelled at all: logging, socket options of TCP, set-up of in-process sockets,
`mcdump`'s ibverbs set-up, boost::program_options and argparse. Of the command line tools and the Python bindings only what the table names is modelled.

## Disagreements between the code and the property list

Each is a theorem (negation with a concrete witness), next to the strongest true statement that was proved.

* C09 (`C09_violated`): padding of a short heap can make `packet_generator` produce a packet larger than
  `max_packet_size`.
* C10 (`C10_violated`): an addressed item of length zero at the same offset as another item can come back with the
  wrong length when packets are reordered.
* C18 (`C18_violated`, `C18_garbled`): descriptor ids that do not fit the heap address width are garbled.
* C28 (`C28_violated`, `C28_stuck_forever`): for `max_size` below 16384 a TCP peer can bring the reader into a state
  in which it asks for zero bytes forever.
* C49 (`C49_violated`): stream-control detection does not compare the whole value.
* C05 (`C05_disagrees_on_repeated_item`): `get_packet_size` uses the first payload-length item, `decode_packet` the
  last.
* C41 (`C41_violated`, `C41_race`): `async_send_heaps` calls `unwinder::abort` on a rejected group with the mutex held, and
  the destructor of the unwinder does it again after the mutex was released. The entries of the group are destroyed twice,
  or entries that another caller placed meanwhile are.
* C57 (`C57_violated`): with explicit start, `start()` after `stop()` calls `start` on readers that were stopped (a UDP reader then
  binds a closed socket and throws). If `start` of one reader throws, a second `start()` starts the earlier readers again.
* C59 (`C59_violated`): `semaphore_spin::try_get` returns -1 although the semaphore was not zero, if another thread changes the value
  between its load and its compare-exchange. The header documents -1 only for zero and for interrupted system calls.
* C61 (`C61_violated`): when a work request of the ibverbs sender fails, requests that were not signaled generate completions as well. Their
  `wr_id` is what the last batch that ended in the same slot left there, so `reap` releases slots that were not in flight, reports heaps a second
  time through `slot::item`, which may be dangling, and counts more free slots than there are.
* C62 (`C62_violated`): `wait_for_space` requests a notification after the last poll. A completion between the two generates no event on a card that
  notifies only of later completions, and the sender waits for ever; queueing more heaps does not help, because it has not requested to be woken up.
  The ibverbs receiver polls once more after its request (include/spead2/recv_udp_ibv.h:192-199).
* C72 (`C72_violated`; `C72_padding`, `C72_empty`, `C72_empty_rows`, `C72_nul`, `C72_nul_field`, `C72_negative`, `C72_overflow`): the Python layer loses values in these ways.
  - `dynamic_shape` divides the received bits by the size of a row, so the padding of the last byte
    can become extra elements: three `("u", 1)` elements are received as eight.
  - A fixed-size numpy item with no elements is sent as an immediate, and `raw_value[-size_bytes:]`
    with `size_bytes == 0` is the whole immediate: `set_from_raw` raises `ValueError`.
  - On the slow path the shape comes from nested lists, so an empty array of shape (0, 3) is received
    with shape (0,).
  - `b"".join` over an array of "S1" drops NUL characters; `ord` of one raises on the slow path.
  - A scalar integer of 24, 40, 48 or 56 bits is converted with `asarray(value, ">u8")`: a value too
    large is cut off silently (a comment in the code says so), and a negative Python integer raises
    with NumPy 2.
* C73 (`C73_violated`): the versions of an item group do not show every change. A heap with two descriptors that gives the id of
  `x` to `y` and then a new id to `x` removes the old `x` before the new one is added, so that the new one starts again at version 1.
* C74 (`C74_violated`, `C74_comeback`): `_descriptor_stale` looks for a replaced item only if the descriptor is not sent for another
  reason (`descriptor_frequency`, or `descriptors='all'`, which does not call it). If an id left the group and is used again, the new
  item starts at version 1, which may be the version that was sent of the old one, and then its value is not sent. With a frequency
  of 1 it is never sent (`C74_never`). A value sent with `descriptors='none'` before its descriptor is not sent again either (`C74_none_violated`).
* C75 (`C75_violated`, `C75_violated_direct`, `C75_violated_put`): if the task of `await stream.get()` is cancelled (for instance by
  `asyncio.wait_for`) after a heap was taken for it but before the task runs again, the heap is lost; this includes the `sleep(0)` of a
  call that found a heap at once. Likewise a cancelled `put` may have put its chunk.
* C76 (`C76_flush_violated`): `async_flush` waits for the future of the last accepted send to be done. A future that is cancelled is done,
  so that `async_flush` then returns although nothing has been sent.
* C77 (`C77_ends_violated`, `C77_abort`): when a write to the file fails the writer thread leaves its loop without giving its buffer back.
  When no thread is left, `flush` waits in `free_ring.pop()` for ever; the flag `stop` is set but nobody who waits looks at it. If a free
  buffer is left, `close` throws from `future.get()`, and `~capture_base` then calls `close` again: `get` on the used future throws in a
  destructor, so that mcdump aborts instead of printing the error and returning 1.
* C78 (`C78_violated`): mcdump without MPRQ. After a receive error (for example a frame longer than `--snaplen`) a chunk that is not full goes back to the free ring without being cleared (src/mcdump.cpp 508-524). When the network thread gets to it again and is interrupted, the packets in it are written to the file a second time. The comment there says that this is the last chunk; that is so only without errors.
* C79 (`C79_violated`): a dropped log message is not always reported. The call sets `overflowed` only after `try_emplace` has failed; if the logging thread has meanwhile emptied the ring, tested the flag and gone back to `ring.pop()`, Python is told only when something else is logged, perhaps never. When the logger is stopped the flag is not looked at again (`C79_stop_silent`, which a comment in the code accepts), and a call after that throws `ringbuffer_stopped` (`C79_after`).
* C80 (`C80_violated`, `C80_mprq_violated`): `capture::sizes` calculates `device_chunks` from the card's limit of memory regions and then does not use it (src/mcdump.cpp 781-783), so with few regions registering fails. With MPRQ the number of completions is not compared with the card's limit (a TODO in the code says so), so that a large `--net-buffer` makes creating the queue fail. `--snaplen 0` is accepted and divides by zero (`C80_zero`).
* C84 (`C84_violated`): `stream_base` allocates `max_heaps * substreams` entries without checking that the product can be represented. With `set_max_heaps(2^63)` and `set_substreams(2)` (both accepted) the storage has no entries and the first heap is written outside; with both at `2^64-1` the array of substreams has no elements and the constructor itself writes outside (`C84_undefined`). `C84_exact`: this happens exactly if the product is at least `2^64` and the memory for the wrapped sizes can be had.
* C85 (`C85_violated`): `udp_ibv_mprq_reader::start` calls `enqueue_receive` before it posts the work queue entries. The handler runs in another thread and needs only `queue_mutex`, while `start` runs under `reader_mutex`. If the first entry is filled while `start` is still posting, the handler posts it again in between; the card then uses entry 0 a second time where the handler expects entry 1, and the handler processes stale memory as packets. (`ibv_wq_mprq_t` says that only one thread may use it at a time; `head++` is a data race as well.)
* C87 (`C87_violated`, `C87_deaf`): the size of a slot is `max_size + 42` in a `size_t`, and `sge.length` is 32 bits wide; `set_max_size` has no upper limit. With `max_size = 2^64 - 42` `compute_n_slots` divides by zero; with `2^32 - 42` the reader is made and receives nothing.
* C88 (`C88_violated`, `C88_few`, `C88_flavour`, `C88_zero`): `spead2_send --heaps N` with N smaller than the number D of destinations sends D data heaps, and only N of the destinations get an end of stream (`get_heap` tests `idx < n_substreams` before `idx >= n_heaps`). The member `flavour` is never initialised from the options, so `--addr-bits` and `--pyspead` have an effect on the end of stream only. `--items 0` divides by zero, and `--max-heaps 0` uses the first element of an empty vector.
* C89 (`C89_violated`, `C89_padding`, `C89_clash`, `C89_subarray`): `Descriptor` accepts negative sizes, which are received as variable ones (with a format) or refused (with a type). A numpy type with padding is described by `dtype.descr`, which has unnamed fields for the gaps, but read by `np.dtype` rather than `np.lib.format.descr_to_dtype`: the receiver gets a type with extra fields `f1`, …, or an exception if such a name exists already. A subarray type is received as raw bytes.
* C90 (`C90_violated`, `C90_two`, `C90_small`): `verify_heap` computes the position of a heap in the sequence with `items.size()`, which counts the descriptors too; so with two destinations the first heap of the second one is reported as a mismatch. And items of fewer than 8 bytes are sent as immediates, which have 5 bytes when received: `spead2_recv` reports an inconsistent length for every heap.
* C91 (`C91_violated`): a string item (or any item of variable size) that is set to an empty value and sent again is not updated at the receiver: the value has no bytes, `heap_base::load` skips empty items, and `ItemGroup.update` leaves the old value ("abc", then "": the receiver still shows "abc").
* C92 (`C92_violated`): the comment in `send_heap` (src/py_send.cpp 178-181) notes that the semaphore state must outlive an interrupted call and puts it into a `shared_ptr`, but the heap must too, and nothing keeps it: after `KeyboardInterrupt`, a program that drops the heap frees memory that the stream still reads. The asynchronous streams do keep it (`callback_item::h`).
* C93 (`C93_violated`, `C93_exact`, `C93_sleeps`): send streams have no `exit_stopper`. `run_exit_stoppers` stops the thread pools, and when the interpreter then destroys a send stream (a global variable, say), `stream::~stream` flushes and spins until `need_wakeup` is set, which only the stopped pool could do. It is not set if heaps are queued, but also after the last heap was sent and reported, while the writer sleeps because of the rate limit: `get_packet` returns `SLEEP` before it looks whether the queue is empty. A script that sends one heap of more than `burst_size` bytes at a low rate and ends hangs at exit.
* C95 (`C95_violated`): if no measurement is good, `low` stays 0, so `high - low > high * 0.02` holds as long as `high` is positive and the search does not end.
* C96 (`C96_violated`): if the connection of the master ends (or it sends `exit`) during a measurement, `connection` is destroyed without `stop`: for a ring buffer this destroys a joinable `std::thread` (`std::terminate`), for callbacks the stream is destroyed while threads of the pool still call its virtual functions. A bad configuration throws an exception that nothing catches.
* C97 (`C97_violated`): `chunk_ring_pair::add_free_chunk` suppresses `ringbuffer_stopped` and leaves its argument alone, which C++ callers can use; the Python binding takes the return for success and destroys the wrapper, so that the Python chunk has lost `data`, `present` and `extra`. Also, `add_free_chunk` that raises `Full` has already cleared `present` (`C97_free`).
* C98 (`C98_violated`, `C98_failed`): cancelling `TcpStream.connect` (for example with `asyncio.wait_for`) destroys the stream while the event loop's thread holds the GIL; `~stream` spins until the writer sleeps, which it does only after the connect handler has got the GIL. The same can happen when the attempt fails, if the event loop gets the GIL while the callback is still running.
* C99 (`C99_violated`, `C99_starved`): with `--descriptors f` and several destinations, `send_asyncio.py` counts heaps of all destinations together; if f is a multiple of the number of destinations, the repeated descriptors all go to the last destination, and receivers of the others that are started late never get any.
* C100 (`C100_violated`): `mmap_allocator` calls `munmap` with the size that was asked for. For a mapping with huge pages Linux refuses a length that is not a multiple of the huge page size (after rounding to ordinary pages), and the result is not checked. Such a buffer stays for ever: a process that creates and destroys `n` ibverbs senders with the default buffer (523844 bytes) loses `n` huge pages (`C100_streams`).
* C101 (`C101_violated`, `C101_hangs`): if `std::async` throws in the constructor of `thread_pool` after it made a thread (there is a limit on threads), the members are destroyed without `stop`. The destructor of a future of `std::async` waits for its thread, which is in `io_context::run` with a work guard that is still there. The constructor hangs instead of throwing.
* C102 (`C102_violated`, `C102_blocked`): an exception in `run_control` of bench_asyncio.py, such as a connection that was reset, is printed, but the stream is not stopped. Its task goes on, its endpoint stays in use, and later start commands for the endpoint fail without a reply until the agent is started again.
* C102 (`C102_dies`): the agent looks for an attribute `ibv` of the options instead of its value. A client whose spead2 has support for ibverbs sends that attribute as `False` too, and an agent without such support then calls `sys.exit`.
* C103 (`C103_violated`, `C103_query_wrong`, `C103_race`, `C103_falsy`): `has_ibv_reg_mr_iova2` compares the pointer with `*_missing` only, so it answers yes if the whole library could not be loaded and the pointer is a stub. If a required symbol is missing, `init` closes the library before it replaces the pointers it has already set, so that a call by another thread can enter a library that is not mapped any more. `LIBRARY_ERROR` is 0, so the code of the error for a library that is absent tests as no error.
* C104 (`C104_violated`, `C104_underscore`, `C104_dest`, `C104_v6`): a capture file called `100000` is read by spead2_recv, but recv_asyncio.py takes it for a port and fails; `1_0` is port 10 to it. `:8888` as a destination is refused by spead2_send and accepted by send_asyncio.py, which then sends to 0.0.0.0. `--bind` is ignored with a message for IPv6 endpoints by the C++ tools, and passed on by the Python tools.
* C105 (`C105_violated`): readers of a group do not clear `IP_MULTICAST_ALL`, so a reader that was given an interface also gets the group's datagrams that arrive on any interface where another socket of the host has joined it. Also: the two constructors of senders with an interface for groups accept an empty list of endpoints, which the other two refuse (`C105_send_empty`); a buffer size of 4 GiB is converted to the `int` 0 and gives the smallest buffer (`C105_buffer_wraps`).
* C106 (`C106_violated`): `spead2_recv --verify --ring` verifies nothing and exits with 0. Also: with several streams and threads, numbers can be printed in the wrong base (`C106_threads`); `recv_asyncio.py --descriptors` drops the good descriptors of a heap that has a bad one, which without the option are kept (`C106_descriptors_violated`); it prints no summary after `--max-heaps` (`C106_py`).
* C107 (`C107_violated`): `--ttl` with an address that is not a group is ignored by spead2_send and makes spead2_send.py fail; `--bind` with groups of IPv6 is ignored by spead2_send and spead2_recv, refused or obeyed by the Python tools (`C107_bind6`, `C107_readers`); spead2_send looks only at its first endpoint, so a group before a host is refused and a host before a group is not (`C107_order`).
* C108 (`C108_violated`): `callback_from_python` casts to `pybind11::tuple`, which converts other iterables, but keeps only the original object; a list that is changed afterwards no longer keeps the capsule, so the stream can call a function that has been destroyed.
* C109 (`C109_violated`, `C109_lost`): a TCP connection that is reset, or a failure to accept, only logs a warning: the stream is not stopped and nobody else can connect, so consumers wait for ever.
* C110 (`C110_violated`, `C110_own`): doc/tools.rst says that any command and all its children have CAP_NET_RAW; set-uid, set-gid and setcap programs lose ambient capabilities, so they run without it, and nothing is reported.
* C111 (`C111_violated`, `C111_swap`): `stream_stats` has a defaulted move constructor, which leaves a null `config`, and a copy assignment that dereferences it; assigning to a moved-from object, and therefore `std::swap`, is undefined behaviour.
* C113 (`C113_violated`, `C113_lost`): `data_class_constructor` makes the object with `new` and wraps it without ownership (`pybind11::cast` of a pointer); if a keyword is unknown or its value is refused, the exception leaves the function and the object is never deleted. Each failed constructor call leaks one object.
* C114 (`C114_violated`, `C114_race`, `C114_race_set`): `log_function` is a static `std::function` without synchronisation; `set_log_function` may only be called while no stream or pool can log, which the documentation does not say.

## Other observations about the code

Found while modelling. They do not contradict a property in the list, or are outside the hypotheses of the theorems.

* `packet_generator`: `assert(out.size() == 1)` fails in debug builds for a padded heap with a zero-length addressed item. The
  number of item pointers is ORed unchecked into a 16-bit field. Heap lengths, cnts, ids and immediate values must fit the
  flavour; this is only asserted. A user's item with id 1 to 4 overrides the packet's own items.
* Single-packet heaps skip the hash lookup, so two heaps with the same cnt can be live. A complete heap with a stop item is
  neither delivered nor counted. A stop item in the packet of an embedded descriptor ends the parsing of the descriptor.
* A batch in which all packets were added to a stopped state is not counted. Custom statistics that are changed outside a
  batch are zeroed by the next one.
* Chunk stream groups: a member writes `chunk_id` and `stream_id` of a chunk without the group's mutex, which is a data
  race if another member does the same (it writes the same `chunk_id`).
* Ring buffer: `try_pop` may report an empty buffer (and `try_push` a full one) while another call is in progress. `put` of a
  `semaphore_pipe` could block when the count exceeds the capacity of a pipe.
* Ring stream: a stop by the user while a reader waits for space loses the heap in hand (documented).
* Memory pool: an exception in the refill thread leaves `refilling` true for ever, so the pool is never refilled again.
* Send stream: `flush` returns at once if the queue is empty, although the handler of the last group may not have been called
  yet.
* Rate limiting assumes a monotonic clock, but `high_resolution_clock` need not be one.
* Raw packets: `ipv4_packet::update_checksum` reads beyond the packet if `ihl` exceeds the memory. The ibverbs sender wraps
  `total_length` if `max_packet_size + 28 > 65535`; `calc_target_batch` has undefined behaviour (`std::clamp`) if a packet is
  larger than 262144 bytes.
* UDP segmentation offload: if setting `UDP_SEGMENT` fails and turning it off fails as well, `current_gso_size` keeps its old
  value.
* ibverbs multi-packet receive queue: a failed completion with `FLAG_LAST` skips the bookkeeping of `wqe_start`.
* Streams: a handler that passes on its `handler_context` no longer holds a reference to `shared_state` when the `add_packet_state`
  releases the mutex in it, although the comment on `add_packet_state` demands one. This is safe: until then the stream cannot be
  freed, because its destructor takes the same mutex (C56), and a mutex may be destroyed as soon as it is unlocked. The comment in
  `tcp_reader::start` claims that `queue_mutex` is held, but it is not.
* Semaphores: `semaphore_eventfd::put` tests `errno != -1`, which is always true, so the loop around `eventfd_write` is dead and an
  interrupted call throws. The constructor of `semaphore_pipe` never returns if the initial value exceeds the capacity of a pipe.
  `semaphore_spin::put` wraps around silently at 2^32.
* `ItemGroup.add_item` returns an item that is not in the group if the group has one with the same descriptor (`C73_returned`):
  what the caller then assigns to the returned item is never sent.
* Asynchronous receive: on `Stopped`, `_ready_callback` sets exceptions on the futures of all waiters, also on those that were cancelled,
  which raises `InvalidStateError` in the event loop; the waiters behind are told by the next run of the callback (`C75_stop`). It also
  replaces the deque by a list, which has no `popleft`; this is harmless because nobody waits on a stopped ringbuffer (`C75_total`).
`verify_heap` reads `uint32_t` values from the payload at addresses that need not be aligned (the descriptors in front of the data have lengths that are not multiples of 4).
`prefault` writes every 4096th byte from the start of the buffer. If the buffer does not begin at a page, as with `new[]`, the last page can be missed (`C100_prefault_missed`).
