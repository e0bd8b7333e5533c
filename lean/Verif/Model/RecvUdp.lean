import Verif.Model.Stream
import Verif.Model.RawPacket

/-!
# Readers of datagrams: UDP sockets, pcap files, ibverbs

Models src/recv_udp_base.cpp, `udp_reader::packet_handler` (src/recv_udp.cpp:202-277), src/recv_udp_pcap.cpp and the packet processing of
src/recv_udp_ibv.cpp and src/recv_udp_ibv_mprq.cpp. Every handler runs under `bind_handler` (include/spead2/recv_stream.h:858-868): it
is one batch, and is not called on a stopped stream.
-/

namespace Spead2

/-- The state of a handler: the stream, the batch, the heaps handed over, and the variable `stopped`. -/
structure RxState where
  stream : Stream
  batch : Batch
  out : List Entry
  stopped : Bool
  deriving DecidableEq, Repr

/-- `process_one_packet` (src/recv_udp_base.cpp:31-59); `d` is the memory from `data` to `data + length`. -/
def RxState.processOne (cfg : StreamConfig) (maxSize : Nat) (x : RxState) (d : Bytes) : Option RxState :=
  if d.length ≤ maxSize ∧ d.length > 0 then
    match decodePacket d with
    | none => none
    | some none => some { x with stopped := false }
    | some (some (h, size)) =>
      if size = d.length then
        match h.toPkt? d with
        | none => none
        | some p =>
          match x.stream.addPacket cfg x.batch p with
          | none => none
          | some r => some ⟨r.stream, r.batch, x.out ++ r.out, r.batch.stopped⟩
      else some { x with stopped := false }
  else some { x with stopped := false }

/-- The size of a receive buffer (src/recv_udp.cpp:63-76). -/
def rxBufferSize (gro : Bool) (maxSize : Nat) : Nat := if gro then 65536 else maxSize + 1

/-- A message from `recvmmsg`: the bytes, and the segment size given in a control message (-1 if there is none). -/
structure RxMsg where
  data : Bytes
  seg : Int
  deriving DecidableEq, Repr

/-- The loop over the segments of a message (src/recv_udp.cpp:248-258). `f` bounds the iterations. -/
def RxState.segLoop (cfg : StreamConfig) (maxSize : Nat) (d : Bytes) (seg : Nat) : Nat → Nat → RxState → Option RxState
  | 0, _, _ => none
  | f + 1, offset, x =>
    if offset < d.length ∧ x.stopped = false then
      match slice? d offset (min seg (d.length - offset)) with
      | none => none
      | some b =>
        match x.processOne cfg maxSize b with
        | none => none
        | some x => RxState.segLoop cfg maxSize d seg f (offset + seg) x
    else some x

/-- The loop over the messages (src/recv_udp.cpp:229-265). -/
def RxState.msgLoop (cfg : StreamConfig) (maxSize : Nat) (gro : Bool) : List RxMsg → RxState → Option RxState
  | [], x => some x
  | m :: ms, x =>
    if x.stopped then some x
    else
      match (if gro = true ∧ m.seg > 0 then x.segLoop cfg maxSize m.data m.seg.toNat (m.data.length + 1) 0 else x.processOne cfg maxSize m.data) with
      | none => none
      | some x => RxState.msgLoop cfg maxSize gro ms x

/-- A handler under `bind_handler`: one batch around `body`, unless the stream is stopped (include/spead2/recv_stream.h:858-868). -/
def boundHandler (cfg : StreamConfig) (s : Stream) (body : RxState → Option RxState) : Option (Stream × List Entry) :=
  if s.stopped then some (s, [])
  else
    match body ⟨s, {}, [], false⟩ with
    | none => none
    | some x =>
      match x.stream.endBatch cfg x.batch with
      | none => none
      | some (s', out') => some (s', x.out ++ out')

/-- `udp_reader::packet_handler` (src/recv_udp.cpp:202-277), with the messages that `recvmmsg` gives. -/
def udpHandler (cfg : StreamConfig) (maxSize : Nat) (gro : Bool) (s : Stream) (msgs : List RxMsg) : Option (Stream × List Entry) :=
  boundHandler cfg s (RxState.msgLoop cfg maxSize gro msgs)

/-- One frame (src/recv_udp_ibv.cpp:193-207, src/recv_udp_ibv_mprq.cpp:100-114, src/recv_udp_pcap.cpp:66-79): the datagram in it is
processed; exceptions are logged. `n` is the length of the link header. `limit` gives the argument `max_size` for a payload size. -/
def RxState.processFrame (cfg : StreamConfig) (n : Nat) (limit : Nat → Nat) (x : RxState) (d : Bytes) : Option RxState :=
  match udpFromFrame n d with
  | none => none
  | some (.error _) => some { x with stopped := false }
  | some (.ok b) =>
    match slice? d b.off b.size with
    | none => none
    | some p => x.processOne cfg (limit b.size) p

/-- A completion of a receive request: the index of the slot, and the frame if it succeeded. -/
structure IbvWc where
  index : Nat
  frame : Option Bytes
  deriving DecidableEq, Repr

/-- The requests to post: batches already posted, and the current one (`head` to `tail`, `cur_batch`). -/
structure IbvPost where
  posted : List (List Nat) := []
  cur : List Nat := []
  deriving DecidableEq, Repr

/-- Lines 210-221: the slot goes in the current batch, which is posted when full. -/
def IbvPost.add (p : IbvPost) (postBatch index : Nat) : IbvPost :=
  if (p.cur ++ [index]).length = postBatch then ⟨p.posted ++ [p.cur ++ [index]], []⟩ else ⟨p.posted, p.cur ++ [index]⟩

/-- Lines 223-227. -/
def IbvPost.finish (p : IbvPost) : List (List Nat) := if p.cur = [] then p.posted else p.posted ++ [p.cur]

/-- `udp_ibv_reader::poll_once` (src/recv_udp_ibv.cpp:170-229) on the completions that `recv_cq.poll` gives: the state, and the batches of
slots given back to the hardware. -/
def RxState.ibvLoop (cfg : StreamConfig) (maxSize postBatch : Nat) : List IbvWc → RxState → IbvPost → Option (RxState × List (List Nat))
  | [], x, p => some (x, p.finish)
  | wc :: wcs, x, p =>
    match wc.frame with
    | none => RxState.ibvLoop cfg maxSize postBatch wcs x (p.add postBatch wc.index)
    | some d =>
      match x.processFrame cfg 14 (fun _ => maxSize) d with
      | none => none
      | some x =>
        if x.stopped then some (x, p.posted)
        else RxState.ibvLoop cfg maxSize postBatch wcs x (p.add postBatch wc.index)

/-- A completion of the multi-packet receive queue: failed; or a frame (`none` for a filler), and whether it is the last in its work
request. -/
inductive MprqWc
  | failed
  | ok (frame : Option Bytes) (last : Bool)
  deriving DecidableEq, Repr

/-- `udp_ibv_mprq_reader::poll_once` (src/recv_udp_ibv_mprq.cpp:74-130) on the completions that `poller.next()` gives (at most 256 are
taken, line 79): the state, the requests posted again (as offsets in the buffer), and the new `wqe_start`. -/
def RxState.mprqLoop (cfg : StreamConfig) (maxSize wqeSize bufSize : Nat) : List MprqWc → RxState → Nat → Option (RxState × List Nat × Nat)
  | [], x, start => some (x, [], start)
  | .failed :: wcs, x, start => RxState.mprqLoop cfg maxSize wqeSize bufSize wcs x start
  | .ok frame last :: wcs, x, start =>
    match (match frame with
      | none => some x
      | some d => x.processFrame cfg 14 (fun _ => maxSize) d) with
    | none => none
    | some x =>
      if x.stopped then some (x, [], start)
      else if last then
        match RxState.mprqLoop cfg maxSize wqeSize bufSize wcs x (if start + wqeSize = bufSize then 0 else start + wqeSize) with
        | none => none
        | some (x, posts, start') => some (x, start :: posts, start')
      else RxState.mprqLoop cfg maxSize wqeSize bufSize wcs x start

/-- `post_batch` (src/recv_udp_ibv.cpp:176). -/
def ibvPostBatch (slots : Nat) : Nat := max 1 (min 64 (slots / 4))

/-- Calls of `poll_once` in one handler (include/spead2/recv_udp_ibv.h:184-212), at most `max_poll`: the loop ends when the stream is stopped. -/
def RxState.ibvPolls (cfg : StreamConfig) (maxSize slots : Nat) : List (List IbvWc) → RxState → Option (RxState × List (List Nat))
  | [], x => some (x, [])
  | wcs :: rest, x =>
    match x.ibvLoop cfg maxSize (ibvPostBatch slots) wcs {} with
    | none => none
    | some (x, posts) =>
      if x.stopped then some (x, posts)
      else
        match RxState.ibvPolls cfg maxSize slots rest x with
        | none => none
        | some (x', posts') => some (x', posts ++ posts')

/-- `udp_ibv_reader_base::packet_handler` (include/spead2/recv_udp_ibv.h:161-217) with `udp_ibv_reader::poll_once`, on the completions
that each poll gives. Only the stream; the slots are in `ibvPolls`. -/
def ibvHandler (cfg : StreamConfig) (maxSize slots : Nat) (s : Stream) (polls : List (List IbvWc)) : Option (Stream × List Entry) :=
  boundHandler cfg s (fun x => (RxState.ibvPolls cfg maxSize slots polls x).map Prod.fst)

/-- Calls of `udp_ibv_mprq_reader::poll_once` in one handler. -/
def RxState.mprqPolls (cfg : StreamConfig) (maxSize wqeSize bufSize : Nat) : List (List MprqWc) → RxState → Nat → Option (RxState × List Nat × Nat)
  | [], x, start => some (x, [], start)
  | wcs :: rest, x, start =>
    match x.mprqLoop cfg maxSize wqeSize bufSize (wcs.take 256) start with
    | none => none
    | some (x, posts, start) =>
      if x.stopped then some (x, posts, start)
      else
        match RxState.mprqPolls cfg maxSize wqeSize bufSize rest x start with
        | none => none
        | some (x', posts', start') => some (x', posts ++ posts', start')

/-- `udp_ibv_reader_base::packet_handler` with `udp_ibv_mprq_reader::poll_once`. -/
def mprqHandler (cfg : StreamConfig) (maxSize wqeSize bufSize start : Nat) (s : Stream) (polls : List (List MprqWc)) : Option (Stream × List Entry) :=
  boundHandler cfg s (fun x => (RxState.mprqPolls cfg maxSize wqeSize bufSize polls x start).map Prod.fst)

/-- A result of `pcap_next_ex`: a record with `len` and as many bytes as were captured; an error. The end of the file is the end of
the list. -/
inductive PcapRec
  | record (len : Nat) (data : Bytes)
  | error
  deriving DecidableEq, Repr

/-- The loop of `udp_pcap_file_reader::run` (src/recv_udp_pcap.cpp:49-90): `passes` more passes. Also gives the records that are left. `n` is
the length of the link header: 14 for ethernet, 16 for Linux SLL (lines 123-128). The field `stopped` is not used here. -/
def RxState.pcapLoop (cfg : StreamConfig) (n : Nat) : Nat → List PcapRec → RxState → Option (RxState × List PcapRec)
  | 0, recs, x => some (x, recs)
  | k + 1, recs, x =>
    if x.batch.stopped then some (x, recs)
    else
      match recs with
      | [] => RxState.pcapLoop cfg n k [] { x with batch := { x.batch with stopped := true }, stopped := true }
      | .error :: recs => RxState.pcapLoop cfg n k recs x
      | .record len d :: recs =>
        if d.length < len then RxState.pcapLoop cfg n k recs x
        else
          match x.processFrame cfg n id d with
          | none => none
          | some x => RxState.pcapLoop cfg n k recs x

/-- `BATCH` (src/recv_udp_pcap.cpp:47). -/
def pcapBatch : Nat := 64

/-- `udp_pcap_file_reader::run` (src/recv_udp_pcap.cpp:45-97): one handler. -/
def pcapHandler (cfg : StreamConfig) (n : Nat) (s : Stream) (recs : List PcapRec) : Option (Stream × List Entry × List PcapRec) :=
  if s.stopped then some (s, [], recs)
  else
    match RxState.pcapLoop cfg n pcapBatch recs ⟨s, {}, [], false⟩ with
    | none => none
    | some (x, recs') =>
      match x.stream.endBatch cfg x.batch with
      | none => none
      | some (s', out') => some (s', x.out ++ out', recs')

/-- The reader posts itself again until the stream is stopped (src/recv_udp_pcap.cpp:91-96). `f` bounds the number of handlers. -/
def pcapRun (cfg : StreamConfig) (n : Nat) : Nat → Stream → List PcapRec → Option (Stream × List Entry)
  | 0, s, _ => some (s, [])
  | f + 1, s, recs =>
    match pcapHandler cfg n s recs with
    | none => none
    | some (s', out, recs') =>
      if s'.stopped then some (s', out)
      else
        match pcapRun cfg n f s' recs' with
        | none => none
        | some (s'', out') => some (s'', out ++ out')

end Spead2
