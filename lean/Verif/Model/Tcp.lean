import Verif.Model.Stream

/-!
# TCP reader

Models src/recv_tcp.cpp and include/spead2/recv_tcp.h. Positions in the buffer are offsets from its start.
Reading or copying outside the buffer, an overlapping `memcpy` and a failed assertion are `none`.
-/

namespace Spead2

/-- The data members of `tcp_reader` that describe the receive buffer (include/spead2/recv_tcp.h:51-64). -/
structure Tcp where
  buffer : Bytes
  head : Nat := 0
  tail : Nat := 0
  pktSize : Nat := 0
  toSkip : Nat := 0
  deriving DecidableEq, Repr

/-- Constructor (src/recv_tcp.cpp:42-53). The contents of the new buffer are arbitrary; `fill` stands for them.
`pkts_per_buffer` is 64 (include/spead2/recv_tcp.h:64). -/
def Tcp.new (maxSize : Nat) (fill : UInt8) : Tcp := { buffer := List.replicate (maxSize * 64) fill }

/-- The bytes between `head` and `tail`. -/
def Tcp.view (t : Tcp) : Option Bytes :=
  if t.head ≤ t.tail ∧ t.tail ≤ t.buffer.length then some ((t.buffer.drop t.head).take (t.tail - t.head)) else none

/-- `parse_packet_size` (src/recv_tcp.cpp:161-202). -/
def Tcp.parsePacketSize (maxSize : Nat) (t : Tcp) : Option (Tcp × Bool) :=
  if t.pktSize > 0 then some (t, false)
  else
    match t.view with
    | none => none
    | some d =>
      match getPacketSize d with
      | none => none
      | some r =>
        if r = -1 then some ({ t with head := t.head + 8 }, false)
        else if r = 0 then
          if d.length = maxSize * 64 then some ({ t with head := t.tail }, false) else some (t, true)
        else some ({ t with pktSize := r.toNat, toSkip := if r.toNat > maxSize then r.toNat else t.toSkip }, false)

/-- `skip_bytes` (src/recv_tcp.cpp:204-216). -/
def Tcp.skipBytes (t : Tcp) : Tcp × Bool :=
  if t.toSkip = 0 then (t, false)
  else if t.tail = t.head then (t, true)
  else ({ t with head := t.head + min (t.tail - t.head) t.toSkip, toSkip := t.toSkip - min (t.tail - t.head) t.toSkip, pktSize := if t.toSkip - min (t.tail - t.head) t.toSkip = 0 then 0 else t.pktSize },
    decide (t.toSkip - min (t.tail - t.head) t.toSkip > 0))

/-- `parse_packet` (src/recv_tcp.cpp:118-140): the reader, the stream, the batch state, the heaps handed over and the
return value. -/
def Tcp.parsePacket (cfg : StreamConfig) (t : Tcp) (s : Stream) (st : Batch) : Option (Tcp × Stream × Batch × List Entry × Bool) :=
  if t.pktSize = 0 ∨ t.tail < t.head + t.pktSize then none
  else
    match t.view with
    | none => none
    | some d =>
      match decodePacket (d.take t.pktSize) with
      | none => none
      | some none => some ({ t with head := t.head + t.pktSize, pktSize := 0 }, s, st, [], false)
      | some (some (h, size)) =>
        if size = t.pktSize then
          match h.toPkt? (d.take t.pktSize) with
          | none => none
          | some p =>
            match s.addPacket cfg st p with
            | none => none
            | some r => some ({ t with head := t.head + t.pktSize, pktSize := 0 }, r.stream, r.batch, r.out, r.batch.stopped)
        else some ({ t with head := t.head + t.pktSize, pktSize := 0 }, s, st, [], false)

/-- The loop of `process_buffer` (src/recv_tcp.cpp:145-158). The first argument bounds the number of iterations;
running out of it is reported as `none`. The last component is the return value. -/
def Tcp.processLoop (cfg : StreamConfig) (maxSize : Nat) : Nat → Tcp → Stream → Batch → Option (Tcp × Stream × Batch × List Entry × Bool)
  | 0, _, _, _ => none
  | fuel + 1, t, s, st =>
    if t.tail > t.head then
      match t.parsePacketSize maxSize with
      | none => none
      | some (t, true) => some (t, s, st, [], true)
      | some (t, false) =>
        match t.skipBytes with
        | (t, true) => some (t, s, st, [], true)
        | (t, false) =>
          if t.pktSize = 0 then Tcp.processLoop cfg maxSize fuel t s st
          else if t.tail - t.head < t.pktSize then some (t, s, st, [], true)
          else
            match t.parsePacket cfg s st with
            | none => none
            | some (t, s, st, out, true) => some (t, s, st, out, false)
            | some (t, s, st, out, false) =>
              match Tcp.processLoop cfg maxSize fuel t s st with
              | none => none
              | some (t', s', st', out', more) => some (t', s', st', out ++ out', more)
    else some (t, s, st, [], true)

/-- `enqueue_receive` (src/recv_tcp.cpp:233-254) up to the call of `async_receive`, which is asked for
`buffer.length - tail` bytes. -/
def Tcp.enqueueReceive (t : Tcp) : Option Tcp :=
  if t.tail < t.head then none
  else if t.head > t.buffer.length / 2 then
    if t.head < t.tail - t.head then none
    else
      match t.view with
      | none => none
      | some d => some { t with buffer := d ++ t.buffer.drop d.length, head := 0, tail := d.length }
  else some t

/-- The number of bytes that the pending `async_receive` asks for (src/recv_tcp.cpp:252). -/
def Tcp.space (t : Tcp) : Nat := t.buffer.length - t.tail

/-- A reader and whether a receive is pending. -/
structure TcpReader where
  tcp : Tcp
  reading : Bool
  deriving DecidableEq, Repr

/-- Successful `accept_handler` on a new reader (src/recv_tcp.cpp:218-231). -/
def TcpReader.accepted (maxSize : Nat) (fill : UInt8) : Option TcpReader :=
  (Tcp.new maxSize fill).enqueueReceive.map (fun t => ⟨t, true⟩)

/-- How a receive completes: with data, with end-of-file or with another error. -/
inductive TcpEvent
  | data (b : Bytes) | eof | error
  deriving DecidableEq, Repr

/-- `packet_handler` (src/recv_tcp.cpp:92-116), run inside a batch (`bound_handler`,
include/spead2/recv_stream.h:843-870). If the stream has been stopped nothing happens; if no receive is pending there
is no event. More data than was asked for is `none`. -/
def TcpReader.step (cfg : StreamConfig) (maxSize : Nat) (r : TcpReader) (s : Stream) (ev : TcpEvent) : Option (TcpReader × Stream × List Entry) :=
  if r.reading = false then some (r, s, [])
  else if s.stopped then some ({ r with reading := false }, s, [])
  else
    match ev with
    | .data b =>
      if r.tcp.space < b.length then none
      else
        match Tcp.processLoop cfg maxSize (r.tcp.buffer.length + 1) { r.tcp with buffer := r.tcp.buffer.take r.tcp.tail ++ b ++ r.tcp.buffer.drop (r.tcp.tail + b.length), tail := r.tcp.tail + b.length } s {} with
        | none => none
        | some (t, s, st, out, more) =>
          match (if more then t.enqueueReceive else some t) with
          | none => none
          | some t =>
            match s.endBatch cfg st with
            | none => none
            | some (s, out') => some (⟨t, more⟩, s, out ++ out')
    | .eof => (s.batch cfg [.stop]).map (fun x => ({ r with reading := false }, x.1, x.2))
    | .error => (s.batch cfg []).map (fun x => ({ r with reading := false }, x.1, x.2))

/-- A sequence of completed receives. -/
def TcpReader.run (cfg : StreamConfig) (maxSize : Nat) : List TcpEvent → TcpReader → Stream → Option (TcpReader × Stream × List Entry)
  | [], r, s => some (r, s, [])
  | ev :: rest, r, s =>
    match r.step cfg maxSize s ev with
    | none => none
    | some (r, s, out) =>
      match TcpReader.run cfg maxSize rest r s with
      | none => none
      | some (r, s, out') => some (r, s, out ++ out')

end Spead2
