import Verif.Model.Bytes
import Verif.Model.SendQueue
import Verif.Model.SendUdp

/-!
# The simple writers of a send stream

Models `wakeup` of `tcp_writer` (src/send_tcp.cpp:106-134), `streambuf_writer` (src/send_streambuf.cpp:48-91), `inproc_writer`
(src/send_inproc.cpp:66-95) and `udp_writer` without `sendmmsg` (src/send_udp.cpp:328-378), as programs that use the queue of
Verif/Model/SendQueue.lean. There the transport is an arbitrary environment that may do its steps in any order; here it does
what these four functions do. Between any two steps other threads may call the stream.
-/

namespace Spead2

/-- The writers. `udp` is `udp_writer` without `sendmmsg`. -/
inductive WKind
  | tcp | streambuf | inproc | udp
  deriving DecidableEq, Repr

/-- The queue, and the buffers of a packet (`transmit_packet::buffers`, include/spead2/send_writer.h:182-189). -/
structure WEnv (H π : Type) where
  sq : SqEnv H π
  bufs : π → List Bytes

/-- The bytes of a packet. -/
def WEnv.data {H π : Type} (env : WEnv H π) (p : π) : Bytes := (env.bufs p).flatten

/-- How the environment treats a packet. `err`: the operation reports an error (for `inproc`: the queue is stopped). `n`: the
bytes that `async_write` has transferred before the error. `room`: how much each call of `sputn` accepts; everything
when the list is exhausted. `async`: the socket buffer is full at first, so `async_send_to` is used. `kernel` and `refuse`: what `sendmmsg`
and `setsockopt` answer (Verif/Model/SendMmsg.lean). Each writer looks at the fields that concern it. -/
structure WResp where
  err : Bool := false
  n : Nat := 0
  room : List Nat := []
  async : Bool := false
  kernel : SendResp := .sent 1
  refuse : Bool := false
  deriving DecidableEq, Repr

/-- The loop over the buffers of a packet (src/send_streambuf.cpp:59-71): the bytes written, and whether there was no error. -/
def sputAll : List Bytes → List Nat → Bytes × Bool
  | [], _ => ([], true)
  | b :: bs, [] => let r := sputAll bs []; (b ++ r.1, r.2)
  | b :: bs, k :: ks => if b.length ≤ k then (let r := sputAll bs ks; (b ++ r.1, r.2)) else (b.take k, false)

/-- A packet is written: what is recorded (`none`: no error, and all its bytes; `some n`: an error, and `n` bytes), and what leaves.
`async_write` (src/send_tcp.cpp:133) transfers a prefix of the buffers, and all of it unless it reports an error. A datagram
is sent as a whole or not at all (src/send_udp.cpp:351, 364). `copy_packet` and `add_packet` (src/send_inproc.cpp:33-42, 80-91)
put a copy into the queue, unless it is stopped. -/
def transmit (kind : WKind) (bufs : List Bytes) (r : WResp) : Option Nat × Option Bytes :=
  match kind with
  | .tcp => if r.err then (some (min r.n bufs.flatten.length), some (bufs.flatten.take r.n)) else (none, some bufs.flatten)
  | .streambuf => let w := sputAll bufs r.room; (if w.2 then none else some w.1.length, some w.1)
  | .inproc | .udp => if r.err then (some 0, none) else (none, some bufs.flatten)

/-- `max_batch` (src/send_streambuf.cpp:50, src/send_udp.cpp:52). -/
def writerBatch : Nat := 64

/-- What a writer does next: another iteration of its loop, `post_wakeup` (or `sleep`), or `request_wakeup`. -/
inductive WNext
  | loop (i : Nat) | repost | request
  deriving DecidableEq, Repr

/-- Where a writer is: not running; before `get_packet`, with `i` packets handled in this call of `wakeup` and `g` groups to be
reported at its end; with a packet that it has not yet sent; before `groups_completed` for `k` groups, or for `k` more groups; about to
call handlers in `groups_completed`; at the end of an iteration. -/
inductive WPc (π : Type)
  | rest
  | loop (i g : Nat)
  | sending (i g : Nat) (p : π) (sub : Nat) (last : Bool)
  | report (k : Nat) (nx : WNext)
  | calling (k : Nat) (nx : WNext)
  | next (nx : WNext)
  deriving DecidableEq, Repr

/-- The stream and its writer. -/
structure WSt (H π : Type) where
  sq : Sq H π
  pc : WPc π

/-- Events: those of the queue; bytes leave: they are appended to the connection or the stream buffer, or they are a
datagram or queue entry for the destination of a substream. -/
inductive WEv (π : Type)
  | sq (e : SqEv π)
  | wire (sub : Nat) (d : Bytes)
  deriving DecidableEq, Repr

/-- A call of `groups_completed`, if any groups are to be reported (src/send_tcp.cpp:129-130, src/send_streambuf.cpp:76-77,
src/send_inproc.cpp:92-93, src/send_udp.cpp:360-361, 373-374). -/
def reportThen {π : Type} (k : Nat) (nx : WNext) : WPc π := if k > 0 then .report k nx else .next nx

/-- What follows a packet. TCP: the handler of `async_write` calls `wakeup` again (src/send_tcp.cpp:124-132). In-process: a
wakeup is posted (src/send_inproc.cpp:92-94). UDP: the next of at most 64 iterations; after `async_send_to` a new call of
`wakeup` (src/send_udp.cpp:330, 352-377). Stream buffer: the next of at most 64 iterations, and groups are reported
after the loop (src/send_streambuf.cpp:53, 72-77). -/
def afterPacket {π : Type} (kind : WKind) (i g : Nat) (last async : Bool) : WPc π :=
  match kind with
  | .tcp => reportThen (if last then 1 else 0) (.loop 0)
  | .inproc => reportThen (if last then 1 else 0) .repost
  | .udp => reportThen (if last then 1 else 0) (if async then .loop 0 else if i + 1 < writerBatch then .loop (i + 1) else .repost)
  | .streambuf => if i + 1 < writerBatch then .loop (i + 1) (g + if last then 1 else 0) else reportThen (g + if last then 1 else 0) .repost

/-- A step of the queue. -/
def WSt.on {H π : Type} (env : WEnv H π) (w : WSt H π) (op : SqOp H) (pc : WPc π) (more : List (WEv π)) : Option (WSt H π × List (WEv π)) :=
  match w.sq.step env.sq op with
  | none => none
  | some (s, ev) => some (⟨s, pc⟩, ev.map WEv.sq ++ more)

/-- `get_packet` succeeds, or says `EMPTY`. -/
def WSt.got {H π : Type} (i g : Nat) : Option (Sq H π × List (SqEv π)) → Option (WSt H π × List (WEv π))
  | none => none
  | some (s, .packet p sub last :: ev) => some (⟨s, .sending i g p sub last⟩, (SqEv.packet p sub last :: ev).map WEv.sq)
  | some (s, ev) => some (⟨s, reportThen g .request⟩, ev.map WEv.sq)

/-- The bytes that leave. -/
def wireEvs {π : Type} (sub : Nat) : Option Bytes → List (WEv π)
  | none => []
  | some d => [.wire sub d]

/-- One step of the writer. `sleepy`: if it calls `get_packet`, that says `SLEEP`. `r`: how the environment treats the
packet, if it sends one. `groups_completed` works in batches of 16 (src/send_writer.cpp:219-261). -/
def WSt.tick {H π : Type} (kind : WKind) (env : WEnv H π) (w : WSt H π) (sleepy : Bool) (r : WResp) : Option (WSt H π × List (WEv π)) :=
  match w.pc with
  | .rest => if w.sq.wk = .queued then w.on env .wake (.loop 0 0) [] else some (w, [])
  | .loop i g => if sleepy then some (⟨w.sq, reportThen g .repost⟩, []) else WSt.got i g (w.sq.step env.sq .get)
  | .sending i g p sub last =>
    w.on env (.sent (transmit kind (env.bufs p) r).1) (afterPacket kind i g last r.async) (wireEvs sub (transmit kind (env.bufs p) r).2)
  | .report k nx => w.on env (.complete (min 16 k)) (.calling (k - 16) nx) []
  | .calling k nx =>
    if w.sq.calling ≠ [] then w.on env .call (.calling k nx) []
    else if w.sq.waking ≠ [] then w.on env .notify (.calling k nx) []
    else some (⟨w.sq, reportThen k nx⟩, [])
  | .next (.loop i) => some (⟨w.sq, .loop i 0⟩, [])
  | .next .repost => w.on env .repost .rest []
  | .next .request => if w.sq.sender.isSome then some (w, []) else w.on env .request .rest []

/-- The transitions of callers. -/
def SqOp.ofCaller {H : Type} : SqOp H → Bool
  | .enter _ _ | .commit | .unwind _ | .flush | .setCnt _ _ | .dispatch _ => true
  | _ => false

/-- What can happen: a step of a caller, or of the writer. -/
inductive WOp (H : Type)
  | caller (op : SqOp H)
  | tick (sleepy : Bool) (r : WResp)
  deriving DecidableEq, Repr

def WSt.step {H π : Type} (kind : WKind) (env : WEnv H π) (w : WSt H π) : WOp H → Option (WSt H π × List (WEv π))
  | .caller op => if op.ofCaller then w.on env op w.pc [] else some (w, [])
  | .tick sleepy r => w.tick kind env sleepy r

def WSt.run {H π : Type} (kind : WKind) (env : WEnv H π) : List (WOp H) → WSt H π → Option (WSt H π × List (WEv π))
  | [], w => some (w, [])
  | op :: ops, w =>
    match w.step kind env op with
    | none => none
    | some (w, ev) =>
      match WSt.run kind env ops w with
      | none => none
      | some (w, ev') => some (w, ev ++ ev')

/-- A new stream. `start` calls `request_wakeup` (include/spead2/send_writer.h:179), except that a TCP writer that is not connected waits
for the connection, and its handler calls `wakeup` (src/send_tcp.cpp:136-149). -/
def WSt.new {H π : Type} (connecting : Bool) : WSt H π :=
  if connecting then ⟨{ wk := .queued }, .rest⟩ else ⟨{ wk := .running }, .next .request⟩

end Spead2
