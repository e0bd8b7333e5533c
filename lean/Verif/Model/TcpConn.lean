import Verif.Model.Tcp

/-!
# The connection of a TCP reader

`tcp_reader::start`, `accept_handler`, `packet_handler` and `stop` (src/recv_tcp.cpp 59-70, 92-116, 218-231, 256-267) with the listening socket and the clients.  The handling of the bytes is that of `Model/Tcp.lean`.

Simplified: the stream has one reader.  The kernel accepts connections into a queue while the socket listens, and resets those that are still in the queue when the socket is closed.
-/

namespace Spead2.TcpConn

/-- A client: all it has sent so far, whether it has closed the connection, and whether the connection was lost (reset, timeout). -/
structure Conn where
  sent : Bytes := []
  finished : Bool := false
  lost : Bool := false
  deriving DecidableEq, Repr

/-- What the reader waits for: a connection, data of client `k` (of which `used` bytes have been read; if `r.reading`), or nothing. -/
inductive Phase where
  | accepting
  | reading (k : Nat) (r : TcpReader) (used : Nat)
  | idle
  deriving DecidableEq, Repr

/-- The state of `tcp_reader` (include/spead2/recv_tcp.h: acceptor, peer), its stream and its clients. -/
structure St where
  stream : Stream
  phase : Phase := .accepting
  listening : Bool := true
  conns : List Conn := []
  /-- connections that the kernel has made and the reader has not taken -/
  queue : List Nat := []
  /-- clients that could not connect, and clients whose connection was made and then reset -/
  refused : List Nat := []
  dropped : List Nat := []
  /-- the heaps that were handed over -/
  out : List Entry := []
  deriving Repr

/-- What can happen: actions of clients, completions of asio's operations (src/recv_tcp.cpp 67-69, 249-253), and `stream::stop`. -/
inductive Ev where
  /-- a client connects; its number is the number of clients before it -/
  | connect
  | send (k : Nat) (b : Bytes)
  | finish (k : Nat)
  | lose (k : Nat)
  /-- the pending accept completes, or fails -/
  | accept
  | acceptFail
  /-- the pending receive completes: with `n` bytes, with end-of-file, with an error -/
  | recv (n : Nat)
  | eof
  | fail
  /-- the program stops the stream -/
  | stop
  deriving Repr

/-- The reader has been added to a new stream and waits for a connection (`tcp_reader::start`, src/recv_tcp.cpp 59-70). -/
def St.new (cfg : StreamConfig) : St := { stream := Stream.new cfg }

/-- The listening socket is closed (`acceptor.close()`, src/recv_tcp.cpp 223, 266): those in its queue are reset. -/
def St.close (s : St) (waiting : List Nat) : St := { s with listening := false, queue := [], dropped := s.dropped ++ waiting }

/-- A receive of client `k` completes with `ev` (`packet_handler`, src/recv_tcp.cpp 92-116). -/
def St.complete (cfg : StreamConfig) (max : Nat) (s : St) (k : Nat) (r : TcpReader) (used : Nat) (ev : TcpEvent) : Option St :=
  (r.step cfg max s.stream ev).map fun x => { s with phase := .reading k x.1 used, stream := x.2.1, out := s.out ++ x.2.2 }

/-- One event: those of the clients are simplified TCP; `accept` is src/recv_tcp.cpp 218-231, `recv`, `eof` and `fail` are 92-116, `stop` is 256-267.  Simplified: the kernel's accept and its handler are one event, so clients that connect between them count as later ones.  Events that cannot happen change nothing, and `none` is undefined behaviour. -/
def step (cfg : StreamConfig) (max : Nat) (fill : UInt8) (s : St) : Ev → Option St
  | .connect =>
    if s.listening then some { s with conns := s.conns ++ [{}], queue := s.queue ++ [s.conns.length] }
    else some { s with conns := s.conns ++ [{}], refused := s.refused ++ [s.conns.length] }
  | .send k b => some { s with conns := s.conns.modify k fun c => if c.finished || c.lost then c else { c with sent := c.sent ++ b } }
  | .finish k => some { s with conns := s.conns.modify k fun c => { c with finished := true } }
  | .lose k => some { s with conns := s.conns.modify k fun c => { c with lost := true } }
  | .accept =>
    match s.phase, s.queue with
    | .accepting, k :: rest => do
      -- accept_handler (src/recv_tcp.cpp 218-231), in a batch without packets
      let r ← TcpReader.accepted max fill
      let x ← s.stream.batch cfg []
      some { s.close rest with phase := .reading k r 0, stream := x.1, out := s.out ++ x.2 }
    | _, _ => some s
  | .acceptFail =>
    match s.phase with
    | .accepting => do
      let x ← s.stream.batch cfg []
      some { s.close s.queue with phase := .idle, stream := x.1, out := s.out ++ x.2 }
    | _ => some s
  | .recv n =>
    match s.phase with
    | .reading k r used =>
      match s.conns[k]? with
      | some c =>
        if r.reading ∧ n ≤ r.tcp.space ∧ used + n ≤ c.sent.length ∧ (0 < n ∨ r.tcp.space = 0) then s.complete cfg max k r (used + n) (.data ((c.sent.drop used).take n))
        else some s
      | none => some s
    | _ => some s
  | .eof =>
    match s.phase with
    | .reading k r used =>
      match s.conns[k]? with
      | some c => if r.reading ∧ 0 < r.tcp.space ∧ used = c.sent.length ∧ c.finished then s.complete cfg max k r used .eof else some s
      | none => some s
    | _ => some s
  | .fail =>
    match s.phase with
    | .reading k r used =>
      match s.conns[k]? with
      | some c => if r.reading ∧ c.lost then s.complete cfg max k r used .error else some s
      | none => some s
    | _ => some s
  | .stop => do
    -- stream::stop, which stops the reader: tcp_reader::stop closes both sockets (src/recv_tcp.cpp 256-267)
    let x ← s.stream.step cfg .stop
    some { s.close s.queue with phase := .idle, stream := x.1, out := s.out ++ x.2 }

/-- A history of events. -/
def run (cfg : StreamConfig) (max : Nat) (fill : UInt8) : List Ev → St → Option St
  | [], s => some s
  | e :: es, s => (step cfg max fill s e).bind (run cfg max fill es)

end Spead2.TcpConn
