/-!
# The agent of the Python benchmark

`AgentConnection` and `run_agent` (src/spead2/tools/bench_asyncio.py 67-153).  Connections are coroutines of one event loop; each has at most one stream, whose heaps a task counts.
Simplified: endpoints are numbers, and a socket of a stream that was not stopped makes another one for the same endpoint fail (that is so for unicast; src/recv_udp.cpp 113-119);
an exception is one event, wherever it comes from: a line that is not a command, an option that is refused, or a connection that was reset.
-/

namespace Spead2.PyBench

/-- A stream: its endpoint, the heaps that were pushed to its ring, those that `run_stream` took, and whether it still receives. -/
structure Stream where
  port : Nat
  pushed : Nat := 0
  taken : Nat := 0
  recv : Bool := true
  deriving DecidableEq, Repr

inductive Reply where
  | ready | heaps (n : Nat)
  deriving DecidableEq, Repr

/-- Where `run_control` is: before the next line, at `await stream_task` of the stop command, at that after the loop, or at its end. -/
inductive Phase where
  | line | stopping | closing | over
  deriving DecidableEq, Repr

/-- A connection; `cur` is the number of the stream if `stream_task` is not `None`. -/
structure Conn where
  phase : Phase := .line
  cur : Option Nat := none
  replies : List Reply := []
  deriving DecidableEq, Repr

/-- The agent; `ibv` says whether its spead2 has support for ibverbs, and `up` whether it was not ended by `sys.exit`. -/
structure St where
  ibv : Bool
  up : Bool := true
  conns : List Conn := []
  streams : List Stream := []
  deriving DecidableEq, Repr

inductive Ev where
  /-- a client connects -/
  | connect
  /-- the command to start, for an endpoint; `opt` says whether the client's options have an attribute `ibv` (they do exactly if the client's spead2 has support for it) -/
  | start (c port : Nat) (opt : Bool)
  /-- the command to stop -/
  | stop (c : Nat)
  /-- the command to exit, or the end of the connection -/
  | exit (c : Nat)
  /-- a command that is not known -/
  | other (c : Nat)
  /-- an exception in `run_control` -/
  | fault (c : Nat)
  /-- the task that the connection waits for is done -/
  | resume (c : Nat)
  /-- a heap is pushed to the ring of a stream -/
  | heap (k : Nat)
  /-- `run_stream` takes one -/
  | take (k : Nat)
  /-- a stream receives the end of the stream -/
  | finish (k : Nat)
  deriving DecidableEq, Repr

/-- The stream stops to receive. -/
def Stream.halt (x : Stream) : Stream := { x with recv := false }

/-- `run_stream` returned (src/spead2/tools/bench_asyncio.py 72-79): the ring was stopped and is empty. -/
def Stream.done (x : Stream) : Bool := !x.recv && x.taken == x.pushed

/-- An endpoint is in use. -/
def St.bound (s : St) (port : Nat) : Bool := s.streams.any (fun x => x.recv && x.port == port)

/-- A connection changes. -/
def St.setConn (s : St) (c : Nat) (x : Conn) : St := { s with conns := s.conns.set c x }

/-- A stream stops, if it is there. -/
def St.halt (s : St) (k : Nat) : St :=
  match s.streams[k]? with
  | some x => { s with streams := s.streams.set k x.halt }
  | none => s

/-- The start command (src/spead2/tools/bench_asyncio.py 95-120). -/
def St.start (s : St) (c : Nat) (x : Conn) (port : Nat) (opt : Bool) : St :=
  match x.cur with
  | some _ => s
  | none =>
    if opt && !s.ibv then { s with up := false }
    else if s.bound port then s.setConn c { x with phase := .over }
    else ({ s with streams := s.streams ++ [{ port := port }] } : St).setConn c { x with cur := some s.streams.length, replies := x.replies ++ [.ready] }

/-- The stop command (src/spead2/tools/bench_asyncio.py 121-126), up to the point where it waits. -/
def St.stop (s : St) (c : Nat) (x : Conn) : St :=
  match x.cur with
  | none => s
  | some k => (s.halt k).setConn c { x with phase := .stopping }

/-- The end of the loop (src/spead2/tools/bench_asyncio.py 91-92, 130-131, 135-138), up to the point where it waits. -/
def St.exit (s : St) (c : Nat) (x : Conn) : St :=
  match x.cur with
  | none => s.setConn c { x with phase := .over }
  | some k => (s.halt k).setConn c { x with phase := .closing }

/-- After waiting (src/spead2/tools/bench_asyncio.py 126-129, 138). -/
def St.resume (s : St) (c : Nat) (x : Conn) (n : Nat) : Option St :=
  match x.phase with
  | .stopping => some (s.setConn c { x with phase := .line, cur := none, replies := x.replies ++ [.heaps n] })
  | .closing => some (s.setConn c { x with phase := .over, cur := none })
  | _ => none

/-- A connection that is at a line. -/
def St.atLine (s : St) (c : Nat) : Option Conn :=
  match s.conns[c]? with
  | some x => if x.phase = .line then some x else none
  | none => none

/-- One event; impossible ones give `none`. -/
def St.step (s : St) (e : Ev) : Option St :=
  if s.up then
    match e with
    | .connect => some { s with conns := s.conns ++ [{}] }
    | .start c port opt => (s.atLine c).map (fun x => s.start c x port opt)
    | .stop c => (s.atLine c).map (fun x => s.stop c x)
    | .exit c => (s.atLine c).map (fun x => s.exit c x)
    | .other c => (s.atLine c).map (fun _ => s)
    | .fault c => (s.atLine c).map (fun x => s.setConn c { x with phase := .over, cur := none })
    | .resume c =>
      match s.conns[c]? with
      | some x =>
        match x.cur with
        | some k =>
          match s.streams[k]? with
          | some y => if y.done then s.resume c x y.taken else none
          | none => none
        | none => none
      | none => none
    | .heap k =>
      match s.streams[k]? with
      | some y => if y.recv then some { s with streams := s.streams.set k { y with pushed := y.pushed + 1 } } else none
      | none => none
    | .take k =>
      match s.streams[k]? with
      | some y => if y.taken < y.pushed then some { s with streams := s.streams.set k { y with taken := y.taken + 1 } } else none
      | none => none
    | .finish k =>
      match s.streams[k]? with
      | some y => if y.recv then some { s with streams := s.streams.set k y.halt } else none
      | none => none
  else none

end Spead2.PyBench
