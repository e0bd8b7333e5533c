/-!
# Starting, stopping and destroying a stream

Models the life of a `recv::stream` (include/spead2/recv_stream.h, src/recv_stream.cpp) with any number of user threads and I/O
threads: the two mutexes `queue_mutex` and `reader_mutex`, the pointer back to the stream in `shared_state`, `std::call_once`, the
readers, and the completion handlers that readers leave with the I/O context. A transition is an action of one thread: taking or
releasing a mutex, or a stretch of code between such actions that no other thread can observe half-done.

What is simplified: packets, heaps and statistics are left out (Verif/Model/Stream.lean); the code that handles them only appears as code
that accesses the stream. `stats_mutex` is left out, because no other mutex is taken while it is held. `heap_ready` and the
readers are assumed to return. A handler may leave any number of new handlers with the I/O context, and so may `start` of a reader.
-/

namespace Spead2

/-- The setting that matters here: `explicit_start` (include/spead2/recv_stream.h:334-475). -/
structure LcConfig where
  explicitStart : Bool
  deriving DecidableEq, Repr

/-- A reader owned by the stream: how often `start` and `stop` were called, and whether `start` was called after `stop`. -/
structure LcReader where
  starts : Nat := 0
  stops : Nat := 0
  late : Bool := false
  deriving DecidableEq, Repr

/-- Who called `stop_received`: `stop()` (called by the destructor if `dtor`), or the destructor of an `add_packet_state`
(src/recv_stream.cpp:454-457, 600-610). -/
inductive LcBy
  | stop (dtor : Bool)
  | handler
  deriving DecidableEq, Repr

/-- Where a thread is: the action it will do next. -/
inductive LcPc
  | idle
  /-- `emplace_reader`: lock `reader_mutex`; the two checks; construct and store the reader; `r->start()`; unlock
  (include/spead2/recv_stream.h:1034-1056). -/
  | emplaceLock | emplaceCheck | emplaceMake | emplaceStart (r : Nat) | emplaceUnlock
  /-- `stream::start`: lock; test; start reader `i`; set the flag; unlock (src/recv_stream.cpp:647-656). -/
  | startLock | startCheck | startEach (i : Nat) | startSet | startUnlock
  /-- `flush`: lock `queue_mutex`; flush; unlock (src/recv_stream.cpp:594-598). -/
  | flushLock | flushRun | flushUnlock
  /-- `is_lossy`: lock `reader_mutex`; read; unlock (src/recv_stream.cpp:682-686). -/
  | lossyLock | lossyRead | lossyUnlock
  /-- `get_stats` (src/recv_stream.cpp:620-625). -/
  | stats
  /-- `stream::stop`, called by the destructor if `d`: enter `call_once`; lock `queue_mutex`; test `stopped`; unlock; leave `call_once`;
  return (src/recv_stream.cpp:600-610, 672-680). -/
  | stopOnce (d : Bool) | stopLock (d : Bool) | stopCheck (d : Bool) | stopUnlock (d : Bool) | stopDone (d : Bool) | stopReturn (d : Bool)
  /-- `stop_received`: set `stopped` and clear `self`; flush; lock `reader_mutex`; stop reader `i`; set `stop_readers`; unlock
  (src/recv_stream.cpp:612-618, 658-670). -/
  | recvMark (c : LcBy) | recvFlush (c : LcBy) | recvLock (c : LcBy) | recvStop (c : LcBy) (i : Nat) | recvSet (c : LcBy)
  | recvUnlock (c : LcBy)
  /-- the rest of the destructor of the stream: readers and stream are freed -/
  | free
  /-- A handler of reader `k`, or a function passed to `post` (`none`): lock `queue_mutex`; read `self` and `stopped`; the wrapped
  handler; the destructor of `add_packet_state`, where `st` tells whether it is stopped; update of the statistics; unlock, where `ctx`
  tells whether the handler still holds its reference to `shared_state`
  (include/spead2/recv_stream.h:684-693, 857-866, src/recv_stream.cpp:440-474). -/
  | hLock (k : Option Nat) | hEnter (k : Option Nat) | hBody (k : Option Nat) | hEnd (k : Option Nat) (st : Bool) | hStats
  | hUnlock (ctx : Bool)
  deriving DecidableEq, Repr

/-- `std::once_flag stop_once` (include/spead2/recv_stream.h:987), with the thread that runs the function. -/
inductive LcOnce
  | fresh | running (t : Nat) | done
  deriving DecidableEq, Repr

/-- The state. `alive`, `dtor` and `asked` are not in the code: whether the stream and its readers have not been freed, which thread has called
the destructor, and whether a handler has asked for a stop. -/
structure LcState where
  /-- the stream and its readers exist -/
  alive : Bool := true
  /-- the thread that called the destructor -/
  dtor : Option Nat := none
  /-- `shared->self != nullptr` (include/spead2/recv_stream.h:598-602) -/
  self : Bool := true
  /-- `stopped` (include/spead2/recv_stream.h:616) -/
  stopped : Bool := false
  /-- owner of `queue_mutex` -/
  q : Option Nat := none
  /-- owner of `reader_mutex` -/
  r : Option Nat := none
  once : LcOnce := .fresh
  /-- `readers` (include/spead2/recv_stream.h:975) -/
  readers : List LcReader := []
  /-- `readers_started` (include/spead2/recv_stream.h:978) -/
  started : Bool
  /-- `stop_readers` (include/spead2/recv_stream.h:981) -/
  noMore : Bool := false
  /-- some handler has asked for the stream to be stopped, because of a packet or on behalf of its reader (not in the code) -/
  asked : Bool := false
  /-- handlers left with the I/O context, each with a reference to `shared_state` -/
  pending : List (Option Nat) := []
  /-- the threads -/
  pc : Nat → LcPc := fun _ => .idle

/-- The constructor (src/recv_stream.cpp:639-645). -/
def LcState.init (cfg : LcConfig) : LcState := { started := !cfg.explicitStart }

/-- Thread `t` goes to `p`. -/
def LcState.go (s : LcState) (t : Nat) (p : LcPc) : LcState := { s with pc := fun u => if u = t then p else s.pc u }

/-- Call of `start` on reader `i`. -/
def LcState.startReader (s : LcState) (i : Nat) : LcState :=
  { s with readers := s.readers.modify i (fun x : LcReader => { x with starts := x.starts + 1, late := x.late || decide (0 < x.stops) }) }

/-- Call of `stop` on reader `i`. -/
def LcState.stopReader (s : LcState) (i : Nat) : LcState :=
  { s with readers := s.readers.modify i (fun x : LcReader => { x with stops := x.stops + 1 }) }

/-- Whether a thread is running a handler. -/
def LcPc.isHandler : LcPc → Bool
  | .hLock _ | .hEnter _ | .hBody _ | .hEnd _ _ | .hStats | .hUnlock _ => true
  | .recvMark .handler | .recvFlush .handler | .recvLock .handler | .recvStop .handler _ | .recvSet .handler | .recvUnlock .handler => true
  | _ => false

/-- The first actions of the calls that users make. -/
def LcPc.isCall : LcPc → Bool
  | .emplaceLock | .startLock | .flushLock | .lossyLock | .stats | .stopOnce false => true
  | _ => false

/-- Where `stop_received` returns to (src/recv_stream.cpp:454-459, 600-610). `packets` tells whether the handler added packets. -/
def LcBy.back (packets : Bool) : LcBy → LcPc
  | .stop d => .stopUnlock d
  | .handler => if packets then .hStats else .hUnlock false

/-- A thread begins something: a call on a stream that is not being destroyed, the destructor when no call is in progress, or a handler
that the I/O context runs. -/
inductive LcBegin : LcState → LcState → Prop
  | call (s : LcState) (t : Nat) (p : LcPc) : s.pc t = .idle → s.dtor = none → p.isCall = true → LcBegin s (s.go t p)
  | destroy (s : LcState) (t : Nat) : s.pc t = .idle → s.dtor = none → (∀ u, s.pc u = .idle ∨ (s.pc u).isHandler = true) →
      LcBegin s ({ s with dtor := some t }.go t (.stopOnce true))
  | run (s : LcState) (t : Nat) (k : Option Nat) : s.pc t = .idle → k ∈ s.pending →
      LcBegin s ({ s with pending := s.pending.erase k }.go t (.hLock k))
  /-- user code calls `post` (include/spead2/recv_stream.h:684-693) -/
  | post (s : LcState) : s.dtor = none → LcBegin s { s with pending := none :: s.pending }

/-- A thread goes on with what it has begun. -/
inductive LcCont (cfg : LcConfig) : LcState → LcState → Prop
  -- emplace_reader (include/spead2/recv_stream.h:1034-1056)
  | emplaceLock (s : LcState) (t : Nat) : s.pc t = .emplaceLock → s.r = none → LcCont cfg s ({ s with r := some t }.go t .emplaceCheck)
  | emplaceCheck (s : LcState) (t : Nat) : s.pc t = .emplaceCheck →
      LcCont cfg s (s.go t (if cfg.explicitStart && s.started then .emplaceUnlock else if s.noMore then .emplaceUnlock else .emplaceMake))
  | emplaceThrow (s : LcState) (t : Nat) : s.pc t = .emplaceMake → LcCont cfg s (s.go t .emplaceUnlock)
  | emplaceMake (s : LcState) (t : Nat) : s.pc t = .emplaceMake →
      LcCont cfg s ({ s with readers := s.readers ++ [({} : LcReader)] }.go t
        (if cfg.explicitStart then .emplaceUnlock else .emplaceStart s.readers.length))
  | emplacePost (s : LcState) (t r : Nat) : s.pc t = .emplaceStart r → LcCont cfg s { s with pending := some r :: s.pending }
  | emplaceStart (s : LcState) (t r : Nat) : s.pc t = .emplaceStart r → LcCont cfg s ((s.startReader r).go t .emplaceUnlock)
  | emplaceUnlock (s : LcState) (t : Nat) : s.pc t = .emplaceUnlock → LcCont cfg s ({ s with r := none }.go t .idle)
  -- start (src/recv_stream.cpp:647-656)
  | startLock (s : LcState) (t : Nat) : s.pc t = .startLock → s.r = none → LcCont cfg s ({ s with r := some t }.go t .startCheck)
  | startCheck (s : LcState) (t : Nat) : s.pc t = .startCheck → LcCont cfg s (s.go t (if s.started then .startUnlock else .startEach 0))
  | startPost (s : LcState) (t i : Nat) : s.pc t = .startEach i → i < s.readers.length →
      LcCont cfg s { s with pending := some i :: s.pending }
  | startEach (s : LcState) (t i : Nat) : s.pc t = .startEach i → i < s.readers.length →
      LcCont cfg s ((s.startReader i).go t (.startEach (i + 1)))
  | startThrow (s : LcState) (t i : Nat) : s.pc t = .startEach i → i < s.readers.length →
      LcCont cfg s ((s.startReader i).go t .startUnlock)
  | startEnd (s : LcState) (t i : Nat) : s.pc t = .startEach i → s.readers.length ≤ i → LcCont cfg s (s.go t .startSet)
  | startSet (s : LcState) (t : Nat) : s.pc t = .startSet → LcCont cfg s ({ s with started := true }.go t .startUnlock)
  | startUnlock (s : LcState) (t : Nat) : s.pc t = .startUnlock → LcCont cfg s ({ s with r := none }.go t .idle)
  -- flush, is_lossy, get_stats (src/recv_stream.cpp:594-598, 620-625, 682-686)
  | flushLock (s : LcState) (t : Nat) : s.pc t = .flushLock → s.q = none → LcCont cfg s ({ s with q := some t }.go t .flushRun)
  | flushRun (s : LcState) (t : Nat) : s.pc t = .flushRun → LcCont cfg s (s.go t .flushUnlock)
  | flushUnlock (s : LcState) (t : Nat) : s.pc t = .flushUnlock → LcCont cfg s ({ s with q := none }.go t .idle)
  | lossyLock (s : LcState) (t : Nat) : s.pc t = .lossyLock → s.r = none → LcCont cfg s ({ s with r := some t }.go t .lossyRead)
  | lossyRead (s : LcState) (t : Nat) : s.pc t = .lossyRead → LcCont cfg s (s.go t .lossyUnlock)
  | lossyUnlock (s : LcState) (t : Nat) : s.pc t = .lossyUnlock → LcCont cfg s ({ s with r := none }.go t .idle)
  | stats (s : LcState) (t : Nat) : s.pc t = .stats → LcCont cfg s (s.go t .idle)
  -- stop and the destructor (src/recv_stream.cpp:600-610, 672-680, 688-691)
  | stopOnce (s : LcState) (t : Nat) (d : Bool) : s.pc t = .stopOnce d → s.once = .fresh →
      LcCont cfg s ({ s with once := .running t }.go t (.stopLock d))
  | stopAgain (s : LcState) (t : Nat) (d : Bool) : s.pc t = .stopOnce d → s.once = .done → LcCont cfg s (s.go t (.stopReturn d))
  | stopLock (s : LcState) (t : Nat) (d : Bool) : s.pc t = .stopLock d → s.q = none →
      LcCont cfg s ({ s with q := some t }.go t (.stopCheck d))
  | stopCheck (s : LcState) (t : Nat) (d : Bool) : s.pc t = .stopCheck d →
      LcCont cfg s (s.go t (if s.stopped then .stopUnlock d else .recvMark (.stop d)))
  | stopUnlock (s : LcState) (t : Nat) (d : Bool) : s.pc t = .stopUnlock d → LcCont cfg s ({ s with q := none }.go t (.stopDone d))
  | stopDone (s : LcState) (t : Nat) (d : Bool) : s.pc t = .stopDone d → LcCont cfg s ({ s with once := .done }.go t (.stopReturn d))
  | stopReturn (s : LcState) (t : Nat) (d : Bool) : s.pc t = .stopReturn d → LcCont cfg s (s.go t (if d then .free else .idle))
  | free (s : LcState) (t : Nat) : s.pc t = .free → LcCont cfg s ({ s with alive := false }.go t .idle)
  -- stop_received (src/recv_stream.cpp:612-618, 658-670)
  | recvMark (s : LcState) (t : Nat) (c : LcBy) : s.pc t = .recvMark c →
      LcCont cfg s ({ s with stopped := true, self := false }.go t (.recvFlush c))
  | recvFlush (s : LcState) (t : Nat) (c : LcBy) : s.pc t = .recvFlush c → LcCont cfg s (s.go t (.recvLock c))
  | recvLock (s : LcState) (t : Nat) (c : LcBy) : s.pc t = .recvLock c → s.r = none →
      LcCont cfg s ({ s with r := some t }.go t (.recvStop c 0))
  | recvStop (s : LcState) (t : Nat) (c : LcBy) (i : Nat) : s.pc t = .recvStop c i → i < s.readers.length →
      LcCont cfg s ((s.stopReader i).go t (.recvStop c (i + 1)))
  | recvEnd (s : LcState) (t : Nat) (c : LcBy) (i : Nat) : s.pc t = .recvStop c i → s.readers.length ≤ i →
      LcCont cfg s (s.go t (.recvSet c))
  | recvSet (s : LcState) (t : Nat) (c : LcBy) : s.pc t = .recvSet c → LcCont cfg s ({ s with noMore := true }.go t (.recvUnlock c))
  | recvUnlock (s : LcState) (t : Nat) (c : LcBy) (packets : Bool) : s.pc t = .recvUnlock c →
      LcCont cfg s ({ s with r := none }.go t (c.back packets))
  -- handlers (include/spead2/recv_stream.h:857-866, src/recv_stream.cpp:440-474)
  | hLock (s : LcState) (t : Nat) (k : Option Nat) : s.pc t = .hLock k → s.q = none →
      LcCont cfg s ({ s with q := some t }.go t (.hEnter k))
  | hEnter (s : LcState) (t : Nat) (k : Option Nat) : s.pc t = .hEnter k →
      LcCont cfg s (s.go t (if s.self then (if s.stopped then .hEnd k true else .hBody k) else .hUnlock true))
  /-- a handler leaves another one with the I/O context, or calls `post` -/
  | hPost (s : LcState) (t : Nat) (k k' : Option Nat) : s.pc t = .hBody k → k' = k ∨ k' = none →
      LcCont cfg s { s with pending := k' :: s.pending }
  /-- the wrapped handler returns; `st`: a packet or the reader stopped the stream -/
  | hBody (s : LcState) (t : Nat) (k : Option Nat) (st : Bool) : s.pc t = .hBody k →
      LcCont cfg s ({ s with asked := s.asked || st }.go t (.hEnd k st))
  | hEnd (s : LcState) (t : Nat) (k : Option Nat) (st : Bool) : s.pc t = .hEnd k st →
      LcCont cfg s (s.go t (if st then .recvMark .handler else .hStats))
  | hStats (s : LcState) (t : Nat) : s.pc t = .hStats → LcCont cfg s (s.go t (.hUnlock false))
  | hUnlock (s : LcState) (t : Nat) (ctx : Bool) : s.pc t = .hUnlock ctx → LcCont cfg s ({ s with q := none }.go t .idle)

/-- Finitely many actions without beginning anything new. -/
inductive LcConts (cfg : LcConfig) : LcState → LcState → Prop
  | refl (s : LcState) : LcConts cfg s s
  | step {s s' s'' : LcState} : LcConts cfg s s' → LcCont cfg s' s'' → LcConts cfg s s''

/-- Finitely many actions of any kind. -/
inductive LcSteps (cfg : LcConfig) : LcState → LcState → Prop
  | refl (s : LcState) : LcSteps cfg s s
  | start {s s' s'' : LcState} : LcSteps cfg s s' → LcBegin s' s'' → LcSteps cfg s s''
  | step {s s' s'' : LcState} : LcSteps cfg s s' → LcCont cfg s' s'' → LcSteps cfg s s''

/-- The states that a stream can get into. -/
def LcReachable (cfg : LcConfig) (s : LcState) : Prop := LcSteps cfg (LcState.init cfg) s

end Spead2
