import Verif.Model.Stream
import Verif.Model.Ring

/-!
# Streams that put heaps in a ring buffer

Models `ring_stream` (include/spead2/recv_ring_stream.h) with any number of threads: readers that pass batches of packets to the
stream, users that flush or stop it, and consumers. A transition is an atomic action of one thread: taking or releasing
`queue_mutex`, or an action on the ring buffer as in Verif/Model/Ring.lean. What the stream does is computed at once when
the mutex is taken: the code does it while it holds the mutex, and `heap_ready` does not affect it. `std::call_once` in `stream::stop`
(src/recv_stream.cpp:676-679) is left out: a second call finds the stream stopped. Logging is left out.
-/

namespace Spead2

/-- The settings: those of the stream, and `contiguous_only` (include/spead2/recv_ring_stream.h:40-85). -/
structure RsConfig where
  stream : StreamConfig
  contiguousOnly : Bool
  deriving DecidableEq, Repr

/-- Calls: a batch or a flush by whoever holds readers; `stop`; `pop`/`try_pop`; `pop_live`/`try_pop_live`. -/
inductive RsCall
  | batch (ops : List BatchOp) | flush | stop | pop (block : Bool) | popLive (block : Bool)
  deriving DecidableEq, Repr

/-- Results: return without a value; a heap from `pop`; a heap from `pop_live`; the exceptions. -/
inductive RsRes
  | done | heap (e : Entry) | live (e : Entry) | stopped | empty
  deriving DecidableEq, Repr

/-- Where a thread is. The calls on the ring buffer that it makes are in `RState`. -/
inductive RsPc
  | idle
  /-- about to lock `queue_mutex` -/
  | lock (op : StreamOp)
  /-- holds the mutex; heaps to pass to `heap_ready`, and whether to stop the ring buffer afterwards -/
  | deliver (hs : List Entry) (fin : Bool)
  /-- in `heap_ready`, in `try_push` -/
  | tryPush (h : Entry) (hs : List Entry) (fin : Bool)
  /-- in `heap_ready`, after `ringbuffer_full` -/
  | retry (h : Entry) (hs : List Entry) (fin : Bool)
  /-- in `heap_ready`, in `push` -/
  | push (h : Entry) (hs : List Entry) (fin : Bool)
  /-- in `ready_heaps.stop()` of `stop_received`, with the mutex -/
  | sealing
  /-- in `ready_heaps.stop()` of `stop`, without the mutex -/
  | stopRing
  | pop (block : Bool)
  | popLive (block : Bool)
  deriving DecidableEq, Repr

/-- Events: calls and returns; what happens in the ring buffer; the mutex was taken for an operation on the stream, which handed over
`out`; `heap_ready` was called; `pop` threw away a heap. -/
inductive RsEv
  | call (t : Nat) (c : RsCall) | ret (t : Nat) (r : RsRes) | ring (e : REv Entry)
  | locked (t : Nat) (op : StreamOp) (out : List Entry) | ready (t : Nat) (e : Entry) | skipped (t : Nat) (e : Entry)
  deriving DecidableEq, Repr

/-- The stream, its ring buffer, the owner of `queue_mutex`, the threads, and the statistic `worker_blocked`. -/
structure RsState where
  ring : RState Entry
  stream : Stream
  owner : Option Nat := none
  progs : List RsPc
  blocked : Nat := 0

/-- The constructor (lines 175-183) and `n` threads. -/
def RsState.new (cfg : RsConfig) (cap n : Nat) : RsState :=
  { ring := RState.new Entry cap n, stream := Stream.new cfg.stream, progs := List.replicate n .idle }

/-- The condition in `heap_ready` (line 198). -/
def RsConfig.wants (cfg : RsConfig) (h : Entry) : Bool := !cfg.contiguousOnly || h.heap.isContiguous

/-- The result of a call on the ring buffer among the events of an action. -/
def ringRet : List (REv Entry) → Option (Res Entry)
  | [] => none
  | .ret _ r :: _ => some r
  | _ :: l => ringRet l

def RsState.setProg (s : RsState) (t : Nat) (p : RsPc) : RsState := { s with progs := s.progs.set t p }

/-- Thread `t` calls the ring buffer, and goes to `p`. -/
def RsState.ringCall (s : RsState) (t : Nat) (c : Call Entry) (p : RsPc) : Option (RsState × List RsEv) :=
  match s.ring.step (.call t c) with
  | none => none
  | some (r, ev) => some ({ s with ring := r, progs := s.progs.set t p }, ev.map .ring)

/-- What thread `t`, at `p`, does when its call on the ring buffer has returned `r` (lines 196-232 `heap_ready`, 239-250 `pop`,
252-257 `pop_live`, 259-270 `try_pop`, 278-291 `stop_received`, 293-304 `stop`). -/
def RsState.resume (s : RsState) (t : Nat) (r : Res Entry) : RsPc → Option (RsState × List RsEv)
  | .tryPush h hs fin =>
    match r with
    | .full => some ({ s.setProg t (.retry h hs fin) with blocked := s.blocked + 1 }, [])
    | _ => some (s.setProg t (.deliver hs fin), [])
  | .push _ hs fin => some (s.setProg t (.deliver hs fin), [])
  | .sealing => some ({ s.setProg t .idle with owner := none }, [.ret t .done])
  | .stopRing => some (s.setProg t (.lock .stop), [])
  | .pop block =>
    match r with
    | .value h =>
      if h.heap.isContiguous then some (s.setProg t .idle, [.ret t (.heap h)])
      else
        match s.ringCall t (.pop block) (.pop block) with
        | none => none
        | some (s, ev) => some (s, .skipped t h :: ev)
    | .empty => some (s.setProg t .idle, [.ret t .empty])
    | _ => some (s.setProg t .idle, [.ret t .stopped])
  | .popLive _ =>
    match r with
    | .value h => some (s.setProg t .idle, [.ret t (.live h)])
    | .empty => some (s.setProg t .idle, [.ret t .empty])
    | _ => some (s.setProg t .idle, [.ret t .stopped])
  | _ => some (s, [])

/-- An action on the ring buffer by thread `t`, which is at `p`. -/
def RsState.ringAct (s : RsState) (t : Nat) (op : RingOp Entry) (p : RsPc) : Option (RsState × List RsEv) :=
  match s.ring.step op with
  | none => none
  | some (r, ev) =>
    match ringRet ev with
    | none => some ({ s with ring := r }, ev.map .ring)
    | some res =>
      match RsState.resume { s with ring := r } t res p with
      | none => none
      | some (s, ev') => some (s, ev.map .ring ++ ev')

/-- The next action of thread `t`, which is at `p`. A batch whose stream becomes stopped has called `stop_received`
(src/recv_stream.cpp:454-461), and so has `stop` if the stream was not stopped (lines 600-610). -/
def RsState.actProg (cfg : RsConfig) (s : RsState) (t : Nat) : RsPc → Option (RsState × List RsEv)
  | .idle => some (s, [])
  | .lock op =>
    match s.owner with
    | some _ => some (s, [])
    | none =>
      match s.stream.step cfg.stream op with
      | none => none
      | some (st, out) =>
        some ({ s.setProg t (.deliver out (!s.stream.stopped && st.stopped)) with stream := st, owner := some t }, [.locked t op out])
  | .deliver [] false => some ({ s.setProg t .idle with owner := none }, [.ret t .done])
  | .deliver [] true => s.ringCall t .stop .sealing
  | .deliver (h :: hs) fin =>
    if cfg.wants h then
      match s.ringCall t (.push h false) (.tryPush h hs fin) with
      | none => none
      | some (s, ev) => some (s, .ready t h :: ev)
    else some (s.setProg t (.deliver hs fin), [.ready t h])
  | .retry h hs fin => s.ringCall t (.push h true) (.push h hs fin)
  | p => s.ringAct t (.act t) p

/-- Transitions: thread `t` makes a call, executes its next action, or has an attempt to get a semaphore without blocking fail. -/
inductive RsOp
  | call (t : Nat) (c : RsCall) | act (t : Nat) | fail (t : Nat)
  deriving DecidableEq, Repr

/-- The start of a call. -/
def RsState.start (s : RsState) (t : Nat) : RsCall → Option (RsState × List RsEv)
  | .batch ops => some (s.setProg t (.lock (.batch ops)), [])
  | .flush => some (s.setProg t (.lock .flush), [])
  | .stop => s.ringCall t .stop .stopRing
  | .pop block => s.ringCall t (.pop block) (.pop block)
  | .popLive block => s.ringCall t (.pop block) (.popLive block)

/-- One transition. -/
def RsState.step (cfg : RsConfig) (s : RsState) : RsOp → Option (RsState × List RsEv)
  | .call t c =>
    match s.progs[t]? with
    | some .idle =>
      match s.start t c with
      | none => none
      | some (s, ev) => some (s, .call t c :: ev)
    | _ => some (s, [])
  | .act t =>
    match s.progs[t]? with
    | none => some (s, [])
    | some p => s.actProg cfg t p
  | .fail t =>
    match s.progs[t]? with
    | none => some (s, [])
    | some p => s.ringAct t (.fail t) p

/-- An execution. -/
def RsState.run (cfg : RsConfig) : List RsOp → RsState → Option (RsState × List RsEv)
  | [], s => some (s, [])
  | op :: ops, s =>
    match s.step cfg op with
    | none => none
    | some (s, ev) =>
      match RsState.run cfg ops s with
      | none => none
      | some (s, ev') => some (s, ev ++ ev')

end Spead2
