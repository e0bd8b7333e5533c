/-!
# The exit of a Python program

Objects of the Python module that have threads, or leave work with threads: thread pools, receive streams, send streams and the logger.  All but send streams are registered in
a list (`exit_stopper`, include/spead2/py_common.h 249-280, src/py_common.cpp 46-76) that a function registered with `atexit` works off; after that the interpreter destroys
the objects that are left.

Simplified: a call that stops or destroys an object is one event, and not possible as long as the call would block.  What a pool's threads do for a stream is one event, and is
possible only until the pool is stopped.  Members and groups of chunk streams are stopped together (src/recv_chunk_stream_group.cpp 244-247): a group counts as one stream.
-/

namespace Spead2.PyExit

inductive Kind where
  /-- `log_function_python` (include/spead2/py_common.h 315-339) -/
  | log
  /-- `thread_pool_wrapper` (include/spead2/py_common.h 272-282) -/
  | pool
  /-- `ring_stream_wrapper` and the classes made by `EXIT_STOPPER_WRAPPER` (src/py_recv.cpp 272-343, 415-441), with a pool -/
  | recv (p : Nat)
  /-- the send streams of src/py_send.cpp, with a pool; they have no `exit_stopper` -/
  | send (p : Nat)
  deriving DecidableEq, Repr

/-- The pool that the threads of an object come from. -/
def Kind.pool? : Kind → Option Nat
  | .recv p | .send p => some p
  | _ => none

structure Obj where
  kind : Kind
  alive : Bool := true
  /-- `stop` was called -/
  stopped : Bool := false
  /-- of a receive stream: a thread of the pool is in a handler, and waits for space in the ring -/
  blocked : Bool := false
  /-- of a send stream: heaps that were not yet reported (`queue_tail - queue_head`) -/
  queued : Nat := 0
  /-- of a send stream: `!need_wakeup`; the writer has posted a call of `wakeup`, set a timer, or waits for a socket -/
  pending : Bool := false
  deriving DecidableEq, Repr

/-- Objects in the order of their creation, `stop_entries` with its front first, and whether the interpreter is exiting.  The logger is made when the module is imported
(src/py_register.cpp 29, src/py_common.cpp 382-388). -/
structure St where
  objs : List Obj := [{ kind := .log }]
  entries : List Nat := [0]
  exiting : Bool := false
  deriving DecidableEq, Repr

inductive Ev where
  | newPool
  | newRecv (p : Nat)
  | newSend (p : Nat)
  /-- the program calls `stop` -/
  | stop (o : Nat)
  /-- the last reference to an object goes away, because of the program or, after `atexit`, of the interpreter; its destructor runs -/
  | destroy (o : Nat)
  /-- the program sends a heap -/
  | send (o : Nat)
  /-- a thread of the pool: a handler of a receive stream has to wait for space; it does not have to any more -/
  | block (o : Nat)
  | unblock (o : Nat)
  /-- a thread of the pool: the writer of a send stream is woken, and reports `n` heaps; `again`: it leaves something with the I/O context, otherwise it asks to be woken -/
  | work (o n : Nat) (again : Bool)
  /-- the interpreter starts to exit -/
  | exit
  /-- one iteration of `run_exit_stoppers` (src/py_common.cpp 53-56) -/
  | stopper
  deriving DecidableEq, Repr

def St.set (s : St) (o : Nat) (x : Obj) : St := { s with objs := s.objs.set o x }

/-- The constructor; `exit_stopper` puts an entry at the front (src/py_common.cpp 64-67). -/
def St.add (s : St) (k : Kind) : St :=
  { s with
    objs := s.objs ++ [{ kind := k }]
    entries := match k with | .send _ => s.entries | _ => s.objs.length :: s.entries }

/-- `exit_stopper::reset` (src/py_common.cpp 69-76). -/
def St.reset (s : St) (o : Nat) : St := { s with entries := s.entries.erase o }

/-- The pool has threads that run handlers. -/
def St.running (s : St) (p : Nat) : Bool :=
  match s.objs[p]? with
  | some x => x.kind == .pool && !x.stopped
  | none => false

/-- A thread of the pool is in a handler that does not return. -/
def St.busy (s : St) (p : Nat) : Bool := s.objs.any (fun x => x.kind == .recv p && x.blocked)

/-- Whether an object exists that uses a pool. -/
def St.used (s : St) (p : Nat) : Bool := s.objs.any (fun x => x.alive && x.kind.pool? == some p)

/-- `stop` of the classes (src/py_common.cpp 118-123, 229-240, src/py_recv.cpp 331-336, 428-433).  A pool waits for its threads (src/common_thread_pool.cpp 119-134); a receive
stream stops its ring first, which ends a wait for space (include/spead2/recv_ring_stream.h). -/
def stopObj (s : St) (o : Nat) : Option St :=
  match s.objs[o]? with
  | none => none
  | some x =>
    match x.kind with
    | .log => some ((s.set o { x with stopped := true }).reset o)
    | .pool => if s.busy o then none else some ((s.set o { x with stopped := true }).reset o)
    | .recv _ => some ((s.set o { x with stopped := true, blocked := false }).reset o)
    | .send _ => none

/-- The destructors: those of pools and receive streams stop them (src/py_common.cpp 113-116, src/py_recv.cpp 338-341); that of a send stream waits until its queue is empty and
its writer has asked to be woken (src/send_stream.cpp 92-107); the logger is destroyed at the end of `run_exit_stoppers` (src/py_common.cpp 57-59).  A stream has a reference
to its pool (include/spead2/common_thread_pool.h 85-117). -/
def destroyObj (s : St) (o : Nat) : Option St :=
  match s.objs[o]? with
  | none => none
  | some x =>
    if x.alive then
      match x.kind with
      | .log => if s.exiting && s.entries.isEmpty then some (s.set o { x with alive := false }) else none
      | .pool => if s.used o || s.busy o then none else some ((s.set o { x with alive := false, stopped := true }).reset o)
      | .recv _ => some ((s.set o { x with alive := false, stopped := true, blocked := false }).reset o)
      | .send _ => if x.queued = 0 ∧ x.pending = false then some (s.set o { x with alive := false }) else none
    else none

/-- A new stream on a pool that exists. -/
def St.onPool (s : St) (p : Nat) (k : Kind) : Option St :=
  match s.objs[p]? with
  | some x => if x.kind = .pool ∧ x.alive ∧ s.exiting = false then some (s.add k) else none
  | none => none

/-- One event. -/
def step (s : St) : Ev → Option St
  | .newPool => if s.exiting then none else some (s.add .pool)
  | .newRecv p => s.onPool p (.recv p)
  | .newSend p => s.onPool p (.send p)
  | .stop o =>
    match s.objs[o]? with
    | some x => if s.exiting || !x.alive || x.kind == .log then none else stopObj s o
    | none => none
  | .destroy o => if s.exiting && !s.entries.isEmpty then none else destroyObj s o
  | .send o =>
    -- include/spead2/send_stream.h 388-399
    match s.objs[o]? with
    | some x =>
      match x.kind with
      | .send _ => if s.exiting || !x.alive then none else some (s.set o { x with queued := x.queued + 1, pending := true })
      | _ => none
    | none => none
  | .block o =>
    match s.objs[o]? with
    | some x =>
      match x.kind with
      | .recv p => if s.running p && x.alive && !x.stopped then some (s.set o { x with blocked := true }) else none
      | _ => none
    | none => none
  | .unblock o =>
    match s.objs[o]? with
    | some x => if x.blocked then some (s.set o { x with blocked := false }) else none
    | none => none
  | .work o n again =>
    -- src/send_writer.cpp 200-305
    match s.objs[o]? with
    | some x =>
      match x.kind with
      | .send p =>
        if s.running p && x.alive && x.pending && decide (n ≤ x.queued) && (again || n == x.queued) then some (s.set o { x with queued := x.queued - n, pending := again }) else none
      | _ => none
    | none => none
  | .exit => if s.exiting then none else some { s with exiting := true }
  | .stopper =>
    match s.entries with
    | o :: _ => if s.exiting then stopObj s o else none
    | [] => none

/-- A history. -/
def run : St → List Ev → Option St
  | s, [] => some s
  | s, e :: es => (step s e).bind (fun s => run s es)

end Spead2.PyExit
