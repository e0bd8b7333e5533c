/-!
# Asynchronous sends from Python

Model of `asyncio_stream_wrapper` (src/py_send.cpp 243-395) and of the class made by `_wrap_class`
(src/spead2/send/asyncio.py 39-104), with the event loop's watch on the file descriptor.  Sends are
numbered in the order in which they are made.  Threads of the thread pool run `handler`, which locks
a mutex and then possibly raises a semaphore: two steps.
-/

namespace Spead2.AioSend

/-- How a send ended, as `handler` is told (src/py_send.cpp 255-256). -/
inductive Outcome where
  | sent (bytes : Nat)
  | error (ec : Nat)
  deriving DecidableEq, Repr

/-- The future that the user has. -/
inductive Fut where
  | pending
  | done (o : Outcome)
  | cancelled
  deriving DecidableEq, Repr

/-- `Future.done`. -/
def Fut.isDone : Fut → Bool
  | .pending => false
  | _ => true

/-- The stream object. -/
structure St where
  /-- number of sends so far -/
  n : Nat
  /-- whether the stream accepted send `i` (the result of `async_send_heap`) -/
  queued : Nat → Bool
  /-- accepted sends whose handler has not run, in order -/
  pipeline : List Nat
  /-- refused sends whose handler has been posted and has not run -/
  rejected : List Nat
  /-- threads in `handler` between lines 263 and 265 -/
  putting : Nat
  /-- the semaphore -/
  sem : Nat
  /-- `callbacks` -/
  callbacks : List (Nat × Outcome)
  /-- `process_callbacks` is between lines 343 and 347 -/
  taking : Bool
  /-- `_active` -/
  active : Int
  /-- whether the event loop watches the descriptor -/
  reader : Bool
  /-- `_last_queued_future` -/
  last : Option Nat
  fut : Nat → Fut
  /-- how often the callback of a send has been called -/
  ran : Nat → Nat
  /-- whether the references to the heap and the callback are held -/
  held : Nat → Bool

/-- A new stream (src/spead2/send/asyncio.py 41-44). -/
def St.init : St :=
  { n := 0, queued := fun _ => false, pipeline := [], rejected := [], putting := 0, sem := 0
    callbacks := [], taking := false, active := 0, reader := false, last := none
    fut := fun _ => .pending, ran := fun _ => 0, held := fun _ => false }

/-- Assignment to one entry. -/
def upd {γ : Type} (f : Nat → γ) (i : Nat) (b : γ) : Nat → γ := fun j => if j = i then b else f j

/-- `_async_send` (src/spead2/send/asyncio.py 46-66) on `async_send_heap_obj` (src/py_send.cpp
273-300), which takes the references and hands the heap to the stream.  The stream accepts it or
posts the handler with an error (C38). -/
def send (s : St) (accepted : Bool) : St :=
  { s with n := s.n + 1, queued := upd s.queued s.n accepted, pipeline := if accepted then s.pipeline ++ [s.n] else s.pipeline, rejected := if accepted then s.rejected else s.rejected ++ [s.n], held := upd s.held s.n true, reader := if s.active = 0 then true else s.reader, active := s.active + 1, last := if accepted then some s.n else s.last }

/-- The locked part of `handler` (src/py_send.cpp 258-263). -/
def push (s : St) (i : Nat) (o : Outcome) : St :=
  { s with callbacks := s.callbacks ++ [(i, o)], putting := if s.callbacks = [] then s.putting + 1 else s.putting }

/-- The handler of the oldest accepted send: the stream calls them in order (C39). -/
def complete (s : St) (o : Outcome) : St :=
  match s.pipeline with
  | [] => s
  | i :: rest => push { s with pipeline := rest } i o

/-- The handler of a refused send, on any thread at any time. -/
def refuse (s : St) (i : Nat) (ec : Nat) : St :=
  if i ∈ s.rejected then push { s with rejected := s.rejected.erase i } i (.error ec) else s

/-- `sem.put()` in `handler` (src/py_send.cpp 264-265). -/
def semPut (s : St) : St :=
  match s.putting with
  | 0 => s
  | k + 1 => { s with putting := k, sem := s.sem + 1 }

/-- The event loop finds the descriptor readable and calls `process_callbacks`, which takes the
semaphore (src/py_send.cpp 343). -/
def poll (s : St) : St :=
  match s.sem with
  | 0 => s
  | k + 1 => if s.reader ∧ s.taking = false then { s with sem := k, taking := true } else s

/-- `_set_result` and `_set_exception` (src/spead2/send/asyncio.py 29-36). -/
def resolve (f : Fut) (o : Outcome) : Fut :=
  if f.isDone then f else .done o

/-- One item of `process_callbacks` (src/py_send.cpp 351-363): drop the references and call
`callback` (src/spead2/send/asyncio.py 50-58). -/
def runCallback (s : St) (i : Nat) (o : Outcome) : St :=
  { s with fut := upd s.fut i (resolve (s.fut i) o), ran := upd s.ran i (s.ran i + 1), held := upd s.held i false, active := s.active - 1, reader := if s.active - 1 = 0 then false else s.reader, last := if s.active - 1 = 0 then none else s.last }

/-- The loop over the items. -/
def runCallbacks : St → List (Nat × Outcome) → St
  | s, [] => s
  | s, (i, o) :: rest => runCallbacks (runCallback s i o) rest

/-- The rest of `process_callbacks` (src/py_send.cpp 344-364).  Nothing that the callbacks use is
shared with the threads of `handler`, so that swap and loop are one step. -/
def process (s : St) : St :=
  if s.taking then runCallbacks { s with taking := false, callbacks := [] } s.callbacks else s

/-- The user cancels the future of a send (`asyncio.wait_for` does when its time is up). -/
def cancel (s : St) (i : Nat) : St :=
  if (s.fut i).isDone then s else { s with fut := upd s.fut i .cancelled }

/-- What can happen next. -/
inductive Op where
  | send (accepted : Bool)
  | complete (o : Outcome)
  | refuse (i : Nat) (ec : Nat)
  | semPut
  | poll
  | process
  | cancel (i : Nat)

/-- One step.  Only sends that were made can be cancelled. -/
def step (s : St) : Op → St
  | .send a => send s a
  | .complete o => complete s o
  | .refuse i ec => refuse s i ec
  | .semPut => semPut s
  | .poll => poll s
  | .process => process s
  | .cancel i => if i < s.n then cancel s i else s

/-- A history. -/
def run : St → List Op → St
  | s, [] => s
  | s, op :: ops => run (step s op) ops

/-- What `async_flush` waits for (src/spead2/send/asyncio.py 94-101): nothing, or the future of a
send to be done. -/
def flushTarget (s : St) : Option Nat := s.last

end Spead2.AioSend
