/-!
# Asynchronous gets and puts of the Python API

Model of `_SemaphoreQueue` (src/spead2/recv/asyncio.py 34-111) together with the part of asyncio it
runs on: futures, the wake-up of a task by its future, and `Task.cancel`.  The queue sits on a
ringbuffer; the callback that is tried on it (`get_nowait`, or `put_nowait` with its chunk) is
abstract here (`Gate`) and given for the two ringbuffer ends below.
-/

namespace Spead2.Aio

/-- What `callback()` does: return a value, raise `exc_class` (`Empty` or `Full`), or raise
`Stopped` (src/spead2/recv/asyncio.py 63-72, 90-98). -/
inductive Try (σ β : Type) where
  | ok (res : σ) (ret : β)
  | blocked
  | stopped

/-- What the queue is attached to: `attempt` is `callback()` (`α` is what the caller passes), `env`
what other threads do to the ringbuffer, `readable` whether the event loop sees the file descriptor
as readable (the semaphore behind it is positive; src/common_semaphore.cpp). -/
structure Gate (σ α β ε : Type) where
  attempt : σ → α → Try σ β
  env : σ → ε → σ
  readable : σ → Bool

/-- `asyncio.Future`, as far as it is used here. -/
inductive Fut (β : Type) where
  | pending
  | result (b : β)
  | exception
  | cancelled
  deriving DecidableEq

/-- `Future.done`. -/
def Fut.done {β : Type} : Fut β → Bool
  | .pending => false
  | _ => true

/-- Where a call of `wait` (src/spead2/recv/asyncio.py 85-111) has got to.  `must` is the flag
`_must_cancel` of its task.  `cancelled` keeps what the call had taken when it was cancelled: no
Python reference to it is left. -/
inductive Phase (β : Type) where
  /-- in `asyncio.sleep(0)` with the value in `ret` (lines 97-100) -/
  | sleeping (b : β) (must : Bool)
  /-- in `await waiter.future` (line 107) -/
  | awaiting (must : Bool)
  | returned (b : β)
  /-- ended with `spead2.Stopped` -/
  | raised
  /-- ended with `asyncio.CancelledError` -/
  | cancelled (lost : Option β)
  deriving DecidableEq

/-- The queue, its calls (numbered in the order they were made; `_Waiter` and its future have the
number of the call), and the ringbuffer.  `isDeque` is false once line 71 has replaced the deque by
a list. -/
structure St (σ α β : Type) where
  res : σ
  waiters : List Nat
  isDeque : Bool
  listening : Bool
  fut : Nat → Fut β
  phase : Nat → Option (Phase β)
  arg : Nat → Option α
  next : Nat

/-- `__init__` (src/spead2/recv/asyncio.py 37-41). -/
def St.init {σ α β : Type} (r : σ) : St σ α β :=
  { res := r, waiters := [], isDeque := true, listening := false, fut := fun _ => .pending
    phase := fun _ => none, arg := fun _ => none, next := 0 }

/-- Assignment to one entry. -/
def put {β : Type} (f : Nat → β) (i : Nat) (b : β) : Nat → β := fun j => if j = i then b else f j

/-- `while self._waiters and self._waiters[0].future.done(): self._waiters.popleft()`
(src/spead2/recv/asyncio.py 55-56): what is left of the queue. -/
def dropDone {β : Type} (fut : Nat → Fut β) : List Nat → List Nat
  | [] => []
  | w :: ws => if (fut w).done then dropDone fut ws else w :: ws

/-- `_clear_done_waiters` (src/spead2/recv/asyncio.py 53-58).  `none` is the `AttributeError` of
`popleft` on a list. -/
def clearDone {σ α β : Type} (s : St σ α β) : Option (St σ α β) :=
  let ws := dropDone s.fut s.waiters
  if ws.length < s.waiters.length ∧ s.isDeque = false then none
  else if ws = [] then some { s with waiters := ws, listening := false }
  else some { s with waiters := ws }

/-- `for waiter in self._waiters: waiter.future.set_exception(e)` (src/spead2/recv/asyncio.py
69-70).  False is the `InvalidStateError` of a future that is done, which ends the loop. -/
def setExceptions {β : Type} : List Nat → (Nat → Fut β) → (Nat → Fut β) × Bool
  | [], fut => (fut, true)
  | w :: ws, fut =>
    if (fut w).done then (fut, false) else setExceptions ws (put fut w .exception)

/-- The `except spead2.Stopped` branch (src/spead2/recv/asyncio.py 68-72).  An `InvalidStateError`
leaves the callback; the event loop logs it and goes on. -/
def stopAll {σ α β : Type} (s : St σ α β) : St σ α β :=
  match setExceptions s.waiters s.fut with
  | (fut, true) => { s with fut := fut, waiters := [], isDeque := false, listening := false }
  | (fut, false) => { s with fut := fut }

/-- The `else` branch (src/spead2/recv/asyncio.py 73-80) for the waiter `w` at the head of the
queue, with `ws` behind it. -/
def serve {σ α β : Type} (s : St σ α β) (w : Nat) (ws : List Nat) (r : σ) (b : β) :
    Option (St σ α β) :=
  if s.isDeque = false then none
  else some { s with res := r, waiters := ws, fut := put s.fut w (.result b), listening := if ws = [] then false else s.listening }

/-- `self._waiters[0].callback()` and what follows (src/spead2/recv/asyncio.py 62-80). -/
def readyWith {σ α β ε : Type} (g : Gate σ α β ε) (s : St σ α β) : Option (St σ α β) :=
  match s.waiters with
  | [] => some s
  | w :: ws =>
    match s.arg w with
    | none => none
    | some a =>
      match g.attempt s.res a with
      | .blocked => some s
      | .stopped => some (stopAll s)
      | .ok r b => serve s w ws r b

/-- `_ready_callback` (src/spead2/recv/asyncio.py 60-83).  The event loop runs it only while it is
registered; it may run it although the descriptor is no longer readable. -/
def ready {σ α β ε : Type} (g : Gate σ α β ε) (s : St σ α β) : Option (St σ α β) :=
  if s.listening then (clearDone s).bind (readyWith g) else some s

/-- Lines 102-106 of `wait`: a new waiter. -/
def enqueue {σ α β : Type} (s : St σ α β) : St σ α β :=
  { s with waiters := s.waiters ++ [s.next], listening := true, fut := put s.fut s.next .pending, phase := put s.phase s.next (some (.awaiting false)), next := s.next + 1 }

/-- Lines 87-106 of `wait`. -/
def waitFrom {σ α β ε : Type} (g : Gate σ α β ε) (s : St σ α β) (a : α) : St σ α β :=
  if s.waiters = [] then
    match g.attempt s.res a with
    | .blocked => enqueue s
    | .stopped => { s with phase := put s.phase s.next (some .raised), next := s.next + 1 }
    | .ok r b => { s with res := r, phase := put s.phase s.next (some (.sleeping b false)), next := s.next + 1 }
  else enqueue s

/-- A call of `wait` (src/spead2/recv/asyncio.py 85-107) up to its first suspension. -/
def call {σ α β ε : Type} (g : Gate σ α β ε) (s : St σ α β) (a : α) : Option (St σ α β) :=
  (clearDone s).map fun s => waitFrom g { s with arg := put s.arg s.next (some a) } a

/-- `Task.cancel` (asyncio/tasks.py): if the task waits for a future that can be cancelled, the
future is cancelled; otherwise `_must_cancel` is set.  A task that has not been resumed since its
future was done still waits for it. -/
def cancel {σ α β : Type} (s : St σ α β) (i : Nat) : St σ α β :=
  match s.phase i with
  | some (.sleeping b _) => { s with phase := put s.phase i (some (.sleeping b true)) }
  | some (.awaiting m) =>
    if (s.fut i).done then { s with phase := put s.phase i (some (.awaiting true)) }
    else { s with fut := put s.fut i .cancelled, phase := put s.phase i (some (.awaiting m)) }
  | _ => s

/-- How `await waiter.future` ends (src/spead2/recv/asyncio.py 106-111): `_must_cancel` raises
`CancelledError` whatever the future holds. -/
def wake {β : Type} (f : Fut β) (must : Bool) : Phase β :=
  match f, must with
  | .result b, false => .returned b
  | .result b, true => .cancelled (some b)
  | .exception, false => .raised
  | .exception, true => .cancelled none
  | .cancelled, _ => .cancelled none
  | .pending, m => .awaiting m

/-- The event loop runs the task of a call again. -/
def resume {σ α β : Type} (s : St σ α β) (i : Nat) : St σ α β :=
  match s.phase i with
  | some (.sleeping b false) => { s with phase := put s.phase i (some (.returned b)) }
  | some (.sleeping b true) => { s with phase := put s.phase i (some (.cancelled (some b))) }
  | some (.awaiting m) => { s with phase := put s.phase i (some (wake (s.fut i) m)) }
  | _ => s

/-- What can happen next. -/
inductive Op (α ε : Type) where
  /-- a call of `get` or `put` -/
  | call (a : α)
  /-- the event loop runs the callback of the file descriptor -/
  | ready
  /-- the task of a call is cancelled -/
  | cancel (i : Nat)
  /-- the event loop runs the task of a call -/
  | resume (i : Nat)
  /-- other threads use the ringbuffer -/
  | env (e : ε)

/-- One step. -/
def step {σ α β ε : Type} (g : Gate σ α β ε) (s : St σ α β) : Op α ε → Option (St σ α β)
  | .call a => call g s a
  | .ready => ready g s
  | .cancel i => some (cancel s i)
  | .resume i => some (resume s i)
  | .env e => some { s with res := g.env s.res e }

/-- A history. -/
def run {σ α β ε : Type} (g : Gate σ α β ε) : St σ α β → List (Op α ε) → Option (St σ α β)
  | s, [] => some s
  | s, op :: ops => (step g s op).bind fun s => run g s ops

/-! ## The consumer's end of a ringbuffer -/

/-- A ringbuffer as seen from Python threads: what is in it and whether it is stopped
(include/spead2/common_ringbuffer.h).  The capacity is left out: a producer that waits for space
has not pushed yet. -/
structure GetRing (H : Type) where
  items : List H
  stopped : Bool

/-- `get_nowait` (src/py_recv.cpp 314-317; include/spead2/common_ringbuffer.h 587-604): what is in a
stopped ringbuffer can still be taken. -/
def getNowait {H : Type} (r : GetRing H) : Try (GetRing H) H :=
  match r.items with
  | h :: hs => .ok { r with items := hs } h
  | [] => if r.stopped then .stopped else .blocked

/-- The other threads at a ringbuffer that is read through a queue. -/
inductive GetEnv (H : Type) where
  | push (h : H)
  | stop

/-- A push (which a stopped ringbuffer refuses: include/spead2/common_ringbuffer.h 289-297) and
`stop` (315-340). -/
def getEnv {H : Type} (r : GetRing H) : GetEnv H → GetRing H
  | .push h => if r.stopped then r else { r with items := r.items ++ [h] }
  | .stop => { r with stopped := true }

/-- `Stream.get` and `ChunkRingbuffer.get` (src/spead2/recv/asyncio.py 133-135, 161-169).  The data
semaphore is positive when there is something in the ringbuffer or it is stopped. -/
def getGate (H : Type) : Gate (GetRing H) Unit H (GetEnv H) where
  attempt r _ := getNowait r
  env := getEnv
  readable r := !r.items.isEmpty || r.stopped

/-! ## The producer's end -/

/-- A ringbuffer of chunks that is written through a queue.  `out` is what consumers have taken. -/
structure PutRing (H : Type) where
  items : List H
  cap : Nat
  stopped : Bool
  out : List H

/-- `put_nowait` (src/py_recv.cpp 391-410, 870-878; include/spead2/common_ringbuffer.h 551-566). -/
def putNowait {H : Type} (r : PutRing H) (h : H) : Try (PutRing H) Unit :=
  if r.stopped then .stopped
  else if r.items.length < r.cap then .ok { r with items := r.items ++ [h] } ()
  else .blocked

/-- The other threads at a ringbuffer that is written through a queue. -/
inductive PutEnv where
  | pop
  | stop

/-- A pop (include/spead2/common_ringbuffer.h 569-604) and `stop` (315-340). -/
def putEnv {H : Type} (r : PutRing H) : PutEnv → PutRing H
  | .pop => match r.items with
    | [] => r
    | h :: hs => { r with items := hs, out := r.out ++ [h] }
  | .stop => { r with stopped := true }

/-- `ChunkRingbuffer.put` (src/spead2/recv/asyncio.py 171-179).  The space semaphore is positive
when there is space or the ringbuffer is stopped. -/
def putGate (H : Type) : Gate (PutRing H) H Unit PutEnv where
  attempt := putNowait
  env := putEnv
  readable r := decide (r.items.length < r.cap) || r.stopped

end Spead2.Aio
