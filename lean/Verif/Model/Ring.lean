/-!
# The ring buffer

Models `ringbuffer_base` and `ringbuffer` (include/spead2/common_ringbuffer.h) with any number of threads, each of which
executes at most one call at a time. A transition is one atomic action of one thread: an operation on a semaphore, or a
critical section of the head or tail mutex. Every access to shared state in the code is inside one of those, so any
execution of the threads is an interleaving of such actions. Semaphores are counters: `get` can be executed only when
the counter is positive, `put` never blocks (for `semaphore_pipe` this holds while the count is below the size of a
pipe). `none` is undefined behaviour: constructing an item in a slot that is in use, reading an empty slot, an index out
of range, or a failed assertion. Exceptions thrown by constructors of items are not modelled.
-/

namespace Spead2

/-- Fields of `ringbuffer_base` and the semaphores of `ringbuffer` (include/spead2/common_ringbuffer.h:145-164 and
384-385). `cap` in the code is the length of `storage`. A slot is `some` while it holds an item (`detail::storage`,
lines 55-86). -/
structure Ring (α : Type) where
  storage : List (Option α)
  head : Nat := 0
  stopPos : Nat
  tail : Nat := 0
  stopped : Bool := false
  producers : Nat := 0
  dataSem : Nat := 0
  spaceSem : Nat

/-- The constructors (lines 266-275 and 485-489). -/
def Ring.new (α : Type) (cap : Nat) : Ring α :=
  { storage := List.replicate (cap + 1) none, stopPos := cap + 1, spaceSem := cap }

/-- `next` (lines 167-173). -/
def Ring.next {α : Type} (r : Ring α) (idx : Nat) : Nat := if idx + 1 = r.storage.length then 0 else idx + 1

/-- `emplace_internal` (lines 288-300); `some none` is the exception `ringbuffer_stopped`. -/
def Ring.emplace {α : Type} (r : Ring α) (v : α) : Option (Option (Ring α)) :=
  if r.stopped then some none
  else
    match r.storage[r.tail]? with
    | some none => some (some { r with storage := r.storage.set r.tail (some v), tail := r.next r.tail })
    | _ => none

/-- `pop_internal` (lines 302-315); `some none` is the exception `ringbuffer_stopped`. -/
def Ring.popInternal {α : Type} (r : Ring α) : Option (Option (α × Ring α)) :=
  if r.stopPos = r.head then some none
  else
    match r.storage[r.head]? with
    | some (some v) => some (some (v, { r with storage := r.storage.set r.head none, head := r.next r.head }))
    | _ => none

/-- `size` (lines 245-254). -/
def Ring.size {α : Type} (r : Ring α) : Nat :=
  if r.head ≤ r.tail then r.tail - r.head else r.tail + r.storage.length - r.head

/-- `~ringbuffer_base` (lines 277-286): the items destroyed, in order. `fuel` bounds the loop, and running out of it
is `none`. -/
def Ring.drain {α : Type} : Nat → Ring α → Option (List α)
  | 0, _ => none
  | fuel + 1, r =>
    if r.head = r.tail then some []
    else
      match r.storage[r.head]? with
      | some (some v) =>
        match Ring.drain fuel { r with storage := r.storage.set r.head none, head := r.next r.head } with
        | none => none
        | some l => some (v :: l)
      | _ => none

/-- The calls that threads make: `push`/`emplace` and `try_push`/`try_emplace` (block or not), `pop` and `try_pop`,
`stop`, `remove_producer`, `add_producer`, `size`. -/
inductive Call (α : Type)
  | push (v : α) (block : Bool) | pop (block : Bool) | stop | removeProducer | addProducer | size
  deriving DecidableEq, Repr

/-- Results: normal return, the item, the three exceptions, the value of `stop`/`remove_producer`, the size. -/
inductive Res (α : Type)
  | ok | value (v : α) | stopped | full | empty | flag (b : Bool) | count (n : Nat)
  deriving DecidableEq, Repr

/-- Where a thread is: the action that it executes next. -/
inductive RPc (α : Type)
  | idle
  | getSpace (v : α) (block : Bool) | emplace (v : α) | putData | backSpace | fullCheck
  | getData (block : Bool) | popInternal | putSpace (v : α) | backData | emptyCheck
  | stopTail (remove : Bool) | stopHead (saved : Nat) | stopSpace | stopData
  | addProducer | size
  deriving DecidableEq, Repr

/-- Events of a history: calls and returns, and the moments in between at which the call takes effect: an item enters or
leaves the buffer, the buffer is closed to producers, the end of the data is made known to consumers, a producer is
registered. -/
inductive REv (α : Type)
  | call (t : Nat) (c : Call α) | ret (t : Nat) (r : Res α)
  | push (t : Nat) (v : α) | pop (t : Nat) (v : α) | close (t : Nat) | seal (t : Nat) | added (t : Nat)
  deriving DecidableEq, Repr

/-- The buffer and its threads. -/
structure RState (α : Type) where
  ring : Ring α
  threads : List (RPc α)

/-- A new buffer and `n` threads. -/
def RState.new (α : Type) (cap n : Nat) : RState α := { ring := Ring.new α cap, threads := List.replicate n .idle }

/-- The first action of a call (lines 492-630). -/
def Call.start {α : Type} : Call α → RPc α
  | .push v block => .getSpace v block
  | .pop block => .getData block
  | .stop => .stopTail false
  | .removeProducer => .stopTail true
  | .addProducer => .addProducer
  | .size => .size

/-- The action of thread `t`, which is at `pc`: the new state of the buffer, where the thread goes, and the events.
Lines: `emplace` 492-508, `try_emplace` 510-530, `push` 532-548, `try_push` 550-566, `pop` 568-585, `try_pop` 587-604,
`stop` 606-617, `remove_producer` 619-630, `stop_internal` 317-340, `throw_empty_or_stopped` 229-237,
`throw_full_or_stopped` 256-264, `add_producer` 342-347. -/
def Ring.act {α : Type} (r : Ring α) (t : Nat) : RPc α → Option (Ring α × RPc α × List (REv α))
  | .idle => some (r, .idle, [])
  | .getSpace v block =>
    if 0 < r.spaceSem then some ({ r with spaceSem := r.spaceSem - 1 }, .emplace v, [])
    else if block then some (r, .getSpace v block, [])
    else some (r, .fullCheck, [])
  | .emplace v =>
    match r.emplace v with
    | none => none
    | some none => some (r, .backSpace, [])
    | some (some r) => some (r, .putData, [.push t v])
  | .putData => some ({ r with dataSem := r.dataSem + 1 }, .idle, [.ret t .ok])
  | .backSpace => some ({ r with spaceSem := r.spaceSem + 1 }, .idle, [.ret t .stopped])
  | .fullCheck => some (r, .idle, [.ret t (if r.stopped then .stopped else .full)])
  | .getData block =>
    if 0 < r.dataSem then some ({ r with dataSem := r.dataSem - 1 }, .popInternal, [])
    else if block then some (r, .getData block, [])
    else some (r, .emptyCheck, [])
  | .popInternal =>
    match r.popInternal with
    | none => none
    | some none => some (r, .backData, [])
    | some (some (v, r)) => some (r, .putSpace v, [.pop t v])
  | .putSpace v => some ({ r with spaceSem := r.spaceSem + 1 }, .idle, [.ret t (.value v)])
  | .backData => some ({ r with dataSem := r.dataSem + 1 }, .idle, [.ret t .stopped])
  | .emptyCheck => some (r, .idle, [.ret t (if r.head = r.stopPos then .stopped else .empty)])
  | .stopTail remove =>
    if remove then
      if r.producers = 0 then none
      else if r.producers - 1 = 0 then some ({ r with producers := r.producers - 1, stopped := true }, .stopHead r.tail, [.close t])
      else some ({ r with producers := r.producers - 1 }, .idle, [.ret t (.flag false)])
    else some ({ r with stopped := true }, .stopHead r.tail, [.close t])
  | .stopHead saved => some ({ r with stopPos := saved }, .stopSpace, [.seal t])
  | .stopSpace => some ({ r with spaceSem := r.spaceSem + 1 }, .stopData, [])
  | .stopData => some ({ r with dataSem := r.dataSem + 1 }, .idle, [.ret t (.flag true)])
  | .addProducer => some ({ r with producers := r.producers + 1 }, .idle, [.added t, .ret t .ok])
  | .size => some (r, .idle, [.ret t (.count r.size)])

/-- A transition: thread `t` makes a call, executes its next action, or has its attempt to get a semaphore without
blocking fail although the semaphore may be available (an interrupted system call, or contention in `semaphore_spin`). -/
inductive RingOp (α : Type)
  | call (t : Nat) (c : Call α) | act (t : Nat) | fail (t : Nat)
  deriving DecidableEq, Repr

/-- One transition. -/
def RState.step {α : Type} (s : RState α) : RingOp α → Option (RState α × List (REv α))
  | .call t c =>
    match s.threads[t]? with
    | some .idle => some ({ s with threads := s.threads.set t c.start }, [.call t c])
    | _ => some (s, [])
  | .act t =>
    match s.threads[t]? with
    | none => some (s, [])
    | some pc =>
      match s.ring.act t pc with
      | none => none
      | some (r, pc, ev) => some ({ ring := r, threads := s.threads.set t pc }, ev)
  | .fail t =>
    match s.threads[t]? with
    | some (.getSpace _ false) => some ({ s with threads := s.threads.set t .fullCheck }, [])
    | some (.getData false) => some ({ s with threads := s.threads.set t .emptyCheck }, [])
    | _ => some (s, [])

/-- An execution. -/
def RState.run {α : Type} : List (RingOp α) → RState α → Option (RState α × List (REv α))
  | [], s => some (s, [])
  | op :: ops, s =>
    match s.step op with
    | none => none
    | some (s, ev) =>
      match RState.run ops s with
      | none => none
      | some (s, ev') => some (s, ev ++ ev')

end Spead2
