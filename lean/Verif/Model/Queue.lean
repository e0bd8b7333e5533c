import Verif.Model.Ring

/-!
# The unbounded queue

Models `unbounded_queue` (include/spead2/common_unbounded_queue.h), the queue behind in-process transport
(src/common_inproc.cpp), with any number of threads. A transition is one action of one thread: an attempt to get the
semaphore, or a critical section of the mutex. The semaphore is put inside critical sections; a thread that gets it needs
the mutex to go on, so the critical section with its put is one action. `none` is undefined behaviour: the front of an
empty queue, or the failed assertion that the queue was stopped. Exceptions from the allocator are not modelled.
-/

namespace Spead2

/-- Fields of `unbounded_queue` (lines 48-52). -/
structure UQueue (α : Type) where
  sem : Nat := 0
  stopped : Bool := false
  data : List α := []

/-- Calls: `push`/`emplace`, `pop` (block) or `try_pop`, `stop`. -/
inductive UCall (α : Type)
  | push (v : α) | pop (block : Bool) | stop
  deriving DecidableEq, Repr

/-- Where a thread is: the action that it executes next. `tryBody ok` is the critical section of `try_pop` after
`try_get` succeeded or not. -/
inductive UPc (α : Type)
  | idle | push (v : α) | getSem | popBody | tryGet | tryBody (ok : Bool) | stop
  deriving DecidableEq, Repr

/-- The first action of a call. -/
def UCall.start {α : Type} : UCall α → UPc α
  | .push v => .push v
  | .pop true => .getSem
  | .pop false => .tryGet
  | .stop => .stop

/-- The call as it appears in histories, which are those of the ring buffer. -/
def UCall.toCall {α : Type} : UCall α → Call α
  | .push v => .push v true
  | .pop block => .pop block
  | .stop => .stop

/-- `push` and `emplace` (lines 107-126). -/
def UQueue.push {α : Type} (q : UQueue α) (t : Nat) (v : α) : UQueue α × List (REv α) :=
  if q.stopped then (q, [.ret t .stopped])
  else ({ q with data := q.data ++ [v], sem := q.sem + 1 }, [.push t v, .ret t .ok])

/-- What `pop` and `try_pop` do once they have the semaphore (lines 147-157 and 175-184), with `pop_internal` (128-134). -/
def UQueue.take {α : Type} (q : UQueue α) (t : Nat) : Option (UQueue α × List (REv α)) :=
  match q.data with
  | [] => if q.stopped then some ({ q with sem := q.sem + 1 }, [.ret t .stopped]) else none
  | v :: rest => some ({ q with data := rest }, [.pop t v, .ret t (.value v)])

/-- `stop` (lines 187-196). It returns nothing; the flag is that of the ring buffer's `stop`. -/
def UQueue.stop {α : Type} (q : UQueue α) (t : Nat) : UQueue α × List (REv α) :=
  if q.stopped then (q, [.close t, .seal t, .ret t (.flag true)])
  else ({ q with stopped := true, sem := q.sem + 1 }, [.close t, .seal t, .ret t (.flag true)])

/-- The action of thread `t`, which is at `pc`: `push` 107-126, `try_pop` 136-168, `pop` 170-185, `stop` 187-196. -/
def UQueue.act {α : Type} (q : UQueue α) (t : Nat) : UPc α → Option (UQueue α × UPc α × List (REv α))
  | .idle => some (q, .idle, [])
  | .push v => some ((q.push t v).1, .idle, (q.push t v).2)
  | .getSem => if 0 < q.sem then some ({ q with sem := q.sem - 1 }, .popBody, []) else some (q, .getSem, [])
  | .popBody =>
    match q.take t with
    | none => none
    | some (q, ev) => some (q, .idle, ev)
  | .tryGet => if 0 < q.sem then some ({ q with sem := q.sem - 1 }, .tryBody true, []) else some (q, .tryBody false, [])
  | .tryBody true =>
    match q.take t with
    | none => none
    | some (q, ev) => some (q, .idle, ev)
  | .tryBody false =>
    if q.data.isEmpty then some (q, .idle, [.ret t (if q.stopped then .stopped else .empty)])
    else some (q, .tryGet, [])
  | .stop => some ((q.stop t).1, .idle, (q.stop t).2)

/-- A transition: a call, the next action of a thread, or a failed `try_get` although the semaphore may be available. -/
inductive UOp (α : Type)
  | call (t : Nat) (c : UCall α) | act (t : Nat) | fail (t : Nat)
  deriving DecidableEq, Repr

/-- The queue and its threads. -/
structure UState (α : Type) where
  queue : UQueue α
  threads : List (UPc α)

/-- A new queue and `n` threads. -/
def UState.new (α : Type) (n : Nat) : UState α := { queue := {}, threads := List.replicate n .idle }

/-- One transition. -/
def UState.step {α : Type} (s : UState α) : UOp α → Option (UState α × List (REv α))
  | .call t c =>
    match s.threads[t]? with
    | some .idle => some ({ s with threads := s.threads.set t c.start }, [.call t c.toCall])
    | _ => some (s, [])
  | .act t =>
    match s.threads[t]? with
    | none => some (s, [])
    | some pc =>
      match s.queue.act t pc with
      | none => none
      | some (q, pc, ev) => some ({ queue := q, threads := s.threads.set t pc }, ev)
  | .fail t =>
    match s.threads[t]? with
    | some .tryGet => some ({ s with threads := s.threads.set t (.tryBody false) }, [])
    | _ => some (s, [])

/-- An execution. -/
def UState.run {α : Type} : List (UOp α) → UState α → Option (UState α × List (REv α))
  | [], s => some (s, [])
  | op :: ops, s =>
    match s.step op with
    | none => none
    | some (s, ev) =>
      match UState.run ops s with
      | none => none
      | some (s, ev') => some (s, ev ++ ev')

end Spead2
