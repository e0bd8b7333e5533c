/-!
# Thread pools

`thread_pool` (include/spead2/common_thread_pool.h, src/common_thread_pool.cpp) with the parts of `boost::asio::io_context` and `std::async` that it uses: a queue of handlers from which each
thread takes the next one, `run` that returns only when the context is stopped (there is a work guard) or a handler throws, and futures whose `get` and whose destructor wait for the thread.
Simplified: handlers are numbers in the order in which they are posted; timers and descriptors post when they are ready; `stop` is not called by a handler or by two threads at a time;
exceptions are all of type `std::exception`.
-/

namespace Spead2.ThreadPool

/-- A thread: within `io_context::run` without a handler, or with one, or at its end (by an exception or not). -/
inductive Thread where
  | idle | busy (h : Nat) | ended (threw : Bool)
  deriving DecidableEq, Repr

/-- Where the owner of the pool is. -/
inductive Main where
  /-- in the constructor, with so many threads to make -/
  | making (left : Nat)
  /-- `std::async` threw: members are destroyed, and the future with this number is next -/
  | unwinding (i : Nat)
  /-- the constructor threw -/
  | failed
  /-- the pool can be used -/
  | open
  /-- within `stop`, about to wait for the future with this number -/
  | joining (i : Nat)
  /-- `stop` returned -/
  | stopped
  deriving DecidableEq, Repr

/-- `halt` is the flag of the `io_context` that `io_context::stop` sets; `futures` is the vector `workers`; `warned` counts the warnings of `stop`. -/
structure St where
  main : Main
  halt : Bool := false
  queue : List Nat := []
  posted : Nat := 0
  threads : List Thread := []
  futures : List Nat := []
  started : List Nat := []
  ran : List Nat := []
  threw : List Nat := []
  warned : Nat := 0
  deriving DecidableEq, Repr

/-- The check in the constructors (src/common_thread_pool.cpp 63-64, 75-76); `none` is `std::invalid_argument`. -/
def make (n : Int) : Option St := if n < 1 then none else some { main := .making n.toNat }

inductive Ev where
  /-- `std::async` makes a thread, or throws because there are too many -/
  | spawn (ok : Bool)
  /-- the next future is destroyed -/
  | unwind
  /-- anything is posted to the context -/
  | post
  /-- a thread takes a handler -/
  | take (w : Nat)
  /-- a handler returns -/
  | finish (w : Nat)
  /-- a handler throws -/
  | throw (w : Nat)
  /-- `io_context::run` returns in a thread -/
  | leave (w : Nat)
  /-- `stop` is called, or the destructor -/
  | stop
  /-- `stop` goes on -/
  | join
  deriving DecidableEq, Repr

/-- A step of the loop in the constructors (src/common_thread_pool.cpp 66-69, 78-90): after the last thread the constructor returns. -/
def St.spawn (s : St) (left : Nat) (ok : Bool) : St :=
  if ok then
    { s with main := if left = 1 then .open else .making (left - 1), threads := s.threads ++ [.idle], futures := s.futures ++ [s.threads.length] }
  else { s with main := .unwinding 0 }

/-- The destructor of `workers` after a failure in the constructor (include/spead2/common_thread_pool.h 44-51: it comes before that of `work_guard`): that of a future waits for its thread. -/
def St.unwind (s : St) (i : Nat) : Option St :=
  match s.futures[i]? with
  | none => some { s with main := .failed }
  | some w =>
    match s.threads[w]? with
    | some (.ended _) => some { s with main := .unwinding (i + 1) }
    | _ => none

/-- The loop of `stop` (src/common_thread_pool.cpp 117-128). -/
def St.join (s : St) (i : Nat) : Option St :=
  match s.futures[i]? with
  | none => some { s with main := .stopped, futures := [] }
  | some w =>
    match s.threads[w]? with
    | some (.ended t) => some { s with main := .joining (i + 1), warned := if t then s.warned + 1 else s.warned }
    | _ => none

/-- The pool can be used by others: its constructor returned. -/
def Main.public : Main → Bool
  | .open | .joining _ | .stopped => true
  | _ => false

/-- One event; impossible ones give `none`. -/
def St.step (s : St) : Ev → Option St
  | .spawn ok =>
    match s.main with
    | .making (left + 1) => some (s.spawn (left + 1) ok)
    | _ => none
  | .unwind =>
    match s.main with
    | .unwinding i => s.unwind i
    | _ => none
  | .post => if s.main.public then some { s with queue := s.queue ++ [s.posted], posted := s.posted + 1 } else none
  | .take w =>
    match s.threads[w]?, s.queue with
    | some .idle, h :: q => if s.halt then none else some { s with threads := s.threads.set w (.busy h), queue := q, started := s.started ++ [h] }
    | _, _ => none
  | .finish w =>
    match s.threads[w]? with
    | some (.busy h) => some { s with threads := s.threads.set w .idle, ran := s.ran ++ [h] }
    | _ => none
  | .throw w =>
    match s.threads[w]? with
    | some (.busy h) => some { s with threads := s.threads.set w (.ended true), threw := s.threw ++ [h] }
    | _ => none
  | .leave w =>
    match s.threads[w]? with
    | some .idle => if s.halt then some { s with threads := s.threads.set w (.ended false) } else none
    | _ => none
  | .stop =>
    match s.main with
    | .open | .stopped => some { s with main := .joining 0, halt := true }
    | _ => none
  | .join =>
    match s.main with
    | .joining i => s.join i
    | _ => none

/-- The core that a thread is bound to (src/common_thread_pool.cpp 80-88); none if there is no list. -/
def core (affinity : List Int) (i : Nat) : Option Int := affinity[i % affinity.length]?

/-- `set_affinity` (src/common_thread_pool.cpp 93-114) asks for a core only if it fits in a set, which has 1024 on Linux. -/
def bound (c : Int) : Option Nat := if c < 0 ∨ 1024 ≤ c then none else some c.toNat

end Spead2.ThreadPool
