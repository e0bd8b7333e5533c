/-!
# Semaphores

Models the four implementations of semaphores (include/spead2/common_semaphore.h, src/common_semaphore.cpp) with any number of threads. A transition
is one atomic access to the shared value or one system call of one thread, together with the return that may follow it.

What is trusted: the kernel and the C library. `sem_t`, the number of bytes in a pipe and an `eventfd` in semaphore mode are counters;
`poll` may return although nothing can be read; any system call may be interrupted by a signal. Other failures of system calls, which are turned into
exceptions, are left out, except that a counter may be full. Memory is sequentially consistent.
-/

namespace Spead2

/-- `semaphore_spin`, `semaphore_posix`, `semaphore_pipe`, `semaphore_eventfd`. -/
inductive SemKind
  | spin | posix | pipe | eventfd
  deriving DecidableEq, Repr

/-- Where a thread is. `get1`: load, `sem_wait` or `poll`; `get2`: compare-exchange with `cur` or `read`; likewise for `try_get`, which has no
`poll`. -/
inductive SemPc
  | idle | put | get1 | get2 (cur : Nat) | try1 | try2 (cur : Nat)
  deriving DecidableEq, Repr

/-- What an observer can note down about the calls that have ended: calls of `put`, `get` and `try_get` by their result. -/
structure SemStats where
  putOk : Nat := 0
  putThrow : Nat := 0
  getOk : Nat := 0
  getFail : Nat := 0
  tryOk : Nat := 0
  tryFail : Nat := 0
  deriving DecidableEq, Repr

/-- The semaphore, the threads, and what was observed. -/
structure SemState where
  /-- the value, the number of bytes in the pipe, or the value of the `eventfd` -/
  value : Nat
  pc : Nat → SemPc := fun _ => .idle
  stats : SemStats := {}
  /-- whether the value was 0 at some time since the last call of a thread began (not in the code) -/
  zero : Nat → Bool := fun _ => false
  /-- a call has returned -1 for no good reason (not in the code): `try_get` although the value was not 0 at any time during the call and no system
  call was interrupted, or `get` although no system call was interrupted -/
  spurious : Bool := false

/-- The constructor with an initial value (src/common_semaphore.cpp:43-46, 82-86, 163-186, 298-303; the constructor of
`semaphore_pipe` calls `put` that many times, so it never returns when the pipe cannot hold that many bytes). -/
def SemState.init (n : Nat) : SemState := { value := n }

/-- Thread `t` goes to `p` and leaves the value at `v`. -/
def SemState.go (s : SemState) (t : Nat) (v : Nat) (p : SemPc) : SemState :=
  { s with value := v, pc := fun u => if u = t then p else s.pc u, zero := fun u => s.zero u || decide (v = 0) }

/-- A call of thread `t` begins. -/
def SemState.call (s : SemState) (t : Nat) (p : SemPc) : SemState :=
  { s with
    pc := fun u => if u = t then p else s.pc u
    zero := fun u => if u = t then decide (s.value = 0) else s.zero u }

/-- The call of thread `t` ends with the value at `v`, and is noted down. -/
def SemState.ret (s : SemState) (t : Nat) (v : Nat) (f : SemStats → SemStats) : SemState := { s.go t v .idle with stats := f s.stats }

/-- A call of `put` returned. -/
def SemStats.addPut (a : SemStats) : SemStats := { a with putOk := a.putOk + 1 }
/-- A call of `put` threw an exception. -/
def SemStats.addThrow (a : SemStats) : SemStats := { a with putThrow := a.putThrow + 1 }
/-- A call of `get` returned 0. -/
def SemStats.addGet (a : SemStats) : SemStats := { a with getOk := a.getOk + 1 }
/-- A call of `try_get` returned 0. -/
def SemStats.addTry (a : SemStats) : SemStats := { a with tryOk := a.tryOk + 1 }

/-- A call of `try_get` ends with -1; `i`: a system call was interrupted. -/
def SemState.tryFailed (s : SemState) (t : Nat) (i : Bool) : SemState :=
  { s.ret t s.value (fun a : SemStats => { a with tryFail := a.tryFail + 1 }) with spurious := s.spurious || !(s.zero t || i) }

/-- A call of `get` ends with -1; `i`: a system call was interrupted. -/
def SemState.getFailed (s : SemState) (t : Nat) (i : Bool) : SemState :=
  { s.ret t s.value (fun a : SemStats => { a with getFail := a.getFail + 1 }) with spurious := s.spurious || !i }

/-- The actions. `max` is the greatest value: of `unsigned int` for `spin`, where it wraps around; otherwise of the counter of the kernel. -/
inductive SemStep (k : SemKind) (max : Nat) : SemState → SemState → Prop
  | call (s : SemState) (t : Nat) (p : SemPc) : s.pc t = .idle → p = .put ∨ p = .get1 ∨ p = .try1 → SemStep k max s (s.call t p)
  -- semaphore_spin (src/common_semaphore.cpp:48-76)
  /-- `fetch_add` -/
  | spinPut (s : SemState) (t : Nat) : k = .spin → s.pc t = .put →
      SemStep k max s (s.ret t ((s.value + 1) % (max + 1)) SemStats.addPut)
  /-- `get`: the load before the loop -/
  | spinLoad (s : SemState) (t : Nat) : k = .spin → s.pc t = .get1 → SemStep k max s (s.go t s.value (.get2 s.value))
  /-- `get`: the load in the loop -/
  | spinAgain (s : SemState) (t : Nat) : k = .spin → s.pc t = .get2 0 → SemStep k max s (s.go t s.value (.get2 s.value))
  /-- `get`: `compare_exchange_weak` fails, possibly for no reason -/
  | spinMiss (s : SemState) (t cur : Nat) : k = .spin → s.pc t = .get2 cur → cur ≠ 0 → SemStep k max s (s.go t s.value (.get2 s.value))
  /-- `get`: `compare_exchange_weak` succeeds -/
  | spinGet (s : SemState) (t cur : Nat) : k = .spin → s.pc t = .get2 cur → cur ≠ 0 → s.value = cur →
      SemStep k max s (s.ret t (cur - 1) SemStats.addGet)
  /-- `try_get`: the load -/
  | spinTryLoad (s : SemState) (t : Nat) : k = .spin → s.pc t = .try1 → SemStep k max s (s.go t s.value (.try2 s.value))
  /-- `try_get`: `compare_exchange_strong` succeeds -/
  | spinTry (s : SemState) (t cur : Nat) : k = .spin → s.pc t = .try2 cur → 0 < cur → s.value = cur →
      SemStep k max s (s.ret t (cur - 1) SemStats.addTry)
  /-- `try_get`: it was 0, or `compare_exchange_strong` fails -/
  | spinTryFail (s : SemState) (t cur : Nat) : k = .spin → s.pc t = .try2 cur → ¬ (0 < cur ∧ s.value = cur) →
      SemStep k max s (s.tryFailed t false)
  -- semaphore_posix (src/common_semaphore.cpp:97-129)
  /-- `sem_post` -/
  | posixPut (s : SemState) (t : Nat) : k = .posix → s.pc t = .put → s.value < max → SemStep k max s (s.ret t (s.value + 1) SemStats.addPut)
  /-- `sem_post`: overflow -/
  | posixThrow (s : SemState) (t : Nat) : k = .posix → s.pc t = .put → max ≤ s.value → SemStep k max s (s.ret t s.value SemStats.addThrow)
  /-- `sem_wait` -/
  | posixGet (s : SemState) (t : Nat) : k = .posix → s.pc t = .get1 → 0 < s.value → SemStep k max s (s.ret t (s.value - 1) SemStats.addGet)
  /-- `sem_wait`: interrupted -/
  | posixGetIntr (s : SemState) (t : Nat) : k = .posix → s.pc t = .get1 → SemStep k max s (s.getFailed t true)
  /-- `sem_trywait` -/
  | posixTry (s : SemState) (t : Nat) : k = .posix → s.pc t = .try1 → 0 < s.value → SemStep k max s (s.ret t (s.value - 1) SemStats.addTry)
  /-- `sem_trywait`: `EAGAIN` -/
  | posixTryFail (s : SemState) (t : Nat) : k = .posix → s.pc t = .try1 → s.value = 0 → SemStep k max s (s.tryFailed t false)
  /-- `sem_trywait`: interrupted -/
  | posixTryIntr (s : SemState) (t : Nat) : k = .posix → s.pc t = .try1 → SemStep k max s (s.tryFailed t true)
  -- semaphore_pipe (src/common_semaphore.cpp:201-263)
  /-- `write` of one byte; it blocks while the pipe is full, and is repeated when interrupted -/
  | pipePut (s : SemState) (t : Nat) : k = .pipe → s.pc t = .put → s.value < max → SemStep k max s (s.ret t (s.value + 1) SemStats.addPut)
  -- semaphore_eventfd (src/common_semaphore.cpp:305-364)
  /-- `eventfd_write` -/
  | eventPut (s : SemState) (t : Nat) : k = .eventfd → s.pc t = .put → s.value < max → SemStep k max s (s.ret t (s.value + 1) SemStats.addPut)
  /-- `eventfd_write`: the counter is full, or interrupted (`errno != -1` is always true) -/
  | eventThrow (s : SemState) (t : Nat) : k = .eventfd → s.pc t = .put → SemStep k max s (s.ret t s.value SemStats.addThrow)
  -- both
  /-- `get`: `poll` returns, possibly for no reason -/
  | fdPoll (s : SemState) (t : Nat) : k = .pipe ∨ k = .eventfd → s.pc t = .get1 → SemStep k max s (s.go t s.value (.get2 0))
  /-- `get`: `poll` is interrupted -/
  | fdPollIntr (s : SemState) (t : Nat) : k = .pipe ∨ k = .eventfd → s.pc t = .get1 → SemStep k max s (s.getFailed t true)
  /-- `get`: `read` -/
  | fdGet (s : SemState) (t cur : Nat) : k = .pipe ∨ k = .eventfd → s.pc t = .get2 cur → 0 < s.value →
      SemStep k max s (s.ret t (s.value - 1) SemStats.addGet)
  /-- `get`: `read` returns `EAGAIN` -/
  | fdAgain (s : SemState) (t cur : Nat) : k = .pipe ∨ k = .eventfd → s.pc t = .get2 cur → s.value = 0 → SemStep k max s (s.go t s.value .get1)
  /-- `try_get`: `read` -/
  | fdTry (s : SemState) (t : Nat) : k = .pipe ∨ k = .eventfd → s.pc t = .try1 → 0 < s.value →
      SemStep k max s (s.ret t (s.value - 1) SemStats.addTry)
  /-- `try_get`: `read` returns `EAGAIN` -/
  | fdTryFail (s : SemState) (t : Nat) : k = .pipe ∨ k = .eventfd → s.pc t = .try1 → s.value = 0 →
      SemStep k max s (s.tryFailed t false)
  /-- `try_get`: `eventfd_read` is interrupted -/
  | eventTryIntr (s : SemState) (t : Nat) : k = .eventfd → s.pc t = .try1 → SemStep k max s (s.tryFailed t true)

/-- Finitely many actions. -/
inductive SemSteps (k : SemKind) (max : Nat) : SemState → SemState → Prop
  | refl (s : SemState) : SemSteps k max s s
  | step {s s' s'' : SemState} : SemSteps k max s s' → SemStep k max s' s'' → SemSteps k max s s''

end Spead2
