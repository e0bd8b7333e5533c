/-!
# Connecting a TCP send stream from Python

`spead2.send.TcpStream(...)` waits for the connection on a semaphore (src/py_send.cpp 686-724); `spead2.send.asyncio.TcpStream.connect` awaits a future that a callback resolves, which
a thread of the pool calls with the GIL (src/py_send.cpp 726-770, src/spead2/send/asyncio.py 145-163).  If the call fails, is cancelled or is interrupted, the stream is destroyed at
once, by a thread that has the GIL (src/send_stream.cpp 92-107).

Simplified: the stream is not used until it was returned; the GIL is a lock that a thread can also give up in between; one thread of the pool is of interest.
-/

namespace Spead2.PyConnect

inductive Thread where
  | main
  | pool
  deriving DecidableEq, Repr

/-- How a call that gives no stream ends. -/
inductive Fail where
  /-- `OSError` -/
  | io (ec : Nat)
  /-- `CancelledError`, or the exception of a signal handler -/
  | cancelled
  deriving DecidableEq, Repr

inductive Main where
  /-- in the event loop, or in `semaphore_get` -/
  | waiting
  /-- in `stream::~stream`, which spins until the writer has gone to sleep (src/send_stream.cpp 100-106) -/
  | destroying (f : Fail)
  | returned
  | raised (f : Fail)
  deriving DecidableEq, Repr

/-- The writer (src/send_tcp.cpp 148-161). -/
inductive Pool where
  /-- `async_connect` is under way -/
  | connecting
  /-- the handler waits for the GIL -/
  | wantGil (ec : Option Nat)
  /-- the Python callback runs; whether it has already called `call_soon_threadsafe` -/
  | callback (ec : Option Nat) (posted : Bool)
  /-- the callback has given up the GIL, for example to write to the event loop's socket, and wants it back -/
  | wantBack (ec : Option Nat) (posted : Bool)
  /-- `wakeup` is next -/
  | wakeup
  /-- `need_wakeup` is set -/
  | asleep
  deriving DecidableEq, Repr

/-- `told`: the error code that was given to the semaphore or the event loop. -/
structure St where
  gil : Option Thread := none
  main : Main := .waiting
  pool : Pool := .connecting
  told : Option (Option Nat) := none
  deriving DecidableEq, Repr

inductive Ev where
  | mainTake
  | mainYield
  /-- the connection is made, or not -/
  | connected (ec : Option Nat)
  | poolTake
  | poolPost
  | poolYield
  | poolEnd
  | poolSleep
  /-- the waiting thread learns the outcome -/
  | mainResult
  /-- the task is cancelled, or a signal handler raises an exception -/
  | cancel
  | destroyed
  deriving DecidableEq, Repr

/-- `sync`: the constructor of `TcpStream`; otherwise `connect` of the asyncio class. -/
def St.step (sync : Bool) (s : St) : Ev → Option St
  | .mainTake => if s.gil = none ∧ s.main = .waiting then some { s with gil := some .main } else none
  | .mainYield => if s.gil = some .main ∧ s.main = .waiting then some { s with gil := none } else none
  | .connected ec =>
    if s.pool = .connecting then
      if sync then some { s with pool := .wakeup, told := some ec } else some { s with pool := .wantGil ec }
    else none
  | .poolTake =>
    if s.gil = none then
      match s.pool with
      | .wantGil ec => some { s with gil := some .pool, pool := .callback ec false }
      | .wantBack ec p => some { s with gil := some .pool, pool := .callback ec p }
      | _ => none
    else none
  | .poolPost =>
    match s.pool with
    | .callback ec false => some { s with pool := .callback ec true, told := some ec }
    | _ => none
  | .poolYield =>
    match s.pool with
    | .callback ec p => some { s with gil := none, pool := .wantBack ec p }
    | _ => none
  | .poolEnd =>
    match s.pool with
    | .callback _ true => some { s with gil := none, pool := .wakeup }
    | _ => none
  | .poolSleep => if s.pool = .wakeup then some { s with pool := .asleep } else none
  | .mainResult =>
    if s.gil = some .main ∧ s.main = .waiting then
      match s.told with
      | some none => some { s with main := .returned, gil := none }
      | some (some e) => some { s with main := .destroying (.io e) }
      | none => none
    else none
  | .cancel => if s.gil = some .main ∧ s.main = .waiting then some { s with main := .destroying .cancelled } else none
  | .destroyed =>
    if s.pool = .asleep then
      match s.main with
      | .destroying f => some { s with main := .raised f, gil := none }
      | _ => none
    else none

def St.run (sync : Bool) : St → List Ev → Option St
  | s, [] => some s
  | s, e :: es => (s.step sync e).bind (fun s => St.run sync s es)

end Spead2.PyConnect
