/-!
# Log messages on their way to Python

Model of `log_function_python` (src/py_common.cpp 136-242, include/spead2/py_common.h 315-339): threads of
the library put messages into a ring without waiting, and a thread of its own passes them to Python's
`logging`.  The ring is a queue with a semaphore for the space (C33-C35); a slot is free again a moment
after its message was taken.  Not modelled: the GIL (while the thread waits for it, it does not go on), the
formatting of messages, exceptions of the Python methods (they are swallowed, line 203).
-/

namespace Spead2.PyLog

/-- `log_level` (include/spead2/common_logging.h 35-40). -/
inductive Level where
  | warning
  | info
  | debug
  deriving DecidableEq

structure Msg where
  level : Level
  text : String
  deriving DecidableEq

/-- `static_cast<unsigned int>(level)` (src/py_common.cpp 198). -/
def Level.idx : Level → Nat
  | .warning => 0
  | .info => 1
  | .debug => 2

/-- `level_methods` (src/py_common.cpp 136-141). -/
def levelMethods : List String := ["warning", "info", "debug"]

/-- The message about lost messages (src/py_common.cpp 181). -/
def overflowText : String := "Log ringbuffer was full - some log messages were dropped"

/-- What is passed to Python: a message, or the message about lost messages. -/
inductive Line where
  | msg (m : Msg)
  | overflow
  deriving DecidableEq

/-- `log` (src/py_common.cpp 194-207): the method that is called and the text. -/
def Line.call : Line → Option String × String
  | .msg m => (levelMethods[m.level.idx]?, m.text)
  | .overflow => (levelMethods[Level.warning.idx]?, overflowText)

/-- The thread: in `ring.pop()`, having a message whose slot is not yet free, logging a message, before
the `k`th pass of the inner loop, at the test of `overflowed`, finished. -/
inductive Pc where
  | pop
  | put (m : Msg) (k : Nat)
  | log (m : Msg) (k : Nat)
  | loop (k : Nat)
  | check
  | ended
  deriving DecidableEq

structure St where
  items : List Msg
  /-- the semaphore for free slots -/
  space : Nat
  stopped : Bool
  overflowed : Bool
  pc : Pc
  /-- calls that found the ring full and have not yet set `overflowed` -/
  late : Nat
  /-- calls that raised an exception -/
  raised : Nat
  /-- what was passed to Python -/
  out : List Line
  /-- history: messages that went into the ring -/
  accepted : List Msg
  /-- history: messages that were dropped -/
  dropped : List Msg
  deriving DecidableEq

/-- The constructor (src/py_common.cpp 143-151). -/
def St.init (cap : Nat) : St :=
  { items := [], space := cap, stopped := false, overflowed := false, pc := .pop, late := 0, raised := 0
    out := [], accepted := [], dropped := [] }

/-- `operator()` up to the exception handler (src/py_common.cpp 209-221): `try_emplace` throws
`ringbuffer_stopped`, which nobody catches, or `ringbuffer_full`. -/
def emit (s : St) (m : Msg) : St :=
  if s.stopped then { s with raised := s.raised + 1 }
  else if s.space = 0 then { s with late := s.late + 1, dropped := s.dropped ++ [m] }
  else { s with space := s.space - 1, items := s.items ++ [m], accepted := s.accepted ++ [m] }

/-- The exception handler (src/py_common.cpp 222-226). -/
def flag (s : St) : St := if s.late = 0 then s else { s with late := s.late - 1, overflowed := true }

/-- The thread goes on (src/py_common.cpp 153-192). -/
def work (s : St) : St :=
  match s.pc with
  | .pop =>
    match s.items with
    | m :: r => { s with items := r, pc := .put m 0 }
    | [] => if s.stopped then { s with pc := .ended } else s
  | .put m k => { s with space := s.space + 1, pc := .log m k }
  | .log m k => { s with out := s.out ++ [.msg m], pc := .loop (k + 1) }
  | .loop k =>
    if k < 1024 then
      match s.items with
      | m :: r => { s with items := r, pc := .put m k }
      | [] => if s.stopped then { s with pc := .ended } else { s with pc := .check }
    else { s with pc := .check }
  | .check =>
    if s.overflowed then { s with overflowed := false, out := s.out ++ [.overflow], pc := .pop }
    else { s with pc := .pop }
  | .ended => s

/-- What can happen next; `stop` is `ring.stop()` in `stop` (src/py_common.cpp 229-241), which then waits for the
thread to finish. -/
inductive Op where
  | emit (m : Msg)
  | flag
  | work
  | stop
  deriving DecidableEq

def step (s : St) : Op → St
  | .emit m => emit s m
  | .flag => flag s
  | .work => work s
  | .stop => { s with stopped := true }

def run : St → List Op → St
  | s, [] => s
  | s, op :: ops => run (step s op) ops

end Spead2.PyLog
