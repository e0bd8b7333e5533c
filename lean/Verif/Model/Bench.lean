/-!
# spead2_bench

The benchmark tool (src/spead2_bench.cpp): the class that sends the heaps of one measurement, the search for the highest rate at which no heaps are lost, and the agent that
receives.  Simplified: the stream below the sender reports heaps in the order in which it was given them (C39), rates are rational numbers instead of `double`, and the
measurements are answers from outside.
-/

namespace Spead2.Bench

/-! ## The sender -/

/-- `heaps.size()`, `max_heaps` (src/spead2_bench.cpp 269), and how many heaps the stream has space for. -/
structure SendCfg where
  n : Nat
  w : Nat
  cap : Nat
  deriving DecidableEq, Repr

/-- The constructor (src/spead2_bench.cpp 267-271): the queue of the stream is as long as the option `--max-heaps` says (src/spead2_cmdline.h). -/
def SendCfg.make (n maxHeaps : Nat) : SendCfg := { n := n, w := min maxHeaps n, cap := maxHeaps }

/-- An error code is `none` for success. -/
structure SendSt where
  /-- with the stream, oldest first -/
  queue : List Nat := []
  /-- callbacks that the stream will call because it had no space -/
  refused : List Nat := []
  /-- calls of `async_send_heap` so far -/
  sent : List Nat := []
  bytes : Nat := 0
  error : Option Nat := none
  /-- `done_sem` -/
  puts : Nat := 0
  started : Bool := false
  deriving DecidableEq, Repr

/-- The error for a full queue (include/spead2/send_stream.h 288-296). -/
def wouldBlock : Nat := 11

def SendSt.send (c : SendCfg) (s : SendSt) (i : Nat) : SendSt :=
  if s.queue.length < c.cap then { s with sent := s.sent ++ [i], queue := s.queue ++ [i] }
  else { s with sent := s.sent ++ [i], refused := s.refused ++ [i] }

/-- `sender::callback` (src/spead2_bench.cpp 273-286). -/
def SendSt.callback (c : SendCfg) (s : SendSt) (i : Nat) (ec : Option Nat) (bytes : Nat) : SendSt :=
  let s := { s with bytes := s.bytes + bytes, error := s.error.or ec }
  if s.error = none ∧ i + c.w < c.n then s.send c (i + c.w)
  else { s with puts := s.puts + 1 }

/-- The loop of the posted function (src/spead2_bench.cpp 295-299). -/
def SendSt.sendFirst (c : SendCfg) (s : SendSt) : SendSt := (List.range c.w).foldl (SendSt.send c) s

inductive SendEv where
  /-- the posted function runs -/
  | start
  /-- the stream reports its oldest heap -/
  | done (ec : Option Nat) (bytes : Nat)
  /-- the stream reports a heap that it had no space for -/
  | refuse
  deriving DecidableEq, Repr

def SendSt.step (c : SendCfg) (s : SendSt) : SendEv → Option SendSt
  | .start => if s.started then none else some ({ s with started := true }.sendFirst c)
  | .done ec bytes =>
    match s.queue with
    | i :: q => some ({ s with queue := q }.callback c i ec bytes)
    | [] => none
  | .refuse =>
    match s.refused with
    | i :: q => some ({ s with refused := q }.callback c i (some wouldBlock) 0)
    | [] => none

def SendSt.run (c : SendCfg) : SendSt → List SendEv → Option SendSt
  | s, [] => some s
  | s, e :: es => (s.step c e).bind (fun s => SendSt.run c s es)

/-- What `run` returns or throws, once the semaphore was signalled `max_heaps` times (src/spead2_bench.cpp 300-304). -/
def SendSt.result (c : SendCfg) (s : SendSt) : Option (Except Nat Nat) :=
  if s.puts < c.w then none
  else match s.error with
    | some e => some (.error e)
    | none => some (.ok s.bytes)

/-! ## The search -/

/-- `low`, `high` and `best_actual` (src/spead2_bench.cpp 420, 439-440). -/
structure Search where
  low : Rat := 0
  high : Rat
  best : Rat := 0
  deriving DecidableEq, Repr

/-- The condition of the loop (src/spead2_bench.cpp 441). -/
def Search.go (s : Search) : Bool := decide (s.high * (2 / 100) < s.high - s.low)

/-- The rate that is tried (src/spead2_bench.cpp 445). -/
def Search.rate (s : Search) : Rat := (s.low + s.high) * (1 / 2)

/-- The number of heaps with data of a measurement (src/spead2_bench.cpp 446). -/
def numHeaps (rate : Rat) (heapSize : Nat) : Int := ((max 1000000000 rate) / heapSize).floor + 2

/-- One iteration; a measurement tells whether enough heaps were received, and the rate at which they were sent (src/spead2_bench.cpp 447-457). -/
def Search.step (s : Search) (good : Bool) (actual : Rat) : Search :=
  if good then { s with low := s.rate, best := actual } else { s with high := s.rate }

/-- The loop with the given measurements. -/
def Search.run : Search → List (Bool × Rat) → Search
  | s, [] => s
  | s, (good, actual) :: ms => if s.go then Search.run (s.step good actual) ms else s

/-- `measure_connection` (src/spead2_bench.cpp 400-415): good if all passes were. -/
def measure (passes : List (Bool × Rat)) : Bool × Rat := (passes.all (·.1), (passes.map (·.2)).sum / passes.length)

/-! ## The agent -/

/-- Which of the classes for connections is used (src/spead2_bench.cpp 502-555, 605-608). -/
inductive Mode where
  | ring
  | callback
  deriving DecidableEq, Repr

inductive Answer where
  | ready
  | heaps
  deriving DecidableEq, Repr

/-- How the service of one master ends: the next one is accepted; the process is terminated; or a thread uses a stream that another one destroys. -/
inductive End where
  | served
  | terminated
  | undefined
  deriving DecidableEq, Repr

/-- The lines of the configuration, and the rest (src/spead2_bench.cpp 581-588): reading ends at `end_config` or with the connection
(the blank line that the code adds in the second case is left out). -/
def readConfig : List String → List String × List String
  | [] => ([], [])
  | l :: ls => if l = "end_config" then ([], ls) else (l :: (readConfig ls).1, (readConfig ls).2)

theorem readConfig_le (ls : List String) : (readConfig ls).2.length ≤ ls.length := by
  induction ls with
  | nil => simp [readConfig]
  | cons l ls ih =>
    simp only [readConfig]
    split
    · simp
    · simp; omega

/-- The end of the scope of `connection` (src/spead2_bench.cpp 572): a stream that was not stopped is destroyed.  `recv_connection_ring` has a `std::thread` that was not joined, so
`std::terminate` is called; the stream of `recv_connection_callback` has virtual functions that the threads of the pool still call, since its class does not stop it in its
destructor. -/
def leave : Option Mode → End
  | none => .served
  | some .ring => .terminated
  | some .callback => .undefined

/-- The service of one master (src/spead2_bench.cpp 573-629), from the lines that it sends until it closes the connection.  `parse` is what the options of a configuration say about
the class to use; `none`: an exception, which is not caught. -/
def serve (parse : List String → Option Mode) (lines : List String) (conn : Option Mode) : List Answer × End :=
  match lines with
  | [] => ([], leave conn)
  | l :: ls =>
    if l = "start" then
      match conn with
      | some m => serve parse (readConfig ls).2 (some m)
      | none =>
        match parse (readConfig ls).1 with
        | none => ([], .terminated)
        | some m => (.ready :: (serve parse (readConfig ls).2 (some m)).1, (serve parse (readConfig ls).2 (some m)).2)
    else if l = "stop" then
      match conn with
      | none => serve parse ls none
      | some _ => (.heaps :: (serve parse ls none).1, (serve parse ls none).2)
    else if l = "exit" then ([], leave conn)
    else serve parse ls conn
termination_by lines.length
decreasing_by
  all_goals simp_wf
  all_goals first
    | (have := readConfig_le ls; omega)
    | omega

end Spead2.Bench
