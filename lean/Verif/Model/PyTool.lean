import Verif.Model.PyGroup

/-!
# `send_asyncio.py`: the sender of the Python package

`run` (src/spead2/tools/send_asyncio.py 86-125): a loop over the data heaps and one end-of-stream heap for each destination, with a window of `max_heaps` futures.  The item group
and its heap generator are those of `Model/PyGroup`.  Of the stream only what the program sees is modelled: a bounded queue whose heaps are completed in order (C38, C39), and
futures that are resolved when a heap is completed, or when it was rejected because the queue is full (C76).  Not modelled: the time and rate that are printed, `KeyboardInterrupt`.
-/

namespace Spead2.PyTool

/-- What the program gets from the command line (src/spead2/tools/send_asyncio.py 33-83), and the item group that `async_main` makes (133-144).  `subs` is `stream.num_substreams`, which
is the number of destinations (src/send_udp.cpp; one with TCP, for which `get_args` rejects more than one destination, lines 81-82). -/
structure Cfg (D V R : Type) where
  /-- `--heaps`, or `none` for an endless stream -/
  heaps : Option Nat
  dests : Nat
  /-- `--max-heaps`, also the capacity of the stream (src/spead2/tools/cmdline.py 371-379) -/
  maxHeaps : Nat
  /-- `--descriptors` -/
  freq : Option Nat
  group : PyGroup D V
  enc : D → V → R

/-- Exceptions of a future: the queue was full, or an error of the network; and that of `popleft` with an empty `deque`. -/
inductive Err where
  | wouldBlock | io (code : Nat) | indexError
  deriving DecidableEq, Repr

/-- A heap that was made: by `get_heap` or by `get_end`. -/
inductive Made (D R : Type) where
  | data (h : PyHeap D R)
  | final
  deriving DecidableEq, Repr

/-- Where the program is: at the top of the loop, after the window was checked, in the second loop, at its end. -/
inductive Phase where
  | top | make | drain | finished
  deriving DecidableEq, Repr

/-- A future's result. -/
abbrev Outcome := Except Err Nat

/-- The program's variables, the queue of the stream, the results of the futures, and what was passed to `async_send_heap`, with the substream. -/
structure St (D R : Type) where
  i : Nat := 0
  gen : PyGen
  tasks : List Nat := []
  queue : List Nat := []
  results : Nat → Option Outcome := fun _ => none
  sent : List (Nat × Made D R) := []
  bytes : Nat := 0
  errors : Nat := 0
  lastErr : Option Err := none
  phase : Phase := .top

/-- The program runs until its next step; or the stream completes the oldest heap in its queue, with a number of bytes or an error. -/
inductive Ev where
  | prog
  | complete (r : Except Nat Nat)
  deriving Repr

section
variable {D V R : Type}

/-- The start of `run` (src/spead2/tools/send_asyncio.py 87-98). -/
def St.init (c : Cfg D V R) : St D R := { gen := PyGen.new c.freq }

/-- The number of iterations of the loop, if it ends (src/spead2/tools/send_asyncio.py 92-97). -/
def Cfg.total (c : Cfg D V R) : Option Nat := c.heaps.map (· + c.dests)

/-- `is_end` (src/spead2/tools/send_asyncio.py 95-97). -/
def Cfg.isEnd (c : Cfg D V R) (i : Nat) : Bool :=
  match c.heaps with
  | none => false
  | some n => decide (n ≤ i)

/-- `n_bytes += await …` with its `except` (src/spead2/tools/send_asyncio.py 101-105, 116-120). -/
def St.account (s : St D R) : Outcome → St D R
  | .ok n => { s with bytes := s.bytes + n }
  | .error e => { s with errors := s.errors + 1, lastErr := some e }

/-- `await tasks.popleft()`: nothing happens until the future is resolved (src/spead2/tools/send_asyncio.py 102, 117). -/
def St.await (s : St D R) (next : Phase) : Option (St D R) :=
  match s.tasks with
  | [] => some { s.account (.error .indexError) with phase := next }
  | t :: ts =>
    match s.results t with
    | none => none
    | some r => some { s.account r with tasks := ts, phase := next }

/-- The heap (src/spead2/tools/send_asyncio.py 106-111). -/
def St.makeHeap (c : Cfg D V R) (s : St D R) : PyGen × Made D R :=
  if c.isEnd s.i then (s.gen, .final)
  else
    let (q, h) := s.gen.getHeap c.group c.enc (if s.i < c.dests then .all else .stale) .all
    (q, .data h)

/-- `async_send_heap` on `i % n_substreams` (src/spead2/tools/send_asyncio.py 112-113; src/spead2/send/asyncio.py 47-69): the heap is queued, or the future fails. -/
def St.send (c : Cfg D V R) (s : St D R) : St D R :=
  let (q, m) := s.makeHeap c
  let s' := { s with gen := q, sent := s.sent ++ [(s.i % c.dests, m)], tasks := s.tasks ++ [s.i], i := s.i + 1, phase := .top }
  if s.queue.length < c.maxHeaps then { s' with queue := s.queue ++ [s.i] }
  else { s' with results := fun t => if t = s.i then some (.error .wouldBlock) else s.results t }

/-- The outcome of a heap as the future has it (src/spead2/send/asyncio.py 51-55). -/
def outcome : Except Nat Nat → Outcome
  | .ok n => .ok n
  | .error e => .error (.io e)

/-- One step. -/
def step (c : Cfg D V R) (s : St D R) : Ev → Option (St D R)
  | .complete r =>
    match s.queue with
    | [] => none
    | t :: ts => some { s with queue := ts, results := fun u => if u = t then some (outcome r) else s.results u }
  | .prog =>
    match s.phase with
    | .top =>
      if c.total = some s.i then some { s with phase := .drain }
      else if c.maxHeaps ≤ s.tasks.length then s.await .make
      else some { s with phase := .make }
    | .make => some (s.send c)
    | .drain => if s.tasks.isEmpty then some { s with phase := .finished } else s.await .drain
    | .finished => none

/-- A history. -/
def run (c : Cfg D V R) : St D R → List Ev → Option (St D R)
  | s, [] => some s
  | s, e :: es => (step c s e).bind (fun s => run c s es)

end

end Spead2.PyTool
