/-!
# The file writer of mcdump

Model of the class `writer` (src/mcdump.cpp 232-383) and of its use by the capture: a sequence of calls
of `write`, then `close`, then the destructor of the capture, which calls `close` again (lines 591-597).
The main thread, the writer threads and the kernel's answers to `pwrite` are interleaved arbitrarily.
The two ring buffers are queues (C33-C35 are about the ring buffers themselves).  `B` is `buffer_size`, `D` the
depth.  Not modelled: that `set_affinity`, `ftruncate` or `::close` fails.
-/

namespace Spead2.Dump

/-- `writer::buffer` (src/mcdump.cpp 235-240).  `data` is the whole memory of `buffer_size` bytes. -/
structure Buf where
  offset : Nat
  data : List UInt8
  length : Nat
  deriving DecidableEq

/-- Where a writer thread is (src/mcdump.cpp 350-383): waiting for a buffer; with a buffer of which it
has written `done` bytes; past the end of the ring; out of the loop by an exception. -/
inductive Worker where
  | idle
  | writing (b : Buf) (done : Nat)
  | finished
  | failed (b : Buf) (done : Nat)
  deriving DecidableEq

/-- Where the main thread is: between calls; in `write` with data left to copy (line 330); in `flush`
before `ring.push` or before `free_ring.pop` (lines 345, 346), called by `write` with data left or by
`close`; in `close` before `ring.stop`, waiting for the `k`th future, before `ftruncate` (lines 311, 313,
320); `close` has returned or thrown; the process has ended properly or by `std::terminate`. -/
inductive Pc where
  | call
  | copy (rest : List UInt8)
  | push (rest : List UInt8) (closing : Bool)
  | pop (rest : List UInt8) (closing : Bool)
  | stopRing
  | join (k : Nat)
  | truncate
  | closed
  | threw
  | ended
  | terminated
  deriving DecidableEq

/-- The state of the process and of the file. -/
structure St where
  /-- arguments of the calls of `write` that are still to come -/
  calls : List (List UInt8)
  pc : Pc
  cur : Buf
  total : Nat
  ring : List Buf
  ringStopped : Bool
  free : List Buf
  workers : List Worker
  /-- futures of which `get` has been called: the first `got` -/
  got : Nat
  /-- the global flag `stop` (line 225) -/
  stop : Bool
  file : List UInt8

/-- The constructor (src/mcdump.cpp 271-293) and the calls that will follow.  `mem` is what the
allocated buffers contain. -/
def St.init (mem : List (List UInt8)) (threads : Nat) (calls : List (List UInt8)) : St :=
  let bufs := mem.map (fun d => { offset := 0, data := d, length := 0 : Buf })
  { calls := calls, pc := .call, cur := bufs.headD ⟨0, [], 0⟩, total := 0, ring := [], ringStopped := false
    free := bufs.tail, workers := List.replicate threads .idle, got := 0, stop := false, file := [] }

/-- `compute_depth` (src/mcdump.cpp 263-269). -/
def computeDepth (B diskBuffer : Nat) : Nat :=
  let depth := diskBuffer / B
  if depth = 0 then 1 else depth

/-- The number of writer threads (src/mcdump.cpp 283-292). -/
def numThreads (diskAffinity : List Nat) : Nat :=
  if diskAffinity = [] then 1 else diskAffinity.length

/-- POSIX `pwrite` of bytes that are all written: what is between the end of the file and the offset
becomes zero. -/
def pwrite (f : List UInt8) (off : Nat) (bs : List UInt8) : List UInt8 :=
  if bs = [] then f
  else (f ++ List.replicate (off - f.length) 0).take off ++ bs ++ f.drop (off + bs.length)

/-- POSIX `ftruncate`. -/
def ftruncate (f : List UInt8) (n : Nat) : List UInt8 :=
  (f ++ List.replicate (n - f.length) 0).take n

/-- `memcpy` into the current buffer (src/mcdump.cpp 333-336). -/
def Buf.append (b : Buf) (bs : List UInt8) : Buf :=
  { b with data := b.data.take b.length ++ bs ++ b.data.drop (b.length + bs.length), length := b.length + bs.length }

/-- One iteration of the loop of `write` (src/mcdump.cpp 330-339). -/
def copyStep (B : Nat) (s : St) (rest : List UInt8) : St :=
  let n := min rest.length (B - s.cur.length)
  let s := { s with cur := s.cur.append (rest.take n) }
  if s.cur.length = B then { s with pc := .push (rest.drop n) false } else { s with pc := .copy (rest.drop n) }

/-- The next call: `write` with the next argument, or `close` (src/mcdump.cpp 305-310). -/
def callStep (s : St) : St :=
  match s.calls with
  | c :: cs => { s with calls := cs, pc := .copy c }
  | [] => if 0 < s.cur.length then { s with pc := .push [] true } else { s with pc := .stopRing }

/-- `total_bytes += cur_buffer.length; ring.push(...)` (src/mcdump.cpp 344-345): blocks while the ring
is full. -/
def pushStep (D : Nat) (s : St) (rest : List UInt8) (closing : Bool) : St :=
  if s.ring.length < D then
    { s with total := s.total + s.cur.length, ring := s.ring ++ [s.cur], pc := .pop rest closing }
  else s

/-- `cur_buffer = free_ring.pop(); cur_buffer.offset = total_bytes` (src/mcdump.cpp 346-347): blocks while
there is no free buffer. -/
def popStep (s : St) (rest : List UInt8) (closing : Bool) : St :=
  match s.free with
  | [] => s
  | b :: fs => { s with free := fs, cur := { b with offset := s.total }, pc := if closing then .stopRing else .copy rest }

/-- `future.get()` of the `k`th thread (src/mcdump.cpp 313-314): waits for the end of the thread and
throws what the thread threw. -/
def joinStep (s : St) (k : Nat) : St :=
  match s.workers[k]? with
  | none => { s with pc := .truncate }
  | some .finished => { s with pc := .join (k + 1), got := k + 1 }
  | some (.failed _ _) => { s with pc := .threw, got := k + 1 }
  | some _ => s

/-- The main thread goes on. -/
def mainStep (B D : Nat) (s : St) : St :=
  match s.pc with
  | .call => callStep s
  | .copy [] => { s with pc := .call }
  | .copy rest => copyStep B s rest
  | .push rest c => pushStep D s rest c
  | .pop rest c => popStep s rest c
  | .stopRing => { s with ringStopped := true, pc := .join 0 }
  | .join k => joinStep s k
  | .truncate => { s with file := ftruncate s.file s.total, pc := .closed }
  | _ => s

/-- What the kernel answers to `pwrite`: a number of bytes (at most what was asked for), `EINTR`, or
another error. -/
inductive Answer where
  | wrote (n : Nat)
  | eintr
  | error

/-- Assignment to one thread. -/
def setWorker (s : St) (t : Nat) (w : Worker) : St := { s with workers := s.workers.set t w }

/-- A thread takes the next buffer, or leaves the loop when the ring is stopped and empty
(src/mcdump.cpp 356). -/
def takeStep (s : St) (t : Nat) : St :=
  match s.ring with
  | b :: r => setWorker { s with ring := r } t (.writing b 0)
  | [] => if s.ringStopped then setWorker s t .finished else s

/-- `pwrite` and what follows (src/mcdump.cpp 363-373, 378-382). -/
def pwriteStep (B : Nat) (s : St) (t : Nat) (b : Buf) (d : Nat) : Answer → St
  | .wrote n =>
    let m := min n (B - d)
    setWorker { s with file := pwrite s.file (b.offset + d) ((b.data.drop d).take m) } t (.writing b (d + m))
  | .eintr => s
  | .error => setWorker { s with stop := true } t (.failed b d)

/-- `b.length = 0; free_ring.push(...)` (src/mcdump.cpp 374-375). -/
def giveBack (D : Nat) (s : St) (t : Nat) (b : Buf) : St :=
  if s.free.length < D then setWorker { s with free := s.free ++ [{ b with length := 0 }] } t .idle else s

/-- Thread `t` goes on; `a` is the kernel's answer if it calls `pwrite`. -/
def workerStep (B D : Nat) (s : St) (t : Nat) (a : Answer) : St :=
  match s.workers[t]? with
  | some .idle => takeStep s t
  | some (.writing b d) => if d < B then pwriteStep B s t b d a else giveBack D s t b
  | _ => s

/-- The capture is destroyed: `~capture_base` calls `close` again (src/mcdump.cpp 591-597).  After a
`close` that returned it does nothing (line 307).  After one that threw it calls `get` of the first
future again (lines 313-314): a future of which `get` has been called has no state, so that throws, and
an exception that leaves a destructor ends the process. -/
def destroyStep (s : St) : St :=
  match s.pc with
  | .closed => { s with pc := .ended }
  | .threw => { s with pc := if 0 < s.got then .terminated else .ended }
  | _ => s

/-- What can happen next. -/
inductive Op where
  | main
  | worker (t : Nat) (a : Answer)
  | destroy

/-- One step. -/
def step (B D : Nat) (s : St) : Op → St
  | .main => mainStep B D s
  | .worker t a => workerStep B D s t a
  | .destroy => destroyStep s

/-- A schedule. -/
def run (B D : Nat) : St → List Op → St
  | s, [] => s
  | s, op :: ops => run B D (step B D s op) ops

end Spead2.Dump
