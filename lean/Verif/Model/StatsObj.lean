import Verif.Model.Stats

/-!
# Statistics objects as values

`stream_stats` with its reference members (include/spead2/recv_stream.h 184-330, src/recv_stream.cpp 125-218) and its Python interface (src/py_recv.cpp 501-593).

An object holds a pointer to its configuration, a vector that owns a buffer, and references into a buffer.  `none` is undefined behaviour.

Simplified: the lists that pointers refer to are compared by contents (comparing the pointers first only saves time, except that a null pointer must not be followed).  Allocation does not fail.
-/

namespace Spead2.StatsObj

/-- `stream_stats`: `config` (null after a move), the buffer of `values` (none if it is empty), and the buffer that the nine references are into. -/
structure Obj where
  config : Option (List StatConfig)
  buf : Option Nat
  refs : Nat

/-- All objects, and all buffers that have not been freed.  Both are numbered by `next`. -/
structure Mem where
  objs : Nat → Option Obj
  bufs : Nat → Option (List UInt64)
  next : Nat

/-- No objects yet. -/
def Mem.init : Mem := ⟨fun _ => none, fun _ => none, 0⟩

/-- Change one entry. -/
def put {α : Type} (f : Nat → Option α) (k : Nat) (x : Option α) : Nat → Option α := fun j => if j = k then x else f j

/-- What a program can do with statistics.  Objects are numbered in the order in which they are made. -/
inductive Op where
  /-- statistics of a config with these custom statistics, all zero -/
  | make (custom : List StatConfig)
  /-- copy constructor, move constructor, assignment, `+=`, destructor -/
  | copy (a : Nat)
  | move (a : Nat)
  | assign (a b : Nat)
  | add (a b : Nat)
  | destroy (a : Nat)
  /-- access by index, by name, and through the attributes for the core statistics -/
  | getIdx (a i : Nat)
  | setIdx (a i : Nat) (v : UInt64)
  | getName (a : Nat) (n : String)
  | setName (a : Nat) (n : String) (v : UInt64)
  | getAttr (a : Nat) (n : String)
  | setAttr (a : Nat) (n : String) (v : UInt64)
  | items (a : Nat)

/-- What it sees; `threw` is an exception (IndexError, KeyError, invalid_argument; AttributeError for unknown attributes). -/
inductive Res where
  | done
  | threw
  | val (v : UInt64)
  | list (l : List (String × UInt64))
  deriving DecidableEq, Repr

/-- The contents of the vector. -/
def Mem.vals (m : Mem) (o : Obj) : Option (List UInt64) :=
  match o.buf with
  | none => some []
  | some b => m.bufs b

/-- The vector gets other contents, of the same size. -/
def Mem.write (m : Mem) (o : Obj) (vs : List UInt64) : Mem :=
  match o.buf with
  | none => m
  | some b => { m with bufs := put m.bufs b (some vs) }

/-- A new object with a buffer of its own (src/recv_stream.cpp 137-153): undefined if there is no element for a reference. -/
def Mem.construct (m : Mem) (config : Option (List StatConfig)) (vs : List UInt64) : Option Mem :=
  if vs.length < customIndex then none
  else some ⟨put m.objs m.next (some ⟨config, some m.next, m.next⟩), put m.bufs m.next (some vs), m.next + 1⟩

/-- The check of `operator=` and `operator+=` (src/recv_stream.cpp 162, 213): `none` if a null pointer is followed. -/
def sameConfig (c d : Option (List StatConfig)) : Option Bool :=
  match c, d with
  | none, none => some true
  | some c, some d => some (c == d)
  | _, _ => none

/-- The references to core statistics, by the names of the members (src/recv_stream.cpp 141-149, include/spead2/recv_stream.h 98-106; for Python src/py_recv.cpp 585-593). -/
def attrIndex (n : String) : Option Nat :=
  if n = "heaps" then some 0
  else if n = "incomplete_heaps_evicted" then some 1
  else if n = "incomplete_heaps_flushed" then some 2
  else if n = "packets" then some 3
  else if n = "batches" then some 4
  else if n = "worker_blocked" then some 8
  else if n = "max_batch" then some 5
  else if n = "single_packet_heaps" then some 6
  else if n = "search_dist" then some 7
  else none

/-- The loop over the iterators (include/spead2/recv_stream.h 140-143): names and values by the same index, as many as there are values. -/
def itemsLoop : List StatConfig → List UInt64 → Option (List (String × UInt64))
  | _, [] => some []
  | c :: cs, v :: vs => (itemsLoop cs vs).map fun r => (c.name, v) :: r
  | [], _ :: _ => none

/-- One operation: constructors (src/recv_stream.cpp 125-158, include/spead2/recv_stream.h 221), `operator=` and `operator+=` (src/recv_stream.cpp 160-167, 211-218), access (src/py_recv.cpp 503-530, 574-579) and iteration (src/py_recv.cpp 544-548). -/
def step (m : Mem) : Op → Option (Mem × Res)
  | .make custom => (m.construct (some (defaultStats ++ custom)) (List.replicate (defaultStats ++ custom).length 0)).map (·, .done)
  | .copy a => do
    let o ← m.objs a
    let vs ← m.vals o
    let m' ← m.construct o.config vs
    some (m', .done)
  | .move a => do
    let o ← m.objs a
    some ({ m with objs := put (put m.objs a (some ⟨none, none, o.refs⟩)) m.next (some o), next := m.next + 1 }, .done)
  | .assign a b => do
    let o ← m.objs a
    let p ← m.objs b
    let same ← sameConfig o.config p.config
    if same then
      let vs ← m.vals o
      let ws ← m.vals p
      let r ← assignLoop vs ws
      some (m.write o r, .done)
    else some (m, .threw)
  | .add a b => do
    let o ← m.objs a
    let p ← m.objs b
    let same ← sameConfig o.config p.config
    if same then
      let vs ← m.vals o
      let ws ← m.vals p
      let r ← addLoop (o.config.getD []) vs ws
      some (m.write o r, .done)
    else some (m, .threw)
  | .destroy a => do
    let o ← m.objs a
    match o.buf with
    | none => some ({ m with objs := put m.objs a none }, .done)
    | some b => some ({ m with objs := put m.objs a none, bufs := put m.bufs b none }, .done)
  | .getIdx a i => do
    let o ← m.objs a
    let vs ← m.vals o
    match vs[i]? with
    | some v => some (m, .val v)
    | none => some (m, .threw)
  | .setIdx a i v => do
    let o ← m.objs a
    let vs ← m.vals o
    if i < vs.length then some (m.write o (vs.set i v), .done) else some (m, .threw)
  | .getName a n => do
    let o ← m.objs a
    let vs ← m.vals o
    let c ← o.config
    if statIndex c n = vs.length then some (m, .threw)
    else do
      let v ← vs[statIndex c n]?
      some (m, .val v)
  | .setName a n v => do
    let o ← m.objs a
    let vs ← m.vals o
    let c ← o.config
    if statIndex c n = vs.length then some (m, .threw)
    else if statIndex c n < vs.length then some (m.write o (vs.set (statIndex c n) v), .done)
    else none
  | .getAttr a n => do
    let o ← m.objs a
    match attrIndex n with
    | none => some (m, .threw)
    | some i => do
      let vs ← m.bufs o.refs
      let v ← vs[i]?
      some (m, .val v)
  | .setAttr a n v => do
    let o ← m.objs a
    match attrIndex n with
    | none => some (m, .threw)
    | some i => do
      let vs ← m.bufs o.refs
      if i < vs.length then some ({ m with bufs := put m.bufs o.refs (some (vs.set i v)) }, .done) else none
  | .items a => do
    let o ← m.objs a
    let vs ← m.vals o
    let c ← o.config
    let l ← itemsLoop c vs
    some (m, .list l)

/-- A program: the results of its operations. -/
def run (m : Mem) : List Op → Option (Mem × List Res)
  | [] => some (m, [])
  | op :: ops => do
    let x ← step m op
    let y ← run x.1 ops
    some (y.1, x.2 :: y.2)

/-- `std::swap(a, b)`: there is no move assignment, so the assignments are copies (include/spead2/recv_stream.h 214-221). -/
def swapOps (m : Mem) (a b : Nat) : List Op := [.move a, .assign a b, .assign b m.next, .destroy m.next]

end Spead2.StatsObj
