/-!
# Place callbacks that are set from Python

`callback_from_python` and `callback_to_python` (include/spead2/py_common.h 112-220), the `place` property of `ChunkStreamConfig` (src/py_recv.cpp 755-766), the check and the copy in the constructor of chunk streams (src/recv_chunk_stream.cpp 106-115), the call (include/spead2/recv_chunk_stream.h 775), and the two declarations of the structure (include/spead2/recv_chunk_stream.h 90-104, src/spead2/recv/numba.py 25-38).

Simplified: objects are numbers; they are never reused, and an object is destroyed when nothing refers to it.  A config or stream that was deleted is one without a callback.
-/

namespace Spead2.PyPlace

/-- Python objects; `other` is not iterable. A list stands for all iterables that are not tuples. -/
inductive PyObj where
  | none
  | tuple (xs : List Nat)
  | list (xs : List Nat)
  | capsule (ptr : Nat) (name : Option String) (ctx : Nat)
  | other
  deriving DecidableEq, Repr

abbrev Heap := List PyObj

/-- `callback_plain` and `callback_bind` (include/spead2/py_common.h 118-147): the object that is kept, the function and the user data. -/
structure Callback where
  obj : Nat
  ptr : Nat
  data : Option Nat
  deriving DecidableEq, Repr

inductive Err where
  | notIterable | empty | notCapsule | noSignature | badSignature
  deriving DecidableEq, Repr

/-- The signatures (src/py_recv.cpp 763-764). -/
def plainSig : String := "void (void *, size_t)"

def bindSig : String := "void (void *, size_t, void *)"

/-- `obj.cast<pybind11::tuple>()` (include/spead2/py_common.h 176): pybind11 converts other iterables to a new tuple. -/
def asTuple (h : Heap) (x : Nat) : Option (List Nat) :=
  match h[x]? with
  | some (.tuple xs) => some xs
  | some (.list xs) => some xs
  | _ => none

/-- `callback_from_python` (include/spead2/py_common.h 164-201). The object that is kept is the one that was passed. -/
def fromPython (h : Heap) (x : Nat) : Except Err (Option Callback) :=
  if h[x]? = some .none then .ok none
  else
    match asTuple h x with
    | none => .error .notIterable
    | some [] => .error .empty
    | some (c :: _) =>
      match h[c]? with
      | some (.capsule p n ctx) =>
        if p = 0 then .ok none
        else
          match n with
          | none => .error .noSignature
          | some s => if s = plainSig then .ok (some ⟨x, p, none⟩) else if s = bindSig then .ok (some ⟨x, p, some ctx⟩) else .error .badSignature
      | _ => .error .notCapsule

structure St where
  heap : Heap := []
  /-- references of the program -/
  vars : List Nat := []
  configs : List (Option Callback) := []
  streams : List (Option Callback) := []
  deriving Repr

inductive Op where
  | alloc (o : PyObj)
  | drop (x : Nat)
  | mutate (x : Nat) (xs : List Nat)
  | newConfig
  | delConfig (i : Nat)
  | setPlace (i x : Nat)
  | getPlace (i : Nat)
  | newStream (i : Nat)
  | delStream (j : Nat)
  deriving Repr

/-- `callback_to_python` (include/spead2/py_common.h 209-220): `none` is `None`. -/
def toPython (c : Option Callback) : Option Nat := c.map (·.obj)

def step (s : St) : Op → St
  | .alloc o => { s with heap := s.heap ++ [o], vars := s.heap.length :: s.vars }
  | .drop x => { s with vars := s.vars.erase x }
  | .mutate x xs =>
    match s.heap[x]? with
    | some (.list _) => { s with heap := s.heap.set x (.list xs) }
    | _ => s
  | .newConfig => { s with configs := s.configs ++ [none] }
  | .delConfig i => { s with configs := s.configs.set i none }
  | .setPlace i x =>
    match fromPython s.heap x with
    | .ok c => { s with configs := s.configs.set i c }
    | .error _ => s
  | .getPlace i =>
    match toPython ((s.configs[i]?).getD none) with
    | some x => { s with vars := x :: s.vars }
    | none => s
  | .newStream i =>
    match s.configs[i]? with
    | some (some c) => { s with streams := s.streams ++ [some c] }
    | _ => s
  | .delStream j => { s with streams := s.streams.set j none }

def run (s : St) (ops : List Op) : St := ops.foldl step s

/-- The call of the place function by stream `j` (include/spead2/recv_chunk_stream.h 775) with the structure at `d` of size `n`: the function and its arguments. -/
def call (s : St) (j d n : Nat) : Option (Nat × List Nat) :=
  ((s.streams[j]?).getD none).map fun c => (c.ptr, [d, n] ++ c.data.toList)

/-! ## The structure -/

/-- A platform: the size of pointers, and the alignment of 64-bit integers in structures. -/
structure Plat where
  word : Nat
  align64 : Nat

inductive CTy where
  | ptr | size | i64
  deriving DecidableEq, Repr

/-- Size and alignment of the types of C. -/
def CTy.shape (p : Plat) : CTy → Nat × Nat
  | .ptr => (p.word, p.word)
  | .size => (p.word, p.word)
  | .i64 => (8, p.align64)

/-- Size and alignment of the types of numba. -/
inductive NTy where
  | intp | size | int64
  deriving DecidableEq, Repr

def NTy.shape (p : Plat) : NTy → Nat × Nat
  | .intp => (p.word, p.word)
  | .size => (p.word, p.word)
  | .int64 => (8, p.align64)

/-- include/spead2/recv_chunk_stream.h 90-104. -/
def cFields : List (String × CTy) :=
  [("packet", .ptr), ("packet_size", .size), ("items", .ptr), ("chunk_id", .i64), ("heap_index", .size), ("heap_offset", .size),
   ("batch_stats", .ptr), ("extra", .ptr), ("extra_offset", .size), ("extra_size", .size)]

/-- src/spead2/recv/numba.py 25-38. -/
def nFields : List (String × NTy) :=
  [("packet", .intp), ("packet_size", .size), ("items", .intp), ("chunk_id", .int64), ("heap_index", .size), ("heap_offset", .size),
   ("batch_stats", .intp), ("extra", .intp), ("extra_offset", .size), ("extra_size", .size)]

structure Field where
  name : String
  off : Nat
  size : Nat
  align : Nat
  deriving DecidableEq, Repr

/-- The layout of structures in C: each member is at the next multiple of its alignment. -/
def cLayout (p : Plat) (off : Nat) : List (String × CTy) → List Field
  | [] => []
  | (n, t) :: fs =>
    let o := (off + (t.shape p).2 - 1) / (t.shape p).2 * (t.shape p).2
    ⟨n, o, (t.shape p).1, (t.shape p).2⟩ :: cLayout p (o + (t.shape p).1) fs

/-- `Record.make_c_struct` of numba. -/
def nLayout (p : Plat) (off : Nat) : List (String × NTy) → List Field
  | [] => []
  | (n, t) :: fs =>
    let o := if off % (t.shape p).2 ≠ 0 then off + ((t.shape p).2 - off % (t.shape p).2) else off
    ⟨n, o, (t.shape p).1, (t.shape p).2⟩ :: nLayout p (o + (t.shape p).1) fs

end Spead2.PyPlace
