/-!
# The receiving tools

`main`, `callback_stream` and `show_heap` of src/spead2_recv.cpp, and `run_stream` of src/spead2/tools/recv_asyncio.py.
Simplified: of a heap there is only its number, whether it is complete, what `verify_heap` finds (C-level details are in `Model/VerifyTool.lean`) and, for the Python tool, its descriptors and items; times, values and statistics are not shown.
-/

namespace Spead2.RecvTool

/-- The options of spead2_recv (src/spead2_recv.cpp 48-58). -/
structure Opts where
  quiet : Bool := false
  joint : Bool := false
  verify : Bool := false
  ring : Bool := false
  deriving DecidableEq, Repr

/-- A heap: `good` is what `verify_heap` finds. -/
structure HeapIn where
  cnt : Nat
  complete : Bool
  good : Bool
  deriving DecidableEq, Repr

/-- A stream passes on a heap, or stops.  In the mode with a ring these are what `main` gets from the ring. -/
inductive Ev where
  | heap (i : Nat) (h : HeapIn) | stop (i : Nat)
  deriving DecidableEq, Repr

/-- What the tool prints. -/
inductive Line where
  | received (cnt : Nat) | discarding (cnt : Nat) | total (n : Nat)
  deriving DecidableEq, Repr

/-- The tool: which streams have stopped, the heaps each has counted, the output, and the exit code once it has ended. -/
structure St where
  stopped : Nat → Bool := fun _ => false
  count : Nat → Nat := fun _ => 0
  out : List Line := []
  code : Option Nat := none

/-- The sources of each stream (src/spead2_recv.cpp 330-343); `none` if the options are refused. -/
def streams (o : Opts) (sources : Nat) : Option (List (List Nat)) :=
  if o.joint then some [List.range sources]
  else if 1 < sources ∧ o.ring then none
  else some ((List.range sources).map fun i => [i])

/-- The sum over the streams. -/
def sumTo (n : Nat) (f : Nat → Nat) : Nat := ((List.range n).map f).sum

/-- `heap_ready` (src/spead2_recv.cpp 260-271) or the loop over the ring (358-366, where incomplete heaps have been skipped and nothing is verified). -/
def onHeap (o : Opts) (s : St) (i : Nat) (h : HeapIn) : St :=
  if h.complete then
    let s := if o.quiet then s else { s with out := s.out ++ [.received h.cnt] }
    if !o.ring && o.verify && !h.good then { s with code := some 1 }
    else { s with count := fun j => if j = i then s.count j + 1 else s.count j }
  else if o.ring || o.quiet then s
  else { s with out := s.out ++ [.discarding h.cnt] }

/-- The end (src/spead2_recv.cpp 367-389): all streams have stopped. -/
def onStop (n : Nat) (s : St) (i : Nat) : St :=
  let s := { s with stopped := fun j => if j = i then true else s.stopped j }
  if (List.range n).all s.stopped then { s with out := s.out ++ [.total (sumTo n s.count)], code := some 0 } else s

/-- One event of `n` streams. -/
def step (o : Opts) (n : Nat) (s : St) : Ev → St
  | .heap i h => if s.code.isSome ∨ n ≤ i ∨ s.stopped i = true then s else onHeap o s i h
  | .stop i => if s.code.isSome ∨ n ≤ i ∨ s.stopped i = true then s else onStop n s i

def run (o : Opts) (n : Nat) : St → List Ev → St
  | s, [] => s
  | s, e :: es => run o n (step o n s e) es

/-- `main` (src/spead2_recv.cpp 324-391). -/
def main (o : Opts) (sources : Nat) (es : List Ev) : St :=
  match streams o sources with
  | none => { code := some 2 }
  | some l => run o l.length {} es

/-! ## What is printed by several threads -/

/-- Operations on `std::cout`: the manipulators, and a number. -/
inductive Tok where
  | hex | dec | num (n : Nat)
  deriving DecidableEq, Repr

/-- An item in `show_heap`: identifier, length and immediate value. -/
structure ItemOut where
  id : Nat
  length : Nat
  imm : Option Nat
  deriving DecidableEq, Repr

/-- `show_heap` (src/spead2_recv.cpp 122-175) without descriptors. -/
def itemToks (x : ItemOut) : List Tok :=
  [.hex, .num x.id, .dec, .num x.length] ++ (match x.imm with | some v => [.hex, .num v, .dec] | none => [])

def showToks (cnt : Nat) (items : List ItemOut) : List Tok := .num cnt :: items.flatMap itemToks

/-- The numbers that appear, and whether in hexadecimal: all threads share the flags of `std::cout`. -/
def render : Bool → List Tok → List (Nat × Bool)
  | _, [] => []
  | _, .hex :: ts => render true ts
  | _, .dec :: ts => render false ts
  | b, .num n :: ts => (n, b) :: render b ts

/-! ## recv_asyncio.py -/

/-- A heap: descriptors (whether `from_raw` takes them) and items (whether their values can be decoded). -/
structure PyHeap where
  cnt : Nat
  descs : List (Nat × Bool)
  items : List (Nat × Bool)
  deriving DecidableEq, Repr

structure PyOpts where
  descriptors : Bool := false
  maxHeaps : Option Int := none
  deriving DecidableEq, Repr

inductive PyLine where
  | got (cnt : Nat) | descr (id : Nat) | item (id : Nat) | error | summary (n : Nat)
  deriving DecidableEq, Repr

/-- The loop of `ItemGroup.update` over the descriptors (src/spead2/__init__.py 799-801): the group, and whether it got to the end. -/
def addDescs : List Nat → List (Nat × Bool) → List Nat × Bool
  | g, [] => (g, true)
  | g, (i, ok) :: ds => if ok then addDescs (i :: g) ds else (g, false)

/-- The loop over the items (src/spead2/__init__.py 802-814); `none` for a `ValueError`.  Items without descriptor are skipped. -/
def setItems (g : List Nat) : List (Nat × Bool) → Option (List Nat)
  | [] => some []
  | (i, ok) :: is => if g.contains i then (if ok then (setItems g is).map fun l => i :: l else none) else setItems g is

/-- `ItemGroup.update`. -/
def update (g : List Nat) (h : PyHeap) : List Nat × Option (List Nat) :=
  match addDescs g h.descs with
  | (g, false) => (g, none)
  | (g, true) => (g, setItems g h.items)

/-- The loop that shows descriptors (recv_asyncio.py 72-82): the lines, and whether it got to the end. -/
def showDescs : List (Nat × Bool) → List PyLine × Bool
  | [] => ([], true)
  | (i, ok) :: ds => if ok then (PyLine.descr i :: (showDescs ds).1, (showDescs ds).2) else ([], false)

/-- One heap (recv_asyncio.py 69-90), after it has been counted. -/
def pyHeap (o : PyOpts) (g : List Nat) (h : PyHeap) : List Nat × List PyLine :=
  let d := if o.descriptors then showDescs h.descs else ([], true)
  if d.2 then
    match update g h with
    | (g, none) => (g, .got h.cnt :: d.1 ++ [.error])
    | (g, some l) => (g, .got h.cnt :: d.1 ++ l.map .item)
  else (g, .got h.cnt :: d.1 ++ [.error])

/-- What `stream.get()` gives: a heap, or `Stopped`. -/
inductive PyEv where
  | heap (h : PyHeap) | stopped
  deriving DecidableEq, Repr

/-- The output, the heaps that were taken, and whether the coroutine has ended (and so called `stream.stop()`, line 98). -/
structure PyRes where
  lines : List PyLine
  taken : Nat
  ended : Bool
  deriving DecidableEq, Repr

/-- `run_stream` (recv_asyncio.py 60-98). -/
def runStream (o : PyOpts) : List Nat → Nat → List PyEv → PyRes
  | g, num, es =>
    if o.maxHeaps = some (num : Int) then ⟨[], num, true⟩
    else
      match es with
      | [] => ⟨[], num, false⟩
      | .stopped :: _ => ⟨[.summary num], num, true⟩
      | .heap h :: es =>
        let r := runStream o (pyHeap o g h).1 (num + 1) es
        ⟨(pyHeap o g h).2 ++ r.lines, r.taken, r.ended⟩
termination_by _ _ es => es.length

end Spead2.RecvTool
