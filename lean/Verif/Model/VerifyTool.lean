import Verif.Model.SendTool
import Verif.Model.Send
import Verif.Model.Heap
import Verif.Model.Descriptor

/-!
# `spead2_send --verify` and `spead2_recv --verify`

The sender fills its heaps with the values of a random number generator; the receiver computes the values that a heap should have from its heap cnt
(src/spead2_send.cpp, src/spead2_recv.cpp).

Not modelled: `spead2_recv` without `--verify`, and the printing of heaps.
-/

namespace Spead2.VerifyTool
open SendTool

/-- `std::minstd_rand` is `std::linear_congruential_engine<std::uint_fast32_t, 48271, 0, 2147483647>` (C++ standard, [rand.predef]). -/
def factor : Nat := 48271
def modulus : Nat := 2147483647

/-- `generator()`: the new state, which is also the value. -/
def next (x : Nat) : Nat := x * factor % modulus

/-- The state after `seed(x)`, for an increment of 0 ([rand.eng.lcong]); a new generator is seeded with 1. -/
def seed (x : Nat) : Nat := if x % modulus = 0 then 1 else x % modulus

/-! ### The sender -/

/-- The loop over the elements of an item (src/spead2_send.cpp:234-235): what is stored, and the generator afterwards. -/
def fillItem : Nat → Nat → Bytes × Nat
  | 0, g => ([], g)
  | k + 1, g =>
    let g := next g
    let r := fillItem k g
    (beBytes 4 g ++ r.1, r.2)

/-- The loop over the items (src/spead2_send.cpp:233-235). -/
def fillHeap (elements : Nat) : Nat → Nat → List Bytes × Nat
  | 0, g => ([], g)
  | k + 1, g =>
    let r := fillItem elements g
    let q := fillHeap elements k r.2
    (r.1 :: q.1, q.2)

/-- The generator (src/spead2_send.cpp:131) after the heap was filled `k` times. -/
def genAfter (elements items : Nat) : Nat → Nat
  | 0 => seed 1
  | k + 1 => (fillHeap elements items (genAfter elements items k)).2

/-- What is put into a heap (one list of bytes for each item) the `k`th time, from 0 on. -/
def fill (c : Sender) (k : Nat) : List Bytes := (fillHeap c.elements c.items (genAfter c.elements c.items k)).1

/-- The bytes of ASCII text. -/
def ascii (s : List Char) : Bytes := s.map fun ch => UInt8.ofNat ch.toNat

/-- The descriptors (src/spead2_send.cpp:186-196). -/
def descriptor (elements i : Nat) : Descriptor where
  id := 0x1000 + i
  name := ascii ("Test item ".toList ++ Nat.toDigits 10 i)
  description := ascii "A test item with arbitrary value".toList
  numpyHeader := ascii ("{'shape': (".toList ++ Nat.toDigits 10 elements ++ ",), 'fortran_order': False, 'descr': '>u4'}".toList)

/-- `add_descriptor` (src/send_heap.cpp:152-157).  Ids that are too large (an exception) are left to the theorems. -/
def addDescriptor (f : Flavour) (d : Descriptor) : SendItem :=
  ⟨DESCRIPTOR_ID, .buffer (match encodeDescriptor f.heapAddressBits.toNat f.bugCompat d with | .ok (b, _) => b | .error _ => []) false⟩

/-- The items with data (src/spead2_send.cpp:202-210), from `j` on. -/
def dataItems : Nat → List Bytes → List SendItem
  | _, [] => []
  | j, b :: l => ⟨0x1000 + j, .buffer b true⟩ :: dataItems (j + 1) l

/-- The heap behind an entry (src/spead2_send.cpp:186-212). -/
def heapOf (c : Sender) (e : Entry (List Bytes)) : SendHeap where
  hab := e.flavour.heapAddressBits.toNat
  items :=
    match e.what with
    | .first => (List.range c.items).map (fun i => addDescriptor e.flavour (descriptor c.elements i)) ++ dataItems 0 e.contents
    | .data => dataItems 0 e.contents
    | .last => [⟨STREAM_CTRL_ID, .inline CTRL_STREAM_STOP⟩]

/-- The cnt of the heap with number `i`, of a new stream: `next_cnt` is 1 at first and grows by 1 (include/spead2/send_stream.h:202-203, 230, 343-347; C38). -/
def cntOf (hab i : Nat) : Nat := (1 + i) % 2 ^ 64 % 2 ^ hab

/-! ### The receiver -/

/-- The loop of `fast_discard` (src/spead2_recv.cpp:191-197), with at most 64 rounds for a number of 64 bits. -/
def discardLoop : Nat → Nat → Nat → Nat → Nat
  | 0, x, _, _ => x
  | k + 1, x, apow, z =>
    if z = 0 then x
    else discardLoop k (if z % 2 = 1 then x * apow % 2 ^ 64 % modulus else x) (apow * apow % 2 ^ 64 % modulus) (z / 2)

/-- `fast_discard` (src/spead2_recv.cpp:178-199): the state afterwards. -/
def fastDiscard (g z : Nat) : Nat := if z = 0 then g else seed (discardLoop 64 (next g) factor (z - 1))

/-- What `verify_heap` does. -/
inductive Verdict where
  | good
  | warning
  | inconsistent (id : Nat)
  | mismatch (id offset expected actual : Nat)
  deriving DecidableEq, Repr

/-- `betoh(data[i])` (src/spead2_recv.cpp:234).  `none`: outside the item, or never written.  Simplification: any address will do (the code
reads an `uint32_t` at an address that need not be a multiple of 4). -/
def word (data : List (Option UInt8)) (i : Nat) : Option Nat :=
  let b := (data.drop (4 * i)).take 4
  if b.length < 4 then none else (b.mapM id).map beNat

/-- The loop over the elements of an item (src/spead2_recv.cpp:231-244), `k` of them from `i` on. -/
def verifyWords (id : Nat) (data : List (Option UInt8)) : Nat → Nat → Nat → Option (Except Verdict Nat)
  | 0, _, g => some (.ok g)
  | k + 1, i, g =>
    let g := next g
    match word data i with
    | none => none
    | some actual => if g ≠ actual then some (.error (.mismatch id i g actual)) else verifyWords id data k (i + 1) g

/-- The loop over the items (src/spead2_recv.cpp:211-245), with `first`, `elements` and `generator`; `n` is `items.size()`. -/
def verifyItems (cnt n : Nat) : List RxItem → Bool → Nat → Nat → Option (Except Verdict Bool)
  | [], first, _, _ => some (.ok first)
  | it :: rest, first, elements, g =>
    if it.id < 0x1000 then verifyItems cnt n rest first elements g
    else
      let elements := if first then it.data.length / 4 else elements
      let g := if first then fastDiscard g (elements * n * (cnt + (2 ^ 64 - 1)) % 2 ^ 64) else g
      if it.data.length ≠ elements * 4 then some (.error (.inconsistent it.id))
      else
        match verifyWords it.id it.data elements 0 g with
        | none => none
        | some (.error v) => some (.error v)
        | some (.ok g) => verifyItems cnt n rest false elements g

/-- `verify_heap` (src/spead2_recv.cpp:201-252).  `none`: undefined. -/
def verifyHeap (cnt : Nat) (items : List RxItem) : Option Verdict :=
  match verifyItems cnt items.length items true 0 (seed 1) with
  | none => none
  | some (.error v) => some v
  | some (.ok first) =>
    if first then (isEndOfStream items).map fun e => if e then .good else .warning
    else some .good

end Spead2.VerifyTool
