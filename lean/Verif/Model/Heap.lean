import Verif.Model.LiveHeap

/-!
# Receiver: frozen heaps

Models src/recv_heap.cpp: freezing a live heap into items, stream control items, incomplete heaps.
-/

namespace Spead2

/-- `struct item` (include/spead2/recv_heap.h:41-53). The memory that `ptr`/`length` designate is `data`;
for addressed items `start` is the offset of `ptr` in the payload buffer (0 for immediates, which live in
separate storage). `value` is `immediate_value` (0 for addressed items, where C++ leaves it undefined). -/
structure RxItem where
  id : Nat
  isImm : Bool
  start : Nat
  value : Nat
  data : List (Option UInt8)
  deriving DecidableEq, Repr

/-- The sort key `p & sort_mask` (src/recv_heap.cpp:103-107). -/
def sortKey (hab p : Nat) : Nat := p &&& (immediateMask ||| addressMask hab)

/-- Insert before the first element with a key that is not smaller. -/
def insertByKey (hab x : Nat) : List Nat → List Nat
  | [] => [x]
  | y :: ys => if sortKey hab x ≤ sortKey hab y then x :: y :: ys else y :: insertByKey hab x ys

/-- `std::stable_sort` with the comparison of src/recv_heap.cpp:105-108, as a stable insertion sort. -/
def stableSort (hab : Nat) (l : List Nat) : List Nat := l.foldr (insertByKey hab) []

/-- `end` of an addressed item (src/recv_heap.cpp:154-157), from the pointers that follow it in the sorted
order. -/
def itemEnd (hab minLength : Nat) : List Nat → Nat
  | [] => minLength
  | q :: _ => if isImmediate q then minLength else getAddress hab q

/-- The loop of `load` (src/recv_heap.cpp:128-171). `slots` is the number of immediates for which storage
is still available at `next_immediate`. `none`: an immediate is written outside its storage, or an item's
memory is not contained in the payload buffer. -/
def loadLoop (hab minLength : Nat) (payload : List (Option UInt8)) (keepAddressed : Bool) :
    Nat → List Nat → Option (List RxItem)
  | _, [] => some []
  | slots, p :: rest =>
    let id := getId hab p
    if id = 0 then loadLoop hab minLength payload keepAddressed slots rest
    else if isImmediate p then
      match slots with
      | 0 => none
      | slots + 1 =>
        let data := (((beBytes 8 p).drop (8 - hab / 8)).take (hab / 8)).map some
        match loadLoop hab minLength payload keepAddressed slots rest with
        | none => none
        | some l => some (⟨id, true, 0, getImmediate hab p, data⟩ :: l)
    else if !keepAddressed then loadLoop hab minLength payload keepAddressed slots rest
    else
      let start := getAddress hab p
      let stop := itemEnd hab minLength rest
      if start = stop then loadLoop hab minLength payload keepAddressed slots rest
      else if stop < start ∨ payload.length < stop then none
      else
        match loadLoop hab minLength payload keepAddressed slots rest with
        | none => none
        | some l => some (⟨id, false, start, 0, (payload.drop start).take (stop - start)⟩ :: l)

/-- `heap_base::load` (src/recv_heap.cpp:85-181). The number of immediates determines the storage
(lines 113-127): inline or allocated, in both cases room for all of them. -/
def LiveHeap.load (s : LiveHeap) (keepAddressed : Bool) : Option (List RxItem) :=
  let sorted := stableSort s.hab s.ptrs.list
  loadLoop s.hab s.minLength s.payload keepAddressed (sorted.filter isImmediate).length sorted

/-- `load_bytes_be` (src/recv_heap.cpp:42-50). `none`: more than 8 bytes (the assertion, or without it a
write before `out`), or reading uninitialised memory. -/
def loadBytesBe? (data : List (Option UInt8)) : Option Nat :=
  if data.length ≤ 8 then (data.mapM id).map beNat else none

/-- `is_ctrl_item` (src/recv_heap.cpp:183-193). -/
def isCtrlItem (value : Nat) : List RxItem → Option Bool
  | [] => some false
  | it :: rest =>
    if it.id = STREAM_CTRL_ID then
      match loadBytesBe? it.data with
      | none => none
      | some v => if v = value then some true else isCtrlItem value rest
    else isCtrlItem value rest

/-- `CTRL_STREAM_START` (include/spead2/common_defines.h:80). -/
def CTRL_STREAM_START : Nat := 0

/-- `is_start_of_stream` (src/recv_heap.cpp:195-198). -/
def isStartOfStream (items : List RxItem) : Option Bool := isCtrlItem CTRL_STREAM_START items
/-- `heap_base::is_end_of_stream` (src/recv_heap.cpp:200-203). -/
def isEndOfStream (items : List RxItem) : Option Bool := isCtrlItem CTRL_STREAM_STOP items

end Spead2
