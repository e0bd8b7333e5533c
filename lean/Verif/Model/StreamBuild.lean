import Verif.Model.Stream

/-!
# Making a receive stream

The constructor of `stream_base` (src/recv_stream.cpp:378-399) with the arithmetic of a 64-bit `std::size_t` and with
memory that can run out.
-/

namespace Spead2.Build

/-- Arithmetic on `std::size_t`. -/
def wrap (n : Nat) : Nat := n % 2 ^ 64

/-- The memory: the size of a `queue_entry`, and the largest block that `operator new` gives.  `new T[n]` throws if `n`
objects do not fit into that (also if `n * sizeof(T)` cannot be represented). -/
structure Memory where
  entry : Nat
  limit : Nat

/-- The loop of `compute_bucket_count` (src/recv_stream.cpp:223-225).  Doubling 64 times gives 0, so that the loop does not
end if it has not ended by then: `none`. -/
def countLoop (total : Nat) : Nat → Nat → Option Nat
  | 0, _ => none
  | fuel + 1, b => if b < total then countLoop total fuel (wrap (b * 2)) else some b

/-- `compute_bucket_count` (src/recv_stream.cpp:221-228). -/
def bucketCount (total : Nat) : Option Nat := (countLoop total 64 4).map fun b => wrap (b * 4)

/-- What comes of making a stream: an exception, an endless loop, a write outside an array, or the tables: the number of
entries and of buckets, the shift, and where the substreams start. -/
inductive Outcome where
  | throws
  | hangs
  | undefined
  | tables (entries buckets shift : Nat) (starts : List Nat)
  deriving DecidableEq

/-- The loop that fills `substreams`, an array of `size` objects, for `i = 0, …, n` (src/recv_stream.cpp:394-398).  `none`: a
write outside. -/
def fillStarts (maxHeaps size n : Nat) : Option (List Nat) :=
  if n < size then some ((List.range (n + 1)).map fun i => wrap (i * maxHeaps)) else none

/-- The constructor of `stream_base` (src/recv_stream.cpp:378-399), members in the order of their declaration
(include/spead2/recv_stream.h:574-593).  A `substream` has 16 bytes and a pointer 8. -/
def construct (m : Memory) (maxHeaps substreams : Nat) : Outcome :=
  let total := wrap (maxHeaps * substreams)
  if m.limit < total * m.entry then .throws
  else
    match bucketCount total with
    | none => .hangs
    | some buckets =>
      if m.limit < buckets * 8 then .throws
      else if m.limit < wrap (substreams + 1) * 16 then .throws
      else
        match fillStarts maxHeaps (wrap (substreams + 1)) substreams with
        | none => .undefined
        | some starts => .tables total buckets (computeBucketShift buckets) starts

/-- A new heap of a substream: the next entry (src/recv_stream.cpp:527-529), where `start` is where the substream starts and
`next` where the following one does. -/
def headStep (start next head : Nat) : Nat := if wrap (head + 1) = next then start else wrap (head + 1)

/-- The entry of the last heap after `k` new heaps. -/
def headRun (start next : Nat) : Nat → Nat
  | 0 => start
  | k + 1 => headStep start next (headRun start next k)

/-- The same for substream `i`.  `none`: there is no such substream. -/
def headAfter (starts : List Nat) (i k : Nat) : Option Nat :=
  match starts[i]?, starts[i + 1]? with
  | some a, some b => some (headRun a b k)
  | _, _ => none

end Spead2.Build
