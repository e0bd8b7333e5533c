import Verif.Model.StreamBuild

/-!
# What the tables of a stream should be
-/

namespace Spead2.Build

/-- The `k`-th heap of substream `i` is put into entry `k mod maxHeaps` of the `maxHeaps` entries that belong to this
substream, all of which are inside the storage, and every heap has a bucket (the heap cnt times a constant, of which the upper
bits are taken). -/
structure Fits (maxHeaps substreams entries buckets shift : Nat) (starts : List Nat) : Prop where
  count : starts.length = substreams + 1
  place : ∀ i k, i < substreams → headAfter starts i k = some (i * maxHeaps + k % maxHeaps)
  inside : substreams * maxHeaps ≤ entries
  hash : ∀ cnt : Nat, (cnt * 11400714819323198485 % 2 ^ 64) >>> shift < buckets

/-- A machine: a `queue_entry` has at least a pointer, and a block of memory is at most half of the address space
(`PTRDIFF_MAX`). -/
def Memory.Sane (m : Memory) : Prop := 8 ≤ m.entry ∧ m.limit < 2 ^ 63

/-- Making a stream fails with an exception, or its tables fit. -/
def Good (m : Memory) (maxHeaps substreams : Nat) : Prop :=
  match construct m maxHeaps substreams with
  | .throws => True
  | .hangs => False
  | .undefined => False
  | .tables e b s l => Fits maxHeaps substreams e b s l

end Spead2.Build
