/-!
# Bytes and big-endian integers

Shared low-level vocabulary: memory is a `List UInt8`; a read outside it is `none`.
-/

namespace Spead2

/-- A byte sequence in memory or on the wire. -/
abbrev Bytes := List UInt8

/-- Value of a big-endian byte sequence.
Models `load_be` (include/spead2/common_endian.h:98-104) and `load_bytes_be`
(src/recv_heap.cpp:42-50), for any number of bytes. -/
def beNat : Bytes → Nat
  | [] => 0
  | b :: bs => b.toNat * 256 ^ bs.length + beNat bs

/-- The `k` low-order bytes of `n`, most significant first.
Models `htobe` stores (src/send_packet.cpp:129-172, with `k = 8`) and `store_bytes_be`
(src/send_heap.cpp:46-52, any `k`). Bits above `8*k` are dropped, as the C++ narrowing does. -/
def beBytes : Nat → Nat → Bytes
  | 0, _ => []
  | k + 1, n => UInt8.ofNat (n / 256 ^ k) :: beBytes k n

/-- Checked slice `[off, off+len)` of a buffer; `none` means an out-of-bounds access (undefined behaviour). -/
def slice? (d : Bytes) (off len : Nat) : Option Bytes :=
  if off + len ≤ d.length then some ((d.drop off).take len) else none

/-- `load_be<uint64_t>(data + off)` (include/spead2/common_endian.h:98-104); `none` is an
out-of-bounds read. -/
def load64? (d : Bytes) (off : Nat) : Option Nat :=
  (slice? d off 8).map beNat

end Spead2
