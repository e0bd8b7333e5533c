import Verif.Model.Wire

/-!
# What the place callback of a chunk stream is given

`chunk_stream_state<CM>::allocate` (include/spead2/recv_chunk_stream.h:727-775) fills a `chunk_place_data` from a
packet and hands it to the place callback, which decides in which chunk the heap goes.
-/

namespace Spead2.PlaceCb

/-- `struct chunk_place_data` (include/spead2/recv_chunk_stream.h:90-104). The pointer to the packet is left out (it is
always the datagram), and so are `batch_stats` and the contents of `extra`, which `allocate` does not write. -/
structure PlaceData where
  packetSize : Nat
  items : List Int
  chunkId : Int
  heapIndex : Nat
  heapOffset : Nat
  extraOffset : Nat
  extraSize : Nat
  deriving DecidableEq, Repr

/-- `std::fill(items, items + item_ids.size(), -1)` (include/spead2/recv_chunk_stream.h:739). -/
def fill (n : Nat) (old : List Int) : List Int := List.replicate n (-1) ++ old.drop n

/-- The loop body for one item pointer (include/spead2/recv_chunk_stream.h:747-754): every requested item with the
identifier of the pointer gets its value. `get_immediate` returns a value below 2^56, so the conversion to the signed
`s_item_pointer_t` is exact. -/
def matchItem (hab : Nat) (ids : List Nat) (items : List Int) (ptr : Nat) : List Int :=
  if isImmediate ptr then
    List.zipWith (fun id v => if id = getId hab ptr then (getImmediate hab ptr : Int) else v) ids items
  else items

/-- The loop over the item pointers (include/spead2/recv_chunk_stream.h:745-755), from offset `p` of the datagram until
`packet.payload`. The code compares with `!=`. `none`: a read outside the datagram, or more than `fuel` rounds. -/
def scan (d : Bytes) (hab payload : Nat) (ids : List Nat) : Nat → Nat → List Int → Option (List Int)
  | 0, _, _ => none
  | fuel + 1, p, items =>
    if p = payload then some items
    else
      match load64? d p with
      | none => none
      | some ptr => scan d hab payload ids fuel (p + 8) (matchItem hab ids items ptr)

/-- `chunk_stream_state::allocate` up to the call of the place callback (include/spead2/recv_chunk_stream.h:738-775):
what the callback gets for the packet `h` of the datagram `d`, when the structure had the contents `old` (left there by
the previous call). -/
def fillPlace (d : Bytes) (h : PacketHeader) (ids : List Nat) (old : PlaceData) : Option PlaceData :=
  match scan d h.heapAddressBits h.payload ids (d.length + 1) 8 (fill ids.length old.items) with
  | none => none
  | some items => some {
      packetSize := h.payload + h.payloadLength.toNat
      items := items
      chunkId := -1
      heapIndex := 0
      heapOffset := 0
      extraOffset := 0
      extraSize := 0 }

/-- `round_up` (src/recv_chunk_stream.cpp:98-102), on `size_t`. -/
def roundUp (size align : Nat) : Nat := (size + align - 1) % 2 ^ 64 / align * align

/-- The layout of the storage behind the structure (src/recv_chunk_stream.cpp:117-135). -/
structure Layout where
  itemOffset : Nat
  extraOffset : Nat
  space : Nat
  deriving DecidableEq, Repr

/-- Computation of the layout in the constructor of `chunk_stream_state_base` (src/recv_chunk_stream.cpp:117-135).
`structSize` is `sizeof(chunk_place_data)` and `maxAlign` is `alignof(std::max_align_t)`; an `s_item_pointer_t` has 8
bytes and alignment 8. -/
def layout (structSize maxAlign nItems maxHeapExtra : Nat) : Layout :=
  let itemOffset := roundUp structSize 8
  let extraOffset := roundUp ((itemOffset + nItems * 8) % 2 ^ 64) maxAlign
  let space := roundUp ((extraOffset + maxHeapExtra) % 2 ^ 64) maxAlign
  { itemOffset, extraOffset, space }

end Spead2.PlaceCb
