import Verif.Model.ChunkRecv
import Verif.Model.PlaceData
import Verif.Model.LiveHeap

/-!
# From a datagram to the answer of the place callback

Joins the decoding of a datagram, the structure that is filled for the place callback and the callback itself.
-/

namespace Spead2.ChunkNet

open PlaceCb

/-- What a datagram means to a chunk stream: the packet (src/recv_udp_base.cpp:40-54: it is used only if it fills the
datagram) and the answer the place callback gives if it is asked about it (include/spead2/recv_chunk_stream.h:727-790).
`place` is the user's callback: a function of the requested items (it may not look at the packet, its size, or keep
state). `old` is the contents of the structure before. `some none`: not a packet; `none`: a read outside the datagram. -/
def offer (place : List Int → Place) (ids : List Nat) (old : PlaceData) (d : Bytes) : Option (Option (Pkt × Place)) :=
  match decodePacket d with
  | none => none
  | some none => some none
  | some (some (h, size)) =>
    if size = d.length then do
      let p ← h.toPkt? d
      let pd ← fillPlace d h ids old
      some (some (p, place pd.items))
    else some none

end Spead2.ChunkNet
