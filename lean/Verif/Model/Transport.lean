import Verif.Model.Send
import Verif.Model.SendWriter

/-!
# A send stream that packs heaps

Puts the packet generator (Verif/Model/Send.lean) in the place of the abstract `gen` of the queue (Verif/Model/SendQueue.lean).
-/

namespace Spead2

/-- The packets that a `packet_generator` gives until `has_next_packet` is false (src/send_packet.cpp:44-211). `none`: the
constructor throws. Undefined behaviour of the generator would also be `none`; C06 shows that there is none. The bound on the number of packets
is never reached. -/
def packetise (mps : Nat) (h : SendHeap) (cnt : Nat) : Option (List GenPacket) :=
  match Gen.new h cnt mps with
  | .error _ => none
  | .ok g => (g.run (g.payloadSize + 1) {}).map Prod.fst

/-- A stream with a queue of `size` heaps, a number of substreams and a maximum packet size (include/spead2/send_stream.h:198-217,
353-356; include/spead2/send_writer.h:179-186). `mask` is what `compute_queue_mask` gives for `size`. -/
def packetEnv (size mask substreams mps : Nat) : WEnv SendHeap GenPacket where
  sq := { size := size, mask := mask, substreams := substreams, gen := packetise mps, bytes := fun p => p.bytes.length }
  bufs := GenPacket.buffers

end Spead2
