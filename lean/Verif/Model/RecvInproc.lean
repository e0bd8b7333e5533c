import Verif.Model.Stream
import Verif.Model.RawPacket
import Verif.Model.Queue

/-!
# The reader of an in-process queue

Models src/recv_inproc.cpp. The queue itself is Verif/Model/Queue.lean.
-/

namespace Spead2

/-- What `packet_handler` finds: `async_wait` reports an error, or the outcome of `try_pop`. -/
inductive InWake
  | packet (d : Bytes) | stopped | empty | error
  deriving DecidableEq, Repr

/-- `process_one_packet` (src/recv_inproc.cpp:47-60): what is added to the batch. `none` is a read outside the packet. -/
def inprocPacket (d : Bytes) : Option (List BatchOp) :=
  match decodePacket d with
  | none => none
  | some none => some []
  | some (some (h, size)) => if size = d.length then (h.toPkt? d).map (fun p => [.packet p]) else some []

/-- What `packet_handler` does with the batch (src/recv_inproc.cpp:62-86). -/
def inprocBatch : InWake → Option (List BatchOp)
  | .packet d => inprocPacket d
  | .stopped => some [.stop]
  | .empty => some []
  | .error => some []

/-- `packet_handler` (src/recv_inproc.cpp:62-90), run inside a batch (`bind_handler`, include/spead2/recv_stream.h:843-870), which is not called
on a stopped stream. The flag says whether the reader waits for the semaphore. The batch is stopped exactly if the stream is afterwards. -/
def inprocStep (cfg : StreamConfig) (reading : Bool) (s : Stream) (ev : InWake) : Option (Bool × Stream × List Entry) :=
  if reading = false then some (false, s, [])
  else if s.stopped then some (false, s, [])
  else
    match inprocBatch ev with
    | none => none
    | some ops =>
      match s.batch cfg ops with
      | none => none
      | some (s, out) => some (!s.stopped, s, out)

/-- A sequence of calls of the handler. -/
def inprocRun (cfg : StreamConfig) : List InWake → Bool → Stream → Option (Bool × Stream × List Entry)
  | [], reading, s => some (reading, s, [])
  | ev :: evs, reading, s =>
    match inprocStep cfg reading s ev with
    | none => none
    | some (reading, s, out) =>
      match inprocRun cfg evs reading s with
      | none => none
      | some (reading, s, out') => some (reading, s, out ++ out')

end Spead2
