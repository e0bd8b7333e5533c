import Verif.Spec.EndToEnd
import Verif.Model.Send

/-!
# Specification of what a place callback should see
-/

namespace Spead2.PlaceCb

open Spead2.Spec

/-- The last value given to `id` in a list of (identifier, value) pairs. -/
def lastValue (id : Nat) (l : List (Nat × Nat)) : Option Nat :=
  ((l.filter (fun x => x.1 = id)).getLast?).map (fun x => x.2)

/-- The immediate items of an item table, as (identifier, value) pairs. -/
def immediates (w : Nat) (table : List Nat) : List (Nat × Nat) :=
  (table.filter (fun p => ptrImmediate p)).map (fun p => (ptrId w p, ptrValue w p))

/-- What the callback should find for each of the requested identifiers: the value, or -1 when the packet has none. -/
def requested (ids : List Nat) (l : List (Nat × Nat)) : List Int := ids.map (fun id => optField (lastValue id l))

/-- The packet items of the `i`-th datagram of a heap: the heap cnt, the length of the heap, the number of payload bytes
in the datagrams before it, and the number of its own. -/
def packetItems (cnt hlen : Nat) (wire : List Bytes) (i : Nat) (d : Bytes) : List (Nat × Nat) :=
  [(1, cnt), (2, hlen), (3, ((wire.take i).map (fun e => (wirePayload e).length)).sum), (4, (wirePayload d).length)]

end Spead2.PlaceCb
