import Verif.Model.SendWriter
import Verif.Spec.SendQueue

/-!
# What is seen of the simple writers

Functions of the trace alone.
-/

namespace Spead2.Spec

/-- The events of the queue. -/
def queueEvs {π : Type} (tr : List (WEv π)) : List (SqEv π) := tr.filterMap (fun | .sq e => some e | _ => none)

/-- What has left, in order, with its substream. -/
def leftWire {π : Type} (tr : List (WEv π)) : List (Nat × Bytes) := tr.filterMap (fun | .wire n d => some (n, d) | _ => none)

/-- The byte stream that has left. -/
def leftBytes {π : Type} (tr : List (WEv π)) : Bytes := (leftWire tr).flatMap Prod.snd

/-- What should have left as datagrams: of the packets that the writer was given, those that did not fail. -/
def wantedPackets {π : Type} (data : π → Bytes) : List ((π × Nat) × Bool) → List (Option Nat) → List (Nat × Bytes)
  | x :: xs, none :: rs => (x.1.2, data x.1.1) :: wantedPackets data xs rs
  | _ :: xs, some _ :: rs => wantedPackets data xs rs
  | _, _ => []

/-- What should have left as a byte stream: the packets that the writer was given, one after the other; of those that failed
the bytes up to the failure. -/
def wantedBytes {π : Type} (data : π → Bytes) : List ((π × Nat) × Bool) → List (Option Nat) → Bytes
  | x :: xs, none :: rs => data x.1.1 ++ wantedBytes data xs rs
  | x :: xs, some n :: rs => (data x.1.1).take n ++ wantedBytes data xs rs
  | _, _ => []

/-- The writer is one that sends datagrams. -/
def _root_.Spead2.WKind.datagrams : WKind → Bool
  | .inproc | .udp => true
  | .tcp | .streambuf => false

/-- A use of a stream with one of the writers. -/
def WReach {H π : Type} (kind : WKind) (env : WEnv H π) (connecting : Bool) (ops : List (WOp H)) (w : WSt H π) (tr : List (WEv π)) : Prop :=
  WSt.run kind env ops (WSt.new connecting) = some (w, tr)

/-- The writer waits to be woken by the next call of `async_send_heaps`. -/
def _root_.Spead2.WSt.idle {H π : Type} (w : WSt H π) : Prop := w.pc = .rest ∧ w.sq.wk = .need

/-- The stream is set up consistently: as for the queue, and the size of a packet is that of its buffers. -/
structure _root_.Spead2.WEnv.Valid {H π : Type} (env : WEnv H π) : Prop where
  sq : SqEnv.Valid env.sq
  bytes : ∀ p, env.sq.bytes p = (env.data p).length

/-- All packets of the accepted groups, in the order in which they are to be sent, with their substreams. -/
def allPackets {π : Type} (tr : List (SqEv π)) : List (π × Nat) := (accepted tr).flatMap Accepted.packets

/-- Nothing has failed. -/
def AllSent {π : Type} (tr : List (SqEv π)) : Prop := ∀ r ∈ outcomes tr, r = none

end Spead2.Spec
