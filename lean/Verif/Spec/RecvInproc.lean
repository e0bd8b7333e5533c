import Verif.Spec.Mem
import Verif.Model.RecvInproc
import Verif.Spec.Queue
import Verif.Spec.Submit

/-!
# Specification: an in-process queue between a sender and a receiver
-/

namespace Spead2.Spec

/-- What the calls of `try_pop` (and `pop`) of some threads return, in order. -/
def results (T : Nat → Bool) (tr : List (REv Bytes)) : List InWake :=
  tr.filterMap (fun
    | .ret t (.value v) => if T t then some (.packet v) else none
    | .ret t .stopped => if T t then some .stopped else none
    | .ret t .empty => if T t then some .empty else none
    | _ => none)

/-- The packets among them. -/
def packetsOf (l : List InWake) : List Bytes := l.filterMap (fun | .packet d => some d | _ => none)

/-- The threads of the receiver are those that take packets out of the queue, and that is all they do with it. -/
def Readers (T : Nat → Bool) (ops : List (UOp Bytes)) : Prop := ∀ t c, UOp.call t c ∈ ops → (T t = true ↔ ∃ b, c = UCall.pop b)

/-- Datagrams that have left on a substream. -/
def leftOn {π : Type} (n : Nat) (tr : List (WEv π)) : List Bytes := ((leftWire tr).filter (fun x => x.1 = n)).map Prod.snd

/-- The heaps of an accepted group that are for a substream. -/
def Accepted.on {π : Type} (n : Nat) (a : Accepted π) : Accepted π := { a with hs := a.hs.filter (fun h => h.substream = n) }

/-- The heaps of a group of which the substreams `subs` say that they are for substream `n`. -/
def SentGroup.on (subs : List Nat) (n : Nat) (g : SentGroup) : SentGroup := { g with heaps := ((g.heaps.zip subs).filter (fun x => x.2 = n)).map Prod.fst }

/-- `g` is what is for substream `n` of the accepted group `a`, which is that of a call of `async_send_heaps`. -/
def SubmittedOn (ops : List (WOp SendHeap)) (mps n : Nat) (a : Accepted GenPacket) (g : SentGroup) : Prop :=
  ∃ whole, Submitted ops mps a whole ∧ g = whole.on (a.hs.map Admitted.substream) n

/-- What a wake-up of the reader is to the stream: a packet, if the bytes in the queue are exactly one packet; nothing, if they are not, or the queue is empty, or the event
loop reports an error; the end, if the queue was stopped. -/
inductive WakeBatch : InWake → List BatchOp → Prop
  | packet {d p} : IsPacket d p → WakeBatch (.packet d) [.packet p]
  | other {d} : (¬ ∃ p, IsPacket d p) → WakeBatch (.packet d) []
  | stopped : WakeBatch .stopped [.stop]
  | empty : WakeBatch .empty []
  | error : WakeBatch .error []

end Spead2.Spec
