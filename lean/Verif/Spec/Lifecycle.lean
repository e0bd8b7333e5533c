import Verif.Model.Lifecycle

/-!
# What it means for a stream to be taken down safely

Which memory the next action of a thread uses, and who keeps that memory alive. This is written down from the code and does not say
anything about when the actions happen.
-/

namespace Spead2.Spec

/-- The next action uses the stream object: its mutex `reader_mutex`, its members, its readers, or code it is bound to. Taking and releasing
`queue_mutex` and reading `self` only use the shared state, except when it is the stream itself that leads to the shared state. -/
def usesStream : LcPc → Bool
  | .idle | .hLock _ | .hEnter _ | .hUnlock _ | .stopUnlock _ | .flushUnlock => false
  | _ => true

/-- The next action runs code of this reader. -/
def usesReader : LcPc → Option Nat
  | .emplaceStart i => some i
  | .hBody (some i) => some i
  | _ => none

/-- The next action uses the shared state: `queue_mutex` or `self`. -/
def usesShared : LcPc → Bool
  | .flushLock | .flushUnlock | .stopLock _ | .stopUnlock _ | .recvMark _ | .hLock _ | .hEnter _ | .hUnlock _ => true
  | _ => false

/-- The thread runs a handler that still holds its reference to the shared state. -/
def holdsRef : LcPc → Bool
  | .hLock _ | .hEnter _ | .hUnlock true => true
  | _ => false

/-- The shared state exists: something refers to it. -/
def sharedExists (s : LcState) : Prop := s.alive = true ∨ s.pending ≠ [] ∨ ∃ t, holdsRef (s.pc t) = true

/-- The thread is in the code of a reader or of the stream that a handler leads to, where it may add packets and hand over heaps, or it has
not yet released `queue_mutex` since then. -/
def inHandlerBody : LcPc → Bool
  | .hBody _ | .hEnd _ _ | .hStats | .hUnlock false => true
  | .recvMark .handler | .recvFlush .handler | .recvLock .handler | .recvStop .handler _ | .recvSet .handler | .recvUnlock .handler => true
  | _ => false

/-- The thread is in `stop_received` and may hand over heaps or stop readers. -/
def inStopReceived : LcPc → Bool
  | .recvMark _ | .recvFlush _ | .recvLock _ | .recvStop _ _ | .recvSet _ | .recvUnlock _ => true
  | _ => false

/-- `stop()` has returned or is about to return: in some thread, or some time before. -/
def lcStopReturned (s : LcState) : Prop := s.once = .done

/-- Everything that was begun has been completed. -/
def allIdle (s : LcState) : Prop := ∀ t, s.pc t = .idle

end Spead2.Spec
