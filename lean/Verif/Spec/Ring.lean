import Verif.Model.Ring

/-!
# Specification of the ring buffer
-/

namespace Spead2.Spec

/-- The items that entered the buffer, in order. -/
def pushed {α : Type} (tr : List (REv α)) : List α := tr.filterMap (fun | .push _ v => some v | _ => none)

/-- The items that left the buffer, in order. -/
def popped {α : Type} (tr : List (REv α)) : List α := tr.filterMap (fun | .pop _ v => some v | _ => none)

/-- Whether the buffer has been closed to producers. -/
def isClosed {α : Type} (tr : List (REv α)) : Bool := tr.any (fun | .close _ => true | _ => false)

/-- Whether the end of the data has been made known to consumers. -/
def isSealed {α : Type} (tr : List (REv α)) : Bool := tr.any (fun | .seal _ => true | _ => false)

/-- Whether some call of `stop` or `remove_producer` has returned true. -/
def stopReturned {α : Type} (tr : List (REv α)) : Bool := tr.any (fun | .ret _ (.flag true) => true | _ => false)

/-- Calls of `remove_producer`. -/
def removals {α : Type} (tr : List (REv α)) : Nat := tr.countP (fun | .call _ .removeProducer => true | _ => false)

/-- Producers registered. -/
def additions {α : Type} (tr : List (REv α)) : Nat := tr.countP (fun | .added _ => true | _ => false)

/-- A history: any number of threads, making any calls, in any interleaving. -/
def RingReach {α : Type} (cap n : Nat) (ops : List (RingOp α)) (s : RState α) (tr : List (REv α)) : Prop :=
  RState.run ops (RState.new α cap n) = some (s, tr)

/-- The items of a state, from the oldest to the newest. -/
def contents {α : Type} (r : Ring α) : List α :=
  (List.range r.size).filterMap (fun i => (r.storage[(r.head + i) % r.storage.length]?).join)

/-- What a single thread may observe: between calls, in a call that has not taken effect, in a call of `stop` half way,
or in a call that has taken effect and will return the given result. -/
inductive Phase (α : Type)
  | idle | called (c : Call α) | closing | done (r : Res α)
  deriving DecidableEq, Repr

/-- The events of a thread, in the order in which they may occur: a push enters its own item once and returns normally, or
fails without any effect; a pop returns the item it removed, or fails without any effect; only calls that do not block
may report a full or an empty buffer; `stop` closes the buffer and makes the end known before it returns. -/
def Phase.next {α : Type} [DecidableEq α] : Phase α → REv α → Option (Phase α)
  | .idle, .call _ c => some (.called c)
  | .called (.push v _), .push _ w => if v = w then some (.done .ok) else none
  | .called (.push _ _), .ret _ .stopped => some .idle
  | .called (.push _ false), .ret _ .full => some .idle
  | .called (.pop _), .pop _ v => some (.done (.value v))
  | .called (.pop _), .ret _ .stopped => some .idle
  | .called (.pop false), .ret _ .empty => some .idle
  | .called .stop, .close _ => some .closing
  | .called .removeProducer, .close _ => some .closing
  | .called .removeProducer, .ret _ (.flag false) => some .idle
  | .closing, .seal _ => some (.done (.flag true))
  | .called .addProducer, .added _ => some (.done .ok)
  | .called .size, .ret _ (.count _) => some .idle
  | .done r, .ret _ r' => if r = r' then some .idle else none
  | _, _ => none

/-- Follow a list of events of one thread. -/
def Phase.after {α : Type} [DecidableEq α] : List (REv α) → Phase α → Option (Phase α)
  | [], p => some p
  | e :: l, p => (p.next e).bind (Phase.after l)

/-- The thread of an event. -/
def _root_.Spead2.REv.thread {α : Type} : REv α → Nat
  | .call t _ => t
  | .ret t _ => t
  | .push t _ => t
  | .pop t _ => t
  | .close t => t
  | .seal t => t
  | .added t => t

/-- The events of thread `t`. -/
def eventsOf {α : Type} (t : Nat) (tr : List (REv α)) : List (REv α) := tr.filter (fun e => e.thread == t)

/-- Thread `t` waits in a call of `push` or `pop`. -/
def waitsForSpace {α : Type} (s : RState α) (t : Nat) : Prop := ∃ v, s.threads[t]? = some (.getSpace v true)
def waitsForData {α : Type} (s : RState α) (t : Nat) : Prop := s.threads[t]? = some (.getData true)

/-- No thread can execute an action. -/
def Quiescent {α : Type} (s : RState α) : Prop := ∀ t, s.step (.act t) = some (s, [])

/-- The first `n` transitions of a schedule in which existing calls continue. -/
def actsOf {α : Type} (sched : Nat → Nat) (n : Nat) : List (RingOp α) := (List.range n).map (fun k => .act (sched k))

/-- Every one of `n` threads is run again and again. -/
def FairTo (n : Nat) (sched : Nat → Nat) : Prop := ∀ t, t < n → ∀ k, ∃ j, k ≤ j ∧ sched j = t

end Spead2.Spec
