import Verif.Model.RingStream
import Verif.Spec.Ring
import Verif.Spec.Stream

/-!
# Specification of streams that put heaps in a ring buffer
-/

namespace Spead2.Spec

/-- What happened in the ring buffer. -/
def ringEvs (tr : List RsEv) : List (REv Entry) := tr.filterMap (fun | .ring e => some e | _ => none)

/-- The operations on the stream, in the order in which the mutex was taken. -/
def lockedOps (tr : List RsEv) : List StreamOp := tr.filterMap (fun | .locked _ op _ => some op | _ => none)

/-- The heaps that the stream handed over, in order. -/
def handed (tr : List RsEv) : List Entry := (tr.filterMap (fun | .locked _ _ out => some out | _ => none)).flatten

/-- The heaps for which `heap_ready` was called, in order. -/
def heapsReadied (tr : List RsEv) : List Entry := tr.filterMap (fun | .ready _ e => some e | _ => none)

/-- Whether a user has called `stop`. -/
def stopCalled (tr : List RsEv) : Bool := tr.any (fun | .call _ .stop => true | _ => false)

/-- The operations on the stream that thread `t` has called for, in order. -/
def streamCallsOf (t : Nat) (tr : List RsEv) : List StreamOp := tr.filterMap (fun
  | .call i (.batch ops) => if i = t then some (.batch ops) else none
  | .call i .flush => if i = t then some .flush else none
  | .call i .stop => if i = t then some .stop else none
  | _ => none)

/-- Those that have been done. -/
def lockedBy (t : Nat) (tr : List RsEv) : List StreamOp := tr.filterMap (fun | .locked i op _ => if i = t then some op else none | _ => none)

/-- The heaps that thread `t` took out of the ring buffer, in order. -/
def takenBy (t : Nat) (tr : List RsEv) : List Entry := tr.filterMap (fun | .ring (.pop i e) => if i = t then some e else none | _ => none)

/-- What became of them: returned by `pop`, returned by `pop_live`, or thrown away by `pop`. -/
inductive Fate
  | popped (e : Entry) | live (e : Entry) | dropped (e : Entry)
  deriving DecidableEq, Repr

def Fate.entry : Fate → Entry
  | .popped e => e
  | .live e => e
  | .dropped e => e

def fatesOf (t : Nat) (tr : List RsEv) : List Fate := tr.filterMap (fun
  | .ret i (.heap e) => if i = t then some (.popped e) else none
  | .ret i (.live e) => if i = t then some (.live e) else none
  | .skipped i e => if i = t then some (.dropped e) else none
  | _ => none)

/-- A history: `n` threads making any calls in any interleaving. -/
def RsReach (cfg : RsConfig) (cap n : Nat) (ops : List RsOp) (s : RsState) (tr : List RsEv) : Prop :=
  RsState.run cfg ops (RsState.new cfg cap n) = some (s, tr)

/-- The packets in the batches of a call are valid. -/
def _root_.Spead2.RsCall.Valid : RsCall → Prop
  | .batch ops => (StreamOp.batch ops).Valid
  | _ => True

/-- All calls of a history have valid packets. -/
def RsValid (ops : List RsOp) : Prop := ∀ t c, RsOp.call t c ∈ ops → c.Valid

/-- The first `n` transitions of a schedule in which existing calls continue. -/
def rsActs (sched : Nat → Nat) (n : Nat) : List RsOp := (List.range n).map (fun k => .act (sched k))

/-- Thread `t` is not in a call. -/
def RsIdle (s : RsState) (t : Nat) : Prop := s.progs[t]? = some .idle

/-- Thread `t` waits in a call of `pop` or `pop_live`. -/
def RsPopWaits (s : RsState) (t : Nat) : Prop := (s.progs[t]? = some (.pop true) ∨ s.progs[t]? = some (.popLive true)) ∧ waitsForData s.ring t

/-- Thread `t` waits for space for a heap, with the mutex. -/
def RsPushWaits (s : RsState) (t : Nat) : Prop := s.owner = some t ∧ waitsForSpace s.ring t

/-- Thread `t` waits for the mutex. -/
def RsLockWaits (s : RsState) (t : Nat) : Prop := ∃ op, s.progs[t]? = some (.lock op)

end Spead2.Spec
