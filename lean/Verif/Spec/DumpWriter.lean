import Verif.Model.DumpWriter

/-!
# Words used in the statements about the file writer of mcdump
-/

namespace Spead2.Dump

/-- Who does something: the main thread, a writer thread, or the end of the process. -/
inductive Actor where
  | main
  | worker (t : Nat)
  | destroy

/-- A step of the actor.  A `pwrite` that the kernel answers properly writes at least a byte. -/
def Acts : Actor → Op → Prop
  | .main, op => op = .main
  | .worker t, op => ∃ n, 0 < n ∧ op = .worker t (.wrote n)
  | .destroy, op => op = .destroy

/-- Every actor acts again and again. -/
def Fair (threads : Nat) (sched : Nat → Op) : Prop :=
  (∀ i, ∃ j, i ≤ j ∧ Acts .main (sched j)) ∧
  (∀ t, t < threads → ∀ i, ∃ j, i ≤ j ∧ Acts (.worker t) (sched j)) ∧
  (∀ i, ∃ j, i ≤ j ∧ Acts .destroy (sched j))

/-- No write to the file fails. -/
def NoErrors (sched : Nat → Op) : Prop := ∀ i t, sched i ≠ .worker t .error

/-- The states along an infinite schedule. -/
def trace (B D : Nat) (s : St) (sched : Nat → Op) : Nat → St
  | 0 => s
  | k + 1 => step B D (trace B D s sched k) (sched k)

/-- A thread has left its loop because a write failed. -/
def Failed (s : St) : Prop := ∃ b d, Worker.failed b d ∈ s.workers

/-- `close` has returned. -/
def Closed (s : St) : Prop := s.pc = .closed ∨ s.pc = .ended

/-- The main thread has given its buffer away and waits for another. -/
def Pc.isPop : Pc → Bool
  | .pop _ _ => true
  | _ => false

/-- The thread has a buffer. -/
def busy : Worker → Bool
  | .writing _ _ | .failed _ _ => true
  | _ => false

end Spead2.Dump
